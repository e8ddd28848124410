import Verif.Proof.HeapInts2
import Verif.Proof.Equality
import Verif.Rt.HeapDiv
import Mathlib.Tactic.IntervalCases

/-! Division of u128 and u256. -/

namespace Rt
open Wasm

variable (E : ErrPtrs) {σ : Store}

theorem or_low1 {x c : Nat} (hc : c < 2) (hx : x % 2 = 0) : x ||| c = x + c := by
  have h := Nat.two_pow_add_eq_or_of_lt (i := 1) (b := c) (by omega) (x / 2)
  rw [show 2 ^ 1 * (x / 2) = x by omega] at h
  exact h.symm

theorem and_one (x : Nat) : x &&& 1 = x % 2 := Nat.and_two_pow_sub_one_eq_mod x 1

theorem shift_word {w c : Nat} (hc : c < 2) :
    w * 2 % 18446744073709551616 ||| c = (2 * w + c) % 18446744073709551616 := by
  rw [or_low1 hc (by omega)]; omega

theorem shift_carry {w c : Nat} (hc : c < 2) :
    w / 9223372036854775808 = (c + 2 * w) / 18446744073709551616 := by omega

theorem shift1_spec {p k : Nat} (hs : σ.size < 2 ^ 32) (hk : 0 < k) (hp : p + 8 * k ≤ σ.size) :
    shift1.Calls [p, 8 * k] σ (fun r σ' => r = [] ∧
      σ' = σ.setMem (putLe σ.mem p (8 * k) (2 * leNat σ.mem p (8 * k)))) := by
  refine ⟨rfl, ?_⟩
  unfold shift1
  wstep
  refine wp_loop (fun m l σ' => ∃ j x3 x4 x6, m + j = k ∧ j < k ∧
    l = [p, 8 * k, j, x3, x4, 2 * leNat σ.mem p (8 * j) / 256 ^ (8 * j), x6] ∧
    σ' = σ.setMem (putLe σ.mem p (8 * j) (2 * leNat σ.mem p (8 * k)))) k
    ⟨0, 0, 0, 0, by omega, hk, by simp [leNat], by rw [Nat.mul_zero, putLe_zero]; rfl⟩ ?_
  rintro m l σ' ⟨j, x3, x4, x6, hj, hjk, rfl, rfl⟩
  have hP : 0 < 256 ^ (8 * j) := by positivity
  have hA := leNat_lt σ.mem p (8 * j)
  have hW := leNat_lt8 σ.mem (p + 8 * j)
  have hc : 2 * leNat σ.mem p (8 * j) / 256 ^ (8 * j) < 2 :=
    Nat.div_lt_of_lt_mul (by omega)
  have hstep := leNat_step8 σ.mem p j
  wstep
  rw [Nat.mul_comm j 8, Nat.add_comm (8 * j) p, leNat_putLe_disj (.inr (by omega))]
  simp only [and_one, shift_word hc]
  have hnext : leNat σ.mem (p + 8 * j) 8 / 9223372036854775808 % 2 =
      2 * leNat σ.mem p (8 * (j + 1)) / 256 ^ (8 * (j + 1)) := by
    rw [hstep, show 8 * (j + 1) = 8 * j + 8 by ring, Nat.pow_add, ← Nat.div_div_eq_div_mul,
      Nat.mul_add, Nat.mul_left_comm 2 (256 ^ (8 * j)), Nat.add_mul_div_left _ _ hP]
    simp only [Nat.reducePow]
    rw [Nat.mod_eq_of_lt (Nat.div_lt_of_lt_mul (by omega))]
    exact shift_carry hc
  have hmem : putLe (putLe σ.mem p (8 * j) (2 * leNat σ.mem p (8 * k))) (p + 8 * j) 8
      ((2 * leNat σ.mem (p + 8 * j) 8 + 2 * leNat σ.mem p (8 * j) / 256 ^ (8 * j)) % 18446744073709551616) =
      putLe σ.mem p (8 * (j + 1)) (2 * leNat σ.mem p (8 * k)) := by
    rw [show 8 * (j + 1) = 8 * j + 8 by ring, putLe_add]
    apply putLe_congr
    have hsp := leNat_split σ.mem p (8 * k) (8 * (j + 1)) (by omega)
    rw [hstep] at hsp
    rw [hsp, show 8 * (j + 1) = 8 * j + 8 by ring, Nat.pow_add]
    generalize leNat σ.mem (p + (8 * j + 8)) (8 * k - (8 * j + 8)) = H
    rw [show 2 * (leNat σ.mem p (8 * j) + 256 ^ (8 * j) * leNat σ.mem (p + 8 * j) 8 +
        256 ^ (8 * j) * 256 ^ 8 * H) = 2 * leNat σ.mem p (8 * j) + 256 ^ (8 * j) *
          (2 * leNat σ.mem (p + 8 * j) 8 + 256 ^ 8 * (2 * H)) by ring, Nat.add_mul_div_left _ _ hP]
    simp only [Nat.reducePow]
    omega
  rw [hmem, hnext]
  refine .intro (fun h => ?_) (fun h => ?_)
  · refine ⟨m - 1, by omega, j + 1, _, _, _, by omega, by omega, rfl, rfl⟩
  · have : j + 1 = k := by omega
    rw [this]

theorem bit_of_byte (f : Bytes) (p i n : Nat) (hi : i < 8 * n) :
    (f (p + i / 8)).toNat / 2 ^ (i % 8) % 2 = leNat f p n / 2 ^ i % 2 := by
  have h := leNat_split f p n (i / 8) (by omega)
  have h2 := leNat_split f (p + i / 8) (n - i / 8) 1 (by omega)
  rw [leNat_one] at h2
  have hA := leNat_lt f p (i / 8)
  have e : 2 ^ i = 256 ^ (i / 8) * 2 ^ (i % 8) := by
    rw [show (256 : Nat) = 2 ^ 8 from rfl, ← Nat.pow_mul, ← Nat.pow_add]; congr 1; omega
  rw [h, h2, e, ← Nat.div_div_eq_div_mul, Nat.add_mul_div_left _ _ (by positivity),
    Nat.div_eq_of_lt hA, Nat.zero_add]
  obtain ⟨c, hc⟩ : ∃ c, 256 = 2 ^ (i % 8) * (2 * c) := by
    refine ⟨2 ^ (7 - i % 8), ?_⟩
    rw [← Nat.mul_assoc, ← Nat.pow_succ, ← Nat.pow_add, show i % 8 + 1 + (7 - i % 8) = 8 by omega]
  rw [Nat.pow_one]
  generalize leNat f (p + i / 8 + 1) (n - i / 8 - 1) = H
  generalize (f (p + i / 8)).toNat = B
  rw [hc, Nat.mul_assoc, Nat.add_mul_div_left _ _ (by positivity), Nat.mul_assoc, Nat.add_mul_mod_self_left]

theorem and_seven (x : Nat) : x &&& 7 = x % 8 := Nat.and_two_pow_sub_one_eq_mod x 3

theorem getBit_spec {p i w n : Nat} (hs : σ.size < 2 ^ 32) (hi : i < 8 * n) (hp : p + n ≤ σ.size) :
    Evaluates getBit [p, i, w] σ (leNat σ.mem p n / 2 ^ i % 2) := by
  refine ⟨rfl, ?_⟩
  unfold getBit
  wstep
  simp only [and_seven, and_one]
  wstep
  rw [leNat_one, bit_of_byte _ _ _ _ hi]

theorem set_bit_byte {x b : Nat} (h0 : x / 2 ^ b % 2 = 0) : x ||| 2 ^ b = x + 2 ^ b := by
  have e : x = 2 ^ (b + 1) * (x / 2 ^ (b + 1)) + x % 2 ^ b := by
    have h1 := Nat.div_add_mod x (2 ^ b)
    have h2 := Nat.div_add_mod (x / 2 ^ b) 2
    rw [h0, Nat.add_zero, Nat.div_div_eq_div_mul, ← Nat.pow_succ] at h2
    rw [Nat.pow_succ 2 b, Nat.mul_assoc, ← Nat.pow_succ]
    rw [h2]; exact h1.symm
  have hl : x % 2 ^ b < 2 ^ b := Nat.mod_lt _ (by positivity)
  have ht : x % 2 ^ b < 2 ^ (b + 1) := by rw [Nat.pow_succ]; omega
  have hs : 2 ^ b + x % 2 ^ b < 2 ^ (b + 1) := by rw [Nat.pow_succ]; omega
  have h3 := Nat.two_pow_add_eq_or_of_lt ht (x / 2 ^ (b + 1))
  have h4 := Nat.two_pow_add_eq_or_of_lt hs (x / 2 ^ (b + 1))
  have h5 := Nat.two_pow_add_eq_or_of_lt hl 1
  rw [Nat.mul_one] at h5
  rw [← e] at h3
  rw [h3, Nat.or_assoc, Nat.or_comm (x % 2 ^ b), ← h5, ← h4]
  omega

theorem put_bit {f : Bytes} {p i n v : Nat} (hi : i < 8 * n) (h0 : v / 2 ^ i % 2 = 0) :
    putLe (putLe f p n v) (p + i / 8) 1 ((putLe f p n v (p + i / 8)).toNat ||| 2 ^ (i % 8)) =
      putLe f p n (v + 2 ^ i) := by
  have hb := bit_of_byte (putLe f p n v) p i n hi
  have hv : leNat (putLe f p n v) p n / 2 ^ i % 2 = 0 := by
    rw [leNat_putLe_same]
    rw [show (256 : Nat) ^ n = 2 ^ (8 * n) by rw [show (256 : Nat) = 2 ^ 8 from rfl, ← Nat.pow_mul],
      show 8 * n = i + (8 * n - i) by omega, Nat.pow_add, Nat.mod_mul_right_div_self,
      Nat.mod_mod_of_dvd _ (dvd_pow_self 2 (by omega))]
    exact h0
  rw [hv] at hb
  rw [set_bit_byte hb]
  rw [← leNat_one, leNat_putLe_in (by omega) (by omega), show p + i / 8 - p = i / 8 by omega, Nat.pow_one,
    putLe_update (by omega)]
  apply putLe_congr
  have e : 2 ^ i = 256 ^ (i / 8) * 2 ^ (i % 8) := by
    rw [show (256 : Nat) = 2 ^ 8 from rfl, ← Nat.pow_mul, ← Nat.pow_add]; congr 1; omega
  have hlt : v / 256 ^ (i / 8) % 256 + 2 ^ (i % 8) < 256 := by
    have h1 : v / 256 ^ (i / 8) / 2 ^ (i % 8) % 2 = 0 := by
      rw [Nat.div_div_eq_div_mul, ← e]; exact h0
    generalize v / 256 ^ (i / 8) = x at h1
    have : i % 8 < 8 := Nat.mod_lt _ (by omega)
    generalize i % 8 = b at *
    interval_cases b <;> norm_num at * <;> omega
  rw [Nat.pow_one, Nat.mod_eq_of_lt hlt, e, Nat.pow_succ, ← Nat.div_div_eq_div_mul]
  congr 1
  have h1 := Nat.div_add_mod v (256 ^ (i / 8))
  have h2 := Nat.div_add_mod (v / 256 ^ (i / 8)) 256
  rw [show v / 256 ^ (i / 8) % 256 + 2 ^ (i % 8) + 256 * (v / 256 ^ (i / 8) / 256) =
    v / 256 ^ (i / 8) + 2 ^ (i % 8) by omega]
  rw [Nat.mul_add]; omega

theorem setBit_spec {p i w n v : Nat} {f : Bytes} (hs : σ.size < 2 ^ 32) (hi : i < 8 * n)
    (hp : p + n ≤ σ.size) (h0 : v / 2 ^ i % 2 = 0) :
    setBit.Calls [p, i, w] (σ.setMem (putLe f p n v)) (fun r σ' => r = [] ∧
      σ' = σ.setMem (putLe f p n (v + 2 ^ i))) := by
  refine ⟨rfl, ?_⟩
  unfold setBit
  wstep
  simp only [and_seven]
  have h7 : 2 ^ (i % 8) < 4294967296 := by
    have : i % 8 < 8 := Nat.mod_lt _ (by omega)
    generalize i % 8 = b at *
    interval_cases b <;> norm_num
  wstep
  rw [Nat.one_mul, leNat_one, put_bit hi h0]

theorem CanAlloc.split {n m : Nat} (h : CanAlloc σ (n + m)) :
    CanAlloc σ n ∧ CanAlloc (allocated σ n) m := by
  obtain ⟨h1, h2⟩ := h
  refine ⟨⟨by omega, by omega⟩, by omega, ?_⟩
  unfold allocated
  split_ifs with h3
  · dsimp only; omega
  · dsimp only; omega

theorem putLe_putLe (f : Bytes) (a n v w : Nat) : putLe (putLe f a n v) a n w = putLe f a n w := by
  funext x
  by_cases h : a ≤ x ∧ x < a + n
  · rw [putLe_in h.1 h.2, putLe_in h.1 h.2]
  · rw [putLe_out (by omega), putLe_out (by omega), putLe_out (by omega)]

theorem putLe_comm (f : Bytes) {a n v b m w : Nat} (h : a + n ≤ b ∨ b + m ≤ a) :
    putLe (putLe f a n v) b m w = putLe (putLe f b m w) a n v := by
  funext x
  by_cases h1 : a ≤ x ∧ x < a + n
  · rw [putLe_out (by omega), putLe_in h1.1 h1.2, putLe_in h1.1 h1.2]
  · rw [putLe_out (a := a) (f := putLe f b m w) (by omega)]
    by_cases h2 : b ≤ x ∧ x < b + m
    · rw [putLe_in h2.1 h2.2, putLe_in h2.1 h2.2]
    · rw [putLe_out (by omega), putLe_out (by omega), putLe_out (by omega)]

/-- One step of the schoolbook division. -/
theorem div_step {a d m : Nat} (hd : 0 < d) (hm : 0 < m) :
    let r := 2 * (a / 2 ^ m % d) + a / 2 ^ (m - 1) % 2
    (r < d → a / 2 ^ (m - 1) % d = r ∧ a / 2 ^ (m - 1) / d * 2 ^ (m - 1) = a / 2 ^ m / d * 2 ^ m) ∧
    (¬ r < d → a / 2 ^ (m - 1) % d = r - d ∧
      a / 2 ^ (m - 1) / d * 2 ^ (m - 1) = a / 2 ^ m / d * 2 ^ m + 2 ^ (m - 1)) := by
  obtain ⟨i, rfl⟩ : ∃ i, m = i + 1 := ⟨m - 1, by omega⟩
  simp only [Nat.add_sub_cancel]
  have hA : a / 2 ^ i = 2 * (a / 2 ^ (i + 1)) + a / 2 ^ i % 2 := by
    rw [Nat.pow_succ, ← Nat.div_div_eq_div_mul]; omega
  have hb : a / 2 ^ i % 2 < 2 := Nat.mod_lt _ (by omega)
  generalize a / 2 ^ (i + 1) = A at *
  generalize a / 2 ^ i % 2 = b at *
  rw [hA]
  have hq := Nat.div_add_mod A d
  have hr := Nat.mod_lt A hd
  generalize A / d = q at *
  generalize A % d = r at *
  rw [← hq]
  constructor
  · intro h
    have h1 : 2 * (d * q + r) + b = (2 * r + b) + d * (2 * q) := by ring
    rw [h1, Nat.add_mul_mod_self_left, Nat.add_mul_div_left _ _ hd, Nat.mod_eq_of_lt h,
      Nat.div_eq_of_lt h]
    refine ⟨rfl, ?_⟩
    rw [Nat.pow_succ]; ring
  · intro h
    have h1 : 2 * (d * q + r) + b = (2 * r + b - d) + d * (2 * q + 1) := by
      rw [Nat.mul_add d, Nat.mul_one, show 2 * (d * q + r) = d * (2 * q) + 2 * r by ring]
      generalize d * (2 * q) = z
      omega
    have h2 : 2 * r + b - d < d := by omega
    rw [h1, Nat.add_mul_mod_self_left, Nat.add_mul_div_left _ _ hd, Nat.mod_eq_of_lt h2,
      Nat.div_eq_of_lt h2]
    refine ⟨rfl, ?_⟩
    rw [Nat.pow_succ]; ring

/-- Two adjacent numbers in memory. -/
def two (f : Bytes) (r n R Q : Nat) : Bytes := putLe (putLe f r n R) (r + n) n Q

theorem two_fst (f : Bytes) (r n R Q R' : Nat) : putLe (two f r n R Q) r n R' = two f r n R' Q := by
  unfold two
  rw [putLe_comm _ (.inr (Nat.le_refl _)), putLe_putLe]

theorem two_get (f : Bytes) (r n R Q : Nat) : leNat (two f r n R Q) r n = R % 256 ^ n := by
  unfold two
  rw [leNat_putLe_disj (.inl (Nat.le_refl _)), leNat_putLe_same]

theorem two_get1 (f : Bytes) {r n R Q : Nat} (h : 0 < n) :
    leNat (two f r n R Q) r 1 = R % 256 := by
  unfold two
  rw [leNat_putLe_disj (.inl (by omega)), leNat_putLe_in (by omega) (by omega)]
  simp

theorem two_get2 (f : Bytes) (r n R Q : Nat) : leNat (two f r n R Q) (r + n) n = Q % 256 ^ n := by
  unfold two
  rw [leNat_putLe_same]

theorem two_disj {f : Bytes} {r n R Q p m : Nat} (h : p + m ≤ r) :
    leNat (two f r n R Q) p m = leNat f p m := by
  unfold two
  rw [leNat_putLe_disj (.inl (by omega)), leNat_putLe_disj (.inl (by omega))]

theorem two_byte (f : Bytes) {r n R Q b : Nat} (h : 0 < n) (hb : b < 2) :
    putLe (two f r n (2 * R) Q) r 1 (2 * R % 256 ||| b) = two f r n (2 * R + b) Q := by
  unfold two
  rw [putLe_comm _ (.inr (by omega))]
  congr 1
  have := putLe_update (f := f) (p := r) (n := n) (t := 0) (m := 1) (v := 2 * R)
    (w := 2 * R % 256 ||| b) (by omega)
  rw [Nat.add_zero] at this
  rw [this, or_low1 hb (by omega)]
  congr 1
  simp only [Nat.pow_zero, Nat.mod_one, Nat.zero_add, Nat.one_mul, Nat.pow_one]
  omega

theorem two_sub (f : Bytes) {r n R Q d : Nat} (h : d ≤ R) :
    putLe (two f r n R Q) r n (R + 256 ^ n - d) = two f r n (R - d) Q := by
  rw [two_fst]
  unfold two
  congr 1
  apply putLe_congr
  rw [Nat.sub_add_comm h, Nat.add_mod_right]

theorem HeapInt.bits8 (t : HeapInt) : t.bits = 8 * t.bytes := by cases t <;> rfl

theorem heapDivMod_zero (t : HeapInt) {a b fl : Nat} (hσ : Heap σ) (hb : b + t.bytes ≤ σ.nextFree)
    (hz : leNat σ.mem b t.bytes = 0) : (heapDivMod E).Traps [a, b, t.bits, fl] σ := by
  have hs := hσ.alloc.size_lt
  have hn := hσ.alloc.nextFree_le
  obtain ⟨k, hk, hk2⟩ : ∃ k, t.bytes = 4 * k ∧ 2 * k ≤ 16 := by
    cases t
    · exact ⟨4, rfl, by omega⟩
    · exact ⟨8, rfl, by omega⟩
  have hd : t.bits / 8 = 4 * k := by rw [HeapInt.bits8]; omega
  refine ⟨rfl, ?_⟩
  unfold heapDivMod callF
  wstep
  rw [hd]
  refine wp_call2 (isZero_spec hs (by omega)) ?_
  rintro r σ' ⟨rfl, rfl⟩
  rw [b2n_true (by rw [← hk]; exact hz)]
  wstep
  rw [wp_op]; simp [Op.exec, BinOp.eval]

theorem heapDivMod_aux {k a b fl : Nat} (hk0 : 0 < k) (hk2 : k ≤ 4) (hσ : Heap σ)
    (hc : CanAlloc σ (8 * k + 8 * k)) (ha : a + 8 * k ≤ σ.nextFree) (hb : b + 8 * k ≤ σ.nextFree)
    (hz : leNat σ.mem b (8 * k) ≠ 0) :
    ReturnsInt (heapDivMod E) [a, b, 64 * k, fl] σ (8 * k)
      (if fl = 0 then leNat σ.mem a (8 * k) % leNat σ.mem b (8 * k)
       else leNat σ.mem a (8 * k) / leNat σ.mem b (8 * k)) := by
  have hs := hσ.alloc.size_lt
  have hn := hσ.alloc.nextFree_le
  obtain ⟨hc1, hc2⟩ := hc.split
  have hx1 := hσ.allocated hc1
  have hσ1 := hx1.heap hσ
  have hx2 := hx1.trans (hσ1.allocated hc2)
  set τ := allocated (allocated σ (8 * k)) (8 * k) with hτ
  have hnf : τ.nextFree = σ.nextFree + 8 * k + 8 * k := by
    rw [hτ, allocated_nextFree, allocated_nextFree]
  have hτs := hx2.alloc.size_lt
  have hτn := hx2.alloc.nextFree_le
  set r := σ.nextFree with hr
  have hext : ∀ R Q, Extends σ (τ.setMem (two τ.mem r (8 * k) R Q)) := by
    intro R Q
    refine hx2.write ?_ ?_
    · intro x hx; unfold two; rw [putLe_out (by omega), putLe_out (by omega)]
    · intro x hx; unfold two; rw [putLe_out (by omega), putLe_out (by omega)]
  have hA : leNat τ.mem a (8 * k) = leNat σ.mem a (8 * k) := hx2.leNat ha
  have hB : leNat τ.mem b (8 * k) = leNat σ.mem b (8 * k) := hx2.leNat hb
  have hini : τ = τ.setMem (two τ.mem r (8 * k) 0 0) := by
    have h1 : leNat τ.mem r (8 * k) = 0 := leNat_zero_of fun x h1 h2 => by
      rw [hτ]
      by_cases hx : x < r + 8 * k
      · rw [(hσ1.allocated hc2).mem x (by rw [allocated_nextFree]; omega)]
        exact hσ.allocated_zero h1
      · omega
    have h2 : leNat τ.mem (r + 8 * k) (8 * k) = 0 := leNat_zero_of fun x h1 h2 => by
      rw [hτ]
      exact hσ1.allocated_zero (by rw [allocated_nextFree]; omega)
    have e1 : putLe τ.mem r (8 * k) 0 = τ.mem := by
      conv_lhs => rw [← h1]
      rw [putLe_self]
    have e2 : putLe τ.mem (r + 8 * k) (8 * k) 0 = τ.mem := by
      conv_lhs => rw [← h2]
      rw [putLe_self]
    unfold two
    rw [e1, e2]; rfl
  set A := leNat σ.mem a (8 * k) with hAdef
  set D := leNat σ.mem b (8 * k) with hDdef
  have hAlt : A < 2 ^ (64 * k) := by
    have := leNat_lt σ.mem a (8 * k)
    rwa [show (256 : Nat) ^ (8 * k) = 2 ^ (64 * k) by
      rw [show (256 : Nat) = 2 ^ 8 from rfl, ← Nat.pow_mul]; congr 1; omega] at this
  refine ⟨rfl, ?_⟩
  unfold heapDivMod callF
  wstep
  rw [show 64 * k / 8 = 4 * (2 * k) by omega]
  refine wp_call2 (isZero_spec hs (by omega)) ?_
  rintro r' σ' ⟨rfl, rfl⟩
  rw [b2n_false (by rw [show 4 * (2 * k) = 8 * k by omega]; exact hz)]
  wstep
  rw [show 4 * (2 * k) = 8 * k by omega]
  refine wp_alloc hσ hc1 ?_
  wstep
  refine wp_alloc hσ1 hc2 ?_
  rw [← hτ, allocated_nextFree, ← hr]
  wstep
  refine wp_loop (fun m l σ' => 0 < m ∧ m ≤ 64 * k ∧
    l = [a, b, 64 * k, fl, r, r + 8 * k, m - 1, 8 * k] ∧
    σ' = τ.setMem (two τ.mem r (8 * k) (A / 2 ^ m % D) (A / 2 ^ m / D * 2 ^ m))) (64 * k)
    ⟨by omega, by omega, by locs, by
      rw [Nat.div_eq_of_lt hAlt, Nat.zero_mod, Nat.zero_div, Nat.zero_mul]; exact hini⟩ ?_
  rintro m l σ' ⟨hm, hmk, rfl, rfl⟩
  have hP : (256 : Nat) ^ (8 * k) = 2 ^ (64 * k) := by
    rw [show (256 : Nat) = 2 ^ 8 from rfl, ← Nat.pow_mul]; congr 1; omega
  have hstep := div_step (a := A) (d := D) (m := m) (by omega) hm
  have hRlt : 2 * (A / 2 ^ m % D) + A / 2 ^ (m - 1) % 2 < 256 ^ (8 * k) := by
    have h1 : A / 2 ^ m % D ≤ A / 2 ^ m := Nat.mod_le _ _
    have h2 : A / 2 ^ (m - 1) = 2 * (A / 2 ^ m) + A / 2 ^ (m - 1) % 2 := by
      obtain ⟨i, rfl⟩ : ∃ i, m = i + 1 := ⟨m - 1, by omega⟩
      rw [Nat.add_sub_cancel, Nat.pow_succ, ← Nat.div_div_eq_div_mul]; omega
    have h3 : A / 2 ^ (m - 1) ≤ A := Nat.div_le_self _ _
    rw [hP]; omega
  have hbit : A / 2 ^ (m - 1) % 2 < 2 := Nat.mod_lt _ (by omega)
  set R := A / 2 ^ m % D with hRdef
  set Q := A / 2 ^ m / D * 2 ^ m with hQdef
  set bit := A / 2 ^ (m - 1) % 2 with hbitdef
  wstep
  refine wp_call2 (shift1_spec (by rw [setMem_size]; omega) hk0 (by rw [setMem_size]; omega)) ?_
  rintro r' σ' ⟨rfl, rfl⟩
  rw [setMem_mem, two_get, two_fst, setMem_setMem, Nat.mod_eq_of_lt (by omega)]
  wstep
  rw [two_get1 _ (by omega)]
  refine wp_call3 (getBit_spec (n := 8 * k) (by rw [setMem_size]; omega) (by omega) (by rw [setMem_size]; omega)) ?_
  rintro r' σ' ⟨rfl, rfl⟩
  rw [setMem_mem, two_disj ha, hA, ← hbitdef]
  wstep
  rw [two_byte _ (by omega) hbit]
  refine wp_call3 (lessThan_spec (by rw [setMem_size]; omega) (by omega) (by rw [setMem_size]; omega) (by rw [setMem_size]; omega)) ?_
  rintro r' σ' ⟨rfl, rfl⟩
  rw [setMem_mem, two_get, two_disj hb, hB, Nat.mod_eq_of_lt hRlt]
  wstep
  have hfin : ∀ R' Q', R' = A / 2 ^ (m - 1) % D → Q' = A / 2 ^ (m - 1) / D * 2 ^ (m - 1) →
    IfP (toSigned W.w32 0 ≤ toSigned W.w32 (W.w32.sub (m - 1) 1))
      (∃ m' < m,
        0 < m' ∧
          m' ≤ 64 * k ∧
            [a, b, 64 * k, fl, r, r + 8 * k, W.w32.sub (m - 1) 1, 8 * k] =
                [a, b, 64 * k, fl, r, r + 8 * k, m' - 1, 8 * k] ∧
              τ.setMem (two τ.mem r (8 * k) R' Q') =
                τ.setMem (two τ.mem r (8 * k) (A / 2 ^ m' % D) (A / 2 ^ m' / D * 2 ^ m')))
      (IfP (¬fl = 0)
        (∃ q,
          [r + 8 * k] = [q] ∧
            r ≤ q ∧
              (q + 8 * k ≤ τ.nextFree ∧ τ.nextFree ≤ r + 2 * (8 * k)) ∧
                (leNat (two τ.mem r (8 * k) R' Q') q (8 * k) = if fl = 0 then A % D else A / D) ∧
                  Extends σ' (τ.setMem (two τ.mem r (8 * k) R' Q')))
        (∃ q,
          [r] = [q] ∧
            r ≤ q ∧
              (q + 8 * k ≤ τ.nextFree ∧ τ.nextFree ≤ r + 2 * (8 * k)) ∧
                (leNat (two τ.mem r (8 * k) R' Q') q (8 * k) = if fl = 0 then A % D else A / D) ∧
                  Extends σ' (τ.setMem (two τ.mem r (8 * k) R' Q')))) := by
    rintro R' Q' rfl rfl
    rw [toSigned32_nonneg (a := 0) (by omega)]
    by_cases hm1 : m = 1
    · subst hm1
      rw [show W.sub .w32 (1 - 1) 1 = 4294967295 from rfl, toSigned32_neg (by omega), IfP.neg (by omega)]
      simp only [Nat.sub_self, Nat.pow_zero, Nat.div_one, Nat.mul_one]
      refine .intro (fun h => ?_) (fun h => ?_)
      · refine ⟨_, rfl, by omega, by omega, ?_, hext _ _⟩
        rw [two_get2, if_neg h, Nat.mod_eq_of_lt]
        rw [hP]
        exact lt_of_le_of_lt (Nat.div_le_self _ _) hAlt
      · refine ⟨_, rfl, by omega, by omega, ?_, hext _ _⟩
        rw [two_get, if_pos (by omega), Nat.mod_eq_of_lt]
        rw [hP]
        exact lt_of_le_of_lt (Nat.mod_le _ _) hAlt
    · rw [W.sub32 (by omega) (by omega), toSigned32_nonneg (by omega), IfP.pos (by omega)]
      exact ⟨m - 1, by omega, by omega, by omega, by locs, rfl⟩
  refine .intro (fun h => ?_) (fun h => ?_)
  · obtain ⟨h1, h2⟩ := hstep.1 h
    exact hfin _ _ h1.symm h2.symm
  · obtain ⟨h1, h2⟩ := hstep.2 h
    have hsub := (heapSub_spec E (σ := τ.setMem (two τ.mem r (8 * k) (2 * R + bit) Q)) (p1 := r) (p2 := b)
      (p := r) (k := k) (by rw [setMem_size]; omega) (by have := hσ.ready.size; have := hx2.size; rw [setMem_size]; omega) (by rw [setMem_size]; omega)
      (by rw [setMem_size]; omega) (by rw [setMem_size]; omega) (.inl rfl) (.inr (.inr hb))).1
    rw [setMem_mem, two_get, two_disj hb, hB, Nat.mod_eq_of_lt hRlt, two_sub _ (by omega)] at hsub
    refine wp_callF_ok (args := [r, b, r, 8 * k]) (hsub h) ?_
    rintro r' σ'' ⟨rfl, rfl⟩
    rw [setMem_setMem]
    have hh := (hext (2 * R + bit - D) Q).heap hσ
    have hsz := hh.ready.size
    refine ⟨by omega, hh.ready.noErr, ?_⟩
    wstep
    unfold two
    refine wp_call3 (setBit_spec (by omega) (by omega) (by omega) ?_) ?_
    · rw [hQdef]
      obtain ⟨i, rfl⟩ : ∃ i, m = i + 1 := ⟨m - 1, by omega⟩
      rw [Nat.add_sub_cancel, Nat.pow_succ, Nat.mul_comm (2 ^ i), ← Nat.mul_assoc,
        Nat.mul_div_cancel _ (by positivity)]
      omega
    rintro r' σ'' ⟨rfl, rfl⟩
    wstep
    exact hfin _ _ h1.symm h2.symm

theorem heapDivMod_spec (t : HeapInt) {a b fl : Nat} (hσ : Heap σ)
    (hc : CanAlloc σ (t.bytes + t.bytes)) (ha : a + t.bytes ≤ σ.nextFree) (hb : b + t.bytes ≤ σ.nextFree)
    (hz : leNat σ.mem b t.bytes ≠ 0) :
    ReturnsInt (heapDivMod E) [a, b, t.bits, fl] σ t.bytes
      (if fl = 0 then leNat σ.mem a t.bytes % leNat σ.mem b t.bytes
       else leNat σ.mem a t.bytes / leNat σ.mem b t.bytes) := by
  cases t
  · exact heapDivMod_aux E (k := 2) (by omega) (by omega) hσ hc ha hb hz
  · exact heapDivMod_aux E (k := 4) (by omega) (by omega) hσ hc ha hb hz

section
variable {a b : Nat} {s loc : List Nat} {is : List Instr} {Q : Res → Prop} {ty : RetTy}

theorem wp_heapDivMod (t : HeapInt) {fl v : Nat} (hσ : Heap σ)
    (hc : CanAlloc σ (t.bytes + t.bytes)) (ha : a + t.bytes ≤ σ.nextFree) (hb : b + t.bytes ≤ σ.nextFree)
    (hz : leNat σ.mem b t.bytes ≠ 0)
    (hv : (if fl = 0 then leNat σ.mem a t.bytes % leNat σ.mem b t.bytes
       else leNat σ.mem a t.bytes / leNat σ.mem b t.bytes) = v)
    (hK : ∀ q σ', σ.nextFree ≤ q → q + t.bytes ≤ σ'.nextFree ∧ σ'.nextFree ≤ σ.nextFree + 2 * t.bytes → leNat σ'.mem q t.bytes = v →
      Extends σ σ' → wp is (q :: s) loc σ' Q) :
    wp ((heapDivMod E).call :: propagate ty :: is) (fl :: t.bits :: b :: a :: s) loc σ Q := by
  refine wp_callF_ok (args := [a, b, t.bits, fl]) (heapDivMod_spec E t hσ hc ha hb hz) ?_
  rintro r σ' ⟨q, rfl, h1, h2, h3, h4⟩
  have hh := h4.heap hσ
  have := hh.ready.size
  exact ⟨by omega, hh.ready.noErr, hK q σ' h1 h2 (h3.trans hv) h4⟩

theorem HeapInt.bits_mod (t : HeapInt) : t.bits % 4294967296 = t.bits := by cases t <;> rfl

theorem wp_hintDiv (t : HeapInt) (hσ : Heap σ)
    (hc : CanAlloc σ (t.bytes + t.bytes)) (ha : a + t.bytes ≤ σ.nextFree) (hb : b + t.bytes ≤ σ.nextFree)
    (hz : leNat σ.mem b t.bytes ≠ 0)
    (hK : ∀ q σ', σ.nextFree ≤ q → q + t.bytes ≤ σ'.nextFree ∧ σ'.nextFree ≤ σ.nextFree + 2 * t.bytes →
      leNat σ'.mem q t.bytes = leNat σ.mem a t.bytes / leNat σ.mem b t.bytes →
      Extends σ σ' → wp is (q :: s) loc σ' Q) :
    wp (hintDiv E t ty ++ is) (b :: a :: s) loc σ Q := by
  unfold hintDiv callF
  wstep
  rw [t.bits_mod]
  exact wp_heapDivMod E t hσ hc ha hb hz (by simp) hK

theorem wp_hintRem (t : HeapInt) (hσ : Heap σ)
    (hc : CanAlloc σ (t.bytes + t.bytes)) (ha : a + t.bytes ≤ σ.nextFree) (hb : b + t.bytes ≤ σ.nextFree)
    (hz : leNat σ.mem b t.bytes ≠ 0)
    (hK : ∀ q σ', σ.nextFree ≤ q → q + t.bytes ≤ σ'.nextFree ∧ σ'.nextFree ≤ σ.nextFree + 2 * t.bytes →
      leNat σ'.mem q t.bytes = leNat σ.mem a t.bytes % leNat σ.mem b t.bytes →
      Extends σ σ' → wp is (q :: s) loc σ' Q) :
    wp (hintRem E t ty ++ is) (b :: a :: s) loc σ Q := by
  unfold hintRem callF
  wstep
  rw [t.bits_mod]
  exact wp_heapDivMod E t hσ hc ha hb hz (by simp) hK

theorem wp_hintDiv_zero (t : HeapInt) (hσ : Heap σ) (hb : b + t.bytes ≤ σ.nextFree)
    (hz : leNat σ.mem b t.bytes = 0) (hQ : Q .trap) :
    wp (hintDiv E t ty ++ is) (b :: a :: s) loc σ Q := by
  unfold hintDiv callF
  wstep
  rw [t.bits_mod]
  exact wp_call_trap (args := [a, b, t.bits, 1]) (heapDivMod_zero E t hσ hb hz) hQ

theorem wp_hintRem_zero (t : HeapInt) (hσ : Heap σ) (hb : b + t.bytes ≤ σ.nextFree)
    (hz : leNat σ.mem b t.bytes = 0) (hQ : Q .trap) :
    wp (hintRem E t ty ++ is) (b :: a :: s) loc σ Q := by
  unfold hintRem callF
  wstep
  rw [t.bits_mod]
  exact wp_call_trap (args := [a, b, t.bits, 0]) (heapDivMod_zero E t hσ hb hz) hQ

end

end Rt
