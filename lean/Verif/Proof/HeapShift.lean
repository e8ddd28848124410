import Verif.Proof.HeapDiv
import Verif.Proof.HeapMul
import Verif.Proof.Ints
import Verif.Rt.HeapShift

/-! Shifts of u128 and u256. -/

namespace Rt
open Wasm

variable (E : ErrPtrs) {σ : Store}

theorem pow8_succ (j : Nat) : 256 ^ (8 * (j + 1)) = 256 ^ (8 * j) * 18446744073709551616 := by
  rw [show 8 * (j + 1) = 8 * j + 8 by ring, Nat.pow_add]

theorem leNat_word (f : Bytes) (p j n : Nat) (h : 8 * j + 8 ≤ n) :
    leNat f (p + 8 * j) 8 = leNat f p n / 256 ^ (8 * j) % 18446744073709551616 := by
  rw [leNat_split f p n (8 * j) (by omega), Nat.add_mul_div_left _ _ (by positivity),
    Nat.div_eq_of_lt (leNat_lt _ _ _), Nat.zero_add,
    leNat_split f (p + 8 * j) (n - 8 * j) 8 (by omega), Nat.add_mul_mod_self_left,
    Nat.mod_eq_of_lt (leNat_lt8 _ _)]

theorem or_of_shift {y x b : Nat} (hy : 2 ^ b ∣ y) (hx : x < 2 ^ b) : y ||| x = y + x := by
  obtain ⟨c, rfl⟩ := hy
  exact (Nat.two_pow_add_eq_or_of_lt hx c).symm

theorem add_lt_of_shift {y x b : Nat} (hb : b ≤ 64) (hy : 2 ^ b ∣ y) (hx : x < 2 ^ b)
    (hlt : y < 18446744073709551616) : y + x < 18446744073709551616 := by
  obtain ⟨c, rfl⟩ := hy
  have e : 18446744073709551616 = 2 ^ b * 2 ^ (64 - b) := by
    rw [← Nat.pow_add, show b + (64 - b) = 64 by omega]
  rw [e] at hlt ⊢
  have hc : c < 2 ^ (64 - b) := Nat.lt_of_mul_lt_mul_left hlt
  calc 2 ^ b * c + x < 2 ^ b * c + 2 ^ b := by omega
    _ = 2 ^ b * (c + 1) := by ring
    _ ≤ _ := Nat.mul_le_mul_left _ hc

theorem put_word {f : Bytes} {p n v j x : Nat} (hj : 8 * j + 8 ≤ n)
    (hor : v / 256 ^ (8 * j) % 18446744073709551616 ||| x =
      v / 256 ^ (8 * j) % 18446744073709551616 + x)
    (hlt : v / 256 ^ (8 * j) % 18446744073709551616 + x < 18446744073709551616) :
    putLe (putLe f p n v) (p + 8 * j) 8 (leNat (putLe f p n v) (p + 8 * j) 8 ||| x) =
      putLe f p n (v + 256 ^ (8 * j) * x) := by
  rw [leNat_putLe_in (by omega) (by omega), show p + 8 * j - p = 8 * j by omega,
    show (256 : Nat) ^ 8 = 18446744073709551616 by rfl, hor, putLe_update hj]
  congr 1
  rw [show (256 : Nat) ^ 8 = 18446744073709551616 by rfl, Nat.mod_eq_of_lt hlt, Nat.pow_add,
    ← Nat.div_div_eq_div_mul, show (256 : Nat) ^ 8 = 18446744073709551616 by rfl]
  have h1 := Nat.div_add_mod v (256 ^ (8 * j))
  have h2 := Nat.div_add_mod (v / 256 ^ (8 * j)) 18446744073709551616
  rw [show v / 256 ^ (8 * j) % 18446744073709551616 + x +
      18446744073709551616 * (v / 256 ^ (8 * j) / 18446744073709551616) = v / 256 ^ (8 * j) + x by omega,
    Nat.mul_add]
  omega

theorem putLe_high {f : Bytes} {p n v j x : Nat} (hj : n ≤ 8 * j) :
    putLe f p n (v + 256 ^ (8 * j) * x) = putLe f p n v := by
  apply putLe_congr
  rw [show 8 * j = n + (8 * j - n) by omega, Nat.pow_add, Nat.mul_assoc, Nat.add_mul_mod_self_left]

/-- Low part of a shifted word. -/
theorem put_shl_lo {f : Bytes} {p n h j b w : Nat} (hj : 8 * j + 8 ≤ n) :
    putLe (putLe f p n (256 ^ (8 * (j + 1)) * h)) (p + 8 * j) 8
      (leNat (putLe f p n (256 ^ (8 * (j + 1)) * h)) (p + 8 * j) 8 |||
        w * 2 ^ b % 18446744073709551616) =
      putLe f p n (256 ^ (8 * (j + 1)) * h + 256 ^ (8 * j) * (w * 2 ^ b % 18446744073709551616)) := by
  have h0 : 256 ^ (8 * (j + 1)) * h / 256 ^ (8 * j) % 18446744073709551616 = 0 := by
    rw [pow8_succ, Nat.mul_assoc, Nat.mul_div_cancel_left _ (by positivity), Nat.mul_mod_right]
  apply put_word hj
  · rw [h0, Nat.zero_or, Nat.zero_add]
  · rw [h0, Nat.zero_add]; exact Nat.mod_lt _ (by omega)

/-- High part of a shifted word. -/
theorem put_shl_hi {f : Bytes} {p n h j b w x : Nat} (hj : 8 * (j + 1) + 8 ≤ n) (hb : b ≤ 64)
    (hx : x < 18446744073709551616) (hw : w < 18446744073709551616) :
    putLe (putLe f p n (256 ^ (8 * (j + 1)) * (2 ^ b * h) + 256 ^ (8 * j) * x)) (p + 8 * (j + 1)) 8
      (leNat (putLe f p n (256 ^ (8 * (j + 1)) * (2 ^ b * h) + 256 ^ (8 * j) * x)) (p + 8 * (j + 1)) 8 |||
        w / 2 ^ (64 - b)) =
      putLe f p n (256 ^ (8 * (j + 1)) * (2 ^ b * h) + 256 ^ (8 * j) * x +
        256 ^ (8 * (j + 1)) * (w / 2 ^ (64 - b))) := by
  have h0 : (256 ^ (8 * (j + 1)) * (2 ^ b * h) + 256 ^ (8 * j) * x) / 256 ^ (8 * (j + 1)) =
      2 ^ b * h := by
    rw [Nat.add_comm, Nat.add_mul_div_left _ _ (by positivity), Nat.div_eq_of_lt, Nat.zero_add]
    rw [pow8_succ]; exact Nat.mul_lt_mul_of_pos_left hx (by positivity)
  have e : 18446744073709551616 = 2 ^ b * 2 ^ (64 - b) := by
    rw [← Nat.pow_add, show b + (64 - b) = 64 by omega]
  have hd : 2 ^ b ∣ 2 ^ b * h % 18446744073709551616 := by
    rw [e, Nat.mul_mod_mul_left]; exact Dvd.intro _ rfl
  have hw' : w / 2 ^ (64 - b) < 2 ^ b := by
    rw [Nat.div_lt_iff_lt_mul (by positivity), ← e]; exact hw
  apply put_word hj
  · rw [h0]; exact or_of_shift hd hw'
  · rw [h0]; exact add_lt_of_shift hb hd hw' (Nat.mod_lt _ (by omega))

theorem shl_split {w b : Nat} (hb : b ≤ 64) :
    w * 2 ^ b % 18446744073709551616 + 18446744073709551616 * (w / 2 ^ (64 - b)) = w * 2 ^ b := by
  have e : 18446744073709551616 = 2 ^ (64 - b) * 2 ^ b := by
    rw [← Nat.pow_add, show 64 - b + b = 64 by omega]
  have h : w / 2 ^ (64 - b) = w * 2 ^ b / 18446744073709551616 := by
    rw [e, Nat.mul_div_mul_right _ _ (by positivity)]
  rw [h, Nat.mod_add_div]

set_option maxHeartbeats 2000000 in
theorem heapShl_aux {k a b : Nat} (hk0 : 0 < k) (hk2 : k ≤ 4) (hσ : Heap σ)
    (hc : CanAlloc σ (8 * k)) (ha : a + 8 * k ≤ σ.nextFree) (hb : b < 64 * k) :
    ReturnsInt (heapShl E) [a, b, 8 * k] σ (8 * k) (leNat σ.mem a (8 * k) * 2 ^ b % 256 ^ (8 * k)) := by
  have hs := hσ.alloc.size_lt
  have hn := hσ.alloc.nextFree_le
  have hx1 := hσ.allocated hc
  have hnf : (allocated σ (8 * k)).nextFree = σ.nextFree + 8 * k := allocated_nextFree
  have h0 : leNat (allocated σ (8 * k)).mem σ.nextFree (8 * k) = 0 := leNat_zero_of fun x h1 h2 =>
    hσ.allocated_zero h1
  have hA : leNat (allocated σ (8 * k)).mem a (8 * k) = leNat σ.mem a (8 * k) := hx1.leNat ha
  have hτs := hx1.alloc.size_lt
  have hτn := hx1.alloc.nextFree_le
  have hck := checkOverflow_le E (a := b) (b := 64 * k - 1) hσ.ready.size (by omega)
  set r := σ.nextFree with hr
  refine ⟨rfl, ?_⟩
  unfold heapShl callF
  wstep
  rw [show 8 * k * 8 - 1 = 64 * k - 1 by omega]
  refine wp_call2 hck ?_
  rintro r' σ' ⟨rfl, hσ'⟩
  subst hσ'
  rw [wp_propagate (by have := hσ.ready.size; omega), IfP.pos hσ.ready.noErr]
  wstep
  refine wp_alloc hσ hc ?_
  rw [← hr]
  have hext : ∀ v, Extends σ' ((allocated σ' (8 * k)).setMem (putLe (allocated σ' (8 * k)).mem r (8 * k) v)) :=
    fun v => hx1.putLe (Nat.le_refl _) (by omega)
  set τ := allocated σ' (8 * k) with hτ
  wstep
  set A := leNat σ'.mem a (8 * k) with hAdef
  rw [show 8 * k / 8 = k by omega]
  refine wp_loop (fun m l σ' => ∃ x8, 0 < m ∧ m ≤ k ∧
    l = [a, b, 8 * k, r, b / 64, b % 64, k, m - 1, x8] ∧
    σ' = τ.setMem (putLe τ.mem r (8 * k) (256 ^ (8 * (m + b / 64)) * (2 ^ (b % 64) * (A / 256 ^ (8 * m)))))) k
    ⟨0, hk0, by omega, by locs, by
      rw [Nat.div_eq_of_lt (leNat_lt _ _ _), Nat.mul_zero, Nat.mul_zero]
      conv_rhs => rw [← h0, putLe_self]
      rfl⟩ ?_
  rintro m l σ'' ⟨x8, hm, hmk, rfl, rfl⟩
  obtain ⟨i, rfl⟩ : ∃ i, m = i + 1 := ⟨m - 1, by omega⟩
  rw [Nat.add_sub_cancel]
  have hw := leNat_word τ.mem a i (8 * k) (by omega)
  rw [hA] at hw
  have hwlt := leNat_lt8 τ.mem (a + 8 * i)
  have hAi : A / 256 ^ (8 * i) = leNat τ.mem (a + 8 * i) 8 +
      18446744073709551616 * (A / 256 ^ (8 * (i + 1))) := by
    rw [hw, pow8_succ, ← Nat.div_div_eq_div_mul, Nat.mod_add_div]
  have hs64 : b % 64 < 64 := Nat.mod_lt _ (by omega)
  set w := leNat τ.mem (a + 8 * i) 8 with hwdef
  set H := A / 256 ^ (8 * (i + 1)) with hH
  generalize hjdef : i + b / 64 = j
  rw [show i + 1 + b / 64 = j + 1 by omega]
  have hj8 : j < 1000 := by omega
  set s := b % 64 with hsdef
  have htarget : 256 ^ (8 * (j + 1)) * (2 ^ s * H) + 256 ^ (8 * j) * (w * 2 ^ s % 18446744073709551616) +
      256 ^ (8 * (j + 1)) * (w / 2 ^ (64 - s)) = 256 ^ (8 * j) * (2 ^ s * (A / 256 ^ (8 * i))) := by
    have h1 := shl_split (w := w) (b := s) (by omega)
    rw [hAi, Nat.mul_add (2 ^ s), Nat.mul_comm (2 ^ s) w, pow8_succ]
    generalize w * 2 ^ s % 18446744073709551616 = lo at *
    rw [← h1]
    ring
  have hfin : ∀ M : Bytes, M = putLe τ.mem r (8 * k) (256 ^ (8 * j) * (2 ^ s * (A / 256 ^ (8 * i)))) →
    IfP (0 < i)
    (∃ m' < i + 1,
      ∃ x8,
        0 < m' ∧
          m' ≤ k ∧
            [a, b, 8 * k, r, b / 64, s, k, W.w32.sub i 1, i + b / 64] = [a, b, 8 * k, r, b / 64, s, k, m' - 1, x8] ∧
              τ.setMem M =
                τ.setMem (putLe τ.mem r (8 * k) (256 ^ (8 * (m' + b / 64)) * (2 ^ s * (A / 256 ^ (8 * m'))))))
    (∃ q,
      [r] = [q] ∧
        r ≤ q ∧
          (q + 8 * k ≤ τ.nextFree ∧ τ.nextFree ≤ r + 2 * (8 * k)) ∧
            leNat M q (8 * k) = A * 2 ^ b % 256 ^ (8 * k) ∧ Extends σ' (τ.setMem M)) := by
    rintro M rfl
    refine .intro (fun hi => ?_) (fun hi => ?_)
    · refine ⟨i, by omega, i + b / 64, hi, by omega, ?_, ?_⟩
      · rw [W.sub32 (by omega) (by omega)]
      · rw [hjdef]
    · refine ⟨r, rfl, by omega, by omega, ?_, hext _⟩
      have : i = 0 := by omega
      subst this
      have hpow : (256 : Nat) ^ (8 * j) * 2 ^ s = 2 ^ b := by
        rw [show (256 : Nat) = 2 ^ 8 from rfl, ← Nat.pow_mul, ← Nat.pow_add]; congr 1; omega
      rw [leNat_putLe_same, Nat.mul_zero, Nat.pow_zero, Nat.div_one, ← Nat.mul_assoc, hpow, Nat.mul_comm]
  have hrd : ∀ v, leNat (putLe τ.mem r (8 * k) v) (a + i * 8) 8 = w := by
    intro v
    rw [leNat_putLe_disj (.inl (by omega)), Nat.mul_comm i 8]
  by_cases hj : k ≤ j
  · have := hfin _ (by
      rw [← htarget, putLe_high (by omega), putLe_high (by omega)])
    wstep
    rw [IfP.pos (by omega), W.sub32 (by omega) (by omega)] at this
    exact this
  · have hlo := put_shl_lo (f := τ.mem) (p := r) (n := 8 * k) (h := 2 ^ s * H) (j := j) (b := s) (w := w) (by omega)
    by_cases h2 : s = 0 ∨ k ≤ j + 1
    · wstep
      rw [hrd, hjdef, Nat.mul_comm j 8, hlo, ← hjdef]
      apply hfin
      rw [← htarget, ← hjdef]
      rcases h2 with h2 | h2
      · have hz : w / 2 ^ (64 - s) = 0 := by
          rw [h2]; exact Nat.div_eq_of_lt hwlt
        simp only [hz, Nat.mul_zero, Nat.add_zero]
      · rw [putLe_high (j := i + b / 64 + 1) (by omega)]
    · push Not at h2
      wstep
      rw [hrd, hjdef, Nat.mul_comm j 8, hlo, hrd, Nat.mul_comm (j + 1) 8,
        put_shl_hi (by omega) (by omega) (Nat.mod_lt _ (by omega)) hwlt, ← hjdef]
      apply hfin
      rw [← htarget, ← hjdef]

theorem putLe_zero_word {p n v i : Nat} (hv : v < 256 ^ (8 * i)) (x : Nat)
    (f : Bytes) (hi : 8 * i + 8 ≤ n) (hx : x < 18446744073709551616) :
    putLe (putLe f p n v) (p + 8 * i) 8 (leNat (putLe f p n v) (p + 8 * i) 8 ||| x) =
      putLe f p n (v + 256 ^ (8 * i) * x) := by
  apply put_word hi
  · rw [Nat.div_eq_of_lt hv, Nat.zero_mod, Nat.zero_or, Nat.zero_add]
  · rw [Nat.div_eq_of_lt hv, Nat.zero_mod, Nat.zero_add]; exact hx

/-- Second part of a word shifted right. -/
theorem put_shr_hi {f : Bytes} {p n v i b w w' : Nat} (hv : v < 256 ^ (8 * i)) (hi : 8 * i + 8 ≤ n)
    (hb : b ≤ 64) (hw : w < 18446744073709551616) :
    putLe (putLe f p n (v + 256 ^ (8 * i) * (w / 2 ^ b))) (p + 8 * i) 8
      (leNat (putLe f p n (v + 256 ^ (8 * i) * (w / 2 ^ b))) (p + 8 * i) 8 |||
        w' * 2 ^ (64 - b) % 18446744073709551616) =
      putLe f p n (v + 256 ^ (8 * i) * (w / 2 ^ b) +
        256 ^ (8 * i) * (w' * 2 ^ (64 - b) % 18446744073709551616)) := by
  have e : 18446744073709551616 = 2 ^ (64 - b) * 2 ^ b := by
    rw [← Nat.pow_add, show 64 - b + b = 64 by omega]
  have hw1 : w / 2 ^ b < 2 ^ (64 - b) := by
    rw [Nat.div_lt_iff_lt_mul (by positivity), ← e]; exact hw
  have hw2 : w / 2 ^ b < 18446744073709551616 := lt_of_le_of_lt (Nat.div_le_self _ _) hw
  have h0 : (v + 256 ^ (8 * i) * (w / 2 ^ b)) / 256 ^ (8 * i) % 18446744073709551616 = w / 2 ^ b := by
    rw [Nat.add_mul_div_left _ _ (by positivity), Nat.div_eq_of_lt hv, Nat.zero_add, Nat.mod_eq_of_lt hw2]
  have hd : 2 ^ (64 - b) ∣ w' * 2 ^ (64 - b) % 18446744073709551616 := by
    rw [Nat.mul_comm w', e, Nat.mul_mod_mul_left]; exact Dvd.intro _ rfl
  apply put_word hi
  · rw [h0, Nat.or_comm, Nat.add_comm]; exact or_of_shift hd hw1
  · rw [h0, Nat.add_comm]; exact add_lt_of_shift (by omega) hd hw1 (Nat.mod_lt _ (by omega))

/-- The bits of two adjacent words that make up a word of the result. -/
theorem shr_split {x b : Nat} (hb : b < 64) :
    x % 18446744073709551616 / 2 ^ b +
      x / 18446744073709551616 % 18446744073709551616 * 2 ^ (64 - b) % 18446744073709551616 =
    x / 2 ^ b % 18446744073709551616 := by
  have e : 18446744073709551616 = 2 ^ b * 2 ^ (64 - b) := by
    rw [← Nat.pow_add, show b + (64 - b) = 64 by omega]
  have h1 : x / 2 ^ b = x % 18446744073709551616 / 2 ^ b + 2 ^ (64 - b) * (x / 18446744073709551616) := by
    conv_lhs => rw [← Nat.mod_add_div x 18446744073709551616]
    conv_lhs => rw [e]
    rw [Nat.mul_assoc, Nat.add_mul_div_left _ _ (by positivity), ← e]
  have h2 : x % 18446744073709551616 / 2 ^ b < 2 ^ (64 - b) := by
    rw [Nat.div_lt_iff_lt_mul (by positivity), Nat.mul_comm, ← e]; exact Nat.mod_lt _ (by omega)
  have h3 : x / 18446744073709551616 % 18446744073709551616 * 2 ^ (64 - b) % 18446744073709551616 =
      2 ^ (64 - b) * (x / 18446744073709551616 % 2 ^ b) := by
    rw [Nat.mul_comm _ (2 ^ (64 - b))]
    conv_lhs => rw [Nat.mul_mod, Nat.mod_mod, ← Nat.mul_mod]
    rw [show (18446744073709551616 : Nat) = 2 ^ (64 - b) * 2 ^ b by rw [e, Nat.mul_comm],
      Nat.mul_mod_mul_left]
  have h4 : x / 2 ^ b % 18446744073709551616 =
      x % 18446744073709551616 / 2 ^ b + 2 ^ (64 - b) * (x / 18446744073709551616 % 2 ^ b) := by
    rw [h1]
    generalize x % 18446744073709551616 / 2 ^ b = y at *
    generalize x / 18446744073709551616 = z
    rw [show (18446744073709551616 : Nat) = 2 ^ (64 - b) * 2 ^ b by rw [e, Nat.mul_comm], Nat.mod_mul,
      Nat.add_mul_mod_self_left, Nat.mod_eq_of_lt h2, Nat.add_mul_div_left _ _ (by positivity),
      Nat.div_eq_of_lt h2, Nat.zero_add]
  rw [h3, h4]

set_option maxHeartbeats 2000000 in
theorem heapShr_aux {k a b : Nat} (hk0 : 0 < k) (hk2 : k ≤ 4) (hσ : Heap σ)
    (hc : CanAlloc σ (8 * k)) (ha : a + 8 * k ≤ σ.nextFree) (hb : b < 64 * k) :
    ReturnsInt (heapShr E) [a, b, 8 * k] σ (8 * k) (leNat σ.mem a (8 * k) / 2 ^ b) := by
  have hs := hσ.alloc.size_lt
  have hn := hσ.alloc.nextFree_le
  have hx1 := hσ.allocated hc
  have hnf : (allocated σ (8 * k)).nextFree = σ.nextFree + 8 * k := allocated_nextFree
  have h0 : leNat (allocated σ (8 * k)).mem σ.nextFree (8 * k) = 0 := leNat_zero_of fun x h1 h2 =>
    hσ.allocated_zero h1
  have hA : leNat (allocated σ (8 * k)).mem a (8 * k) = leNat σ.mem a (8 * k) := hx1.leNat ha
  have hτs := hx1.alloc.size_lt
  have hτn := hx1.alloc.nextFree_le
  have hck := checkOverflow_le E (a := b) (b := 64 * k - 1) hσ.ready.size (by omega)
  set r := σ.nextFree with hr
  refine ⟨rfl, ?_⟩
  unfold heapShr callF
  wstep
  rw [show 8 * k * 8 - 1 = 64 * k - 1 by omega]
  refine wp_call2 hck ?_
  rintro r' σ' ⟨rfl, hσ'⟩
  subst hσ'
  rw [wp_propagate (by have := hσ.ready.size; omega), IfP.pos hσ.ready.noErr]
  wstep
  refine wp_alloc hσ hc ?_
  rw [← hr]
  have hext : ∀ v, Extends σ' ((allocated σ' (8 * k)).setMem (putLe (allocated σ' (8 * k)).mem r (8 * k) v)) :=
    fun v => hx1.putLe (Nat.le_refl _) (by omega)
  set τ := allocated σ' (8 * k) with hτ
  wstep
  have hAlt := leNat_lt σ'.mem a (8 * k)
  set A := leNat σ'.mem a (8 * k) with hAdef
  rw [show 8 * k / 8 = k by omega]
  refine wp_loop (fun m l σ' => ∃ i x8, m + i = k ∧ i < k ∧
    l = [a, b, 8 * k, r, b / 64, b % 64, k, i, x8] ∧
    σ' = τ.setMem (putLe τ.mem r (8 * k) (A / 2 ^ b % 256 ^ (8 * i)))) k
    ⟨0, 0, by omega, by omega, by locs, by
      rw [Nat.mul_zero, Nat.pow_zero, Nat.mod_one]
      conv_rhs => rw [← h0, putLe_self]
      rfl⟩ ?_
  rintro m l σ'' ⟨i, x8, hm, hik, rfl, rfl⟩
  have hvlt : A / 2 ^ b % 256 ^ (8 * i) < 256 ^ (8 * i) := Nat.mod_lt _ (by positivity)
  have hs64 : b % 64 < 64 := Nat.mod_lt _ (by omega)
  have hb' : 256 ^ (8 * (i + b / 64)) * 2 ^ (b % 64) = 2 ^ b * 256 ^ (8 * i) := by
    rw [show (256 : Nat) = 2 ^ 8 from rfl, ← Nat.pow_mul, ← Nat.pow_mul, ← Nat.pow_add, ← Nat.pow_add]
    congr 1; omega
  have hsplit := shr_split (x := A / 256 ^ (8 * (i + b / 64))) hs64
  rw [Nat.div_div_eq_div_mul, Nat.div_div_eq_div_mul, ← pow8_succ, hb'] at hsplit
  have hrd : ∀ j v, j < k → leNat (putLe τ.mem r (8 * k) v) (a + j * 8) 8 =
      A / 256 ^ (8 * j) % 18446744073709551616 := by
    intro j v hj
    rw [leNat_putLe_disj (.inl (by omega)), Nat.mul_comm j 8, leNat_word _ _ _ (8 * k) (by omega), hA]
  have hbig : ∀ j, k ≤ j → A / 256 ^ (8 * j) = 0 := by
    intro j hj
    apply Nat.div_eq_of_lt
    exact lt_of_lt_of_le hAlt (Nat.pow_le_pow_right (by omega) (by omega))
  have hj8 : i + b / 64 < 1000 := by omega
  set V := A / 2 ^ b % 256 ^ (8 * i) with hV
  generalize hw : A / 256 ^ (8 * (i + b / 64)) % 18446744073709551616 = w at *
  generalize hw' : A / 256 ^ (8 * (i + b / 64 + 1)) % 18446744073709551616 = w' at *
  have hwlt : w < 18446744073709551616 := by rw [← hw]; exact Nat.mod_lt _ (by omega)
  set s := b % 64 with hsdef
  have htarget : V + 256 ^ (8 * i) * (w / 2 ^ s) + 256 ^ (8 * i) * (w' * 2 ^ (64 - s) % 18446744073709551616) =
      A / 2 ^ b % 256 ^ (8 * (i + 1)) := by
    rw [Nat.add_assoc, ← Nat.mul_add, hsplit, pow8_succ, Nat.mod_mul, hV, Nat.div_div_eq_div_mul]
  have hfin : ∀ M : Bytes, M = putLe τ.mem r (8 * k) (A / 2 ^ b % 256 ^ (8 * (i + 1))) →
    IfP (i < k - 1)
    (∃ m' < m,
      ∃ i_1 x8,
        m' + i_1 = k ∧
          i_1 < k ∧
            [a, b, 8 * k, r, b / 64, s, k, i + 1, i + b / 64] = [a, b, 8 * k, r, b / 64, s, k, i_1, x8] ∧
              τ.setMem M = τ.setMem (putLe τ.mem r (8 * k) (A / 2 ^ b % 256 ^ (8 * i_1))))
    (∃ q,
      [r] = [q] ∧
        r ≤ q ∧
          (q + 8 * k ≤ τ.nextFree ∧ τ.nextFree ≤ r + 2 * (8 * k)) ∧
            leNat M q (8 * k) = A / 2 ^ b ∧ Extends σ' (τ.setMem M)) := by
    rintro M rfl
    refine .intro (fun hi => ?_) (fun hi => ?_)
    · exact ⟨m - 1, by omega, i + 1, i + b / 64, by omega, by omega, rfl, rfl⟩
    · refine ⟨r, rfl, by omega, by omega, ?_, hext _⟩
      rw [show i + 1 = k by omega, leNat_putLe_same, Nat.mod_mod, Nat.mod_eq_of_lt]
      exact lt_of_le_of_lt (Nat.div_le_self _ _) hAlt
  by_cases hj : k ≤ i + b / 64
  · have hw0 : w = 0 := by rw [← hw, hbig _ hj]
    have hw0' : w' = 0 := by rw [← hw', hbig _ (by omega)]
    have := hfin _ (by
      rw [← htarget, hw0, hw0', Nat.zero_div, Nat.zero_mul, Nat.zero_mod, Nat.mul_zero])
    wstep
    exact this
  · have hlo := putLe_zero_word (p := r) hvlt (w / 2 ^ s) τ.mem (show 8 * i + 8 ≤ 8 * k by omega)
      (lt_of_le_of_lt (Nat.div_le_self _ _) hwlt)
    have hr1 : ∀ v, leNat (putLe τ.mem r (8 * k) v) (a + (i + b / 64) * 8) 8 = w :=
      fun v => (hrd _ v (by omega)).trans hw
    by_cases h2 : s = 0 ∨ k ≤ i + b / 64 + 1
    · wstep
      rw [hr1, Nat.mul_comm i 8, hlo]
      apply hfin
      rw [← htarget]
      have hz : w' * 2 ^ (64 - s) % 18446744073709551616 = 0 := by
        rcases h2 with h2 | h2
        · rw [h2]; exact Nat.mul_mod_left _ _
        · rw [← hw', hbig _ h2, Nat.zero_mod, Nat.zero_mul, Nat.zero_mod]
      simp only [hz, Nat.mul_zero, Nat.add_zero]
    · push Not at h2
      have hr2 : ∀ v, leNat (putLe τ.mem r (8 * k) v) (a + (i + b / 64 + 1) * 8) 8 = w' :=
        fun v => (hrd _ v (by omega)).trans hw'
      wstep
      rw [hr1, Nat.mul_comm i 8, hlo, hr2, put_shr_hi hvlt (by omega) (by omega) hwlt]
      have := hfin _ (by rw [← htarget])
      rw [IfP.pos (by omega)] at this
      exact this

section
variable {a b : Nat} {s loc : List Nat} {is : List Instr} {Q : Res → Prop} {ty : RetTy}

theorem heapShl_err (t : HeapInt) (hE : E.Valid) (hσ : Heap σ) (hb : t.bits ≤ b) :
    (heapShl E).Calls [a, b, t.bytes] σ (fun _ σ' => σ' = errStore σ (E .overflow)) := by
  have hck := checkOverflow_gt E (a := b) (b := t.bits - 1) hσ.ready.size (by
    have : 0 < t.bits := by cases t <;> decide
    omega)
  refine ⟨rfl, ?_⟩
  unfold heapShl callF
  cases t <;> simp only [HeapInt.bytes, HeapInt.bits] at *
  all_goals
    wstep
    refine wp_checked2 hck hσ.ready (hE _) ?_
    show retK _ _ _
    wstep

theorem heapShr_err (t : HeapInt) (hE : E.Valid) (hσ : Heap σ) (hb : t.bits ≤ b) :
    (heapShr E).Calls [a, b, t.bytes] σ (fun _ σ' => σ' = errStore σ (E .overflow)) := by
  have hck := checkOverflow_gt E (a := b) (b := t.bits - 1) hσ.ready.size (by
    have : 0 < t.bits := by cases t <;> decide
    omega)
  refine ⟨rfl, ?_⟩
  unfold heapShr callF
  cases t <;> simp only [HeapInt.bytes, HeapInt.bits] at *
  all_goals
    wstep
    refine wp_checked2 hck hσ.ready (hE _) ?_
    show retK _ _ _
    wstep

theorem heapShl_spec (t : HeapInt) (hE : E.Valid) (hσ : Heap σ) (hc : CanAlloc σ t.bytes)
    (ha : a + t.bytes ≤ σ.nextFree) :
    CheckedInt (heapShl E) [a, b, t.bytes] σ (E .overflow) t.bytes
      (Spec.shl t.bits (leNat σ.mem a t.bytes) b) := by
  unfold Spec.shl
  split_ifs with h
  · cases t
    · exact heapShl_aux E (k := 2) (by omega) (by omega) hσ hc ha h
    · exact heapShl_aux E (k := 4) (by omega) (by omega) hσ hc ha h
  · refine (heapShl_err E t hE hσ (by omega)).mono ?_
    rintro r σ' rfl
    exact hσ.refl.err hσ

theorem heapShr_spec (t : HeapInt) (hE : E.Valid) (hσ : Heap σ) (hc : CanAlloc σ t.bytes)
    (ha : a + t.bytes ≤ σ.nextFree) :
    CheckedInt (heapShr E) [a, b, t.bytes] σ (E .overflow) t.bytes
      (Spec.shr t.bits (leNat σ.mem a t.bytes) b) := by
  unfold Spec.shr
  split_ifs with h
  · cases t
    · exact heapShr_aux E (k := 2) (by omega) (by omega) hσ hc ha h
    · exact heapShr_aux E (k := 4) (by omega) (by omega) hσ hc ha h
  · refine (heapShr_err E t hE hσ (by omega)).mono ?_
    rintro r σ' rfl
    exact hσ.refl.err hσ

theorem wp_hintShl (t : HeapInt) (hE : E.Valid) (hσ : Heap σ)
    (hc : CanAlloc σ t.bytes) (ha : a + t.bytes ≤ σ.nextFree)
    (hK : IntK σ (E .overflow) t.bytes (Spec.shl t.bits (leNat σ.mem a t.bytes) b)
      (fun q σ' => wp is (q :: s) loc σ' Q) (fun σ' => Q (.ret (badStk ty) σ'))) :
    wp (hintShl E t ty ++ is) (b :: a :: s) loc σ Q := by
  have hn : t.bytes % 4294967296 = t.bytes := by cases t <;> rfl
  simp only [hintShl, callF, List.cons_append, List.nil_append, wp_c32, hn]
  exact wp_checkedInt (args := [a, b, t.bytes]) (heapShl_spec E t hE hσ hc ha) hσ (hE _) hK.ok hK.err

theorem wp_hintShr (t : HeapInt) (hE : E.Valid) (hσ : Heap σ)
    (hc : CanAlloc σ t.bytes) (ha : a + t.bytes ≤ σ.nextFree)
    (hK : IntK σ (E .overflow) t.bytes (Spec.shr t.bits (leNat σ.mem a t.bytes) b)
      (fun q σ' => wp is (q :: s) loc σ' Q) (fun σ' => Q (.ret (badStk ty) σ'))) :
    wp (hintShr E t ty ++ is) (b :: a :: s) loc σ Q := by
  have hn : t.bytes % 4294967296 = t.bytes := by cases t <;> rfl
  simp only [hintShr, callF, List.cons_append, List.nil_append, wp_c32, hn]
  exact wp_checkedInt (args := [a, b, t.bytes]) (heapShr_spec E t hE hσ hc ha) hσ (hE _) hK.ok hK.err

end

end Rt
