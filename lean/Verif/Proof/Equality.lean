import Verif.Proof.Heap
import Verif.Rt.Equality
import Verif.Proof.Words

/-! Equality, copies and byte order. -/

namespace Rt
open Wasm

variable {σ : Store}

theorem leNat_eq_zero_add {f : Bytes} {p m n : Nat} :
    leNat f p (m + n) = 0 ↔ leNat f p m = 0 ∧ leNat f (p + m) n = 0 := by
  rw [leNat_add]
  have : 256 ^ m ≠ 0 := by positivity
  constructor
  · intro h
    have h1 : leNat f p m = 0 := by omega
    rw [h1, Nat.zero_add] at h
    exact ⟨h1, (Nat.mul_eq_zero.mp h).resolve_left this⟩
  · rintro ⟨h1, h2⟩; rw [h1, h2, Nat.mul_zero]

theorem isZero_spec {p k : Nat} (hs : σ.size < 2 ^ 32) (hp : p + 4 * k ≤ σ.size) :
    Evaluates isZero [p, 4 * k] σ (b2n (leNat σ.mem p (4 * k) = 0)) := by
  refine ⟨rfl, ?_⟩
  unfold isZero
  wstep
  refine wp_loop (fun m l σ' => ∃ j, m + j = k ∧ l = [p, 4 * k, 4 * j, 1] ∧ σ' = σ ∧
    leNat σ.mem p (4 * j) = 0) k ⟨0, by omega, rfl, rfl, rfl⟩ ?_
  rintro m l σ' ⟨j, hj, rfl, rfl, hz⟩
  wstep
  refine .intro (fun h => ?_) (fun h => ?_)
  · have : j = k := by omega
    subst this
    rw [b2n_true hz]
  · wstep
    have e := leNat_eq_zero_add (f := σ'.mem) (p := p) (m := 4 * j) (n := 4)
    refine .intro (fun h0 => ?_) (fun h0 => ?_)
    · rw [b2n_false]
      intro hc
      have hsp := leNat_eq_zero_add (f := σ'.mem) (p := p) (m := 4 * j + 4) (n := 4 * k - (4 * j + 4))
      rw [show 4 * j + 4 + (4 * k - (4 * j + 4)) = 4 * k by omega] at hsp
      exact h0 (e.mp (hsp.mp hc).1).2
    · refine ⟨m - 1, by omega, j + 1, by omega, ?_, ?_⟩
      · locs
      · exact e.mpr ⟨hz, Classical.not_not.mp h0⟩

/-- Equal bytes. -/
def EqBytes (f : Bytes) (p q n : Nat) : Prop := ∀ i, i < n → f (p + i) = f (q + i)

theorem eqBytes_iff {f : Bytes} {p q n : Nat} : EqBytes f p q n ↔ leNat f p n = leNat f q n :=
  ⟨fun h => leNat_ext h, fun h => leNat_inj h⟩

instance {f : Bytes} {p q n : Nat} : Decidable (EqBytes f p q n) :=
  decidable_of_iff _ eqBytes_iff.symm

theorem heapEq_spec {p q n : Nat} (hs : σ.size < 2 ^ 32) (hp : p + n ≤ σ.size)
    (hq : q + n ≤ σ.size) : Evaluates heapEq [p, q, n] σ (b2n (EqBytes σ.mem p q n)) := by
  refine ⟨rfl, ?_⟩
  unfold heapEq
  wstep
  refine .intro (fun h => ?_) (fun hne => ?_)
  · subst h
    rw [b2n_true (p := EqBytes σ.mem p p n) (fun _ _ => rfl)]
  · refine wp_loop (fun m l σ' => ∃ j, m + j = n ∧ l = [p, q, n, j] ∧ σ' = σ ∧
      EqBytes σ.mem p q j) n ⟨0, by omega, rfl, rfl, fun i hi => absurd hi (by omega)⟩ ?_
    rintro m l σ' ⟨j, hj, rfl, rfl, he⟩
    wstep
    refine .intro (fun h => ?_) (fun h => ?_)
    · have : j = n := by omega
      subst this
      rw [b2n_true he]
    · wstep
      rw [leNat_one, leNat_one]
      refine .intro (fun h0 => ?_) (fun h0 => ?_)
      · rw [b2n_false]
        intro hc
        exact h0 (by rw [hc j (by omega)])
      · refine ⟨m - 1, by omega, j + 1, by omega, by locs, ?_⟩
        intro i hi
        by_cases hij : i = j
        · subst hij; exact UInt8.toNat_inj.mp (Classical.not_not.mp h0)
        · exact he i (by omega)

/-- Copying a heap integer. -/
theorem copyHeap_spec {p n : Nat} (hσ : Heap σ) (hc : CanAlloc σ n) (hp : p + n ≤ σ.nextFree) :
    ReturnsInt (copyHeap n) [p] σ n (leNat σ.mem p n) := by
  have hx := hσ.allocated hc
  have hin := allocated_inside hσ.alloc hc
  have hn : n < 4294967296 := by have := hc.1; omega
  refine ⟨rfl, ?_⟩
  unfold copyHeap
  wstep
  refine wp_alloc hσ hc ?_
  wstep
  refine ⟨_, rfl, Nat.le_refl _, ?_, ?_, ?_⟩
  · rw [allocated_nextFree]; omega
  · rw [leNat_copyBytes_same, hx.leNat hp]
  · refine hx.write ?_ ?_
    · intro x h; exact copyBytes_out (by omega)
    · intro x h; rw [allocated_nextFree] at h; exact copyBytes_out (by omega)

/-! ### Byte order -/

/-- The number with the bytes of an `n`-byte number in reverse order. -/
def bswap : Nat → Nat → Nat
  | 0, _ => 0
  | n + 1, a => (a % 256) * 256 ^ n + bswap n (a / 256)

theorem bswap_leNat (f : Bytes) (p n : Nat) : bswap n (leNat f p n) = beNat f p n := by
  induction n generalizing p with
  | zero => rfl
  | succ n ih =>
    have hb := (f p).toNat_lt
    simp only [bswap, leNat, beNat]
    rw [show ((f p).toNat + 256 * leNat f (p + 1) n) % 256 = (f p).toNat by omega,
      show ((f p).toNat + 256 * leNat f (p + 1) n) / 256 = leNat f (p + 1) n by omega, ih]

theorem and_mask (x k : Nat) : x &&& (255 * 2 ^ k) = x / 2 ^ k % 256 * 2 ^ k := by
  rw [show (256 : Nat) = 2 ^ 8 from rfl, ← Nat.and_two_pow_sub_one_eq_mod, ← Nat.shiftRight_eq_div_pow,
    ← Nat.shiftLeft_eq, ← Nat.shiftLeft_eq]
  apply Nat.eq_of_testBit_eq
  intro j
  simp only [Nat.testBit_and, Nat.testBit_shiftLeft, Nat.testBit_shiftRight]
  by_cases h : k ≤ j
  · simp [h, show k + (j - k) = j by omega]
  · simp [h]

theorem swap32_arith (a : Nat) :
    (a / 2 ^ 24 &&& 0x000000FF ||| (a / 2 ^ 8 &&& 0x0000FF00) |||
      (a * 2 ^ 8 % 4294967296 &&& 0x00FF0000) ||| (a * 2 ^ 24 % 4294967296 &&& 0xFF000000)) =
    bswap 4 a := by
  have m0 := and_mask (a / 2 ^ 24) 0
  have m1 := and_mask (a / 2 ^ 8) 8
  have m2 := and_mask (a * 2 ^ 8 % 4294967296) 16
  have m3 := and_mask (a * 2 ^ 24 % 4294967296) 24
  simp only [Nat.reducePow, Nat.reduceMul, Nat.mul_one, Nat.div_one] at m0 m1 m2 m3 ⊢
  rw [m0, m1, m2, m3]
  have o1 := Nat.two_pow_add_eq_or_of_lt (i := 8) (b := a / 16777216 % 256) (by omega)
    (a / 256 / 256 % 256)
  rw [Nat.or_comm, show (2 : Nat) ^ 8 = 256 from rfl, Nat.mul_comm] at o1
  rw [← o1]
  have o2 := Nat.two_pow_add_eq_or_of_lt (i := 16) (b := a / 256 / 256 % 256 * 256 + a / 16777216 % 256)
    (by omega) (a * 256 % 4294967296 / 65536 % 256)
  rw [Nat.or_comm, show (2 : Nat) ^ 16 = 65536 from rfl, Nat.mul_comm] at o2
  rw [← o2]
  have o3 := Nat.two_pow_add_eq_or_of_lt (i := 24)
    (b := a * 256 % 4294967296 / 65536 % 256 * 65536 + (a / 256 / 256 % 256 * 256 + a / 16777216 % 256))
    (by omega) (a * 16777216 % 4294967296 / 16777216 % 256)
  rw [Nat.or_comm, show (2 : Nat) ^ 24 = 16777216 from rfl, Nat.mul_comm] at o3
  rw [← o3]
  clear o1 o2 o3 m0 m1 m2 m3
  have d1 : a * 256 % 4294967296 = a % 16777216 * 256 := Nat.mul_mod_mul_right 256 a 16777216
  have d2 : a * 16777216 % 4294967296 = a % 256 * 16777216 := Nat.mul_mod_mul_right 16777216 a 256
  have e1 : a % 16777216 * 256 / 65536 % 256 = a / 256 % 256 := by omega
  have e2 : a % 256 * 16777216 / 16777216 % 256 = a % 256 := by
    rw [Nat.mul_div_cancel _ (by decide)]; omega
  have e3 : a / 16777216 % 256 = a / 256 / 256 / 256 % 256 := by omega
  rw [d1, d2, e1, e2, e3]
  simp only [bswap, Nat.reducePow, Nat.mul_one, Nat.add_zero]

theorem swap32_spec {a : Nat} : Evaluates swap32 [a] σ (bswap 4 a) := by
  refine ⟨rfl, ?_⟩
  unfold swap32
  have := swap32_arith a
  simp only [Nat.reducePow] at this
  wstep
  exact list1 this

theorem bswap_lt (n a : Nat) : bswap n a < 256 ^ n := by
  induction n generalizing a with
  | zero => simp [bswap]
  | succ n ih =>
    simp only [bswap, Nat.pow_succ]
    have := ih (a / 256)
    have h1 : a % 256 ≤ 255 := by omega
    have := Nat.mul_le_mul_right (256 ^ n) h1
    omega

/-- Swapping in two pieces. -/
theorem bswap_add (m n a : Nat) :
    bswap (m + n) a = bswap m a * 256 ^ n + bswap n (a / 256 ^ m) := by
  induction m generalizing a with
  | zero => simp [bswap]
  | succ m ih =>
    rw [Nat.succ_add]
    simp only [bswap]
    rw [ih, Nat.pow_add, Nat.add_mul, Nat.mul_assoc, Nat.div_div_eq_div_mul, Nat.pow_succ,
      Nat.mul_comm 256, Nat.add_assoc]

theorem bswap_mod (m a : Nat) : bswap m (a % 256 ^ m) = bswap m a := by
  induction m generalizing a with
  | zero => rfl
  | succ m ih =>
    simp only [bswap]
    rw [Nat.pow_succ, Nat.mul_comm (256 ^ m) 256, Nat.mod_mul_right_mod, Nat.mod_mul_right_div_self, ih]

theorem swap64_spec {a : Nat} (ha : a < 2 ^ 64) : Evaluates swap64 [a] σ (bswap 8 a) := by
  refine ⟨rfl, ?_⟩
  unfold swap64
  wstep
  refine wp_call1 swap32_spec ?_
  rintro r σ' ⟨rfl, rfl⟩
  wstep
  refine wp_call1 swap32_spec ?_
  rintro r σ' ⟨rfl, rfl⟩
  wstep
  have h := bswap_add 4 4 a
  have h1 := bswap_mod 4 a
  have h2 := bswap_lt 4 a
  have h3 := bswap_lt 4 (a / 4294967296)
  simp only [Nat.reducePow, Nat.reduceAdd] at h h1 h2 h3
  rw [h1, h, Nat.mod_eq_of_lt (by omega)]
  have := Nat.two_pow_add_eq_or_of_lt (i := 32) h3 (bswap 4 a)
  rw [Nat.mul_comm] at this
  exact list1 this.symm

theorem swap64_le {f : Bytes} {p : Nat} : Evaluates swap64 [leNat f p 8] σ (beNat f p 8) := by
  have := swap64_spec (σ := σ) (leNat_lt8 f p)
  rwa [bswap_leNat] at this

/-- Byte-swapping a 16-byte number; source and destination may overlap. -/
theorem swapBytes2_spec {p q : Nat} (hp : p + 16 ≤ σ.size) (hq : q + 16 ≤ σ.size) :
    (swapBytes 2).Calls [p, q] σ
      (fun r σ' => r = [] ∧ σ' = σ.setMem (putLe σ.mem q 16 (beNat σ.mem p 16))) := by
  refine ⟨rfl, ?_⟩
  simp only [swapBytes, List.range, List.range.loop, List.flatMap_cons,
      List.flatMap_nil, List.append_nil, List.cons_append, List.nil_append]
  wstep
  refine wp_call1 swap64_le ?_
  rintro r σ' ⟨rfl, rfl⟩
  wstep
  refine wp_call1 swap64_le ?_
  rintro r σ' ⟨rfl, rfl⟩
  wstep
  have hw := word2 (y := beNat σ'.mem p 8) (beNat_lt σ'.mem (p + 8) 8)
  rw [putWords2 _ _ _ _ _ hw.1 hw.2, ← beNat_two]

/-- Byte-swapping a 32-byte number. -/
theorem swapBytes4_spec {p q : Nat} (hp : p + 32 ≤ σ.size) (hq : q + 32 ≤ σ.size) :
    (swapBytes 4).Calls [p, q] σ
      (fun r σ' => r = [] ∧ σ' = σ.setMem (putLe σ.mem q 32 (beNat σ.mem p 32))) := by
  refine ⟨rfl, ?_⟩
  simp only [swapBytes, List.range, List.range.loop, List.flatMap_cons,
      List.flatMap_nil, List.append_nil, List.cons_append, List.nil_append]
  wstep
  refine wp_call1 swap64_le ?_
  rintro r σ' ⟨rfl, rfl⟩
  wstep
  refine wp_call1 swap64_le ?_
  rintro r σ' ⟨rfl, rfl⟩
  wstep
  refine wp_call1 swap64_le ?_
  rintro r σ' ⟨rfl, rfl⟩
  wstep
  refine wp_call1 swap64_le ?_
  rintro r σ' ⟨rfl, rfl⟩
  wstep
  have hw := word4 (u := beNat σ'.mem p 8) (beNat_lt σ'.mem (p + 24) 8) (beNat_lt σ'.mem (p + 16) 8)
    (beNat_lt σ'.mem (p + 8) 8)
  rw [putWords4 _ _ _ _ _ _ _ hw.1 hw.2.1 hw.2.2.1 hw.2.2.2, ← beNat_four]

end Rt
