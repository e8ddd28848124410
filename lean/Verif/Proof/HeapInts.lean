import Verif.Proof.Ints
import Verif.Proof.Alloc
import Verif.Rt.HeapInts

/-! Proofs about u128/u256 arithmetic. -/

namespace Rt
open Wasm

variable (E : ErrPtrs) {σ : Store}

/-- Regions of the same length that coincide or do not overlap. -/
def Apart (p q n : Nat) : Prop := p = q ∨ p + n ≤ q ∨ q + n ≤ p

/-- Result of a heap operation writing `v` (mod 2^(8n)) to `p`, and raising an error if `bad`. -/
def WritesOr (f : Fn) (args : List Nat) (σ : Store) (p n v e : Nat) (bad : Prop) : Prop :=
  (¬ bad → f.Calls args σ (fun r σ' => r = [p] ∧ σ' = σ.setMem (putLe σ.mem p n v))) ∧
  (bad → f.Calls args σ (fun _ σ' => σ' = errStore (σ.setMem (putLe σ.mem p n v)) e))

theorem carry_add {A B n1 n2 P : Nat} (hP : 0 < P) :
    (A + P * n1 + (B + P * n2)) / P = n1 + n2 + (A + B) / P := by
  rw [show A + P * n1 + (B + P * n2) = A + B + (n1 + n2) * P by ring,
    Nat.add_mul_div_right _ _ hP]; omega

theorem leNat_step8 (f : Bytes) (p j : Nat) :
    leNat f p (8 * (j + 1)) = leNat f p (8 * j) + 256 ^ (8 * j) * leNat f (p + 8 * j) 8 := by
  rw [show 8 * (j + 1) = 8 * j + 8 by ring, leNat_add]

theorem heapAdd_main {p1 p2 p k : Nat} (hs : σ.size < 2 ^ 32) (hs' : 65536 ≤ σ.size)
    (h1 : p1 + 8 * k ≤ σ.size) (h2 : p2 + 8 * k ≤ σ.size) (h3 : p + 8 * k ≤ σ.size)
    (d1 : Apart p p1 (8 * k)) (d2 : Apart p p2 (8 * k)) :
    ∀ (Q : Res → Prop),
      (leNat σ.mem p1 (8 * k) + leNat σ.mem p2 (8 * k) < 256 ^ (8 * k) → ∀ l, Q (.ok [p] l
        (σ.setMem (putLe σ.mem p (8 * k) (leNat σ.mem p1 (8 * k) + leNat σ.mem p2 (8 * k)))))) →
      (256 ^ (8 * k) ≤ leNat σ.mem p1 (8 * k) + leNat σ.mem p2 (8 * k) → Q (.ret [badF00d]
        (errStore (σ.setMem (putLe σ.mem p (8 * k)
          (leNat σ.mem p1 (8 * k) + leNat σ.mem p2 (8 * k)))) (E .overflow)))) →
      wp (heapAdd E).body [] [p1, p2, p, 8 * k, 0, 0, 0, 0, 0, 0] σ Q := by
  intro Q hok herr
  unfold heapAdd
  unerr
  wstep
  refine wp_loop (fun m l σ' => ∃ j ps n1 n2, m + j = k ∧
    l = [p1, p2, p, 8 * k, 8 * j,
      (leNat σ.mem p1 (8 * j) + leNat σ.mem p2 (8 * j)) / 256 ^ (8 * j), ps, n1, n2, 0] ∧
    σ' = σ.setMem (putLe σ.mem p (8 * j) (leNat σ.mem p1 (8 * j) + leNat σ.mem p2 (8 * j)))) k
    ⟨0, 0, 0, 0, by omega, by simp [leNat], by simp [putLe_zero]⟩ ?_
  rintro m l σ' ⟨j, ps, n1, n2, hm, rfl, rfl⟩
  wstep
  have hA := leNat_lt σ.mem p1 (8 * j)
  have hB := leNat_lt σ.mem p2 (8 * j)
  have hP : 0 < 256 ^ (8 * j) := by positivity
  have hcdef : (leNat σ.mem p1 (8 * j) + leNat σ.mem p2 (8 * j)) / 256 ^ (8 * j) = 0 ∧
      leNat σ.mem p1 (8 * j) + leNat σ.mem p2 (8 * j) < 256 ^ (8 * j) ∨
      (leNat σ.mem p1 (8 * j) + leNat σ.mem p2 (8 * j)) / 256 ^ (8 * j) = 1 ∧
      256 ^ (8 * j) ≤ leNat σ.mem p1 (8 * j) + leNat σ.mem p2 (8 * j) := by
    by_cases h : leNat σ.mem p1 (8 * j) + leNat σ.mem p2 (8 * j) < 256 ^ (8 * j)
    · left; exact ⟨Nat.div_eq_of_lt h, h⟩
    · right
      refine ⟨?_, by omega⟩
      rw [Nat.div_eq_iff hP]; omega
  have ec := carry_add (A := leNat σ.mem p1 (8 * j)) (B := leNat σ.mem p2 (8 * j))
    (n1 := leNat σ.mem (p1 + 8 * j) 8) (n2 := leNat σ.mem (p2 + 8 * j) 8) hP
  have s1 := leNat_step8 σ.mem p1 j
  have s2 := leNat_step8 σ.mem p2 j
  generalize hc : (leNat σ.mem p1 (8 * j) + leNat σ.mem p2 (8 * j)) / 256 ^ (8 * j) = c at *
  refine .intro (fun hj => ?_) (fun hj => ?_)
  · have : j = k := by omega
    subst this
    refine .intro (fun h => ?_) (fun h => ?_)
    · exact herr (by omega)
    · exact hok (by omega) _
  · have hjk : j < k := by omega
    have hr1 : leNat (putLe σ.mem p (8 * j) (leNat σ.mem p1 (8 * j) + leNat σ.mem p2 (8 * j)))
        (p1 + 8 * j) 8 = leNat σ.mem (p1 + 8 * j) 8 :=
      leNat_putLe_disj (by unfold Apart at d1; omega)
    have hr2 : leNat (putLe σ.mem p (8 * j) (leNat σ.mem p1 (8 * j) + leNat σ.mem p2 (8 * j)))
        (p2 + 8 * j) 8 = leNat σ.mem (p2 + 8 * j) 8 :=
      leNat_putLe_disj (by unfold Apart at d2; omega)
    have hx := leNat_lt8 σ.mem (p1 + 8 * j)
    have hy := leNat_lt8 σ.mem (p2 + 8 * j)
    wstep
    rw [hr1, hr2]
    rw [← s1, ← s2] at ec
    have hw : putLe (putLe σ.mem p (8 * j) (leNat σ.mem p1 (8 * j) + leNat σ.mem p2 (8 * j)))
        (p + 8 * j) 8 ((leNat σ.mem (p1 + 8 * j) 8 + leNat σ.mem (p2 + 8 * j) 8)
          % 18446744073709551616 + c) =
        putLe σ.mem p (8 * (j + 1))
          (leNat σ.mem p1 (8 * (j + 1)) + leNat σ.mem p2 (8 * (j + 1))) := by
      rw [show 8 * (j + 1) = 8 * j + 8 by ring, putLe_add,
        show 8 * j + 8 = 8 * (j + 1) by ring, ec]
      have e1 : putLe σ.mem p (8 * j)
          (leNat σ.mem p1 (8 * (j + 1)) + leNat σ.mem p2 (8 * (j + 1))) =
          putLe σ.mem p (8 * j) (leNat σ.mem p1 (8 * j) + leNat σ.mem p2 (8 * j)) := by
        apply putLe_congr
        rw [s1, s2, show ∀ a b c d e : Nat, a + b * c + (d + b * e) = a + d + b * (c + e) by
          intros; ring, Nat.add_mul_mod_self_left]
      rw [e1]
      apply putLe_congr
      rw [show 256 ^ 8 = 18446744073709551616 by rfl]
      omega
    rw [hw]
    generalize leNat σ.mem (p1 + 8 * j) 8 = x at *
    generalize leNat σ.mem (p2 + 8 * j) 8 = y at *
    refine' ⟨m - 1, by omega, j + 1, _, _, _, by omega, _, rfl⟩; rotate_left 3
    have e256 : 256 ^ (8 * (j + 1)) = 256 ^ (8 * j) * 18446744073709551616 := by
      rw [show 8 * (j + 1) = 8 * j + 8 by ring, Nat.pow_add]
    rw [e256, ← Nat.div_div_eq_div_mul, ec]
    have : b2n (((x ≠ 0 ∧ y ≠ 0) ∨ c ≠ 0) ∧
        (((x + y) % 18446744073709551616 + c) % 18446744073709551616 ≤ x ∨
          ((x + y) % 18446744073709551616 + c) % 18446744073709551616 ≤ y)) =
        (x + y + c) / 18446744073709551616 := by
      have : c = 0 ∨ c = 1 := by omega
      unfold b2n
      split_ifs with h <;> omega
    locs

theorem heapAdd_spec {p1 p2 p k : Nat} (hs : σ.size < 2 ^ 32) (hs' : 65536 ≤ σ.size)
    (h1 : p1 + 8 * k ≤ σ.size) (h2 : p2 + 8 * k ≤ σ.size) (h3 : p + 8 * k ≤ σ.size)
    (d1 : Apart p p1 (8 * k)) (d2 : Apart p p2 (8 * k)) :
    WritesOr (heapAdd E) [p1, p2, p, 8 * k] σ p (8 * k)
      (leNat σ.mem p1 (8 * k) + leNat σ.mem p2 (8 * k)) (E .overflow)
      (256 ^ (8 * k) ≤ leNat σ.mem p1 (8 * k) + leNat σ.mem p2 (8 * k)) := by
  have main := heapAdd_main E hs hs' h1 h2 h3 d1 d2
  constructor
  · intro hb
    exact ⟨rfl, main _ (fun _ l => ⟨rfl, rfl⟩) (fun h => absurd h hb)⟩
  · intro hb
    exact ⟨rfl, main _ (fun h => absurd hb (by omega)) (fun _ => rfl)⟩

theorem heapAdd_overflow {p1 p2 p k : Nat} (hs : σ.size < 2 ^ 32) (hs' : 65536 ≤ σ.size)
    (h1 : p1 + 8 * k ≤ σ.size) (h2 : p2 + 8 * k ≤ σ.size) (h3 : p + 8 * k ≤ σ.size)
    (d1 : Apart p p1 (8 * k)) (d2 : Apart p p2 (8 * k))
    (hb : 256 ^ (8 * k) ≤ leNat σ.mem p1 (8 * k) + leNat σ.mem p2 (8 * k)) :
    (heapAdd E).Calls [p1, p2, p, 8 * k] σ (fun r σ' => r = [badF00d] ∧ σ' = errStore (σ.setMem (putLe σ.mem p (8 * k)
      (leNat σ.mem p1 (8 * k) + leNat σ.mem p2 (8 * k)))) (E .overflow)) :=
  ⟨rfl, heapAdd_main E hs hs' h1 h2 h3 d1 d2 _ (fun h => absurd hb (by omega)) (fun _ => ⟨rfl, rfl⟩)⟩


theorem b2n_mod {p : Prop} [Decidable p] : b2n p % 4294967296 = b2n p :=
  Nat.mod_eq_of_lt (by have := b2n_lt (p := p); omega)

theorem lt_digits {A B P x y : Nat} (hA : A < P) (hB : B < P) :
    A + P * x < B + P * y ↔ x < y + b2n (A < B) := by
  rcases Nat.lt_trichotomy x y with h | h | h
  · have : P * (x + 1) ≤ P * y := Nat.mul_le_mul_left _ h
    rw [Nat.mul_succ] at this
    constructor <;> intro <;> omega
  · subst h
    by_cases hab : A < B
    · rw [b2n_true hab]; constructor <;> intro <;> omega
    · rw [b2n_false hab]; constructor <;> intro <;> omega
  · have : P * (y + 1) ≤ P * x := Nat.mul_le_mul_left _ h
    rw [Nat.mul_succ] at this
    have := b2n_lt (p := A < B)
    constructor <;> intro <;> omega

theorem sub_digits {A B P M x y : Nat} (hB : B < P) (hy : y < M) :
    A + P * x + P * M - (B + P * y) = (A + P - B) + P * (x + (M - 1) - y) := by
  obtain ⟨d, hd⟩ : ∃ d, x + (M - 1) - y = d := ⟨_, rfl⟩
  have hd' : x + M = d + y + 1 := by omega
  rw [hd, show A + P * x + P * M = A + P * (x + M) by ring, hd',
    show A + P * (d + y + 1) = A + P * d + P * y + P by ring]
  omega

theorem div_borrow {A B P : Nat} (hA : A < P) (hB : B < P) :
    (A + P - B) / P = 1 - b2n (A < B) := by
  by_cases hab : A < B
  · rw [b2n_true hab, Nat.div_eq_of_lt (by omega)]
  · rw [b2n_false hab, Nat.div_eq_iff (by omega)]; omega

theorem sub_word {x y c : Nat} (hx : x < 18446744073709551616) (hy : y < 18446744073709551616)
    (hc : c < 2) : W.sub .w64 (W.sub .w64 x c) y % 18446744073709551616 =
      (1 - c + (x + (18446744073709551616 - 1) - y)) % 18446744073709551616 := by
  rw [W.sub64_def, W.sub64_def]; omega

theorem borrow_word {x y c : Nat} (hx : x < 18446744073709551616) (hy : y < 18446744073709551616)
    (hc : c < 2) : (x < (y + c) % 18446744073709551616 ∨ (y + c) % 18446744073709551616 < y) ↔
      x < y + c := by
  omega

theorem b2n_congr {p q : Prop} [Decidable p] [Decidable q] (h : p ↔ q) : b2n p = b2n q := by
  unfold b2n; by_cases hp : p
  · rw [if_pos hp, if_pos (h.mp hp)]
  · rw [if_neg hp, if_neg (fun hq => hp (h.mpr hq))]

theorem heapSub_spec {p1 p2 p k : Nat} (hs : σ.size < 2 ^ 32) (hs' : 65536 ≤ σ.size)
    (h1 : p1 + 8 * k ≤ σ.size) (h2 : p2 + 8 * k ≤ σ.size) (h3 : p + 8 * k ≤ σ.size)
    (d1 : Apart p p1 (8 * k)) (d2 : Apart p p2 (8 * k)) :
    WritesOr (heapSub E) [p1, p2, p, 8 * k] σ p (8 * k)
      (leNat σ.mem p1 (8 * k) + 256 ^ (8 * k) - leNat σ.mem p2 (8 * k)) (E .overflow)
      (leNat σ.mem p1 (8 * k) < leNat σ.mem p2 (8 * k)) := by
  have main : ∀ (Q : Res → Prop),
      (¬ leNat σ.mem p1 (8 * k) < leNat σ.mem p2 (8 * k) → ∀ l, Q (.ok [p] l
        (σ.setMem (putLe σ.mem p (8 * k)
          (leNat σ.mem p1 (8 * k) + 256 ^ (8 * k) - leNat σ.mem p2 (8 * k)))))) →
      (leNat σ.mem p1 (8 * k) < leNat σ.mem p2 (8 * k) → Q (.ret [badF00d]
        (errStore (σ.setMem (putLe σ.mem p (8 * k)
          (leNat σ.mem p1 (8 * k) + 256 ^ (8 * k) - leNat σ.mem p2 (8 * k)))) (E .overflow)))) →
      wp (heapSub E).body [] [p1, p2, p, 8 * k, 0, 0, 0, 0, 0, 0, 0] σ Q := by
    intro Q hok herr
    unfold heapSub
    unerr
    wstep
    refine wp_loop (fun m l σ' => ∃ j su ps n1 n2, m + j = k ∧
      l = [p1, p2, p, 8 * k, 8 * j,
        b2n (leNat σ.mem p1 (8 * j) < leNat σ.mem p2 (8 * j)), su, ps, n1, n2, 0] ∧
      σ' = σ.setMem (putLe σ.mem p (8 * j)
        (leNat σ.mem p1 (8 * j) + 256 ^ (8 * j) - leNat σ.mem p2 (8 * j)))) k
      ⟨0, 0, 0, 0, 0, by omega, by simp [leNat, b2n], by simp [putLe_zero]⟩ ?_
    rintro m l σ' ⟨j, su, ps, n1, n2, hm, rfl, rfl⟩
    wstep
    have hA := leNat_lt σ.mem p1 (8 * j)
    have hB := leNat_lt σ.mem p2 (8 * j)
    have s1 := leNat_step8 σ.mem p1 j
    have s2 := leNat_step8 σ.mem p2 j
    refine .intro (fun hj => ?_) (fun hj => ?_)
    · have : j = k := by omega
      subst this
      refine .intro (fun h => ?_) (fun h => ?_)
      · exact herr h
      · exact hok h _
    · have hjk : j < k := by omega
      have hx := leNat_lt8 σ.mem (p1 + 8 * j)
      have hy := leNat_lt8 σ.mem (p2 + 8 * j)
      have hr1 : leNat (putLe σ.mem p (8 * j)
          (leNat σ.mem p1 (8 * j) + 256 ^ (8 * j) - leNat σ.mem p2 (8 * j)))
          (p1 + 8 * j) 8 = leNat σ.mem (p1 + 8 * j) 8 :=
        leNat_putLe_disj (by unfold Apart at d1; omega)
      have hr2 : leNat (putLe σ.mem p (8 * j)
          (leNat σ.mem p1 (8 * j) + 256 ^ (8 * j) - leNat σ.mem p2 (8 * j)))
          (p2 + 8 * j) 8 = leNat σ.mem (p2 + 8 * j) 8 :=
        leNat_putLe_disj (by unfold Apart at d2; omega)
      have hlt := lt_digits (x := leNat σ.mem (p1 + 8 * j) 8) (y := leNat σ.mem (p2 + 8 * j) 8) hA hB
      have hb2 := b2n_lt (p := leNat σ.mem p1 (8 * j) < leNat σ.mem p2 (8 * j))
      wstep
      rw [hr1, hr2]
      have e256 : 256 ^ (8 * (j + 1)) = 256 ^ (8 * j) * 18446744073709551616 := by
        rw [show 8 * (j + 1) = 8 * j + 8 by ring, Nat.pow_add]
      generalize hbr : b2n (leNat σ.mem p1 (8 * j) < leNat σ.mem p2 (8 * j)) = c at *
      have hP : 0 < 256 ^ (8 * j) := by positivity
      have hw : putLe (putLe σ.mem p (8 * j)
            (leNat σ.mem p1 (8 * j) + 256 ^ (8 * j) - leNat σ.mem p2 (8 * j)))
          (p + 8 * j) 8 (W.sub .w64 (W.sub .w64 (leNat σ.mem (p1 + 8 * j) 8) c)
            (leNat σ.mem (p2 + 8 * j) 8)) =
          putLe σ.mem p (8 * (j + 1)) (leNat σ.mem p1 (8 * (j + 1)) + 256 ^ (8 * (j + 1))
            - leNat σ.mem p2 (8 * (j + 1))) := by
        rw [show 8 * (j + 1) = 8 * j + 8 by ring, putLe_add,
          show 8 * j + 8 = 8 * (j + 1) by ring, s1, s2, e256]
        generalize leNat σ.mem (p1 + 8 * j) 8 = x at *
        generalize leNat σ.mem (p2 + 8 * j) 8 = y at *
        generalize leNat σ.mem p1 (8 * j) = A at *
        generalize leNat σ.mem p2 (8 * j) = B at *
        generalize hPe : 256 ^ (8 * j) = P at *
        have hD := sub_digits (A := A) (x := x) hB hy
        rw [hD]
        have e1 : putLe σ.mem p (8 * j) (A + P - B + P * (x + (18446744073709551616 - 1) - y)) =
            putLe σ.mem p (8 * j) (A + P - B) := by
          apply putLe_congr
          rw [hPe, Nat.add_mul_mod_self_left]
        rw [e1]
        apply putLe_congr
        rw [show 256 ^ 8 = 18446744073709551616 by rfl, Nat.add_mul_div_left _ _ hP]
        rw [div_borrow hA hB, hbr]
        exact sub_word hx hy hb2
      rw [hw]
      refine' ⟨m - 1, by omega, j + 1, _, _, _, _, by omega, _, rfl⟩; rotate_left 4
      locs
      apply b2n_congr
      rw [s1, s2, hlt]
      exact borrow_word hx hy hb2
  constructor
  · intro hb
    exact ⟨rfl, main _ (fun _ l => ⟨rfl, rfl⟩) (fun h => absurd h hb)⟩
  · intro hb
    exact ⟨rfl, main _ (fun h => absurd hb h) (fun _ => rfl)⟩

/-- `lessThan` answers the comparison and changes nothing. -/
theorem lessThan_spec {p1 p2 k : Nat} (hs : σ.size < 2 ^ 32) (hk2 : 8 * k < 2 ^ 31)
    (h1 : p1 + 8 * k ≤ σ.size) (h2 : p2 + 8 * k ≤ σ.size) :
    Evaluates lessThan [p1, p2, 8 * k] σ (b2n (leNat σ.mem p1 (8 * k) < leNat σ.mem p2 (8 * k))) := by
  refine ⟨rfl, ?_⟩
  unfold lessThan
  wstep
  refine wp_loop (fun m l σ' => ∃ a b r, m ≤ k ∧ σ' = σ ∧
    l = [p1, p2, 8 * k, a, b, r, W.sub .w32 (8 * m) 8] ∧
    (leNat σ.mem p1 (8 * k) < leNat σ.mem p2 (8 * k) ↔
      leNat σ.mem p1 (8 * m) < leNat σ.mem p2 (8 * m))) k
    ⟨0, 0, 0, by omega, rfl, rfl, Iff.rfl⟩ ?_
  rintro m l σ' ⟨a, b, r, hm, rfl, rfl, hiff⟩
  rcases Nat.eq_zero_or_pos m with rfl | hpos
  · have hneg : toSigned .w32 (W.sub .w32 (8 * 0) 8) < toSigned .w32 0 := by decide
    have hf : b2n (leNat σ'.mem p1 (8 * k) < leNat σ'.mem p2 (8 * k)) = 0 := by
      rw [b2n_false]; rw [hiff]; simp [leNat]
    wstep
    rw [hf]
  · obtain ⟨j, rfl⟩ : ∃ j, m = j + 1 := ⟨m - 1, by omega⟩
    have ho : W.sub .w32 (8 * (j + 1)) 8 = 8 * j := by rw [W.sub32 (by omega) (by omega)]; omega
    have hneg : ¬ toSigned .w32 (8 * j) < toSigned .w32 0 := by
      rw [toSigned32_nonneg (by omega), toSigned32_nonneg (by omega)]; omega
    rw [ho]
    wstep
    have hx := leNat_lt8 σ'.mem (p1 + 8 * j)
    have hy := leNat_lt8 σ'.mem (p2 + 8 * j)
    have hlt := lt_digits (x := leNat σ'.mem (p1 + 8 * j) 8) (y := leNat σ'.mem (p2 + 8 * j) 8)
      (leNat_lt σ'.mem p1 (8 * j)) (leNat_lt σ'.mem p2 (8 * j))
    rw [← leNat_step8, ← leNat_step8, ← hiff] at hlt
    have hb2 := b2n_lt (p := leNat σ'.mem p1 (8 * j) < leNat σ'.mem p2 (8 * j))
    refine .intro (fun h => ?_) (fun h => .intro (fun he => ?_) (fun he => ?_))
    · apply list1; apply b2n_congr; rw [hlt]; constructor <;> intro <;> omega
    · refine ⟨j, by omega, _, _, _, by omega, rfl, ?_⟩
      rw [hlt, he]
      constructor
      · intro h'; exact b2n_ne_zero.mp (by omega)
      · intro h'; rw [b2n_true h']; omega
    · rw [b2n_false]; omega

end Rt
