import Verif.Proof.HeapInts

/-! `heap_integers_mul`: schoolbook multiplication with 32-bit digits. -/

namespace Rt
open Wasm

variable (E : ErrPtrs) {σ : Store}

theorem leNat_step4 (f : Bytes) (p j : Nat) :
    leNat f p (4 * (j + 1)) = leNat f p (4 * j) + 256 ^ (4 * j) * leNat f (p + 4 * j) 4 := by
  rw [show 4 * (j + 1) = 4 * j + 4 by ring, leNat_add]

/-- The row of digit `j` of the second factor overflows: this is the only overflow the code
detects.  `a`, `b` are the factors, `n` the number of 32-bit digits. -/
def RowOvf (n a b : Nat) : Prop :=
  ∃ j, j < n ∧ 256 ^ (4 * (n - j)) ≤ (b / 256 ^ (4 * j) % 256 ^ 4) * (a % 256 ^ (4 * (n - j)))

instance (n a b : Nat) : Decidable (RowOvf n a b) :=
  inferInstanceAs (Decidable (∃ j, j < n ∧ _))

theorem leNat_digit (f : Bytes) (p j n : Nat) (h : j < n) :
    leNat f (p + 4 * j) 4 = leNat f p (4 * n) / 256 ^ (4 * j) % 256 ^ 4 := by
  rw [leNat_split f p (4 * n) (4 * j) (by omega), Nat.add_mul_div_left _ _ (by positivity),
    Nat.div_eq_of_lt (leNat_lt _ _ _), Nat.zero_add,
    leNat_split f (p + 4 * j) (4 * n - 4 * j) 4 (by omega), Nat.add_mul_mod_self_left,
    Nat.mod_eq_of_lt (leNat_lt _ _ _)]

theorem leNat_low (f : Bytes) (p j n : Nat) (h : j ≤ n) :
    leNat f p (4 * j) = leNat f p (4 * n) % 256 ^ (4 * j) := by
  rw [leNat_split f p (4 * n) (4 * j) (by omega), Nat.add_mul_mod_self_left,
    Nat.mod_eq_of_lt (leNat_lt _ _ _)]

/-- One step of the inner loop, on numbers. `P` is the weight of the current digit. -/
theorem mul_step {V P cm cs R S a b : Nat}
    (hinv : V + P * (cm + cs) = R + S) :
    let pm := a * b + cm
    let ps := pm % 4294967296 + V / P % 4294967296 + cs
    (V % P + P * (ps % 4294967296 + 4294967296 * (V / (P * 4294967296)))) +
      P * 4294967296 * (pm / 4294967296 + ps / 4294967296) = R + (S + P * (a * b)) := by
  intro pm ps
  have h1 : ps % 4294967296 + 4294967296 * (ps / 4294967296) = ps := Nat.mod_add_div _ _
  have h2 : pm % 4294967296 + 4294967296 * (pm / 4294967296) = pm := Nat.mod_add_div _ _
  have h3 : V % P + P * (V / P % 4294967296 + 4294967296 * (V / (P * 4294967296))) = V := by
    rw [← Nat.div_div_eq_div_mul, Nat.mod_add_div, Nat.mod_add_div]
  have : (V % P + P * (ps % 4294967296 + 4294967296 * (V / (P * 4294967296)))) +
      P * 4294967296 * (pm / 4294967296 + ps / 4294967296) =
      V % P + P * ((ps % 4294967296 + 4294967296 * (ps / 4294967296)) +
        4294967296 * (V / (P * 4294967296)) + 4294967296 * (pm / 4294967296)) := by ring
  rw [this, h1]
  have : ps + 4294967296 * (V / (P * 4294967296)) + 4294967296 * (pm / 4294967296) =
      (V / P % 4294967296 + 4294967296 * (V / (P * 4294967296))) + (a * b + cm + cs) := by
    show pm % 4294967296 + V / P % 4294967296 + cs + _ + _ = _
    have : pm = a * b + cm := rfl
    omega
  rw [this, Nat.mul_add, ← Nat.add_assoc, h3]
  have : P * (a * b + cm + cs) = P * (cm + cs) + P * (a * b) := by ring
  omega

theorem heapMul_loop {p1 p2 p n : Nat} (hs : σ.size < 2 ^ 32) (hs' : 65536 ≤ σ.size)
    (h1 : p1 + 4 * n ≤ p) (h2 : p2 + 4 * n ≤ p) (h3 : p + 4 * n ≤ σ.size)
    (hz : leNat σ.mem p (4 * n) = 0) (Q : Res → Prop)
    (hok : ¬ RowOvf n (leNat σ.mem p1 (4 * n)) (leNat σ.mem p2 (4 * n)) →
      ∀ l, Q (.ok [p] l (σ.setMem (putLe σ.mem p (4 * n)
        (leNat σ.mem p1 (4 * n) * leNat σ.mem p2 (4 * n))))))
    (herr : RowOvf n (leNat σ.mem p1 (4 * n)) (leNat σ.mem p2 (4 * n)) →
      ∀ V, Q (.ret [badF00d] (errStore (σ.setMem (putLe σ.mem p (4 * n) V)) (E .overflow)))) :
    wp ((heapMul E).body.drop 3) [] [p1, p2, 4 * n, p, 0, 0, 0, 0, 0, 0, 0, 0, 0] σ Q := by
  unfold heapMul
  unerr
  simp only [List.drop_succ_cons, List.drop_zero]
  wstep
  set A := leNat σ.mem p1 (4 * n) with hA
  set B := leNat σ.mem p2 (4 * n) with hB
  refine wp_loop (fun m l σ' => ∃ j a b ao cm cs pm ps, m + j = n ∧
    l = [p1, p2, 4 * n, p, a, b, ao, 4 * j, cm, cs, pm, ps, 0] ∧
    (∀ i, i < j → ¬ 256 ^ (4 * (n - i)) ≤ (B / 256 ^ (4 * i) % 256 ^ 4) * (A % 256 ^ (4 * (n - i)))) ∧
    σ' = σ.setMem (putLe σ.mem p (4 * n) (A * leNat σ.mem p2 (4 * j)))) n
    ⟨0, 0, 0, 0, 0, 0, 0, 0, by omega, rfl, by intro i hi; omega, ?_⟩ ?_
  · have := putLe_self σ.mem p (4 * n)
    rw [hz] at this
    simp only [leNat, Nat.mul_zero, this, setMem_self]
  rintro m l σ' ⟨j, a0, b0, ao0, cm0, cs0, pm0, ps0, hm, rfl, hrows, rfl⟩
  wstep
  refine .intro (fun hj => ?_) (fun hj => ?_)
  · have : j = n := by omega
    subst this
    exact hok (fun ⟨i, hi, h⟩ => hrows i hi h) _
  have hjn : j < n := by omega
  have hb : leNat (putLe σ.mem p (4 * n) (A * leNat σ.mem p2 (4 * j))) (p2 + 4 * j) 4 =
      leNat σ.mem (p2 + 4 * j) 4 := leNat_putLe_disj (.inl (by omega))
  wstep
  rw [hb]
  have hb4 := leNat_lt4 σ.mem (p2 + 4 * j)
  have hbd := leNat_digit σ.mem p2 j n hjn
  have hb5 := leNat_step4 σ.mem p2 j
  set b := leNat σ.mem (p2 + 4 * j) 4 with hbdef
  set Bj := leNat σ.mem p2 (4 * j) with hBj
  refine wp_loop (fun m' l σ' => ∃ i a cm cs pm ps V, m' + i + j = n ∧
    l = [p1, p2, 4 * n, p, a, b, 4 * i, 4 * j, cm, cs, pm, ps, 0] ∧
    cm = b * leNat σ.mem p1 (4 * i) / 256 ^ (4 * i) ∧ cs ≤ 4294967295 ∧
    V + 256 ^ (4 * (i + j)) * (cm + cs) =
      A * Bj % 256 ^ (4 * n) + 256 ^ (4 * j) * (b * leNat σ.mem p1 (4 * i)) ∧
    σ' = σ.setMem (putLe σ.mem p (4 * n) V)) (n - j)
    ⟨0, _, _, _, _, _, A * Bj % 256 ^ (4 * n), by omega, rfl, by simp [leNat], by omega,
      by simp [leNat], ?_⟩ ?_
  · congr 1; apply putLe_congr; rw [Nat.mod_mod]
  rintro m' l σ' ⟨i, a, cm, cs, pm, ps, V, hm', rfl, hcm, hcs, hV, rfl⟩
  wstep
  have hPi : 0 < 256 ^ (4 * i) := by positivity
  have hAi := leNat_lt σ.mem p1 (4 * i)
  refine .intro (fun hij => .intro (fun hne => ?_) (fun heq => ?_)) (fun hij => ?_)
  · -- overflow detected
    refine herr ⟨j, hjn, ?_⟩ _
    have hin : i = n - j := by omega
    rw [← hbd, ← hin, ← leNat_low _ _ _ _ (by omega)]
    by_contra hlt
    exact hne (by rw [hcm, Nat.div_eq_of_lt (by omega)])
  · -- end of row
    have hin : i = n - j := by omega
    have hcm0 : cm = 0 := by omega
    refine ⟨m - 1, by omega, j + 1, a, b, 4 * i, cm, cs, pm, ps, by omega, ?_, ?_, ?_⟩
    · locs
    · intro i' hi'
      by_cases h : i' = j
      · subst h
        rw [hB, show (4294967296 : Nat) = 256 ^ 4 by rfl, ← hbd, ← hin, hA,
          ← leNat_low _ _ _ _ (by omega)]
        intro hle
        have := Nat.div_pos hle hPi
        omega
      · exact hrows i' (by omega)
    · congr 1; apply putLe_congr
      rw [hb5, Nat.mul_add]
      have hijn : i + j = n := by omega
      rw [hijn] at hV
      have hl : A * (256 ^ (4 * j) * b) = 256 ^ (4 * j) * (b * leNat σ.mem p1 (4 * i)) +
          256 ^ (4 * n) * (b * leNat σ.mem (p1 + 4 * i) (4 * n - 4 * i)) := by
        rw [hA, leNat_split σ.mem p1 (4 * n) (4 * i) (by omega),
          show 256 ^ (4 * n) = 256 ^ (4 * i) * 256 ^ (4 * j) by rw [← Nat.pow_add]; congr 1; omega]
        ring
      have h4 : V % 256 ^ (4 * n) = (V + 256 ^ (4 * n) * (cm + cs)) % 256 ^ (4 * n) := by
        rw [Nat.add_mul_mod_self_left]
      rw [h4, hV, hl, ← Nat.add_assoc, Nat.add_mul_mod_self_left, Nat.mod_add_mod]
  · -- one digit
    have hin : i + j < n := by omega
    wstep
    have hra : leNat (putLe σ.mem p (4 * n) V) (p1 + 4 * i) 4 = leNat σ.mem (p1 + 4 * i) 4 :=
      leNat_putLe_disj (.inl (by omega))
    have hrp : leNat (putLe σ.mem p (4 * n) V) (4 * i + 4 * j + p) 4 =
        V / 256 ^ (4 * (i + j)) % 4294967296 := by
      rw [leNat_putLe_in (by omega) (by omega)]
      congr 3; omega
    rw [hra, hrp]
    have hx := leNat_lt4 σ.mem (p1 + 4 * i)
    have hs4 := leNat_step4 σ.mem p1 i
    set x := leNat σ.mem (p1 + 4 * i) 4 with hxdef
    set d := V / 256 ^ (4 * (i + j)) % 4294967296 with hd
    have hd4 : d < 4294967296 := Nat.mod_lt _ (by decide)
    have hxb : x * b ≤ 4294967295 * 4294967295 := Nat.mul_le_mul (by omega) (by omega)
    have hcmle : cm ≤ 4294967295 := by
      rw [hcm]
      refine Nat.le_trans (Nat.div_le_of_le_mul (m := b * leNat σ.mem p1 (4 * i)) (k := 256 ^ (4 * i))
        (n := b) ?_) (by omega)
      rw [Nat.mul_comm]; exact Nat.mul_le_mul_right _ (by omega)
    rw [Nat.mod_eq_of_lt (show x * b < 18446744073709551616 by omega),
      Nat.mod_eq_of_lt (show x * b + cm < 18446744073709551616 by omega)]
    have hand : ∀ y : Nat, y &&& 4294967295 = y % 4294967296 :=
      fun y => Nat.and_two_pow_sub_one_eq_mod y 32
    simp only [hand]
    have hlow : (x * b + cm) % 4294967296 < 4294967296 := Nat.mod_lt _ (by decide)
    rw [Nat.mod_eq_of_lt (show (x * b + cm) % 4294967296 + d < 18446744073709551616 by omega),
      Nat.mod_eq_of_lt (show (x * b + cm) % 4294967296 + d + cs < 18446744073709551616 by omega)]
    have e256 : 256 ^ (4 * (i + j + 1)) = 256 ^ (4 * (i + j)) * 4294967296 := by
      rw [show 4 * (i + j + 1) = 4 * (i + j) + 4 by ring, Nat.pow_add]
    have key := mul_step (a := x) (b := b) hV
    have hpos : 4 * i + 4 * j + p = p + 4 * (i + j) := by omega
    rw [hpos, putLe_update (by omega)]
    refine ⟨m' - 1, by omega, i + 1, _, _, _, _, _, _, by omega, consE rfl <| consE rfl <|
      consE rfl <| consE rfl <| consE rfl <| consE rfl <| consE (by omega) rfl, ?_, ?_, ?_, rfl⟩
    · rw [hs4, show 256 ^ (4 * (i + 1)) = 256 ^ (4 * i) * 4294967296 by
        rw [show 4 * (i + 1) = 4 * i + 4 by ring, Nat.pow_add], ← Nat.div_div_eq_div_mul, hcm,
        show b * (leNat σ.mem p1 (4 * i) + 256 ^ (4 * i) * x) =
          b * leNat σ.mem p1 (4 * i) + 256 ^ (4 * i) * (x * b) by ring,
        Nat.add_mul_div_left _ _ hPi, Nat.add_comm]
    · omega
    · rw [show i + 1 + j = i + j + 1 by ring, e256, Nat.mod_mod, hs4]
      refine Eq.trans ?_ (key.trans ?_)
      · rw [show 4 * (i + j) + 4 = 4 * (i + j + 1) by ring, e256]
      · rw [show 256 ^ (4 * (i + j)) = 256 ^ (4 * i) * 256 ^ (4 * j) by
          rw [← Nat.pow_add]; congr 1; ring]
        ring

end Rt
