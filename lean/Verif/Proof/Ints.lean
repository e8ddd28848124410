import Verif.Tac
import Verif.Rt.Ints
import Verif.Spec
import Mathlib.Tactic.Positivity
import Mathlib.Tactic.Set

/-! Proofs about the integer operations on registers. -/

namespace Rt
open Wasm

variable (E : ErrPtrs) {a b : Nat} {σ : Store}

theorem Checked.some {f args σ p v o} (h : o = some v) (h' : Evaluates f args σ v) :
    Checked f args σ p o := by subst h; exact h'
theorem Checked.none {f args σ p o} (h : o = none) (h' : AbortsWith f args σ p) :
    Checked f args σ p o := by subst h; exact h'

theorem addU32_spec (ha : a < 2 ^ 32) (hb : b < 2 ^ 32) (hs : 65536 ≤ σ.size) :
    Checked (addU32 E) [a, b] σ (E .overflow) (Spec.add 32 a b) := by
  unfold Spec.add
  split_ifs with h <;> unfold Checked Evaluates AbortsWith addU32 <;> unerr <;> wstep

theorem addU64_spec (ha : a < 2 ^ 64) (hb : b < 2 ^ 64) (hs : 65536 ≤ σ.size) :
    Checked (addU64 E) [a, b] σ (E .overflow) (Spec.add 64 a b) := by
  unfold Spec.add
  split_ifs with h <;> unfold Checked Evaluates AbortsWith addU64 <;> unerr <;> wstep

theorem subU32_spec (ha : a < 2 ^ 32) (hs : 65536 ≤ σ.size) :
    Checked (subU32 E) [a, b] σ (E .overflow) (Spec.sub a b) := by
  unfold Spec.sub
  split_ifs with h <;> unfold Checked Evaluates AbortsWith subU32 <;> unerr <;> wstep

theorem subU64_spec (ha : a < 2 ^ 64) (hs : 65536 ≤ σ.size) :
    Checked (subU64 E) [a, b] σ (E .overflow) (Spec.sub a b) := by
  unfold Spec.sub
  split_ifs with h <;> unfold Checked Evaluates AbortsWith subU64 <;> unerr <;> wstep

theorem mulU32_spec (hb : b < 2 ^ 32) (hs : 65536 ≤ σ.size) :
    Checked (mulU32 E) [a, b] σ (E .overflow) (Spec.mul 32 a b) := by
  unfold Spec.mul
  by_cases hb0 : b = 0
  · subst hb0
    simp only [Nat.mul_zero]
    rw [if_pos (by omega)]
    unfold Checked Evaluates mulU32
    wstep
  · have hdiv : 4294967295 / b < a ↔ 2 ^ 32 ≤ a * b := by
      rw [Nat.div_lt_iff_lt_mul (by omega)]; omega
    split_ifs with h <;> unfold Checked Evaluates AbortsWith mulU32 <;> unerr <;> wstep

theorem mulU64_spec (hb : b < 2 ^ 64) (hs : 65536 ≤ σ.size) :
    Checked (mulU64 E) [a, b] σ (E .overflow) (Spec.mul 64 a b) := by
  unfold Spec.mul
  by_cases hb0 : b = 0
  · subst hb0
    simp only [Nat.mul_zero]
    rw [if_pos (by omega)]
    unfold Checked Evaluates mulU64
    wstep
  · have hdiv : 18446744073709551615 / b < a ↔ 2 ^ 64 ≤ a * b := by
      rw [Nat.div_lt_iff_lt_mul (by omega)]; omega
    split_ifs with h <;> unfold Checked Evaluates AbortsWith mulU64 <;> unerr <;> wstep

theorem checkOverflow_spec (hs : 65536 ≤ σ.size) :
    Checked (checkOverflow E) [a, b] σ (E .overflow) (if a ≤ b then some a else none) := by
  split_ifs with h <;> unfold Checked Evaluates AbortsWith checkOverflow <;> unerr <;> wstep

theorem checkOverflow_le (hs : 65536 ≤ σ.size) (h : a ≤ b) :
    Checked (checkOverflow E) [a, b] σ (E .overflow) (some a) := by
  have := checkOverflow_spec E (a := a) (b := b) hs
  rwa [if_pos h] at this

theorem checkOverflow_gt (hs : 65536 ≤ σ.size) (h : b < a) :
    Checked (checkOverflow E) [a, b] σ (E .overflow) none := by
  have := checkOverflow_spec E (a := a) (b := b) hs
  rwa [if_neg (by omega)] at this

theorem downcast64to32_spec (ha : a < 2 ^ 64) (hs : 65536 ≤ σ.size) :
    Checked (downcast64to32 E) [a] σ (E .outOfBounds) (Spec.cast 32 a) := by
  unfold Spec.cast
  split_ifs with h <;> unfold Checked Evaluates AbortsWith downcast64to32 <;> unerr <;> wstep

/-! ## Casts from u128 and u256 -/

theorem downcastHeap32_spec {p k : Nat} (hσ : 65536 ≤ σ.size) (hs : σ.size < 2 ^ 32)
    (hk : 2 ≤ k) (hp : p + 4 * k ≤ σ.size) :
    Checked (downcastHeap32 E) [p, 4 * k] σ (E .outOfBounds)
      (Spec.cast 32 (leNat σ.mem p (4 * k))) := by
  have hk32 : 4 * k ≤ 2 ^ 32 := by omega
  have hsplit := leNat_split σ.mem p (4 * k) 4 (by omega)
  have hlt := leNat_lt4 σ.mem p
  set hi := leNat σ.mem (p + 4) (4 * k - 4) with hhi
  have hcast : Spec.cast 32 (leNat σ.mem p (4 * k)) =
      if hi = 0 then some (leNat σ.mem p 4) else none := by
    unfold Spec.cast
    by_cases h0 : hi = 0
    · rw [if_pos (by omega), if_pos h0]; apply some1; omega
    · rw [if_neg (by omega), if_neg h0]
  rw [hcast]
  have main : ∀ (Q : Res → Prop),
      (hi = 0 → ∀ l, Q (.ok [leNat σ.mem p 4] l σ)) →
      (hi ≠ 0 → Q (.ret [badF00d] (errStore σ (E .outOfBounds)))) →
      wp (downcastHeap32 E).body [] [p, 4 * k, 0, 0] σ Q := by
    intro Q hok herr
    unfold downcastHeap32
    unerr
    wstep
    refine wp_loop (fun m l σ' => ∃ j, m + j = k ∧ 1 ≤ j ∧ j < k ∧ σ' = σ ∧
      l = [p, 4 * k, 4 * j, 0] ∧ leNat σ.mem (p + 4) (4 * j - 4) = 0) (k - 1)
      ⟨1, by omega, by omega, by omega, rfl, by simp, by simp [leNat]⟩ ?_
    rintro m l σ' ⟨j, hm, hj1, hjk, rfl, rfl, hz⟩
    wstep
    have hstep : leNat σ'.mem (p + 4) (4 * (j + 1) - 4) =
        256 ^ (4 * j - 4) * leNat σ'.mem (p + 4 * j) 4 := by
      rw [leNat_split _ _ _ (4 * j - 4) (by omega), hz]
      rw [show p + 4 + (4 * j - 4) = p + 4 * j by omega,
        show 4 * (j + 1) - 4 - (4 * j - 4) = 4 by omega]; omega
    refine .intro (fun h1 => .intro (fun h2 => ?_) (fun h2 => ?_)) (fun h1 => ?_)
    · have hjk' : j + 1 = k := by omega
      refine hok ?_ _
      rw [hhi, ← hjk', hstep, h1, Nat.mul_zero]
    · refine ⟨m - 1, by omega, j + 1, by omega, by omega, by omega, ?_, ?_⟩
      · congr 3; omega
      · rw [hstep, h1, Nat.mul_zero]
    · apply herr
      rw [hhi, leNat_split _ _ _ (4 * (j + 1) - 4) (by omega), hstep]
      have : 0 < 256 ^ (4 * j - 4) := by positivity
      have := Nat.mul_pos this (Nat.pos_of_ne_zero h1)
      omega
  by_cases h0 : hi = 0
  · rw [if_pos h0]
    exact ⟨rfl, main _ (fun _ l => ⟨rfl, rfl⟩) (fun h => absurd h0 h)⟩
  · rw [if_neg h0]
    exact ⟨rfl, main _ (fun h => absurd h h0) (fun _ => rfl)⟩

theorem downcastHeap64_spec {p k : Nat} (hσ : 65536 ≤ σ.size) (hs : σ.size < 2 ^ 32)
    (hk : 2 ≤ k) (hp : p + 8 * k ≤ σ.size) :
    Checked (downcastHeap64 E) [p, 8 * k] σ (E .outOfBounds)
      (Spec.cast 64 (leNat σ.mem p (8 * k))) := by
  have hk32 : 8 * k ≤ 2 ^ 32 := by omega
  have hsplit := leNat_split σ.mem p (8 * k) 8 (by omega)
  have hlt := leNat_lt8 σ.mem p
  set hi := leNat σ.mem (p + 8) (8 * k - 8) with hhi
  have hcast : Spec.cast 64 (leNat σ.mem p (8 * k)) =
      if hi = 0 then some (leNat σ.mem p 8) else none := by
    unfold Spec.cast
    by_cases h0 : hi = 0
    · rw [if_pos (by omega), if_pos h0]; apply some1; omega
    · rw [if_neg (by omega), if_neg h0]
  rw [hcast]
  have main : ∀ (Q : Res → Prop),
      (hi = 0 → ∀ l, Q (.ok [leNat σ.mem p 8] l σ)) →
      (hi ≠ 0 → Q (.ret [badF00d] (errStore σ (E .outOfBounds)))) →
      wp (downcastHeap64 E).body [] [p, 8 * k, 0, 0] σ Q := by
    intro Q hok herr
    unfold downcastHeap64
    unerr
    wstep
    refine wp_loop (fun m l σ' => ∃ j, m + j = k ∧ 1 ≤ j ∧ j < k ∧ σ' = σ ∧
      l = [p, 8 * k, 8 * j, 0] ∧ leNat σ.mem (p + 8) (8 * j - 8) = 0) (k - 1)
      ⟨1, by omega, by omega, by omega, rfl, by simp, by simp [leNat]⟩ ?_
    rintro m l σ' ⟨j, hm, hj1, hjk, rfl, rfl, hz⟩
    wstep
    have hstep : leNat σ'.mem (p + 8) (8 * (j + 1) - 8) =
        256 ^ (8 * j - 8) * leNat σ'.mem (p + 8 * j) 8 := by
      rw [leNat_split _ _ _ (8 * j - 8) (by omega), hz]
      rw [show p + 8 + (8 * j - 8) = p + 8 * j by omega,
        show 8 * (j + 1) - 8 - (8 * j - 8) = 8 by omega]; omega
    refine .intro (fun h1 => .intro (fun h2 => ?_) (fun h2 => ?_)) (fun h1 => ?_)
    · have hjk' : j + 1 = k := by omega
      refine hok ?_ _
      rw [hhi, ← hjk', hstep, h1, Nat.mul_zero]
    · refine ⟨m - 1, by omega, j + 1, by omega, by omega, by omega, ?_, ?_⟩
      · congr 3; omega
      · rw [hstep, h1, Nat.mul_zero]
    · apply herr
      rw [hhi, leNat_split _ _ _ (8 * (j + 1) - 8) (by omega), hstep]
      have : 0 < 256 ^ (8 * j - 8) := by positivity
      have := Nat.mul_pos this (Nat.pos_of_ne_zero h1)
      omega
  by_cases h0 : hi = 0
  · rw [if_pos h0]
    exact ⟨rfl, main _ (fun _ l => ⟨rfl, rfl⟩) (fun h => absurd h0 h)⟩
  · rw [if_neg h0]
    exact ⟨rfl, main _ (fun h => absurd h h0) (fun _ => rfl)⟩

/-! ## Operators as seen by Move code -/

/-- Finishes a goal about a checked call at the end of a function. -/
theorem binFn_checked {f : Fn} {ty p} {o : Option Nat}
    (h : Checked f [a, b] σ p o) (hσ : Ready σ) (hp : 0 < p ∧ p < 2 ^ 32) :
    Checked (binFn (callF f ty)) [a, b] σ p o := by
  cases o with
  | some v =>
    unfold Checked Evaluates binFn callF
    wstep
    exact wp_checked2 h hσ hp (by wstep)
  | none =>
    unfold Checked AbortsWith binFn callF
    wstep
    refine wp_checked2 h hσ hp ?_
    show retK _ _ _
    wstep

/-- Same, when the operands are first combined into one and compared with a maximum. -/
theorem binFn_check {o : BinOp} {c m : Nat} (hσ : Ready σ) (hE : E.Valid) {ty}
    (hc : o.eval .w32 a b = some c) (hm : m < 2 ^ 32) :
    Checked (binFn (([Op.bin .w32 o, Op.c32 m] : List Instr) ++ callF (checkOverflow E) ty))
      [a, b] σ (E .overflow) (if c ≤ m then some c else none) := by
  have hck := checkOverflow_spec E (a := c) (b := m) hσ.size
  cases ho : (if c ≤ m then some c else none) with
  | some v =>
    rw [ho] at hck
    unfold Checked Evaluates binFn callF
    wstep
    rw [wp_op]; simp only [Op.exec, hc]
    wstep
    exact wp_checked2 hck hσ (hE _) (by wstep)
  | none =>
    rw [ho] at hck
    unfold Checked AbortsWith binFn callF
    wstep
    rw [wp_op]; simp only [Op.exec, hc]
    wstep
    refine wp_checked2 hck hσ (hE _) ?_
    show retK _ _ _
    wstep

theorem intAdd_spec (t : RegInt) (hE : E.Valid) (hσ : Ready σ) (ha : a < 2 ^ t.bits)
    (hb : b < 2 ^ t.bits) :
    Checked (binFn (intAdd E t t.ret)) [a, b] σ (E .overflow) (Spec.add t.bits a b) := by
  have h8 : ∀ m, m < 2 ^ 16 → a ≤ m → b ≤ m →
      BinOp.eval .w32 a b .add = some (a + b) := by
    intro m hm h1 h2; simp only [BinOp.eval, W.mod]; apply some1; omega
  cases t <;> simp only [RegInt.bits] at ha hb <;> unfold intAdd
  · have := binFn_check E (ty := .i32) hσ hE (h8 255 (by omega) (by omega) (by omega))
      (m := RegInt.u8.maxVal) (by decide)
    have e : Spec.add 8 a b = if a + b ≤ 255 then some (a + b) else none := by
      unfold Spec.add; congr 1; apply propext; omega
    show Checked _ _ _ _ (Spec.add 8 a b)
    rw [e]; exact this
  · have := binFn_check E (ty := .i32) hσ hE (h8 65535 (by omega) (by omega) (by omega))
      (m := RegInt.u16.maxVal) (by decide)
    have e : Spec.add 16 a b = if a + b ≤ 65535 then some (a + b) else none := by
      unfold Spec.add; congr 1; apply propext; omega
    show Checked _ _ _ _ (Spec.add 16 a b)
    rw [e]; exact this
  · exact binFn_checked (addU32_spec E ha hb hσ.size) hσ (hE _)
  · exact binFn_checked (addU64_spec E ha hb hσ.size) hσ (hE _)

theorem intSub_spec (t : RegInt) (hE : E.Valid) (hσ : Ready σ) (ha : a < 2 ^ t.bits)
    (hb : b < 2 ^ t.bits) :
    Checked (binFn (intSub E t t.ret)) [a, b] σ (E .overflow) (Spec.sub a b) := by
  cases t <;> simp only [RegInt.bits] at ha hb <;> unfold intSub
  · exact binFn_checked (subU32_spec E (by omega) hσ.size) hσ (hE _)
  · exact binFn_checked (subU32_spec E (by omega) hσ.size) hσ (hE _)
  · exact binFn_checked (subU32_spec E ha hσ.size) hσ (hE _)
  · exact binFn_checked (subU64_spec E ha hσ.size) hσ (hE _)

theorem intMul_spec (t : RegInt) (hE : E.Valid) (hσ : Ready σ) (ha : a < 2 ^ t.bits)
    (hb : b < 2 ^ t.bits) :
    Checked (binFn (intMul E t t.ret)) [a, b] σ (E .overflow) (Spec.mul t.bits a b) := by
  have h8 : ∀ m, m < 2 ^ 16 → a ≤ m → b ≤ m →
      BinOp.eval .w32 a b .mul = some (a * b) := by
    intro m hm h1 h2; simp only [BinOp.eval, W.mod]; apply some1
    have : a * b ≤ 65535 * 65535 := Nat.mul_le_mul (by omega) (by omega)
    omega
  cases t <;> simp only [RegInt.bits] at ha hb <;> unfold intMul
  · have := binFn_check E (ty := .i32) hσ hE (h8 255 (by omega) (by omega) (by omega))
      (m := RegInt.u8.maxVal) (by decide)
    have e : Spec.mul 8 a b = if a * b ≤ 255 then some (a * b) else none := by
      unfold Spec.mul; congr 1; apply propext; omega
    show Checked _ _ _ _ (Spec.mul 8 a b)
    rw [e]; exact this
  · have := binFn_check E (ty := .i32) hσ hE (h8 65535 (by omega) (by omega) (by omega))
      (m := RegInt.u16.maxVal) (by decide)
    have e : Spec.mul 16 a b = if a * b ≤ 65535 then some (a * b) else none := by
      unfold Spec.mul; congr 1; apply propext; omega
    show Checked _ _ _ _ (Spec.mul 16 a b)
    rw [e]; exact this
  · exact binFn_checked (mulU32_spec E hb hσ.size) hσ (hE _)
  · exact binFn_checked (mulU64_spec E hb hσ.size) hσ (hE _)

/-- A checked unary operation at the end of a function. -/
theorem wp_checked_end {f : Fn} {ty args p} {o : Option Nat} {n : Nat} {l : List Nat}
    (h : Checked f args σ p o) (hσ : Ready σ) (hp : 0 < p ∧ p < 2 ^ 32) :
    match o with
    | some v => wp (f.call :: propagate ty :: []) (args.reverse ++ []) l σ
        (retK 1 (fun r σ' => r = [v] ∧ σ' = σ))
    | none => wp (f.call :: propagate ty :: []) (args.reverse ++ []) l σ
        (retK n (fun _ σ' => σ' = errStore σ p)) := by
  cases o with
  | some v => exact wp_checked h hσ hp (by wstep)
  | none =>
    refine wp_checked h hσ hp ?_
    show retK _ _ _
    wstep

/-- Division and remainder (`none` is a trap). -/
def Trapping (f : Fn) (args : List Nat) (σ : Store) : Option Nat → Prop
  | some v => Evaluates f args σ v
  | none => f.Traps args σ

theorem intDiv_spec (t : RegInt) :
    Trapping (binFn (intDiv t)) [a, b] σ (Spec.div a b) := by
  unfold Spec.div
  split_ifs with h
  · refine ⟨rfl, ?_⟩
    unfold binFn intDiv
    wstep
    rw [wp_op]; simp [Op.exec, BinOp.eval, h]
  · unfold Trapping Evaluates binFn intDiv
    wstep

theorem intRem_spec (t : RegInt) :
    Trapping (binFn (intRem t)) [a, b] σ (Spec.rem a b) := by
  unfold Spec.rem
  split_ifs with h
  · refine ⟨rfl, ?_⟩
    unfold binFn intRem
    wstep
    rw [wp_op]; simp [Op.exec, BinOp.eval, h]
  · unfold Trapping Evaluates binFn intRem
    wstep

theorem land_255 (x : Nat) : x &&& 255 = x % 256 := Nat.and_two_pow_sub_one_eq_mod x 8
theorem land_65535 (x : Nat) : x &&& 65535 = x % 65536 := Nat.and_two_pow_sub_one_eq_mod x 16

theorem intShl_spec (t : RegInt) (hE : E.Valid) (hσ : Ready σ) (hb : b < 2 ^ 8) :
    Checked (binFn (intShl E t t.ret)) [a, b] σ (E .overflow) (Spec.shl t.bits a b) := by
  unfold Spec.shl
  cases t
  all_goals
    unfold RegInt.bits
    dsimp only
    split_ifs with h
    · have hck := fun m => checkOverflow_le E (a := b) (b := m) hσ.size
      unfold Checked Evaluates binFn intShl callF
      simp only [RegInt.bits]
      wstep
      refine wp_checked2 (hck _ (by omega)) hσ (hE _) ?_
      wstep
      try (simp only [land_255, land_65535]; apply list1; generalize a * 2 ^ b = x; omega)
    · have hck := fun m => checkOverflow_gt E (a := b) (b := m) hσ.size
      unfold Checked AbortsWith binFn intShl callF
      simp only [RegInt.bits]
      wstep
      refine wp_checked2 (hck _ (by omega)) hσ (hE _) ?_
      show retK _ _ _
      wstep

theorem intShr_spec (t : RegInt) (hE : E.Valid) (hσ : Ready σ) (hb : b < 2 ^ 8) :
    Checked (binFn (intShr E t t.ret)) [a, b] σ (E .overflow) (Spec.shr t.bits a b) := by
  unfold Spec.shr
  cases t
  all_goals
    unfold RegInt.bits
    dsimp only
    split_ifs with h
    · have hck := fun m => checkOverflow_le E (a := b) (b := m) hσ.size
      unfold Checked Evaluates binFn intShr callF
      simp only [RegInt.bits]
      wstep
      refine wp_checked2 (hck _ (by omega)) hσ (hE _) ?_
      wstep
    · have hck := fun m => checkOverflow_gt E (a := b) (b := m) hσ.size
      unfold Checked AbortsWith binFn intShr callF
      simp only [RegInt.bits]
      wstep
      refine wp_checked2 (hck _ (by omega)) hσ (hE _) ?_
      show retK _ _ _
      wstep

theorem bind_none' {o : Option Nat} : (o.bind fun _ => (Option.none : Option Nat)) = Option.none := by
  cases o <;> rfl

/-- Casts to `dst` succeed exactly when the value fits.  Here: all source types except the
combinations u64 → u8 and u64 → u16, which are wrong in the code (see `Verif.Props.Casts`). -/
theorem castReg_spec (dst src : RegInt) (hE : E.Valid) (hσ : Ready σ) (ha : a < 2 ^ src.bits)
    (hok : ¬ (src = .u64 ∧ (dst = .u8 ∨ dst = .u16))) :
    ∃ e, Checked (unFn (intCast E dst (.reg src) dst.ret)) [a] σ (E e) (Spec.cast dst.bits a) := by
  have nop : ∀ {w : Nat} {code : List Instr} {e}, a < 2 ^ w → (code = [] ∨ code = [Instr.op (Op.un .extend)]) →
      Checked (unFn code) [a] σ (E e) (Spec.cast w a) := by
    intro w code e h hc
    refine Checked.some (v := a) (by unfold Spec.cast; rw [if_pos h]) ?_
    rcases hc with rfl | rfl <;> unfold Evaluates unFn <;> wstep
  have chk : ∀ {w : Nat} {ty : RetTy} {m : Nat}, m + 1 = 2 ^ w → m < 2 ^ 32 →
      Checked (unFn (([Op.c32 m] : List Instr) ++ callF (checkOverflow E) ty)) [a] σ
        (E .overflow) (Spec.cast w a) := by
    intro w ty m hm hm32
    unfold Spec.cast
    split_ifs with h
    · unfold Checked Evaluates unFn callF
      wstep
      exact wp_checked2 (checkOverflow_le E hσ.size (by omega)) hσ (hE _) (by wstep)
    · unfold Checked AbortsWith unFn callF
      wstep
      refine wp_checked2 (checkOverflow_gt E hσ.size (by omega)) hσ (hE _) ?_
      show retK _ _ _
      wstep
  cases dst <;> cases src <;> unfold intCast <;> dsimp only [RegInt.bits] at ha ⊢
  case u8.u8 => exact ⟨.overflow, chk (by norm_num) (by norm_num)⟩
  case u8.u16 => exact ⟨.overflow, chk (by norm_num) (by norm_num)⟩
  case u8.u32 => exact ⟨.overflow, chk (by norm_num) (by norm_num)⟩
  case u8.u64 => simp at hok
  case u16.u8 => exact ⟨.overflow, nop (by omega) (.inl rfl)⟩
  case u16.u16 => exact ⟨.overflow, nop (by omega) (.inl rfl)⟩
  case u16.u32 => exact ⟨.overflow, chk (by norm_num) (by norm_num)⟩
  case u16.u64 => simp at hok
  case u32.u8 => exact ⟨.overflow, nop (by omega) (.inl rfl)⟩
  case u32.u16 => exact ⟨.overflow, nop (by omega) (.inl rfl)⟩
  case u32.u32 => exact ⟨.overflow, nop (by omega) (.inl rfl)⟩
  case u32.u64 =>
    refine ⟨.outOfBounds, ?_⟩
    have h := downcast64to32_spec E ha hσ.size
    cases ho : Spec.cast 32 a with
    | some v =>
      rw [ho] at h
      unfold Checked Evaluates unFn callF
      wstep
      exact wp_checked1 h hσ (hE _) (by wstep)
    | none =>
      rw [ho] at h
      unfold Checked AbortsWith unFn callF
      wstep
      refine wp_checked1 h hσ (hE _) ?_
      show retK _ _ _
      wstep
  case u64.u8 => exact ⟨.overflow, nop (by omega) (.inr rfl)⟩
  case u64.u16 => exact ⟨.overflow, nop (by omega) (.inr rfl)⟩
  case u64.u32 => exact ⟨.overflow, nop (by omega) (.inr rfl)⟩
  case u64.u64 => exact ⟨.overflow, nop (by omega) (.inl rfl)⟩

/-- Casts of u128 and u256 values (given by pointer) to the register types. -/
theorem castHeap_spec (dst : RegInt) (src : IntTy) {p n : Nat} (hE : E.Valid) (hσ : Ready σ)
    (hsrc : src = .u128 ∧ n = 16 ∨ src = .u256 ∧ n = 32) (hp : p + n ≤ σ.size) :
    ∃ e, Checked (unFn (intCast E dst src dst.ret)) [p] σ (E e)
      (Spec.cast dst.bits (leNat σ.mem p n)) := by
  obtain ⟨k, hk, hk2⟩ : ∃ k, n = 8 * k ∧ 2 ≤ k := by
    rcases hsrc with ⟨-, rfl⟩ | ⟨-, rfl⟩
    · exact ⟨2, by omega⟩
    · exact ⟨4, by omega⟩
  have h32 : Checked (downcastHeap32 E) [p, n] σ (E .outOfBounds)
      (Spec.cast 32 (leNat σ.mem p n)) := by
    have := downcastHeap32_spec E (p := p) (k := 2 * k) hσ.size hσ.size_lt (by omega) (by omega)
    rwa [show 4 * (2 * k) = n by omega] at this
  have h64 : Checked (downcastHeap64 E) [p, n] σ (E .outOfBounds)
      (Spec.cast 64 (leNat σ.mem p n)) := by
    have := downcastHeap64_spec E (p := p) (k := k) hσ.size hσ.size_lt (by omega) (by omega)
    rwa [show 8 * k = n by omega] at this
  generalize leNat σ.mem p n = v at h32 h64 ⊢
  have one : ∀ {f : Fn} {w : Nat} {ty}, Checked f [p, n] σ (E .outOfBounds) (Spec.cast w v) →
      Checked (unFn (([Op.c32 n] : List Instr) ++ callF f ty)) [p] σ (E .outOfBounds)
        (Spec.cast w v) := by
    intro f w ty h
    cases ho : Spec.cast w v with
    | some v =>
      rw [ho] at h
      unfold Checked Evaluates unFn callF
      wstep
      exact wp_checked2 h hσ (hE _) (by wstep)
    | none =>
      rw [ho] at h
      unfold Checked AbortsWith unFn callF
      wstep
      refine wp_checked2 h hσ (hE _) ?_
      show retK _ _ _
      wstep
  have two : ∀ {w m : Nat} {ty}, m + 1 = 2 ^ w → m < 2 ^ 32 → ∃ e,
      Checked (unFn (([Op.c32 n] : List Instr) ++ callF (downcastHeap32 E) ty ++
        ([Op.c32 m] : List Instr) ++ callF (checkOverflow E) ty)) [p] σ (E e)
        (Spec.cast w v) := by
    intro w m ty hm hm32
    by_cases h1 : v < 2 ^ 32
    · refine ⟨.overflow, ?_⟩
      have h := h32
      rw [show Spec.cast 32 v = some v by unfold Spec.cast; rw [if_pos h1]] at h
      unfold Spec.cast
      split_ifs with h2
      · unfold Checked Evaluates unFn callF
        wstep
        refine wp_checked2 h hσ (hE _) ?_
        wstep
        exact wp_checked2 (checkOverflow_le E hσ.size (by omega)) hσ (hE _) (by wstep)
      · unfold Checked AbortsWith unFn callF
        wstep
        refine wp_checked2 h hσ (hE _) ?_
        wstep
        refine wp_checked2 (checkOverflow_gt E hσ.size (by omega)) hσ (hE _) ?_
        show retK _ _ _
        wstep
    · refine ⟨.outOfBounds, ?_⟩
      have h := h32
      rw [show Spec.cast 32 v = none by unfold Spec.cast; rw [if_neg h1]] at h
      refine Checked.none (by unfold Spec.cast; rw [if_neg (by omega)]) ?_
      unfold AbortsWith unFn callF
      wstep
      refine wp_checked2 h hσ (hE _) ?_
      show retK _ _ _
      wstep
  rcases hsrc with ⟨rfl, rfl⟩ | ⟨rfl, rfl⟩ <;> cases dst <;> unfold intCast <;>
    dsimp only [RegInt.bits]
  · exact two (by norm_num) (by norm_num)
  · exact two (by norm_num) (by norm_num)
  · exact ⟨_, one h32⟩
  · exact ⟨_, one h64⟩
  · exact two (by norm_num) (by norm_num)
  · exact two (by norm_num) (by norm_num)
  · exact ⟨_, one h32⟩
  · exact ⟨_, one h64⟩

end Rt
