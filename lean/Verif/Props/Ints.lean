import Verif.Proof.Ints
import Verif.Props.Base

/-!
# C01-C04, C10, C13, C14: integers held in registers

`binFn code` is a compiled Move function of two parameters whose body is the operator;
`Checked f args σ p o` says: the call returns `v` and changes nothing when `o = some v`, and
raises the runtime error at `p` (changing nothing but the error word) when `o = none`.
-/

namespace Props
open Wasm Rt

variable {E : ErrPtrs} {σ : Store} {a b : Nat}

/-- **C01** Addition on u8 and u16. -/
theorem C01_add_u8_u16 (t : RegInt) (_ht : t = .u8 ∨ t = .u16) (hE : E.Valid) (hσ : Ready σ)
    (ha : a < 2 ^ t.bits) (hb : b < 2 ^ t.bits) :
    Checked (binFn (intAdd E t .i32)) [a, b] σ (E .overflow)
      (if a + b < 2 ^ t.bits then some (a + b) else none) := by
  have := intAdd_spec E t hE hσ ha hb
  rcases _ht with rfl | rfl <;> exact this

/-- **C01** Multiplication on u8 and u16. -/
theorem C01_mul_u8_u16 (t : RegInt) (_ht : t = .u8 ∨ t = .u16) (hE : E.Valid) (hσ : Ready σ)
    (ha : a < 2 ^ t.bits) (hb : b < 2 ^ t.bits) :
    Checked (binFn (intMul E t .i32)) [a, b] σ (E .overflow)
      (if a * b < 2 ^ t.bits then some (a * b) else none) := by
  have := intMul_spec E t hE hσ ha hb
  rcases _ht with rfl | rfl <;> exact this

example : Evaluates (binFn (intAdd E0 .u8 .i32)) [200, 55] store0 255 :=
  Checked.val (C01_add_u8_u16 (E := E0) .u8 (.inl rfl) E0_valid store0_ready (by decide) (by decide)) (by decide)
example : AbortsWith (binFn (intMul E0 .u16 .i32)) [256, 256] store0 468 :=
  Checked.err (p := E0 .overflow) (C01_mul_u8_u16 (E := E0) .u16 (.inr rfl) E0_valid store0_ready (by decide) (by decide)) (by decide)

/-- **C02** Addition on u32 and u64. -/
theorem C02_add_u32_u64 (t : RegInt) (_ht : t = .u32 ∨ t = .u64) (hE : E.Valid) (hσ : Ready σ)
    (ha : a < 2 ^ t.bits) (hb : b < 2 ^ t.bits) :
    Checked (binFn (intAdd E t t.ret)) [a, b] σ (E .overflow)
      (if a + b < 2 ^ t.bits then some (a + b) else none) :=
  intAdd_spec E t hE hσ ha hb

example : AbortsWith (binFn (intAdd E0 .u64 .i64)) [2 ^ 64 - 1, 1] store0 468 :=
  Checked.err (p := E0 .overflow) (C02_add_u32_u64 (E := E0) .u64 (.inr rfl) E0_valid store0_ready (by decide) (by decide)) (by decide)

/-- **C03** Subtraction on u8, u16, u32, u64. -/
theorem C03_sub (t : RegInt) (hE : E.Valid) (hσ : Ready σ)
    (ha : a < 2 ^ t.bits) (hb : b < 2 ^ t.bits) :
    Checked (binFn (intSub E t t.ret)) [a, b] σ (E .overflow)
      (if b ≤ a then some (a - b) else none) :=
  intSub_spec E t hE hσ ha hb

example : AbortsWith (binFn (intSub E0 .u8 .i32)) [3, 4] store0 468 :=
  Checked.err (p := E0 .overflow) (C03_sub (E := E0) .u8 E0_valid store0_ready (by decide) (by decide)) (by decide)

/-- **C04** Multiplication on u32 and u64. -/
theorem C04_mul_u32_u64 (t : RegInt) (_ht : t = .u32 ∨ t = .u64) (hE : E.Valid) (hσ : Ready σ)
    (ha : a < 2 ^ t.bits) (hb : b < 2 ^ t.bits) :
    Checked (binFn (intMul E t t.ret)) [a, b] σ (E .overflow)
      (if a * b < 2 ^ t.bits then some (a * b) else none) :=
  intMul_spec E t hE hσ ha hb

example : Evaluates (binFn (intMul E0 .u64 .i64)) [2 ^ 32, 2 ^ 31] store0 (2 ^ 63) :=
  Checked.val (C04_mul_u32_u64 (E := E0) .u64 (.inr rfl) E0_valid store0_ready (by decide) (by decide)) (by decide)

/-- **C10** Left shift: `a * 2^n` modulo the type, abort if `n` is at least the width. -/
theorem C10_shl (t : RegInt) {n : Nat} (hE : E.Valid) (hσ : Ready σ) (hn : n < 2 ^ 8) :
    Checked (binFn (intShl E t t.ret)) [a, n] σ (E .overflow)
      (if n < t.bits then some (a * 2 ^ n % 2 ^ t.bits) else none) :=
  intShl_spec E t hE hσ hn

/-- **C10** Right shift. -/
theorem C10_shr (t : RegInt) {n : Nat} (hE : E.Valid) (hσ : Ready σ) (hn : n < 2 ^ 8) :
    Checked (binFn (intShr E t t.ret)) [a, n] σ (E .overflow)
      (if n < t.bits then some (a / 2 ^ n) else none) :=
  intShr_spec E t hE hσ hn

example : Evaluates (binFn (intShl E0 .u8 .i32)) [0x81, 1] store0 2 :=
  Checked.val (C10_shl (E := E0) .u8 E0_valid store0_ready (by decide)) (by decide)
example : AbortsWith (binFn (intShr E0 .u16 .i32)) [5, 16] store0 468 :=
  Checked.err (p := E0 .overflow) (C10_shr (E := E0) .u16 E0_valid store0_ready (by decide)) (by decide)

/-- **C49** Division: the quotient for a non-zero divisor, a trap for zero. -/
theorem C49_div (t : RegInt) :
    Trapping (binFn (intDiv t)) [a, b] σ (if b = 0 then none else some (a / b)) :=
  intDiv_spec t

/-- **C49** Remainder. -/
theorem C49_rem (t : RegInt) :
    Trapping (binFn (intRem t)) [a, b] σ (if b = 0 then none else some (a % b)) :=
  intRem_spec t

example : (binFn (intDiv .u32)).Traps [7, 0] store0 :=
  C49_div (a := 7) (b := 0) .u32

/-! ## Casts

**C13** says that `x as T` never truncates silently.  This is false of the code for u64 → u8 and
u64 → u16 (below) and for u256 → u128 (`Verif.Props.HeapInts`); it is proved for all other
source/target combinations. -/

/-- **C13 (partial)** Casts between register types, except u64 → u8 and u64 → u16. -/
theorem C13_cast_reg_partial (dst src : RegInt)
    (hok : ¬ (src = .u64 ∧ (dst = .u8 ∨ dst = .u16)))
    (hE : E.Valid) (hσ : Ready σ) (ha : a < 2 ^ src.bits) :
    ∃ e, Checked (unFn (intCast E dst (.reg src) dst.ret)) [a] σ (E e)
      (if a < 2 ^ dst.bits then some a else none) :=
  castReg_spec E dst src hE hσ ha hok

/-- **C13** Casts from u128 (16 bytes at `p`) and u256 (32 bytes) to register types. -/
theorem C13_cast_heap (dst : RegInt) (src : IntTy) {p n : Nat}
    (hsrc : src = .u128 ∧ n = 16 ∨ src = .u256 ∧ n = 32)
    (hE : E.Valid) (hσ : Ready σ) (hp : p + n ≤ σ.size) :
    ∃ e, Checked (unFn (intCast E dst src dst.ret)) [p] σ (E e)
      (if leNat σ.mem p n < 2 ^ dst.bits then some (leNat σ.mem p n) else none) :=
  castHeap_spec E dst src hE hσ hsrc hp

/-- What the cast u64 → u8 really does: it drops the upper 32 bits before checking. -/
theorem cast_u64_u8_actual (hE : E.Valid) (hσ : Ready σ) :
    Checked (unFn (intCast E .u8 (.reg .u64) .i32)) [a] σ (E .overflow)
      (if a % 2 ^ 32 < 2 ^ 8 then some (a % 2 ^ 32) else none) := by
  split_ifs with h
  · unfold Checked Evaluates unFn intCast callF
    dsimp only
    wstep
    exact wp_checked2 (checkOverflow_le E hσ.size (by omega)) hσ (hE _) (by wstep)
  · unfold Checked AbortsWith unFn intCast callF
    dsimp only
    wstep
    refine wp_checked2 (checkOverflow_gt E hσ.size (by omega)) hσ (hE _) ?_
    show retK _ _ _
    wstep

/-- Likewise u64 → u16. -/
theorem cast_u64_u16_actual (hE : E.Valid) (hσ : Ready σ) :
    Checked (unFn (intCast E .u16 (.reg .u64) .i32)) [a] σ (E .overflow)
      (if a % 2 ^ 32 < 2 ^ 16 then some (a % 2 ^ 32) else none) := by
  split_ifs with h
  · unfold Checked Evaluates unFn intCast callF
    dsimp only
    wstep
    exact wp_checked2 (checkOverflow_le E hσ.size (by omega)) hσ (hE _) (by wstep)
  · unfold Checked AbortsWith unFn intCast callF
    dsimp only
    wstep
    refine wp_checked2 (checkOverflow_gt E hσ.size (by omega)) hσ (hE _) ?_
    show retK _ _ _
    wstep

/-- **C13 is false**: in every state `(2^32 + 5) as u8` and `(2^32 + 5) as u16` evaluate to 5. -/
theorem C13_false_u64 (hE : E.Valid) (hσ : Ready σ) :
    Evaluates (unFn (intCast E .u8 (.reg .u64) .i32)) [2 ^ 32 + 5] σ 5 ∧
    Evaluates (unFn (intCast E .u16 (.reg .u64) .i32)) [2 ^ 32 + 5] σ 5 :=
  ⟨(cast_u64_u8_actual (a := 2 ^ 32 + 5) hE hσ).val (by decide),
    (cast_u64_u16_actual (a := 2 ^ 32 + 5) hE hσ).val (by decide)⟩

example : AbortsWith (unFn (intCast E0 .u32 (.reg .u64) .i32)) [2 ^ 32] store0 468 :=
  Checked.err (p := 468) (C13_cast_reg_partial (E := E0) .u32 .u64 (by decide) E0_valid store0_ready (a := 2 ^ 32)
    (by decide)).choose_spec (by decide)
example : Evaluates (unFn (intCast E0 .u8 .u256 .i32)) [1000] store0 0 :=
  Checked.val (C13_cast_heap (E := E0) .u8 .u256 (p := 1000) (.inr ⟨rfl, rfl⟩) E0_valid store0_ready
    (by decide)).choose_spec (by decide)

/-- **C14** Widening casts between register types return the same number. -/
theorem C14_widen_reg (dst src : RegInt) (hw : src.bits ≤ dst.bits)
    (hE : E.Valid) (hσ : Ready σ) (ha : a < 2 ^ src.bits) :
    Evaluates (unFn (intCast E dst (.reg src) dst.ret)) [a] σ a := by
  have hlt : a < 2 ^ dst.bits := Nat.lt_of_lt_of_le ha (Nat.pow_le_pow_right (by decide) hw)
  obtain ⟨e, h⟩ := C13_cast_reg_partial dst src
    (by rintro ⟨rfl, rfl | rfl⟩ <;> simp [RegInt.bits] at hw) hE hσ ha
  rwa [if_pos hlt] at h

example : Evaluates (unFn (intCast E0 .u64 (.reg .u8) .i64)) [77] store0 77 :=
  C14_widen_reg (E := E0) .u64 .u8 (by decide) E0_valid store0_ready (by decide)

end Props
