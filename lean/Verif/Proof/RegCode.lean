import Verif.Proof.Ints
import Verif.Proof.HeapInts3

/-! The register integer operators in an arbitrary context (rest of the code `is`, rest of the operand
stack `s`, locals `loc`), emitted into a function of any return type. -/

namespace Rt
open Wasm

variable (E : ErrPtrs) {a b : Nat} {σ : Store}
variable {is : List Instr} {s loc : List Nat} {Q : Res → Prop} {ty : RetTy}

/-- Continuation of a checked register operation. -/
def RegK (is : List Instr) (s loc : List Nat) (σ : Store) (Q : Res → Prop) (ty : RetTy) (p : Nat) :
    Option Nat → Prop
  | some v => wp is (v :: s) loc σ Q
  | none => Q (.ret (badStk ty) (errStore σ p))

theorem wp_callF1 {f : Fn} {p} {o : Option Nat} (h : Checked f [a] σ p o) (hσ : Ready σ)
    (hp : 0 < p ∧ p < 2 ^ 32) (hQ : RegK is s loc σ Q ty p o) :
    wp (callF f ty ++ is) (a :: s) loc σ Q := by
  refine wp_checked1 h hσ hp ?_
  cases o <;> exact hQ

theorem wp_callF2 {f : Fn} {p} {o : Option Nat} (h : Checked f [a, b] σ p o) (hσ : Ready σ)
    (hp : 0 < p ∧ p < 2 ^ 32) (hQ : RegK is s loc σ Q ty p o) :
    wp (callF f ty ++ is) (b :: a :: s) loc σ Q := by
  refine wp_checked2 h hσ hp ?_
  cases o <;> exact hQ

/-- The operands are first combined into one, which is then compared with a maximum. -/
theorem wp_combine {o : BinOp} {c m : Nat} (hσ : Ready σ) (hE : E.Valid)
    (hc : o.eval .w32 a b = some c) (hm : m < 2 ^ 32)
    (hQ : RegK is s loc σ Q ty (E .overflow) (if c ≤ m then some c else none)) :
    wp ((([Op.bin .w32 o, Op.c32 m] : List Instr) ++ callF (checkOverflow E) ty) ++ is) (b :: a :: s)
      loc σ Q := by
  simp only [List.cons_append, List.nil_append]
  rw [wp_op]; simp only [Op.exec, hc]
  rw [wp_c32, Nat.mod_eq_of_lt (show m < 4294967296 from hm)]
  exact wp_callF2 (checkOverflow_spec E hσ.size) hσ (hE _) hQ

theorem wp_intAdd (t : RegInt) (hE : E.Valid) (hσ : Ready σ) (ha : a < 2 ^ t.bits)
    (hb : b < 2 ^ t.bits) (hQ : RegK is s loc σ Q ty (E .overflow) (Spec.add t.bits a b)) :
    wp (intAdd E t ty ++ is) (b :: a :: s) loc σ Q := by
  have h8 : ∀ m, m < 2 ^ 16 → a ≤ m → b ≤ m →
      BinOp.eval .w32 a b .add = some (a + b) := by
    intro m hm h1 h2; simp only [BinOp.eval, W.mod]; apply some1; omega
  cases t <;> simp only [RegInt.bits] at ha hb hQ <;> unfold intAdd
  · have e : Spec.add 8 a b = if a + b ≤ 255 then some (a + b) else none := by
      unfold Spec.add; congr 1; apply propext; omega
    rw [e] at hQ
    exact wp_combine E hσ hE (h8 255 (by omega) (by omega) (by omega)) (by decide) hQ
  · have e : Spec.add 16 a b = if a + b ≤ 65535 then some (a + b) else none := by
      unfold Spec.add; congr 1; apply propext; omega
    rw [e] at hQ
    exact wp_combine E hσ hE (h8 65535 (by omega) (by omega) (by omega)) (by decide) hQ
  · exact wp_callF2 (addU32_spec E ha hb hσ.size) hσ (hE _) hQ
  · exact wp_callF2 (addU64_spec E ha hb hσ.size) hσ (hE _) hQ

theorem wp_intSub (t : RegInt) (hE : E.Valid) (hσ : Ready σ) (ha : a < 2 ^ t.bits)
    (hQ : RegK is s loc σ Q ty (E .overflow) (Spec.sub a b)) :
    wp (intSub E t ty ++ is) (b :: a :: s) loc σ Q := by
  cases t <;> simp only [RegInt.bits] at ha <;> unfold intSub
  · exact wp_callF2 (subU32_spec E (by omega) hσ.size) hσ (hE _) hQ
  · exact wp_callF2 (subU32_spec E (by omega) hσ.size) hσ (hE _) hQ
  · exact wp_callF2 (subU32_spec E ha hσ.size) hσ (hE _) hQ
  · exact wp_callF2 (subU64_spec E ha hσ.size) hσ (hE _) hQ

theorem wp_intMul (t : RegInt) (hE : E.Valid) (hσ : Ready σ) (ha : a < 2 ^ t.bits)
    (hb : b < 2 ^ t.bits) (hQ : RegK is s loc σ Q ty (E .overflow) (Spec.mul t.bits a b)) :
    wp (intMul E t ty ++ is) (b :: a :: s) loc σ Q := by
  have h8 : ∀ m, m < 2 ^ 16 → a ≤ m → b ≤ m →
      BinOp.eval .w32 a b .mul = some (a * b) := by
    intro m hm h1 h2; simp only [BinOp.eval, W.mod]; apply some1
    have : a * b ≤ 65535 * 65535 := Nat.mul_le_mul (by omega) (by omega)
    omega
  cases t <;> simp only [RegInt.bits] at ha hb hQ <;> unfold intMul
  · have e : Spec.mul 8 a b = if a * b ≤ 255 then some (a * b) else none := by
      unfold Spec.mul; congr 1; apply propext; omega
    rw [e] at hQ
    exact wp_combine E hσ hE (h8 255 (by omega) (by omega) (by omega)) (by decide) hQ
  · have e : Spec.mul 16 a b = if a * b ≤ 65535 then some (a * b) else none := by
      unfold Spec.mul; congr 1; apply propext; omega
    rw [e] at hQ
    exact wp_combine E hσ hE (h8 65535 (by omega) (by omega) (by omega)) (by decide) hQ
  · exact wp_callF2 (mulU32_spec E hb hσ.size) hσ (hE _) hQ
  · exact wp_callF2 (mulU64_spec E hb hσ.size) hσ (hE _) hQ

theorem wp_intDiv (t : RegInt) (h0 : b = 0 → Q .trap) (h1 : b ≠ 0 → wp is (a / b :: s) loc σ Q) :
    wp (intDiv t ++ is) (b :: a :: s) loc σ Q := by
  unfold intDiv
  by_cases h : b = 0
  · rw [List.cons_append, wp_op]; simp only [Op.exec, BinOp.eval, h, ↓reduceIte]; exact h0 h
  · rw [List.cons_append, List.nil_append, wp_divU h]; exact h1 h

theorem wp_intRem (t : RegInt) (h0 : b = 0 → Q .trap) (h1 : b ≠ 0 → wp is (a % b :: s) loc σ Q) :
    wp (intRem t ++ is) (b :: a :: s) loc σ Q := by
  unfold intRem
  by_cases h : b = 0
  · rw [List.cons_append, wp_op]; simp only [Op.exec, BinOp.eval, h, ↓reduceIte]; exact h0 h
  · rw [List.cons_append, List.nil_append, wp_remU h]; exact h1 h

theorem wp_intShl (t : RegInt) (hE : E.Valid) (hσ : Ready σ) (hb : b < 2 ^ 8)
    (hQ : RegK is s loc σ Q ty (E .overflow) (Spec.shl t.bits a b)) :
    wp (intShl E t ty ++ is) (b :: a :: s) loc σ Q := by
  unfold Spec.shl at hQ
  cases t
  all_goals
    unfold RegInt.bits at hQ
    dsimp only at hQ
    unfold intShl callF
    simp only [RegInt.bits, List.cons_append, List.nil_append]
    rw [wp_c32]
    split_ifs at hQ with h
    · refine wp_checked2 (checkOverflow_le E hσ.size (by omega)) hσ (hE _) ?_
      unfold RegK at hQ
      wstep
      first
      | exact hQ
      | (simp only [land_255, land_65535]
         refine (congrArg (fun v => wp is (v :: s) loc σ Q) ?_).mp hQ
         generalize a * 2 ^ b = x; omega)
    · refine wp_checked2 (checkOverflow_gt E hσ.size (by omega)) hσ (hE _) ?_
      exact hQ

theorem wp_intShr (t : RegInt) (hE : E.Valid) (hσ : Ready σ) (hb : b < 2 ^ 8)
    (hQ : RegK is s loc σ Q ty (E .overflow) (Spec.shr t.bits a b)) :
    wp (intShr E t ty ++ is) (b :: a :: s) loc σ Q := by
  unfold Spec.shr at hQ
  cases t
  all_goals
    unfold RegInt.bits at hQ
    dsimp only at hQ
    unfold intShr callF
    simp only [RegInt.bits, List.cons_append, List.nil_append]
    rw [wp_c32]
    split_ifs at hQ with h
    · refine wp_checked2 (checkOverflow_le E hσ.size (by omega)) hσ (hE _) ?_
      unfold RegK at hQ
      wstep
      exact hQ
    · refine wp_checked2 (checkOverflow_gt E hσ.size (by omega)) hσ (hE _) ?_
      exact hQ

theorem wp_intBitwise (o : BitOp) (t : RegInt) (hQ : wp is (o.nat a b :: s) loc σ Q) :
    wp (intBitwise o t ++ is) (b :: a :: s) loc σ Q := by
  cases o <;> cases t <;> simp only [intBitwise, BitOp.bin, List.cons_append, List.nil_append, wp_and', wp_or', wp_xor'] <;> exact hQ

theorem wp_intCmp (o : CmpOp) (t : RegInt) (hQ : wp is (b2n (o.prop a b) :: s) loc σ Q) :
    wp (intCmp o t ++ is) (b :: a :: s) loc σ Q := by
  cases o <;> cases t <;> simp only [intCmp, CmpOp.bin, List.cons_append, List.nil_append, wp_ltU, wp_gtU, wp_leU, wp_geU] <;> exact hQ

/-! ### Casts -/

theorem wp_check {m w : Nat} (hE : E.Valid) (hσ : Ready σ) (hm : m + 1 = 2 ^ w) (hm32 : m < 2 ^ 32)
    (hQ : RegK is s loc σ Q ty (E .overflow) (Spec.cast w a)) :
    wp ((([Op.c32 m] : List Instr) ++ callF (checkOverflow E) ty) ++ is) (a :: s) loc σ Q := by
  simp only [List.cons_append, List.nil_append]
  rw [wp_c32, Nat.mod_eq_of_lt (show m < 4294967296 from hm32)]
  have e : Spec.cast w a = if a ≤ m then some a else none := by
    unfold Spec.cast; congr 1; apply propext; omega
  rw [e] at hQ
  exact wp_callF2 (checkOverflow_spec E hσ.size) hσ (hE _) hQ

/-- The errors casts raise. -/
def CastErr (e : RtErr) : Prop := e = .overflow ∨ e = .outOfBounds

theorem castErr1 : CastErr .overflow := .inl rfl
theorem castErr2 : CastErr .outOfBounds := .inr rfl

theorem cast_fits {w : Nat} (h : a < 2 ^ w) : Spec.cast w a = some a := by
  unfold Spec.cast; rw [if_pos h]

/-- A cast between register types; u64 to u8 and u16 only for values that fit. -/
theorem wp_castReg (dst src : RegInt) (hE : E.Valid) (hσ : Ready σ) (ha : a < 2 ^ src.bits)
    (hok : src = .u64 → (dst = .u8 ∨ dst = .u16) → a < 2 ^ dst.bits)
    (hQ : ∀ e, CastErr e → RegK is s loc σ Q ty (E e) (Spec.cast dst.bits a)) :
    wp (intCast E dst (.reg src) ty ++ is) (a :: s) loc σ Q := by
  have nop : ∀ {w : Nat}, dst.bits = w → a < 2 ^ w → wp is (a :: s) loc σ Q := by
    intro w hw h
    have := hQ .overflow castErr1
    rw [hw, cast_fits h] at this
    exact this
  cases dst <;> cases src <;> unfold intCast <;> simp only [RegInt.bits] at ha hok hQ <;>
    simp only [List.append_assoc, List.nil_append, List.cons_append]
  case u8.u8 => exact wp_check E hE hσ (by norm_num) (by norm_num) (hQ .overflow castErr1)
  case u8.u16 => exact wp_check E hE hσ (by norm_num) (by norm_num) (hQ .overflow castErr1)
  case u8.u32 => exact wp_check E hE hσ (by norm_num) (by norm_num) (hQ .overflow castErr1)
  case u8.u64 =>
    have h := hok trivial (.inl trivial)
    rw [wp_un, show UnOp.eval a .wrap = a from Nat.mod_eq_of_lt (by omega)]
    exact wp_check E hE hσ (m := 255) (w := 8) (by norm_num) (by norm_num) (hQ .overflow castErr1)
  case u16.u8 => exact nop rfl (by simp only [RegInt.bits]; omega)
  case u16.u16 => exact nop rfl (by simp only [RegInt.bits]; omega)
  case u16.u32 => exact wp_check E hE hσ (by norm_num) (by norm_num) (hQ .overflow castErr1)
  case u16.u64 =>
    have h := hok trivial (.inr trivial)
    rw [wp_un, show UnOp.eval a .wrap = a from Nat.mod_eq_of_lt (by omega)]
    exact wp_check E hE hσ (m := 65535) (w := 16) (by norm_num) (by norm_num) (hQ .overflow castErr1)
  case u32.u8 => exact nop rfl (by simp only [RegInt.bits]; omega)
  case u32.u16 => exact nop rfl (by simp only [RegInt.bits]; omega)
  case u32.u32 => exact nop rfl (by simp only [RegInt.bits]; omega)
  case u32.u64 => exact wp_callF1 (downcast64to32_spec E ha hσ.size) hσ (hE _) (hQ .outOfBounds castErr2)
  case u64.u64 => exact nop rfl ha
  all_goals
    wstep
    exact nop rfl (by simp only [RegInt.bits]; omega)

def HeapInt.intTy : HeapInt → IntTy
  | .u128 => .u128 | .u256 => .u256

/-- A downcast of an `n`-byte number to 32 bits. -/
theorem wp_down32 (n k : Nat) (hn : n = 4 * k) (hk : 2 ≤ k) (hE : E.Valid) (hσ : Ready σ)
    (ha : a + n ≤ σ.size)
    (hQ : RegK is s loc σ Q ty (E .outOfBounds) (Spec.cast 32 (leNat σ.mem a n))) :
    wp (callF (downcastHeap32 E) ty ++ is) (n :: a :: s) loc σ Q := by
  have hlt := hσ.size_lt
  subst hn
  exact wp_callF2 (downcastHeap32_spec E (k := k) (p := a) hσ.size hlt hk ha) hσ (hE .outOfBounds) hQ

theorem wp_down64 (n k : Nat) (hn : n = 8 * k) (hk : 2 ≤ k) (hE : E.Valid) (hσ : Ready σ)
    (ha : a + n ≤ σ.size)
    (hQ : RegK is s loc σ Q ty (E .outOfBounds) (Spec.cast 64 (leNat σ.mem a n))) :
    wp (callF (downcastHeap64 E) ty ++ is) (n :: a :: s) loc σ Q := by
  have hlt := hσ.size_lt
  subst hn
  exact wp_callF2 (downcastHeap64_spec E (k := k) (p := a) hσ.size hlt hk ha) hσ (hE .outOfBounds) hQ

/-- A first downcast to 32 bits, then a check against a smaller maximum. -/
theorem wp_downCheck (w m n k : Nat) (hn : n = 4 * k) (hk : 2 ≤ k) (hw : w ≤ 32) (hm : m + 1 = 2 ^ w)
    (hm32 : m < 2 ^ 32) (hE : E.Valid) (hσ : Ready σ) (ha : a + n ≤ σ.size)
    (hQ : ∀ e, CastErr e → RegK is s loc σ Q ty (E e) (Spec.cast w (leNat σ.mem a n))) :
    wp (callF (downcastHeap32 E) ty ++ ((([Op.c32 m] : List Instr) ++ callF (checkOverflow E) ty) ++ is))
      (n :: a :: s) loc σ Q := by
  refine wp_down32 E n k hn hk hE hσ ha ?_
  by_cases hf : leNat σ.mem a n < 2 ^ 32
  · rw [cast_fits hf]
    exact wp_check E hE hσ hm hm32 (hQ .overflow castErr1)
  · have h1 : Spec.cast 32 (leNat σ.mem a n) = none := by unfold Spec.cast; rw [if_neg hf]
    have h2 : Spec.cast w (leNat σ.mem a n) = none := by
      unfold Spec.cast
      rw [if_neg]
      have := Nat.pow_le_pow_right (n := 2) (by decide) hw
      omega
    rw [h1]
    have := hQ .outOfBounds castErr2
    rw [h2] at this
    exact this

/-- A cast from u128 or u256 to a register type. -/
theorem wp_castHeap (dst : RegInt) (t : HeapInt) (hE : E.Valid) (hσ : Ready σ)
    (ha : a + t.bytes ≤ σ.size)
    (hQ : ∀ e, CastErr e → RegK is s loc σ Q ty (E e) (Spec.cast dst.bits (leNat σ.mem a t.bytes))) :
    wp (intCast E dst t.intTy ty ++ is) (a :: s) loc σ Q := by
  obtain ⟨n, hn⟩ : ∃ n, n = t.bytes := ⟨_, rfl⟩
  obtain ⟨j, hj, hj2⟩ : ∃ j, n = 8 * j ∧ 2 ≤ j := by
    cases t <;> simp only [HeapInt.bytes] at hn
    · exact ⟨2, by omega, by omega⟩
    · exact ⟨4, by omega, by omega⟩
  have hb : n % 4294967296 = n := by
    cases t <;> simp only [HeapInt.bytes] at hn <;> omega
  rw [← hn] at ha hQ
  have e : intCast E dst t.intTy ty ++ is = (Op.c32 n : Instr) :: (match dst with
      | .u8 => callF (downcastHeap32 E) ty ++ ((([Op.c32 255] : List Instr) ++ callF (checkOverflow E) ty) ++ is)
      | .u16 => callF (downcastHeap32 E) ty ++ ((([Op.c32 65535] : List Instr) ++ callF (checkOverflow E) ty) ++ is)
      | .u32 => callF (downcastHeap32 E) ty ++ is
      | .u64 => callF (downcastHeap64 E) ty ++ is) := by
    subst hn
    cases t <;> cases dst <;> rfl
  rw [e, wp_c32, hb]
  cases dst <;> simp only [RegInt.bits] at hQ ⊢
  · exact wp_downCheck E 8 255 n (2 * j) (by omega) (by omega) (by norm_num) (by norm_num) (by norm_num) hE hσ ha hQ
  · exact wp_downCheck E 16 65535 n (2 * j) (by omega) (by omega) (by norm_num) (by norm_num) (by norm_num) hE hσ ha hQ
  · exact wp_down32 E n (2 * j) (by omega) (by omega) hE hσ ha (hQ .outOfBounds castErr2)
  · exact wp_down64 E n j hj hj2 hE hσ ha (hQ .outOfBounds castErr2)

end Rt
