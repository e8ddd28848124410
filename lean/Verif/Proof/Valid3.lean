import Verif.Proof.Valid2

/-!
# Validity of the code emitted for single instructions
-/

namespace Move
open Wasm Rt

/-- The WebAssembly type of a value of the type on the operand stack, and of a parameter. -/
def Ty.vt : Ty → VT
  | .sc (.int (.reg .u64)) => .i64
  | _ => .i32

theorem Ty.mv_vt (t : Ty) : t.mv.vt = t.vt := by
  match t with
  | .sc .bool | .sc .addr | .sc (.int .u128) | .sc (.int .u256) => rfl
  | .sc (.int (.reg .u8)) | .sc (.int (.reg .u16)) | .sc (.int (.reg .u32)) | .sc (.int (.reg .u64)) => rfl
  | .struct _ _ => rfl
  | .ref _ _ => rfl

theorem Ty.vt_mem (t : Ty) : t.vt ∈ memTys t.size := by
  match t with
  | .sc .bool | .sc .addr | .sc (.int .u128) | .sc (.int .u256) => decide
  | .sc (.int (.reg .u8)) | .sc (.int (.reg .u16)) | .sc (.int (.reg .u32)) | .sc (.int (.reg .u64)) => decide
  | .struct _ _ => simp [Ty.vt, Ty.size, memTys]
  | .ref _ _ => simp [Ty.vt, Ty.size, memTys]

theorem Ty.vt_heap {t : Ty} (h : t.isReg = false) : t.vt = .i32 := by
  match t with
  | .sc .addr | .sc (.int .u128) | .sc (.int .u256) => rfl
  | .sc .bool | .sc (.int (.reg _)) => simp [Ty.isReg, STy.isReg] at h
  | .struct _ _ => rfl
  | .ref _ _ => rfl

abbrev ivt (t : IntTy) : VT := Ty.vt (.sc (.int t))

section
variable {E : ErrPtrs} {L R : List VT} {ls : List (List VT)} {s : List VT} {ty : RetTy}

theorem arithCode_ok (hr : RetOk ty R) {o : ArithOp} {t : IntTy} : Ok L R ls (arithCode E ty o t) (ivt t :: ivt t :: s) (ivt t :: s) := by
  match t, o with
  | .reg .u8, .add | .reg .u16, .add | .reg .u8, .mul | .reg .u16, .mul =>
    exact ok_bin32 (ok_c32 (ok_call2 (checkOverflow_valid E) (ok_propagate hr .nil)))
  | .reg .u32, .add => exact ok_call2 (addU32_valid E) (ok_propagate hr .nil)
  | .reg .u64, .add => exact ok_call2 (addU64_valid E) (ok_propagate hr .nil)
  | .reg .u8, .sub | .reg .u16, .sub | .reg .u32, .sub => exact ok_call2 (subU32_valid E) (ok_propagate hr .nil)
  | .reg .u64, .sub => exact ok_call2 (subU64_valid E) (ok_propagate hr .nil)
  | .reg .u32, .mul => exact ok_call2 (mulU32_valid E) (ok_propagate hr .nil)
  | .reg .u64, .mul => exact ok_call2 (mulU64_valid E) (ok_propagate hr .nil)
  | .reg .u8, .div | .reg .u16, .div | .reg .u32, .div => exact ok_bin32 .nil
  | .reg .u8, .rem | .reg .u16, .rem | .reg .u32, .rem => exact ok_bin32 .nil
  | .reg .u64, .div => exact ok_bin64 rfl .nil
  | .reg .u64, .rem => exact ok_bin64 rfl .nil
  | .u128, .add | .u256, .add => exact ok_c32 (ok_call1 alloc_valid (ok_c32 (ok_call4 (heapAdd_valid E) (ok_propagate hr .nil))))
  | .u128, .sub | .u256, .sub => exact ok_c32 (ok_call1 alloc_valid (ok_c32 (ok_call4 (heapSub_valid E) (ok_propagate hr .nil))))
  | .u128, .mul | .u256, .mul => exact ok_c32 (ok_call3 (heapMul_valid E) (ok_propagate hr .nil))
  | .u128, .div | .u256, .div | .u128, .rem | .u256, .rem =>
    exact ok_c32 (ok_c32 (ok_call4 (heapDivMod_valid E) (ok_propagate hr .nil)))

theorem ok_flatMap {f : Nat → List Instr} (h : ∀ i, ∀ {s}, Ok L R ls (f i) s s) (is : List Nat) : Ok L R ls (is.flatMap f) s s := by
  induction is with
  | nil => exact .nil
  | cons i is ih => exact (h i).append ih

theorem hintBitwise_ok {o : BitOp} {t : HeapInt} {l : Nat} (hl : LocTys L l [.i32, .i32, .i32]) :
    Ok L R ls (hintBitwise o t l) (.i32 :: .i32 :: s) (.i32 :: s) := by
  obtain ⟨l0, l1, l2, -⟩ := hl
  unfold hintBitwise
  flat
  oks
  refine (ok_flatMap (fun i {s} => ?_) _).append (ok_lget l2 .nil)
  have : o.bin.isCmp = false := by cases o <;> rfl
  refine ok_lget l2 (ok_lget l0 (ok_load8 (ok_lget l1 (ok_load8 (ok_bin64 this (ok_store8 .nil))))))

theorem ok_regbin {r : RegInt} {o : BinOp} (h : o.isCmp = false) : Ok L R ls [.op (.bin r.w o)] (ivt (.reg r) :: ivt (.reg r) :: s) (ivt (.reg r) :: s) := by
  cases r
  · exact ok_bin32 .nil
  · exact ok_bin32 .nil
  · exact ok_bin32 .nil
  · exact ok_bin64 h .nil

theorem ok_regcmp {r : RegInt} {o : BinOp} (h : o.isCmp = true) : Ok L R ls [.op (.bin r.w o)] (ivt (.reg r) :: ivt (.reg r) :: s) (.i32 :: s) := by
  cases r
  · exact ok_bin32 .nil
  · exact ok_bin32 .nil
  · exact ok_bin32 .nil
  · exact ok_cmp64 h .nil

theorem bitCode_ok {o : BitOp} {t : IntTy} {l : Nat} (hl : LocTys L l (List.replicate (bitCode o t l).2 .i32)) :
    Ok L R ls (bitCode o t l).1 (ivt t :: ivt t :: s) (ivt t :: s) := by
  cases t with
  | reg r => exact ok_regbin (by cases o <;> rfl)
  | u128 => exact hintBitwise_ok hl
  | u256 => exact hintBitwise_ok hl

theorem shlCode_ok (hr : RetOk ty R) {t : IntTy} : Ok L R ls (shlCode E ty t) (.i32 :: ivt t :: s) (ivt t :: s) := by
  match t with
  | .reg .u8 | .reg .u16 => exact ok_c32 (ok_call2 (checkOverflow_valid E) (ok_propagate hr (ok_bin32 (ok_c32 (ok_bin32 .nil)))))
  | .reg .u32 => exact ok_c32 (ok_call2 (checkOverflow_valid E) (ok_propagate hr (ok_bin32 .nil)))
  | .reg .u64 => exact ok_c32 (ok_call2 (checkOverflow_valid E) (ok_propagate hr (ok_extend (ok_bin64 rfl .nil))))
  | .u128 | .u256 => exact ok_c32 (ok_call3 (heapShl_valid E) (ok_propagate hr .nil))

theorem shrCode_ok (hr : RetOk ty R) {t : IntTy} : Ok L R ls (shrCode E ty t) (.i32 :: ivt t :: s) (ivt t :: s) := by
  match t with
  | .reg .u8 | .reg .u16 | .reg .u32 => exact ok_c32 (ok_call2 (checkOverflow_valid E) (ok_propagate hr (ok_bin32 .nil)))
  | .reg .u64 => exact ok_c32 (ok_call2 (checkOverflow_valid E) (ok_propagate hr (ok_extend (ok_bin64 rfl .nil))))
  | .u128 | .u256 => exact ok_c32 (ok_call3 (heapShr_valid E) (ok_propagate hr .nil))

theorem hintCmp_ok {o : CmpOp} {t : HeapInt} {l : Nat} (hl : LocTys L l [.i32, .i32]) :
    Ok L R ls (hintCmp o t l) (.i32 :: .i32 :: s) (.i32 :: s) := by
  obtain ⟨l0, l1, -⟩ := hl
  cases o <;> simp only [hintCmp] <;> flat <;> oks <;> refine ok_call3 lessThan_valid ?_ <;> oks

theorem cmpCode_ok {o : CmpOp} {t : IntTy} {l : Nat} (hl : LocTys L l (List.replicate (cmpCode o t l).2 .i32)) :
    Ok L R ls (cmpCode o t l).1 (ivt t :: ivt t :: s) (.i32 :: s) := by
  cases t with
  | reg r => exact ok_regcmp (by cases o <;> rfl)
  | u128 => exact hintCmp_ok hl
  | u256 => exact hintCmp_ok hl

theorem eqCode_ok (t : STy) : Ok L R ls (eqCode t) (Ty.vt (.sc t) :: Ty.vt (.sc t) :: s) (.i32 :: s) := by
  match t with
  | .bool => exact ok_bin32 .nil
  | .int (.reg r) => exact ok_regcmp rfl
  | .int .u128 | .int .u256 | .addr => exact ok_c32 (ok_call3 heapEq_valid .nil)

theorem negate_ok : Ok L R ls negate (.i32 :: s) (.i32 :: s) := ok_c32 (ok_bin32 .nil)

theorem binCode_ok (hr : RetOk ty R) {l : Nat} {o : BOp} {u t r : STy} {is : List Instr} {k : Nat}
    (h : binCode E ty l o u t = some (is, r, k)) (hl : LocTys L l (List.replicate k .i32)) :
    Ok L R ls is (Ty.vt (.sc t) :: Ty.vt (.sc u) :: s) (Ty.vt (.sc r) :: s) := by
  cases o with
  | arith o =>
    cases u with
    | int u =>
      simp only [binCode] at h
      split_ifs at h with ht
      cases h; subst ht; exact arithCode_ok hr
    | _ => simp [binCode] at h
  | bit o =>
    cases u with
    | int u =>
      simp only [binCode] at h
      split_ifs at h with ht
      cases h; subst ht; exact bitCode_ok hl
    | _ => simp [binCode] at h
  | shl =>
    cases u with
    | int u =>
      simp only [binCode] at h
      split_ifs at h with ht
      cases h; subst ht; exact shlCode_ok hr
    | _ => simp [binCode] at h
  | shr =>
    cases u with
    | int u =>
      simp only [binCode] at h
      split_ifs at h with ht
      cases h; subst ht; exact shrCode_ok hr
    | _ => simp [binCode] at h
  | cmp o =>
    cases u with
    | int u =>
      simp only [binCode] at h
      split_ifs at h with ht
      cases h; subst ht; exact cmpCode_ok hl
    | _ => simp [binCode] at h
  | eq =>
    simp only [binCode] at h
    split_ifs at h with ht
    cases h; subst ht; exact eqCode_ok _
  | neq =>
    simp only [binCode] at h
    split_ifs at h with ht
    cases h; subst ht; exact (eqCode_ok _).append negate_ok
  | and =>
    simp only [binCode] at h
    split_ifs at h with ht
    cases h; obtain ⟨rfl, rfl⟩ := ht; exact ok_bin32 .nil
  | or =>
    simp only [binCode] at h
    split_ifs at h with ht
    cases h; obtain ⟨rfl, rfl⟩ := ht; exact ok_bin32 .nil

theorem intCast_ok (hr : RetOk ty R) {r : RegInt} {u : IntTy} : Ok L R ls (intCast E r u ty) (ivt u :: s) (ivt (.reg r) :: s) := by
  have ch : ∀ {n s}, Ok L R ls (([Op.c32 n] : List Instr) ++ callF (checkOverflow E) ty) (.i32 :: s) (.i32 :: s) := by
    intro n s; exact ok_c32 (ok_call2 (checkOverflow_valid E) (ok_propagate hr .nil))
  have d32 : ∀ {n s}, Ok L R ls (([Op.c32 n] : List Instr) ++ callF (downcastHeap32 E) ty) (.i32 :: s) (.i32 :: s) := by
    intro n s; exact ok_c32 (ok_call2 (downcastHeap32_valid E) (ok_propagate hr .nil))
  have d64 : ∀ {n s}, Ok L R ls (([Op.c32 n] : List Instr) ++ callF (downcastHeap64 E) ty) (.i32 :: s) (.i64 :: s) := by
    intro n s; exact ok_c32 (ok_call2 (downcastHeap64_valid E) (ok_propagate hr .nil))
  cases r with
  | u8 =>
    simp only [intCast, List.append_assoc]
    refine Ok.append ?_ ch
    match u with
    | .reg .u8 | .reg .u16 | .reg .u32 => exact .nil
    | .reg .u64 => exact ok_wrap .nil
    | .u128 | .u256 => exact d32
  | u16 =>
    match u with
    | .reg .u8 | .reg .u16 => exact .nil
    | .reg .u32 => exact ch
    | .reg .u64 => exact ok_wrap ch
    | .u128 | .u256 => simp only [intCast, List.append_assoc]; exact d32.append ch
  | u32 =>
    match u with
    | .reg .u8 | .reg .u16 | .reg .u32 => exact .nil
    | .reg .u64 => exact ok_call1 (downcast64to32_valid E) (ok_propagate hr .nil)
    | .u128 | .u256 => exact d32
  | u64 =>
    match u with
    | .reg .u8 | .reg .u16 | .reg .u32 => exact ok_extend .nil
    | .reg .u64 => exact .nil
    | .u128 | .u256 => exact d64

/-- Types of the locals of a cast. -/
def castTys : IntTy → IntTy → List VT
  | .reg _, _ => []
  | .u128, u => [ivt u, .i32, .i32, .i32]
  | .u256, u => [ivt u, .i32]

theorem castCode_len {l : Nat} {dst src : IntTy} : (castCode E ty l dst src).2 = (castTys dst src).length := by
  cases dst <;> rfl

theorem castCode_ok (hr : RetOk ty R) (hR : RetOk .i32 R) {l : Nat} {dst src : IntTy} (hl : LocTys L l (castTys dst src)) :
    Ok L R ls (castCode E ty l dst src).1 (ivt src :: s) (ivt dst :: s) := by
  cases dst with
  | reg r => exact intCast_ok hr
  | u128 =>
    obtain ⟨l0, l1, l2, l3, -⟩ := hl
    match src with
    | .reg r =>
      refine ok_lset l0 (ok_c32 (ok_call1 alloc_valid (ok_ltee l1 (ok_lget l0 (ok_store ?_ (ok_lget l1 .nil))))))
      cases r <;> decide
    | .u128 => exact .nil
    | .u256 =>
      simp only [castCode, hintCast]
      change L[l]? = some .i32 at l0
      show Ok L R ls _ (.i32 :: s) (.i32 :: s)
      oks
      refine ok_block ?_ (ok_block ?_ ?_)
      · exact ok_lget l1 (ok_load8 (ok_eqz (ok_brIf rfl (ok_returnError hR l2))))
      · exact ok_lget l1 (ok_load8 (ok_eqz (ok_brIf rfl (ok_returnError hR l3))))
      · oks
  | u256 =>
    obtain ⟨l0, l1, -⟩ := hl
    match src with
    | .reg r =>
      refine ok_lset l0 (ok_c32 (ok_call1 alloc_valid (ok_ltee l1 (ok_lget l0 (ok_store ?_ (ok_lget l1 .nil))))))
      cases r <;> decide
    | .u256 => exact .nil
    | .u128 =>
      simp only [castCode, hintCast]
      change L[l]? = some .i32 at l0
      show Ok L R ls _ (.i32 :: s) (.i32 :: s)
      oks

/-- Types of the locals of `boxCode`. -/
def boxTys (t : Ty) : List VT := if t.isReg then [t.vt, .i32] else [t.vt]

theorem boxCode_len {t : Ty} {dst l : Nat} : (boxCode t dst l).2 = (boxTys t).length := by
  unfold boxCode boxTys; split <;> rfl

theorem boxCode_ok {t : Ty} {dst l : Nat} (hd : L[dst]? = some .i32) (hl : LocTys L l (boxTys t)) :
    Ok L R ls (boxCode t dst l).1 (t.vt :: s) s := by
  unfold boxCode
  unfold boxTys at hl
  split
  · next h =>
    rw [if_pos h] at hl
    obtain ⟨l0, l1, -⟩ := hl
    simp only
    oks
    exact ok_store t.vt_mem .nil
  · next h =>
    rw [if_neg h] at hl
    obtain ⟨l0, -⟩ := hl
    rw [Ty.vt_heap (by simpa using h)] at l0 ⊢
    simp only
    oks

theorem moveCode_ok {t : Ty} {src : Nat} (hs : L[src]? = some .i32) : Ok L R ls (moveCode t src) s (t.vt :: s) := by
  unfold moveCode
  refine ok_lget hs ?_
  split
  · next h => rw [show t.vt = .i32 by cases t <;> first | rfl | simp [Ty.isRef] at h]; exact .nil
  · refine ok_load4 ?_
    split
    · exact ok_load t.vt_mem .nil
    · next h => rw [Ty.vt_heap (by simpa using h)]; exact .nil

theorem loadCopy_ok (hR : RetOk .i32 R) {t : Ty} {l : Nat} (hl : LocTys L l (ltP t.mv)) : Ok L R ls (loadCopy E t l) (.i32 :: s) (t.vt :: s) := by
  unfold loadCopy
  split
  · exact ok_load t.vt_mem .nil
  · next h =>
    have := copyP_typed (E := E) hR t.mv (ls := ls) hl (s := s)
    rw [Ty.mv_vt, Ty.vt_heap (by simpa using h)] at this
    rw [Ty.vt_heap (by simpa using h)]
    exact this

def copyTys (t : Ty) : List VT := if t.isRef then [] else ltP t.mv

theorem copyCode_len {t : Ty} {src l : Nat} : (copyCode E t src l).2 = (copyTys t).length := by
  unfold copyCode copyTys
  split
  · rfl
  · exact (ltP_length _).symm

theorem copyCode_ok (hR : RetOk .i32 R) {t : Ty} {src l : Nat} (hs : L[src]? = some .i32) (hl : LocTys L l (copyTys t)) :
    Ok L R ls (copyCode E t src l).1 s (t.vt :: s) := by
  unfold copyCode
  unfold copyTys at hl
  split
  · next h => rw [show t.vt = .i32 by cases t <;> first | rfl | simp [Ty.isRef] at h]; exact ok_lget hs .nil
  · next h =>
    rw [if_neg h] at hl
    exact ok_lget hs (ok_load4 (loadCopy_ok hR hl))

theorem packFields_ok {p : Nat} (h0 : L[p]? = some .i32) (h1 : L[p + 1]? = some .i32) : ∀ (ts : List Ty) {l n},
    LocTys L l ((ts.filter Ty.isReg).map Ty.vt) → Ok L R ls (packFields ts p l n) (ts.map Ty.vt ++ s) s
  | [], _, _, _ => .nil
  | t :: ts, l, n, hl => by
    simp only [packFields]
    flat
    split
    · next h =>
      rw [List.filter_cons_of_pos h] at hl
      obtain ⟨l0, hl⟩ := hl
      simp only [List.map_cons]
      flat
      oks
      refine ok_store t.vt_mem ?_
      oks
      exact packFields_ok h0 h1 ts hl
    · next h =>
      rw [List.filter_cons_of_neg h] at hl
      simp only [List.map_cons, Ty.vt_heap (by simpa using h)]
      flat
      oks
      exact packFields_ok h0 h1 ts hl

/-- Types of the locals of `packCode`. -/
def packTys (fs : List Ty) : List VT :=
  [.i32, .i32] ++ ((fs.reverse.filter Ty.isReg).map Ty.vt ++ List.replicate (fs.length - (fs.reverse.filter Ty.isReg).length) .i32)

theorem packTys_len (fs : List Ty) : (packTys fs).length = packLocals fs := by
  have := List.length_filter_le Ty.isReg fs.reverse
  rw [List.length_reverse] at this
  simp only [packTys, packLocals, List.length_append, List.length_map, List.length_replicate, List.length_cons, List.length_nil]
  omega

theorem packCode_ok {fs : List Ty} {l : Nat} (hl : LocTys L l (packTys fs)) : Ok L R ls (packCode fs l) (fs.reverse.map Ty.vt ++ s) (.i32 :: s) := by
  unfold packTys at hl
  obtain ⟨⟨l0, l1, -⟩, hl⟩ := LocTys.append hl
  obtain ⟨hl, -⟩ := LocTys.append hl
  unfold packCode
  flat
  oks
  exact (packFields_ok l0 l1 fs.reverse hl).append (ok_lget l0 .nil)

theorem unpackFields_ok {p : Nat} (h0 : L[p]? = some .i32) : ∀ (ts : List Ty) {off} {s}, Ok L R ls (unpackFields ts p off) s (ts.reverse.map Ty.vt ++ s)
  | [], _, _ => .nil
  | t :: ts, off, s => by
    simp only [unpackFields]
    flat
    oks
    have ih := unpackFields_ok h0 ts (off := off + 4) (s := t.vt :: s)
    simp only [List.reverse_cons, List.map_append, List.append_assoc, List.map_cons, List.map_nil, List.cons_append, List.nil_append]
    refine Ok.append (s1 := t.vt :: s) ?_ ih
    split
    · exact ok_load t.vt_mem .nil
    · next h => rw [Ty.vt_heap (by simpa using h)]; exact .nil

theorem eqTy_ok (hR : RetOk .i32 R) {t : Ty} {l k : Nat} {is : List Instr} (h : eqTy E t l = some (is, k)) :
    ∃ T : List VT, T.length = k ∧ ∀ {L ls s}, LocTys L l T → Ok L R ls is (t.vt :: t.vt :: s) (.i32 :: s) := by
  have base : ∀ u : Ty, some (eqP E u.mv l, nlE u.mv) = some (is, k) →
      ∃ T : List VT, T.length = k ∧ ∀ {L ls s}, LocTys L l T → Ok L R ls is (u.vt :: u.vt :: s) (.i32 :: s) := by
    intro u h
    cases h
    refine ⟨ltE u.mv, ltE_length _, fun {L ls s} hl => ?_⟩
    have := eqP_typed (E := E) hR u.mv (ls := ls) hl (s := s)
    rwa [Ty.mv_vt] at this
  match t with
  | .ref _ (.ref _ _) => simp [eqTy] at h
  | .sc u => exact base (.sc u) (by simpa only [eqTy] using h)
  | .struct i fs => exact base (.struct i fs) (by simpa only [eqTy] using h)
  | .ref m (.sc u) =>
    simp only [eqTy, Option.some.injEq, Prod.mk.injEq] at h
    obtain ⟨rfl, rfl⟩ := h
    refine ⟨[.i32, .i32] ++ ltE (Ty.sc u).mv, by simp [ltE_length]; omega, fun {L ls s} hl => ?_⟩
    obtain ⟨⟨l0, l1, -⟩, hl⟩ := LocTys.append hl
    have := eqP_typed (E := E) hR (Ty.sc u).mv (ls := ls) hl (s := s)
    rw [Ty.mv_vt] at this
    show Ok L R ls _ (.i32 :: .i32 :: s) _
    have ld : ∀ {s}, Ok L R ls (if (Ty.sc u).isReg = true then code[Op.load (Ty.sc u).size 0] else []) (.i32 :: s) ((Ty.sc u).vt :: s) := by
      intro s
      split
      · exact ok_load (Ty.vt_mem _) .nil
      · next h => rw [Ty.vt_heap (by simpa using h)]; exact .nil
    flat
    oks
    refine ld.append ?_
    oks
    exact ld.append this
  | .ref m (.struct i fs) =>
    simp only [eqTy, Option.some.injEq, Prod.mk.injEq] at h
    obtain ⟨rfl, rfl⟩ := h
    refine ⟨[.i32, .i32] ++ ltE (Ty.struct i fs).mv, by simp [ltE_length]; omega, fun {L ls s} hl => ?_⟩
    obtain ⟨⟨l0, l1, -⟩, hl⟩ := LocTys.append hl
    have := eqP_typed (E := E) hR (Ty.struct i fs).mv (ls := ls) hl (s := s)
    rw [Ty.mv_vt] at this
    show Ok L R ls _ (.i32 :: .i32 :: s) _
    simp only [Ty.isReg]
    simp only [Bool.false_eq_true, ↓reduceIte]
    flat
    oks
    exact this

theorem hintConst_ok {t : HeapInt} {v l : Nat} (hl : L[l]? = some .i32) : Ok L R ls (hintConst t v l) s (.i32 :: s) := by
  unfold hintConst
  flat
  oks
  exact (ok_flatMap (fun i {s} => ok_lget hl (ok_c64 (ok_store8 .nil))) _).append (ok_lget hl .nil)

theorem constCode_ok {v : MVal} {n l k : Nat} {is : List Instr} (h : constCode v n l = some (is, k)) (hl : LocTys L l (List.replicate k .i32)) :
    Ok L R ls is s (Ty.vt (.sc v.ty) :: s) := by
  unfold constCode at h
  split at h
  · next h' => cases h; rw [h']; exact ok_c32 .nil
  · next h' => cases h; rw [h']; exact ok_c64 .nil
  · next r h' h'' =>
    cases h; rw [h'']
    cases r
    · exact ok_c32 .nil
    · exact ok_c32 .nil
    · exact ok_c32 .nil
    · exact (h' rfl).elim
  · next h' => cases h; rw [h']; exact hintConst_ok hl.1
  · next h' => cases h; rw [h']; exact hintConst_ok hl.1
  · next h' =>
    split_ifs at h
    cases h; rw [h']; exact hintConst_ok hl.1

theorem popCode_ok : ∀ (ts : List VT) {l : Nat}, LocTys L l ts → Ok L R ls (popCode ts.length l) (ts ++ s) s
  | [], _, _ => .nil
  | t :: ts, l, hl => by
    have ih := popCode_ok ts hl.2
    unfold popCode at ih ⊢
    rw [List.length_cons, List.range_succ_eq_map, List.map_cons, List.map_map]
    refine ok_lset hl.1 ?_
    have : ((fun i => (Op.lset (l + i) : Instr)) ∘ Nat.succ) = (fun i => (Op.lset (l + 1 + i) : Instr)) := by
      funext i; simp only [Function.comp]; rw [show l + i.succ = l + 1 + i by omega]
    rw [this]
    exact ih

theorem storeRets_ok {res l : Nat} (hr : L[res]? = some .i32) : ∀ (ts : List Ty) {off}, LocTys L l (ts.reverse.map Ty.vt) → Ok L R ls (storeRets res l ts off) s s
  | [], _, _ => .nil
  | t :: ts, off, hl => by
    rw [List.reverse_cons, List.map_append] at hl
    obtain ⟨h1, h2, -⟩ := LocTys.append hl
    rw [List.length_map, List.length_reverse] at h2
    exact ok_lget hr (ok_lget h2 (ok_store t.vt_mem (storeRets_ok hr ts h1)))

theorem retCode_ok {rets : List Ty} {res d l : Nat} {s1 : List VT} (hr : L[res]? = some .i32) (hd : ls[d]? = some []) (hl : LocTys L l (rets.reverse.map Ty.vt)) :
    Ok L R ls (retCode rets res d l) (rets.reverse.map Ty.vt ++ s) s1 := by
  unfold retCode
  split
  · next h => exact ok_br hd .nil
  · have := popCode_ok (s := s) (R := R) (ls := ls) _ hl
    rw [List.length_map, List.length_reverse] at this
    simp only [List.append_assoc]
    refine this.append ?_
    flat
    oks
    exact (storeRets_ok hr rets hl).append (ok_br (s1 := s1) hd .nil)

theorem loadRets_typed {l : Nat} (h0 : L[l]? = some .i32) : ∀ (ts : List Ty) {off} {s}, Ok L R ls (loadRets l ts off) s (ts.reverse.map Ty.vt ++ s)
  | [], _, _ => .nil
  | t :: ts, off, s => by
    have ih := loadRets_typed h0 ts (off := off + t.size) (s := t.vt :: s)
    simp only [List.reverse_cons, List.map_append, List.append_assoc, List.map_cons, List.map_nil, List.cons_append, List.nil_append]
    exact ok_lget h0 (ok_load t.vt_mem ih)

theorem spillArgs_ok : ∀ (ts : List Ty) {l : Nat}, LocTys L l (ts.map Ty.vt) → Ok L R ls (spillArgs ts l) (ts.map Ty.vt ++ s) s
  | [], _, _ => .nil
  | t :: ts, l, hl => by
    have ih := spillArgs_ok ts hl.2
    obtain ⟨h0, -⟩ := hl
    simp only [spillArgs, List.append_assoc, List.map_cons, List.cons_append]
    refine Ok.append (s1 := t.vt :: (ts.map Ty.vt ++ s)) ?_ (ok_lset h0 ih)
    split
    · next h =>
      rw [show t.vt = .i32 by cases t <;> first | rfl | simp [Ty.isRef] at h]
      exact ok_load4 .nil
    · exact .nil

theorem unspill_ok {l : Nat} : ∀ (n : Nat) (ts : List VT) {s}, ts.length = n → LocTys L l ts → Ok L R ls (unspill n l) s (ts ++ s)
  | 0, ts, s, h, _ => by rw [List.eq_nil_of_length_eq_zero h]; exact .nil
  | n + 1, ts, s, h, hl => by
    rcases List.eq_nil_or_concat ts with rfl | ⟨ts', t, rfl⟩
    · simp at h
    · rw [List.concat_eq_append] at h hl ⊢
      obtain ⟨h1, h2, -⟩ := LocTys.append hl
      simp only [List.length_append, List.length_cons, List.length_nil, Nat.zero_add, Nat.add_right_cancel_iff] at h
      rw [h] at h2
      rw [List.append_assoc]
      exact ok_lget h2 (unspill_ok n ts' h h1)

/-- Types of the locals of `prepArgs`. -/
def prepTys (args : List Ty) : List VT := if args.any Ty.isRef then args.reverse.map Ty.vt else []

theorem prepArgs_len {args : List Ty} {l : Nat} : (prepArgs args l).2 = (prepTys args).length := by
  unfold prepArgs prepTys; split <;> simp

theorem prepArgs_ok {args : List Ty} {l : Nat} (hl : LocTys L l (prepTys args)) :
    Ok L R ls (prepArgs args l).1 (args.reverse.map Ty.vt ++ s) (args.reverse.map Ty.vt ++ s) := by
  unfold prepArgs
  unfold prepTys at hl
  split
  · next h =>
    rw [if_pos h] at hl
    exact (spillArgs_ok _ hl).append (unspill_ok _ _ (by simp) hl)
  · exact .nil

theorem callCode_ok (hr : RetOk ty R) {f : Fn} {F : MFun} {l : Nat} (hf : f.Valid (F.args.map Ty.vt) F.retTy.vts) (hl : L[l]? = some .i32) :
    Ok L R ls (callCode ty f F.rets l) (F.args.reverse.map Ty.vt ++ s) (F.rets.reverse.map Ty.vt ++ s) := by
  unfold callCode
  rw [List.map_reverse]
  refine ok_call hf (ok_propagate hr ?_)
  unfold MFun.retTy
  split
  · next h => rw [h]; exact .nil
  · exact ok_lset hl (loadRets_typed hl _)

theorem abiErrorStructure_ok {e p q r : Nat} (h0 : L[e]? = some .i32) (h1 : L[p]? = some .i32) (h2 : L[q]? = some .i32) (h3 : L[r]? = some .i32) :
    Ok L R ls (abiErrorStructure e p q r) s s := by
  unfold abiErrorStructure
  oks
  refine ok_call1 swap32_valid ?_
  oks

theorem writeChunks_ok {p : Nat} (h : L[p]? = some .i32) (off : Nat) (bs : List UInt8) : Ok L R ls (writeChunks p off bs) s s := by
  match bs with
  | [] => rw [writeChunks]; exact .nil
  | c :: bs =>
    rw [writeChunks]
    flat
    oks
    exact writeChunks_ok h (off + 8) ((c :: bs).drop 8)
  termination_by bs.length

theorem abortEnd_ok (hR : RetOk .i32 R) {p : Nat} {s1 : List VT} (h : L[p]? = some .i32) : Ok L R ls (abortEnd p) s s1 := by
  unfold abortEnd
  oks
  rcases hR with rfl | rfl
  · exact .ret (R := []) (s1 := s1) .nil
  · exact .ret (R := [.i32]) (s1 := s1) .nil

theorem abortCode_ok (hR : RetOk .i32 R) {consts : List Const} {clever : Option Nat} {l k : Nat} {is : List Instr} {s1 : List VT}
    (h : abortCode consts clever l = some (is, k)) (hl : LocTys L l (List.replicate k .i32)) : Ok L R ls is (.i64 :: s) s1 := by
  unfold abortCode at h
  split at h
  · split at h
    · cases h
      obtain ⟨l0, l1, l2, l3, -⟩ := hl
      unfold abortMessageConst
      flat
      refine ok_c64 (ok_cmp64 rfl (ok_ite .nil (.unreachable .nil) (ok_c32 (ok_lset l0 ?_))))
      exact (abiErrorStructure_ok l0 l1 l2 l3).append ((writeChunks_ok l1 _ _).append (abortEnd_ok hR l1))
    · simp at h
  · cases h
    obtain ⟨l0, l1, l2, l3, l4, -⟩ := hl
    unfold abortMessage
    flat
    refine ok_call1 ascii_valid (ok_ltee l0 (ok_load1 (ok_lset l1 (ok_lget l0 (ok_c32 (ok_bin32 (ok_lset l0 ?_)))))))
    refine (abiErrorStructure_ok l1 l2 l3 l4).append ?_
    exact ok_lget l2 (ok_c32 (ok_bin32 (ok_lget l0 (ok_lget l1 (ok_memCopy (abortEnd_ok hR l2))))))

theorem writeChunk_ok {k off : Nat} (h0 : L[k]? = some .i32) (h1 : L[k + 1]? = some .i32) : Ok L R ls (writeChunk k off) s s := by
  unfold writeChunk
  oks

theorem writeRef_ok {t : Mv.Ty} {k : Nat} (hl : LocTys L k [t.vt, .i32]) : Ok L R ls (writeRef t k) (.i32 :: t.vt :: s) s := by
  obtain ⟨l0, l1, -⟩ := hl
  cases t <;> simp only [writeRef] <;> flat
  case u16 => oks; exact ok_store (Mv.Ty.vt_mem .u16) .nil
  all_goals first | (change L[k]? = some .i32 at l0; oks; done) | (change L[k]? = some .i64 at l0; oks; done)

end
end Move
