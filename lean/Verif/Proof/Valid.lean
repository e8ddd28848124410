import Verif.Valid
import Verif.Rt.Compile

/-!
# Validity of the functions the compiler model uses
-/

namespace Wasm

/-- The locals from `k` on have the types `ts`. -/
def LocTys (L : List VT) : Nat → List VT → Prop
  | _, [] => True
  | k, t :: ts => L[k]? = some t ∧ LocTys L (k + 1) ts

theorem LocTys.append {L : List VT} {a b : List VT} : ∀ {k}, LocTys L k (a ++ b) → LocTys L k a ∧ LocTys L (k + a.length) b := by
  induction a with
  | nil => intro k h; exact ⟨trivial, h⟩
  | cons t a ih =>
    intro k h
    have := ih h.2
    exact ⟨⟨h.1, this.1⟩, by rw [List.length_cons, show k + (a.length + 1) = k + 1 + a.length by omega]; exact this.2⟩

theorem LocTys.mk {p T q : List VT} : LocTys (p ++ (T ++ q)) p.length T := by
  induction T generalizing p with
  | nil => trivial
  | cons t T ih =>
    refine ⟨by simp, ?_⟩
    have := ih (p := p ++ [t])
    simpa using this

theorem LocTys.get {L : List VT} {ts : List VT} : ∀ {k i t}, LocTys L k ts → ts[i]? = some t → L[k + i]? = some t := by
  induction ts with
  | nil => intro k i t _ h; simp at h
  | cons a ts ih =>
    intro k i t h hi
    cases i with
    | zero => simp only [List.getElem?_cons_zero, Option.some.injEq] at hi; subst hi; exact h.1
    | succ i => rw [show k + (i + 1) = k + 1 + i by omega]; exact ih h.2 (by simpa using hi)

/-- Types of the results. -/
def _root_.Rt.RetTy.vts : Rt.RetTy → List VT
  | .i32 => [.i32]
  | .i64 => [.i64]
  | .none => []

section
variable {L R : List VT} {ls : List (List VT)} {is : List Instr} {s s1 s2 : List VT}

theorem ok_c32 {n} (h : Ok L R ls is (.i32 :: s) s2) : Ok L R ls (.op (.c32 n) :: is) s s2 := .op (by simp [opTys]) h
theorem ok_c64 {n} (h : Ok L R ls is (.i64 :: s) s2) : Ok L R ls (.op (.c64 n) :: is) s s2 := .op (by simp [opTys]) h
theorem ok_lget {i t} (hi : L[i]? = some t) (h : Ok L R ls is (t :: s) s2) : Ok L R ls (.op (.lget i) :: is) s s2 :=
  .op (by simp [opTys, hi]) h
theorem ok_lset {i t} (hi : L[i]? = some t) (h : Ok L R ls is s s2) : Ok L R ls (.op (.lset i) :: is) (t :: s) s2 :=
  .op (by simp [opTys, hi]) h
theorem ok_ltee {i t} (hi : L[i]? = some t) (h : Ok L R ls is (t :: s) s2) : Ok L R ls (.op (.ltee i) :: is) (t :: s) s2 :=
  .op (by simp [opTys, hi]) h
theorem ok_drop {t} (h : Ok L R ls is s s2) : Ok L R ls (.op .drop :: is) (t :: s) s2 := .op (by simp [opTys]) h
theorem ok_eqz {t} (h : Ok L R ls is (.i32 :: s) s2) : Ok L R ls (.op (.un .eqz) :: is) (t :: s) s2 := .op (by simp [opTys]) h
theorem ok_wrap (h : Ok L R ls is (.i32 :: s) s2) : Ok L R ls (.op (.un .wrap) :: is) (.i64 :: s) s2 := .op (by simp [opTys]) h
theorem ok_extend (h : Ok L R ls is (.i64 :: s) s2) : Ok L R ls (.op (.un .extend) :: is) (.i32 :: s) s2 := .op (by simp [opTys]) h
theorem ok_bin {w o} (h : Ok L R ls is ((if o.isCmp then .i32 else w.vt) :: s) s2) :
    Ok L R ls (.op (.bin w o) :: is) (w.vt :: w.vt :: s) s2 := .op (by simp [opTys]) h
theorem ok_bin32 {o} (h : Ok L R ls is (.i32 :: s) s2) : Ok L R ls (.op (.bin .w32 o) :: is) (.i32 :: .i32 :: s) s2 :=
  ok_bin (w := .w32) (by simpa [W.vt] using h)
theorem ok_bin64 {o} (ho : o.isCmp = false) (h : Ok L R ls is (.i64 :: s) s2) :
    Ok L R ls (.op (.bin .w64 o) :: is) (.i64 :: .i64 :: s) s2 := ok_bin (w := .w64) (by simpa [W.vt, ho] using h)
theorem ok_cmp64 {o} (ho : o.isCmp = true) (h : Ok L R ls is (.i32 :: s) s2) :
    Ok L R ls (.op (.bin .w64 o) :: is) (.i64 :: .i64 :: s) s2 := ok_bin (w := .w64) (by simpa [ho] using h)
theorem ok_load {k o t} (ht : t ∈ memTys k) (h : Ok L R ls is (t :: s) s2) : Ok L R ls (.op (.load k o) :: is) (.i32 :: s) s2 :=
  .op (by simpa [opTys] using ht) h
theorem ok_store {k o t} (ht : t ∈ memTys k) (h : Ok L R ls is s s2) : Ok L R ls (.op (.store k o) :: is) (t :: .i32 :: s) s2 :=
  .op (by simp [opTys, ht]) h
theorem ok_load4 {o} (h : Ok L R ls is (.i32 :: s) s2) : Ok L R ls (.op (.load 4 o) :: is) (.i32 :: s) s2 := ok_load (by decide) h
theorem ok_load1 {o} (h : Ok L R ls is (.i32 :: s) s2) : Ok L R ls (.op (.load 1 o) :: is) (.i32 :: s) s2 := ok_load (by decide) h
theorem ok_load8 {o} (h : Ok L R ls is (.i64 :: s) s2) : Ok L R ls (.op (.load 8 o) :: is) (.i32 :: s) s2 := ok_load (by decide) h
theorem ok_store4 {o} (h : Ok L R ls is s s2) : Ok L R ls (.op (.store 4 o) :: is) (.i32 :: .i32 :: s) s2 := ok_store (by decide) h
theorem ok_store1 {o} (h : Ok L R ls is s s2) : Ok L R ls (.op (.store 1 o) :: is) (.i32 :: .i32 :: s) s2 := ok_store (by decide) h
theorem ok_store8 {o} (h : Ok L R ls is s s2) : Ok L R ls (.op (.store 8 o) :: is) (.i64 :: .i32 :: s) s2 := ok_store (by decide) h
theorem ok_memCopy (h : Ok L R ls is s s2) : Ok L R ls (.op .memCopy :: is) (.i32 :: .i32 :: .i32 :: s) s2 := .op (by simp [opTys]) h
theorem ok_unreachable (h : Ok L R ls is s1 s2) : Ok L R ls (.op .unreachable :: is) s s2 := .unreachable h
theorem ok_block {b} (hb : Ok L R ([] :: ls) b [] []) (h : Ok L R ls is s s2) : Ok L R ls (.block 0 b :: is) s s2 :=
  .block (rs := []) hb h
theorem ok_loop {b} (hb : Ok L R ([] :: ls) b [] []) (h : Ok L R ls is s s2) : Ok L R ls (.loop 0 b :: is) s s2 :=
  .loop (rs := []) hb h
theorem ok_ite {b c} (hb : Ok L R ([] :: ls) b [] []) (hc : Ok L R ([] :: ls) c [] []) (h : Ok L R ls is s s2) :
    Ok L R ls (.ite 0 b c :: is) (.i32 :: s) s2 := .ite (rs := []) hb hc h
theorem ok_ite1 {b c t} (hb : Ok L R ([t] :: ls) b [] [t]) (hc : Ok L R ([t] :: ls) c [] [t]) (h : Ok L R ls is (t :: s) s2) :
    Ok L R ls (.ite 1 b c :: is) (.i32 :: s) s2 := .ite (rs := [t]) hb hc h
theorem ok_br {k} (hk : ls[k]? = some []) (h : Ok L R ls is s1 s2) : Ok L R ls (.br k :: is) s s2 := .br (rs := []) hk h
theorem ok_brIf {k} (hk : ls[k]? = some []) (h : Ok L R ls is s s2) : Ok L R ls (.brIf k :: is) (.i32 :: s) s2 := .brIf (rs := []) hk h
theorem ok_call {f : Fn} {ps rs : List VT} (hf : f.Valid ps rs) (h : Ok L R ls is (rs ++ s) s2) :
    Ok L R ls (f.call :: is) (ps.reverse ++ s) s2 := by
  obtain ⟨ls', l1, l2, l3, hok⟩ := hf
  unfold Fn.call
  rw [← l1, ← l2, ← l3]
  exact .call hok h
theorem ok_call10 {f : Fn} {a} (hf : f.Valid [a] []) (h : Ok L R ls is s s2) : Ok L R ls (f.call :: is) (a :: s) s2 := ok_call hf h
theorem ok_call1 {f : Fn} {a r} (hf : f.Valid [a] [r]) (h : Ok L R ls is (r :: s) s2) : Ok L R ls (f.call :: is) (a :: s) s2 := ok_call hf h
theorem ok_call2 {f : Fn} {a b r} (hf : f.Valid [a, b] [r]) (h : Ok L R ls is (r :: s) s2) :
    Ok L R ls (f.call :: is) (b :: a :: s) s2 := ok_call hf h
theorem ok_call3 {f : Fn} {a b c r} (hf : f.Valid [a, b, c] [r]) (h : Ok L R ls is (r :: s) s2) :
    Ok L R ls (f.call :: is) (c :: b :: a :: s) s2 := ok_call hf h
theorem ok_call4 {f : Fn} {a b c d r} (hf : f.Valid [a, b, c, d] [r]) (h : Ok L R ls is (r :: s) s2) :
    Ok L R ls (f.call :: is) (d :: c :: b :: a :: s) s2 := ok_call hf h

/-- A value pushed before `return` is right for the function. -/
def RetOk (ty : Rt.RetTy) (R : List VT) : Prop := R = [] ∨ R = ty.vts

theorem ok_badRet {ty} (hr : RetOk ty R) : Ok L R ls (Rt.badPush ty ++ [Instr.ret]) s s2 := by
  rcases hr with rfl | rfl
  · cases ty
    · exact ok_c32 (.ret (R := []) (s1 := s2) .nil)
    · exact ok_c64 (.ret (R := []) (s1 := s2) .nil)
    · exact .ret (R := []) (s1 := s2) .nil
  · cases ty
    · exact ok_c32 (.ret (R := [.i32]) (s1 := s2) .nil)
    · exact ok_c64 (.ret (R := [.i64]) (s1 := s2) .nil)
    · exact .ret (R := []) (s1 := s2) .nil

theorem ok_returnError {ty p tmp} (hr : RetOk ty R) (ht : L[tmp]? = some .i32) : Ok L R ls (Rt.returnError p ty tmp) s s2 := by
  unfold Rt.returnError Rt.handleError
  rw [List.append_assoc]
  exact ok_c32 (ok_lset ht (ok_c32 (ok_lget ht (ok_store4 (ok_badRet hr)))))

theorem ok_propagate {ty} (hr : RetOk ty R) (h : Ok L R ls is s s2) : Ok L R ls (Rt.propagate ty :: is) s s2 := by
  unfold Rt.propagate
  rw [List.append_assoc]
  exact ok_block (ok_c32 (ok_load4 (ok_c32 (ok_bin32 (ok_brIf rfl (ok_badRet hr)))))) h

end
end Wasm

namespace Rt
open Wasm

local notation "a" => VT.i32
local notation "b" => VT.i64

variable (E : ErrPtrs)

theorem alloc_valid : alloc.Valid [a] [a] := .of_chk [a, a, a] [] (by krfl) trivial
theorem addU32_valid : (addU32 E).Valid [a, a] [a] := .of_chk [a, a] [] (by krfl) trivial
theorem addU64_valid : (addU64 E).Valid [b, b] [b] := .of_chk [b, a] [] (by krfl) trivial
theorem subU32_valid : (subU32 E).Valid [a, a] [a] := .of_chk [a] [] (by krfl) trivial
theorem subU64_valid : (subU64 E).Valid [b, b] [b] := .of_chk [a] [] (by krfl) trivial
theorem mulU32_valid : (mulU32 E).Valid [a, a] [a] := .of_chk [a] [] (by krfl) trivial
theorem mulU64_valid : (mulU64 E).Valid [b, b] [b] := .of_chk [a] [] (by krfl) trivial
theorem checkOverflow_valid : (checkOverflow E).Valid [a, a] [a] := .of_chk [a] [] (by krfl) trivial
theorem downcast64to32_valid : (downcast64to32 E).Valid [b] [a] := .of_chk [a] [] (by krfl) trivial
theorem downcastHeap32_valid : (downcastHeap32 E).Valid [a, a] [a] := .of_chk [a, a] [] (by krfl) trivial
theorem downcastHeap64_valid : (downcastHeap64 E).Valid [a, a] [b] := .of_chk [a, a] [] (by krfl) trivial
theorem lessThan_valid : lessThan.Valid [a, a, a] [a] := .of_chk [b, b, a, a] [] (by krfl) trivial
theorem heapAdd_valid : (heapAdd E).Valid [a, a, a, a] [a] := .of_chk [a, a, b, b, b, a] [] (by krfl) trivial
theorem heapSub_valid : (heapSub E).Valid [a, a, a, a] [a] := .of_chk [a, b, b, b, b, b, a] [] (by krfl) trivial
theorem heapMul_valid : (heapMul E).Valid [a, a, a] [a] :=
  .of_chk [a, b, b, a, a, b, b, b, b, a] [([a], [a])] (by krfl) ⟨alloc_valid, trivial⟩
theorem shift1_valid : shift1.Valid [a, a] [] := .of_chk [a, a, b, b, b] [] (by krfl) trivial
theorem getBit_valid : getBit.Valid [a, a, a] [b] := .of_chk [a, a] [] (by krfl) trivial
theorem setBit_valid : setBit.Valid [a, a, a] [] := .of_chk [a, a, a, a, a] [] (by krfl) trivial
theorem isZero_valid : isZero.Valid [a, a] [a] := .of_chk [a, a] [] (by krfl) trivial
theorem heapDivMod_valid : (heapDivMod E).Valid [a, a, a, a] [a] :=
  .of_chk [a, a, a, a] [([a, a], [a]), ([a], [a]), ([a], [a]), ([a, a], []), ([a, a, a], [b]), ([a, a, a], [a]), ([a, a, a, a], [a]), ([a, a, a], [])]
    (by krfl) ⟨isZero_valid, alloc_valid, alloc_valid, shift1_valid, getBit_valid, lessThan_valid, heapSub_valid E, setBit_valid, trivial⟩
theorem heapShl_valid : (heapShl E).Valid [a, a, a] [a] :=
  .of_chk [a, a, a, a, a, a] [([a, a], [a]), ([a], [a])] (by krfl) ⟨checkOverflow_valid E, alloc_valid, trivial⟩
theorem heapShr_valid : (heapShr E).Valid [a, a, a] [a] :=
  .of_chk [a, a, a, a, a, a] [([a, a], [a]), ([a], [a])] (by krfl) ⟨checkOverflow_valid E, alloc_valid, trivial⟩
theorem heapEq_valid : heapEq.Valid [a, a, a] [a] := .of_chk [a] [] (by krfl) trivial
theorem copyHeap_valid (n : Nat) : (copyHeap n).Valid [a] [a] := .of_chk [a] [([a], [a])] (by krfl) ⟨alloc_valid, trivial⟩
theorem allocVec_valid : allocVec.Valid [a, a, a] [a] := .of_chk [a] [([a], [a]), ([a], [a])] (by krfl) ⟨alloc_valid, alloc_valid, trivial⟩
theorem swap32_valid : swap32.Valid [a] [a] := .of_chk [] [] (by krfl) trivial
theorem ascii_valid : ascii.Valid [b] [a] := .of_chk [a, a, b, a] [([a], [a]), ([a], [a]), ([a], [a]), ([a], [a])] (by krfl)
  ⟨alloc_valid, alloc_valid, alloc_valid, alloc_valid, trivial⟩

end Rt
