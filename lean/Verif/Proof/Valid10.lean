import Verif.Proof.Valid9
import Verif.Rt.Transfer
import Verif.Rt.Objects
import Verif.Rt.Dynamic
import Verif.Rt.Str
import Verif.Rt.Natives
import Verif.Rt.TypeName
import Verif.Rt.Enums
import Verif.Rt.Consts

/-!
# Validity of the functions that move objects, of dynamic fields, native functions and vectors
-/

namespace Rt
open Wasm Mv

local notation "v" => VT.i32
local notation "z" => VT.i64

variable {E : ErrPtrs} {T : Mv.Ty → Nat}

/-! ## Functions without parameters -/

theorem checkUtf8_valid : checkUtf8.Valid [v] [v] :=
  .of_chk [v, v, v] [([v], [v]), ([v], [v]), ([v], [v])] (by krfl) ⟨swap32_valid, swap32_valid, swap32_valid, trivial⟩
theorem isCharBoundary_valid : isCharBoundary.Valid [v, z] [v] := .of_chk [v, v, v] [] (by krfl) trivial
theorem indexOf_valid : indexOf.Valid [v, v] [z] := .of_chk [v, v, v, v, v] [] (by krfl) trivial
theorem subString_valid : subString.Valid [v, z, z] [v] := .of_chk [v, v, v, v, v] [([v, v, v], [v])] (by krfl) ⟨allocVec_valid, trivial⟩
theorem hasChild_valid : hasChild.Valid [v, v] [v] := .of_chk [] [([v, v, v], []), ([v, v], [v])] (by krfl) ⟨writeObjectSlot_valid, isZero_valid, trivial⟩
theorem hasChildTy_valid (h : Nat) : (hasChildTy h).Valid [v, v] [v] := .of_chk [] [([v, v], [v])] (by krfl) ⟨hasChild_valid, trivial⟩
theorem asUid_valid : asUid.Valid [v] [v] := .of_chk [v] [([v], [v])] (by krfl) ⟨alloc_valid, trivial⟩
theorem computeNamedId_valid (h : Nat) : (computeNamedId h).Valid [] [v] := .of_chk [v] [([v], [v])] (by krfl) ⟨alloc_valid, trivial⟩
theorem freshId_valid (h : Nat) : (freshId h).Valid [] [v] :=
  .of_chk [v, v, v, v] [([v], [v]), ([v], [v]), ([v], [v]), ([v], [v])] (by krfl) ⟨alloc_valid, alloc_valid, alloc_valid, alloc_valid, trivial⟩
theorem bytesToVec_valid : bytesToVec.Valid [v, v] [v] := .of_chk [v] [([v, v, v], [v])] (by krfl) ⟨allocVec_valid, trivial⟩
theorem nativeData_valid : nativeData.Valid [] [v] := .of_chk [] [([v, v], [v])] (by krfl) ⟨bytesToVec_valid, trivial⟩
theorem vecInc_valid : vecInc.Valid [v] [] := .of_chk [] [] (by krfl) trivial
theorem vecDec_valid : (vecDec E).Valid [v] [] := .of_chk [v] [] (by krfl) trivial
theorem vecBorrow_valid : (vecBorrow E).Valid [v, v, v, v] [v] := .of_chk [v, v, v] [([v], [v])] (by krfl) ⟨alloc_valid, trivial⟩
theorem vecUpdateRef_valid : vecUpdateRef.Valid [v] [] := .of_chk [] [] (by krfl) trivial
theorem vecEqHeap_valid : vecEqHeap.Valid [v, v, v, v] [v] := .of_chk [v, v, v] [([v, v, v], [v])] (by krfl) ⟨heapEq_valid, trivial⟩
theorem unpackBytes_valid : unpackBytes.Valid [v] [v] := .of_chk [] [] (by krfl) trivial
theorem variantOf_valid : variantOf.Valid [v] [v] := .of_chk [] [] (by krfl) trivial
/-! ## Vectors -/

theorem vecPop_valid (t : Mv.Ty) : (vecPop E t).Valid [v] [t.vt] := by
  refine ⟨[v], rfl, rfl, rfl, ?_⟩
  have l0 : ([v] ++ [v])[0]? = some VT.i32 := rfl
  have l1 : ([v] ++ [v])[1]? = some VT.i32 := rfl
  generalize [v] ++ [v] = L at *
  unfold vecPop
  flat
  ok2s
  refine ok_call10 vecDec_valid ?_
  ok2s
  exact ok_load t.vt_mem .nil

theorem vecPush_valid (t : Mv.Ty) : (vecPush E t).Valid [v, t.vt] [] := by
  refine ⟨[v, v, v], rfl, rfl, rfl, ?_⟩
  obtain ⟨l0, l1, l2, l3, l4, -⟩ : LocTys ([v, t.vt] ++ [v, v, v]) 0 [v, t.vt, v, v, v] := ⟨rfl, rfl, rfl, rfl, rfl, trivial⟩
  generalize [v, t.vt] ++ [v, v, v] = L at *
  simp only [Nat.zero_add, Nat.reduceAdd] at l0 l1 l2 l3 l4
  unfold vecPush
  flat
  ok2s
  refine ok_ite ?_ .nil ?_
  · ok2s
    exact ok_call2 (vecCopy_valid t) (by ok2s)
  · ok2s
    refine ok_store t.vt_mem ?_
    ok2s
    exact ok_call10 vecInc_valid .nil


attribute [local irreducible] returnError in
theorem vecSwap_valid (t : Mv.Ty) : (vecSwap E t).Valid [v, z, z] [] := by
  refine ⟨[v, v, v, v, v, v, t.vt, v, v], rfl, rfl, rfl, ?_⟩
  obtain ⟨l0, l1, l2, l3, l4, l5, l6, l7, l8, l9, l10, l11, -⟩ :
    LocTys ([v, z, z] ++ [v, v, v, v, v, v, t.vt, v, v]) 0 [v, z, z, v, v, v, v, v, v, t.vt, v, v] :=
    ⟨rfl, rfl, rfl, rfl, rfl, rfl, rfl, rfl, rfl, rfl, rfl, rfl, trivial⟩
  generalize [v, z, z] ++ [v, v, v, v, v, v, t.vt, v, v] = L at *
  simp only [Nat.zero_add, Nat.reduceAdd] at l0 l1 l2 l3 l4 l5 l6 l7 l8 l9 l10 l11
  have hR : RetOk .none [] := Or.inl rfl
  unfold vecSwap swapCheck
  flat
  refine ok_lget l1 (ok_call1 (downcast64to32_valid E) (ok_lset l4 (ok_lget l2 (ok_call1 (downcast64to32_valid E) (ok_lset l3 ?_)))))
  ok2s
  refine ok_block ?_ ?_
  · ok2s
    exact ok_returnError hR l6
  refine ok_block ?_ .nil
  ok2s
  refine ok_ite (ok_returnError hR l7) .nil ?_
  ok2s
  refine ok_ite (ok_returnError hR l8) .nil ?_
  ok2s
  refine ok_load t.vt_mem (ok_lset l9 (ok_lget l10 (ok_lget l11 (ok_load t.vt_mem (ok_store t.vt_mem (ok_lget l11 (ok_lget l9 (ok_store t.vt_mem .nil))))))))

theorem borrowF_valid (t : Mv.Ty) : (borrowF E t).Valid [v, z] [v] := by
  refine ⟨[], rfl, rfl, rfl, ?_⟩
  have hR : RetOk .i32 [v] := Or.inr rfl
  unfold borrowF borrowCode
  flat
  exact ok_lget rfl (ok_lget rfl (ok_call1 (downcast64to32_valid E) (ok_propagate hR (ok_c32 (ok_c32 (ok_call4 vecBorrow_valid (ok_propagate hR .nil)))))))

/-- Reading through a pointer: the code of `copyLocal` and `readRef`. -/
theorem readRef_valid (t : Mv.Ty) : (readRef E t).Valid [v] [t.vt] := by
  refine ⟨ltP t, rfl, rfl, ltP_length t, ?_⟩
  obtain ⟨⟨l0, -⟩, hl⟩ := LocTys.from (p := [v]) (T := ltP t) rfl
  unfold readRef
  ok2s
  split
  · exact ok_load t.vt_mem .nil
  · next h =>
    rw [Mv.Ty.vt_heap (by simpa using h)]
    have := copyP_typed (E := E) (Or.inr rfl : RetOk .i32 [v]) t hl (ls := [[v]]) (s := [])
    rwa [Mv.Ty.vt_heap (by simpa using h)] at this

theorem copyLocal_valid (t : Mv.Ty) : (copyLocal E t).Valid [v] [t.vt] := readRef_valid t

theorem eqFn_valid (t : Mv.Ty) : (eqFn E t).Valid [t.vt, t.vt] [v] := by
  refine ⟨ltE t, rfl, rfl, ltE_length t, ?_⟩
  obtain ⟨⟨l0, l1, -⟩, hl⟩ := LocTys.from (p := [t.vt, t.vt]) (T := ltE t) rfl
  unfold eqFn
  exact ok_lget l0 (ok_lget l1 (eqP_typed (Or.inr rfl) t hl))

theorem writeRefF_valid (t : Mv.Ty) : (writeRefF t).Valid [t.vt, v] [] := by
  refine ⟨[t.vt, v], rfl, rfl, rfl, ?_⟩
  obtain ⟨l0, l1, l2, l3, -⟩ : LocTys ([t.vt, v] ++ [t.vt, v]) 0 [t.vt, v, t.vt, v] := ⟨rfl, rfl, rfl, rfl, trivial⟩
  generalize [t.vt, v] ++ [t.vt, v] = L at *
  simp only [Nat.zero_add, Nat.reduceAdd] at l0 l1 l2 l3
  unfold writeRefF writeRef writeChunk
  refine ok_lget l0 (ok_lget l1 ?_)
  cases t <;> simp only [Mv.Ty.vt] at l0 l1 l2 l3 ⊢ <;> flat <;> ok2s
  exact ok_store (t := .i32) (by decide) .nil

/-! ## Moving objects -/

theorem deleteTto_valid (t : Mv.Ty) : (deleteTto E t).Valid [v, v] [] := by
  have nope : (⟨2, 0, 0, []⟩ : Fn).Valid [v, v] [] := ⟨[], rfl, rfl, rfl, .nil⟩
  match t with
  | .object (u :: fs) =>
    refine ⟨[v], rfl, rfl, rfl, ?_⟩
    obtain ⟨l0, l1, l2, -⟩ : LocTys ([v, v] ++ [v]) 0 [v, v, v] := ⟨rfl, rfl, rfl, trivial⟩
    generalize [v, v] ++ [v] = L at *
    simp only [Nat.zero_add, Nat.reduceAdd] at l0 l1 l2
    simp only [deleteTto]
    refine ok_block ?_ .nil
    ok2s
    exact ok_call10 (deleteObject_valid fs) .nil
  | .object [] | .bool | .u8 | .u16 | .u32 | .u64 | .u128 | .u256 | .address | .struct _ | .enum _ | .vec _ => exact nope

mutual
theorem ttoT_typed {R : List VT} : ∀ (t : Mv.Ty) {k off : Nat} {L ls}, L[0]? = some .i32 → LocTys L k (List.replicate (nlTto t) .i32) →
    ∀ {s}, Ok L R ls (ttoT E t k off) s s
  | .struct fs, k, off, L, ls, h0, ⟨l0, _⟩, s => by
    have hf : (⟨1, 0, (fs.map nlTto).sum, ttoFs E fs 1 0⟩ : Fn).Valid [v] [] :=
      ⟨_, rfl, rfl, List.length_replicate, ttoFs_typed fs rfl (LocTys.from (p := [v]) rfl).2⟩
    simp only [ttoT]
    ok2s
    refine ok_call10 hf ?_
    ok2s
    exact ok_call20 (deleteTto_valid _) .nil
  | .object fs, k, off, L, ls, h0, ⟨l0, _⟩, s => by
    have hf : (⟨1, 0, (fs.map nlTto).sum, ttoFs E fs 1 0⟩ : Fn).Valid [v] [] :=
      ⟨_, rfl, rfl, List.length_replicate, ttoFs_typed fs rfl (LocTys.from (p := [v]) rfl).2⟩
    simp only [ttoT]
    ok2s
    refine ok_call10 hf ?_
    ok2s
    exact ok_call20 (deleteTto_valid _) .nil
  | .vec t, k, off, L, ls, h0, hl, s => by
    have hf := ttoFn_valid t
    simp only [ttoT]
    split
    · next h =>
      simp only [nlTto, h, if_true] at hl
      obtain ⟨l0, l1, l2, l3, -⟩ := hl
      simp only [Nat.add_assoc, Nat.reduceAdd] at l0 l1 l2 l3
      ok2s
      refine ok_block ?_ .nil
      ok2s
      refine ok_block ?_ .nil
      ok2s
      refine ok_loop ?_ .nil
      flat
      ok2s
      refine ok_call10 hf ?_
      ok2s
      refine ok_call20 (deleteTto_valid _) ?_
      ok2s
      exact ok_br (s1 := []) rfl .nil
    · exact .nil
  | .bool, _, _, _, _, _, _, _ | .u8, _, _, _, _, _, _, _ | .u16, _, _, _, _, _, _, _ | .u32, _, _, _, _, _, _, _ | .u64, _, _, _, _, _, _, _
  | .u128, _, _, _, _, _, _, _ | .u256, _, _, _, _, _, _, _ | .address, _, _, _, _, _, _, _ | .enum _, _, _, _, _, _, _, _ => by simp only [ttoT]; exact .nil
theorem ttoFs_typed {R : List VT} : ∀ (ts : List Mv.Ty) {k off : Nat} {L ls}, L[0]? = some .i32 → LocTys L k (List.replicate (ts.map nlTto).sum .i32) →
    ∀ {s}, Ok L R ls (ttoFs E ts k off) s s
  | [], _, _, _, _, _, _, _ => by simp only [ttoFs]; exact .nil
  | t :: ts, k, off, L, ls, h0, hl, s => by
    rw [List.map_cons, List.sum_cons] at hl
    obtain ⟨h1, h2⟩ := LocTys.rep hl
    simp only [ttoFs]
    exact (ttoT_typed t h0 h1).append (ttoFs_typed ts h0 h2)
theorem ttoFn_valid : ∀ t : Mv.Ty, (ttoFn E t).Valid [v] []
  | .struct fs => by
    simp only [ttoFn]
    exact ⟨_, rfl, rfl, List.length_replicate, ttoFs_typed fs rfl (LocTys.from (p := [v]) rfl).2⟩
  | .object fs => by
    simp only [ttoFn]
    exact ⟨_, rfl, rfl, List.length_replicate, ttoFs_typed fs rfl (LocTys.from (p := [v]) rfl).2⟩
  | .bool | .u8 | .u16 | .u32 | .u64 | .u128 | .u256 | .address | .enum _ | .vec _ => by simp only [ttoFn]; exact ⟨[], rfl, rfl, rfl, .nil⟩
end

theorem dropOld_typed {L R : List VT} {ls} {fs : List Mv.Ty} {ow : Nat} {is : List Instr} {s s2 : List VT} (h0 : L[0]? = some .i32) (ho : L[ow]? = some .i32)
    (h : Ok L R ls is s s2) : Ok L R ls (dropOld E fs ow :: is) s s2 := by
  unfold dropOld
  refine ok_block ?_ h
  ok2s
  exact ok_call10 (deleteObject_valid fs) .nil

attribute [local irreducible] returnError dropOld

theorem transferObject_valid (u : Mv.Ty) (fs : List Mv.Ty) : (transferObject E T u fs).Valid [v, v] [] := by
  refine ⟨[v, v, v, v, v], rfl, rfl, rfl, ?_⟩
  obtain ⟨l0, l1, l2, l3, l4, l5, l6, -⟩ : LocTys ([v, v] ++ [v, v, v, v, v]) 0 [v, v, v, v, v, v, v] := ⟨rfl, rfl, rfl, rfl, rfl, rfl, rfl, trivial⟩
  generalize [v, v] ++ [v, v, v, v, v] = L at *
  simp only [Nat.zero_add, Nat.reduceAdd] at l0 l1 l2 l3 l4 l5 l6
  have hR : RetOk .none [] := Or.inl rfl
  unfold transferObject
  flat
  ok2s
  refine ok_block ?_ (ok_block ?_ ?_)
  · ok2s
    exact ok_returnError hR l5
  · ok2s
    exact ok_returnError hR l6
  refine dropOld_typed l0 l2 ?_
  ok2s
  refine ok_call10 (ttoFn_valid _) ?_
  ok2s
  exact ok_call20 (saveObject_valid T u fs) .nil

theorem publishObject_valid (key other : Nat) (e : RtErr) (u : Mv.Ty) (fs : List Mv.Ty) : (publishObject E T key other e u fs).Valid [v] [] := by
  refine ⟨[v, v, v], rfl, rfl, rfl, ?_⟩
  obtain ⟨l0, l1, l2, l3, -⟩ : LocTys ([v] ++ [v, v, v]) 0 [v, v, v, v] := ⟨rfl, rfl, rfl, rfl, trivial⟩
  generalize [v] ++ [v, v, v] = L at *
  simp only [Nat.zero_add, Nat.reduceAdd] at l0 l1 l2 l3
  unfold publishObject
  refine ok_block ?_ .nil
  ok2s
  refine ok_ite (ok_returnError (Or.inl rfl) l3) ?_ .nil
  refine dropOld_typed l0 l1 ?_
  ok2s
  refine ok_call10 (ttoFn_valid _) ?_
  ok2s
  exact ok_call20 (saveObject_valid T u fs) .nil

theorem cacheChanges_valid (u : Mv.Ty) (fs : List Mv.Ty) : (cacheChanges E T u fs).Valid [v] [] := by
  refine ⟨[v, v], rfl, rfl, rfl, ?_⟩
  obtain ⟨l0, l1, l2, -⟩ : LocTys ([v] ++ [v, v]) 0 [v, v, v] := ⟨rfl, rfl, rfl, trivial⟩
  generalize [v] ++ [v, v] = L at *
  simp only [Nat.zero_add, Nat.reduceAdd] at l0 l1 l2
  unfold cacheChanges
  ok2s
  refine ok_ite .nil ?_ .nil
  ok2s
  refine ok_call10 (ttoFn_valid _) ?_
  ok2s
  exact ok_call20 (saveObject_valid T u fs) .nil

/-! ## Loading objects -/

theorem unpackKind_valid {locate : Fn} (hf : locate.Valid [v] [v]) (u : Mv.Ty) (fs : List Mv.Ty) : (unpackKind E T locate u fs).Valid [v] [v] := by
  refine ⟨[v, v], rfl, rfl, rfl, ?_⟩
  obtain ⟨l0, l1, l2, -⟩ : LocTys ([v] ++ [v, v]) 0 [v, v, v] := ⟨rfl, rfl, rfl, trivial⟩
  generalize [v] ++ [v, v] = L at *
  simp only [Nat.zero_add, Nat.reduceAdd] at l0 l1 l2
  have hR : RetOk .i32 [v] := Or.inr rfl
  unfold unpackKind
  flat
  refine ok_lget l0 (ok_call1 hf ?_)
  ok2s
  exact ok_call3 (readObject_valid T u fs) .nil

theorem unpackAny_valid (u : Mv.Ty) (fs : List Mv.Ty) : (unpackAny E T u fs).Valid [v, v] [v] := by
  refine ⟨[v, v], rfl, rfl, rfl, ?_⟩
  obtain ⟨l0, l1, l2, l3, -⟩ : LocTys ([v, v] ++ [v, v]) 0 [v, v, v, v] := ⟨rfl, rfl, rfl, rfl, trivial⟩
  generalize [v, v] ++ [v, v] = L at *
  simp only [Nat.zero_add, Nat.reduceAdd] at l0 l1 l2 l3
  have hR : RetOk .i32 [v] := Or.inr rfl
  unfold unpackAny
  flat
  refine ok_lget l0 (ok_lget l1 (ok_call2 locateData_valid ?_))
  ok2s
  exact ok_call3 (readObject_valid T u fs) .nil

theorem locateKind_valid (k : Sig.Kind) : (locateKind E k).Valid [v] [v] := by
  cases k
  exacts [locateOwned_valid, locateShared_valid, locateFrozen_valid]

theorem loadObject_typed {L R : List VT} {ls} {is : List Instr} {s s2 : List VT} (hR : RetOk .i32 R) (kind : Option Sig.Kind) (imm : Bool) (u : Mv.Ty)
    (fs : List Mv.Ty) (h : Ok L R ls is (v :: s) s2) : Ok L R ls (loadObject E T kind imm u fs ++ is) (v :: s) s2 := by
  cases kind with
  | some k => exact ok_call1 (unpackKind_valid (locateKind_valid k) u fs) (ok_propagate hR h)
  | none => exact ok_c32 (ok_call2 (unpackAny_valid u fs) (ok_propagate hR h))

theorem loadArg_valid (kind : Option Sig.Kind) (imm : Bool) (u : Mv.Ty) (fs : List Mv.Ty) : (loadArg E T kind imm u fs).Valid [v] [v] := by
  refine ⟨[], rfl, rfl, rfl, ?_⟩
  unfold loadArg
  rw [List.append_assoc]
  exact ok_lget rfl (ok_call1 unpackAddress_valid (loadObject_typed (Or.inr rfl) kind imm u fs (ok_gget (ok_lset rfl .nil))))

theorem ok_call01 {L R : List VT} {ls} {is : List Instr} {s s2 : List VT} {f : Fn} {r} (hf : f.Valid [] [r]) (h : Ok L R ls is (r :: s) s2) :
    Ok L R ls (f.call :: is) s s2 := ok_call hf h

theorem loadNamed_valid (h : Nat) (kind : Option Sig.Kind) (imm : Bool) (u : Mv.Ty) (fs : List Mv.Ty) : (loadNamed E T h kind imm u fs).Valid [v] [v] := by
  refine ⟨[], rfl, rfl, rfl, ?_⟩
  unfold loadNamed
  rw [List.append_assoc]
  exact ok_call01 (computeNamedId_valid h) (loadObject_typed (Or.inr rfl) kind imm u fs (ok_gget (ok_lset rfl .nil)))

theorem peep_valid (u : Mv.Ty) (fs : List Mv.Ty) : (peep E T u fs).Valid [v, v] [v] := by
  refine ⟨[v, v, v], rfl, rfl, rfl, ?_⟩
  obtain ⟨l0, l1, l2, l3, l4, -⟩ : LocTys ([v, v] ++ [v, v, v]) 0 [v, v, v, v, v] := ⟨rfl, rfl, rfl, rfl, rfl, trivial⟩
  generalize [v, v] ++ [v, v, v] = L at *
  simp only [Nat.zero_add, Nat.reduceAdd] at l0 l1 l2 l3 l4
  unfold peep
  flat
  ok2s
  refine ok_block ?_ ?_
  · ok2s
    exact ok_returnError (Or.inr rfl) l3
  ok2s
  refine ok_call3 (readObject_valid T u fs) ?_
  ok2s

theorem reload_valid (u : Mv.Ty) (fs : List Mv.Ty) : (reload E T u fs).Valid [v, v, v] [v] := by
  refine ⟨[v, v, v, v], rfl, rfl, rfl, ?_⟩
  obtain ⟨l0, l1, l2, l3, l4, l5, l6, -⟩ : LocTys ([v, v, v] ++ [v, v, v, v]) 0 [v, v, v, v, v, v, v] := ⟨rfl, rfl, rfl, rfl, rfl, rfl, rfl, trivial⟩
  generalize [v, v, v] ++ [v, v, v, v] = L at *
  simp only [Nat.zero_add, Nat.reduceAdd] at l0 l1 l2 l3 l4 l5 l6
  have hR : RetOk .i32 [v] := Or.inr rfl
  unfold reload reloadOne
  flat
  refine ok_block ?_ (ok_lget l0 .nil)
  ok2s
  refine ok_call2 locateData_valid ?_
  ok2s
  refine ok_call3 (readObject_valid T u fs) ?_
  ok2s

/-! ## Dynamic fields -/

mutual
/-- Types of the locals of `copyKey`. -/
def ltKey : Mv.Ty → List VT
  | .struct fs => [v, z] ++ ltKeyFs fs
  | .vec t => [v, v, t.vt] ++ ltKey t
  | _ => []
def ltKeyFs : List Mv.Ty → List VT
  | [] => []
  | t :: ts => ltKey t ++ ltKeyFs ts
end

mutual
theorem ltKey_length : ∀ t : Mv.Ty, (ltKey t).length = nlKey t
  | .struct fs => by simp [ltKey, nlKey, ltKeyFs_length fs]; omega
  | .vec t => by simp [ltKey, nlKey, ltKey_length t]; omega
  | .bool | .u8 | .u16 | .u32 | .u64 | .u128 | .u256 | .address | .object _ | .enum _ => by simp [ltKey, nlKey]
theorem ltKeyFs_length : ∀ ts : List Mv.Ty, (ltKeyFs ts).length = nlKeyFs ts
  | [] => rfl
  | t :: ts => by simp [ltKeyFs, nlKeyFs, ltKey_length t, ltKeyFs_length ts]
end

mutual
theorem copyKey_typed {R : List VT} : ∀ (t : Mv.Ty) {d k : Nat} {L ls}, L[d]? = some t.vt → LocTys L k (ltKey t) → ∀ {s}, Ok L R ls (copyKey d t k) s s
  | .bool, d, k, L, ls, hd, hl, s | .u8, d, k, L, ls, hd, hl, s | .u32, d, k, L, ls, hd, hl, s | .u64, d, k, L, ls, hd, hl, s
  | .u128, d, k, L, ls, hd, hl, s | .u256, d, k, L, ls, hd, hl, s | .address, d, k, L, ls, hd, hl, s => by
    simp only [Mv.Ty.vt] at hd
    simp only [copyKey]
    ok2s
  | .u16, d, k, L, ls, hd, hl, s => by
    simp only [Mv.Ty.vt] at hd
    simp only [copyKey]
    ok2s
    exact ok_store (t := .i32) (by decide) .nil
  | .struct fs, d, k, L, ls, hd, hl, s => by
    simp only [Mv.Ty.vt] at hd
    obtain ⟨⟨l0, l1, -⟩, hl⟩ := LocTys.append (a := [v, z]) (by simpa only [ltKey] using hl)
    simp only [List.length_cons, List.length_nil, Nat.reduceAdd] at hl
    simp only [copyKey]
    exact copyKeyFs_typed fs hd l0 l1 hl
  | .vec t, d, k, L, ls, hd, hl, s => by
    simp only [Mv.Ty.vt] at hd
    obtain ⟨⟨l0, l1, l2, -⟩, hl⟩ := LocTys.append (a := [v, v, t.vt]) (by simpa only [ltKey] using hl)
    simp only [List.length_cons, List.length_nil, Nat.add_assoc, Nat.reduceAdd] at l0 l1 l2 hl
    simp only [copyKey]
    flat
    ok2s
    refine ok_block (ok_loop ?_ .nil) .nil
    ok2s
    refine ok_load t.vt_mem (ok_lset l2 ?_)
    refine (copyKey_typed t l2 hl).append ?_
    ok2s
    exact ok_br (s1 := []) rfl .nil
  | .object _, d, k, L, ls, hd, hl, s | .enum _, d, k, L, ls, hd, hl, s => by
    simp only [copyKey]
    exact ok_unreachable (s1 := s) .nil
theorem copyKeyFs_typed {R : List VT} : ∀ (ts : List Mv.Ty) {d f k off : Nat} {L ls}, L[d]? = some .i32 → L[f]? = some .i32 → L[f + 1]? = some .i64 →
    LocTys L k (ltKeyFs ts) → ∀ {s}, Ok L R ls (copyKeyFs d f ts k off) s s
  | [], _, _, _, _, _, _, _, _, _, _, _ => by simp only [copyKeyFs]; exact .nil
  | t :: ts, d, f, k, off, L, ls, hd, hf, hg, hl, s => by
    obtain ⟨h1, h2⟩ := LocTys.append (by simpa only [ltKeyFs] using hl)
    rw [ltKey_length] at h2
    have ht : L[if t.size = 8 then f + 1 else f]? = some t.vt := by
      cases t <;> simp [Mv.Ty.size, Mv.Ty.vt, hf, hg]
    simp only [copyKeyFs]
    flat
    refine ok_lget hd (ok_load4 ?_)
    refine Ok.append (s1 := t.vt :: s) ?_ (ok_lset ht ((copyKey_typed t ht h1).append (copyKeyFs_typed ts hd hf hg h2)))
    split
    · exact ok_load t.vt_mem .nil
    · next h => rw [Mv.Ty.vt_heap (by simpa using h)]; exact .nil
end

theorem copyName_typed {L R : List VT} {ls} : ∀ (bs : List UInt8) {s}, Ok L R ls (copyName bs) s s
  | [], _ => .nil
  | _ :: bs, _ => ok_c32 (ok_call1 alloc_valid (ok_c32 (ok_store1 (copyName_typed bs))))

/-- Hashing a key: its type may be any. -/
theorem hashKey_valid (t : Mv.Ty) (name : List UInt8) : (hashKey t name).Valid [v, t.vt] [v] := by
  refine ⟨[v, v] ++ ltKey t, rfl, rfl, by simp [hashKey, ltKey_length]; omega, ?_⟩
  obtain ⟨⟨l0, l1, l2, l3, -⟩, hl⟩ := LocTys.from (p := [v, t.vt, v, v]) (T := ltKey t) rfl
  rw [← List.append_assoc]
  show Ok ([v, t.vt, v, v] ++ ltKey t) _ _ _ _ _
  generalize [v, t.vt, v, v] ++ ltKey t = L at *
  simp only [Nat.zero_add, Nat.reduceAdd] at l0 l1 l2 l3
  unfold hashKey
  flat
  ok2s
  refine (copyKey_typed t l1 hl).append ((copyName_typed name).append ?_)
  ok2s

theorem addChild_valid (u : Mv.Ty) (fs : List Mv.Ty) : (addChild E T u fs).Valid [v, v] [] := by
  refine ⟨[v], rfl, rfl, rfl, ?_⟩
  obtain ⟨l0, l1, l2, -⟩ : LocTys ([v, v] ++ [v]) 0 [v, v, v] := ⟨rfl, rfl, rfl, trivial⟩
  generalize [v, v] ++ [v] = L at *
  simp only [Nat.zero_add, Nat.reduceAdd] at l0 l1 l2
  unfold addChild
  flat
  ok2s
  exact ok_call20 (saveObject_valid T u fs) (ok_propagate (Or.inl rfl) .nil)

theorem borrowChild_valid (u : Mv.Ty) (fs : List Mv.Ty) : (borrowChild E T u fs).Valid [v, v] [v] := by
  refine ⟨[v, v, v], rfl, rfl, rfl, ?_⟩
  obtain ⟨l0, l1, l2, l3, l4, -⟩ : LocTys ([v, v] ++ [v, v, v]) 0 [v, v, v, v, v] := ⟨rfl, rfl, rfl, rfl, rfl, trivial⟩
  generalize [v, v] ++ [v, v, v] = L at *
  simp only [Nat.zero_add, Nat.reduceAdd] at l0 l1 l2 l3 l4
  have hR : RetOk .i32 [v] := Or.inr rfl
  unfold borrowChild
  flat
  ok2s
  refine ok_call3 (readObject_valid T u fs) ?_
  ok2s

theorem removeChild_valid (u : Mv.Ty) (fs : List Mv.Ty) : (removeChild E T u fs).Valid [v, v] [v] :=
  ⟨[], rfl, rfl, rfl, ok_lget rfl (ok_lget rfl (ok_call2 (borrowChild_valid u fs) (ok_load4 .nil)))⟩

theorem commitField_valid (u : Mv.Ty) (fs : List Mv.Ty) : (commitField E T u fs).Valid [v] [] := by
  refine ⟨[v, v], rfl, rfl, rfl, ?_⟩
  obtain ⟨l0, l1, l2, -⟩ : LocTys ([v] ++ [v, v]) 0 [v, v, v] := ⟨rfl, rfl, rfl, trivial⟩
  generalize [v] ++ [v, v] = L at *
  simp only [Nat.zero_add, Nat.reduceAdd] at l0 l1 l2
  unfold commitField
  refine ok_block ?_ .nil
  ok2s
  exact ok_call20 (saveObject_valid T u fs) .nil

/-! ## Native functions with parameters -/

theorem ok_flush {L R : List VT} {ls} {is : List Instr} {s s2 : List VT} (h : Ok L R ls is s s2) : Ok L R ls (.op (.host .storageFlush) :: is) (v :: s) s2 :=
  .op (s1 := s) (by simp [opTys, HostFn.sig, popTys]) h

theorem storeHash_typed {L R : List VT} {ls} {p h : Nat} (hp : L[p]? = some .i32) {s} : Ok L R ls (storeHash h p) s s :=
  Move.ok_flatMap (fun _ _ => ok_lget hp (ok_c64 (ok_store8 .nil))) _

theorem constructor_valid (h : Nat) {init : Fn} (hi : init.Valid [v] []) : (constructor h init).Valid [] [] := by
  refine ⟨[v, v], rfl, rfl, rfl, ?_⟩
  have l0 : ([] ++ [v, v])[0]? = some VT.i32 := rfl
  have l1 : ([] ++ [v, v])[1]? = some VT.i32 := rfl
  generalize [] ++ [v, v] = L at *
  unfold constructor
  rw [List.append_assoc]
  refine ok_c32 (ok_call1 alloc_valid (ok_lset l0 ((storeHash_typed l0).append ?_)))
  ok2s
  refine ok_ite ?_ .nil .nil
  ok2s
  refine ok_call10 hi ?_
  ok2s
  exact ok_flush .nil

theorem commitFn_valid {save : Fn} (hs : save.Valid [] []) : (commitFn save).Valid [] [] :=
  ⟨[], rfl, rfl, rfl, ok_call hs (ok_c32 (ok_flush .nil))⟩

theorem writeName_typed {L R : List VT} {ls} (h : L[2]? = some .i32) : ∀ (bs : List UInt8) {o : Nat} {s}, Ok L R ls (TyHash.writeName bs o) s s
  | [], _, _ => .nil
  | _ :: bs, _, _ => ok_lget h (ok_c32 (ok_store1 (writeName_typed h bs)))

theorem typeNameGet_valid (bs : List UInt8) : (TyHash.typeNameGet bs).Valid [] [v] := by
  refine ⟨[v, v, v], rfl, rfl, rfl, ?_⟩
  obtain ⟨l0, l1, l2, -⟩ : LocTys ([] ++ [v, v, v]) 0 [v, v, v] := ⟨rfl, rfl, rfl, trivial⟩
  generalize [] ++ [v, v, v] = L at *
  simp only [Nat.zero_add, Nat.reduceAdd] at l0 l1 l2
  unfold TyHash.typeNameGet
  flat
  ok2s
  exact (writeName_typed l2 bs).append (by ok2s)

end Rt
