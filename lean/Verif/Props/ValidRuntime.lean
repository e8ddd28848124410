import Verif.Proof.Valid12
import Verif.Props.ValidEntry

/-!
# C94: the functions of the runtime are valid WebAssembly

Each theorem is about the functions the compiler emits for one group of operations, for all types they can be emitted for.
-/

namespace Props
open Wasm Rt Mv

variable (E : ErrPtrs) (T : Mv.Ty → Nat) (u : Mv.Ty) (fs : List Mv.Ty)

/-- **C94 for storage** The functions that save, read and delete an object of any type, that transfer, share and freeze it and that save it when a function ends, pass validation. -/
theorem C94_storage_partial :
    (saveObject E T u fs).Valid [.i32, .i32] [] ∧ (readObject E T u fs).Valid [.i32, .i32, .i32] [.i32] ∧ (deleteObject E fs).Valid [.i32] [] ∧
    (transferObject E T u fs).Valid [.i32, .i32] [] ∧ (shareObject E T u fs).Valid [.i32] [] ∧ (freezeObject E T u fs).Valid [.i32] [] ∧
    (cacheChanges E T u fs).Valid [.i32] [] :=
  ⟨saveObject_valid T u fs, readObject_valid T u fs, deleteObject_valid fs, transferObject_valid u fs, publishObject_valid _ _ _ u fs,
    publishObject_valid _ _ _ u fs, cacheChanges_valid u fs⟩

/-- **C94 for parameters that are objects** The same of the code that loads an object that is passed to a function by its id or has a name, of `peep` and of the code
that reads an object again after a delegated call. -/
theorem C94_load_partial (kind : Option Sig.Kind) (imm : Bool) (h : Nat) :
    (loadArg E T kind imm u fs).Valid [.i32] [.i32] ∧ (loadNamed E T h kind imm u fs).Valid [.i32] [.i32] ∧
    (peep E T u fs).Valid [.i32, .i32] [.i32] ∧ (reload E T u fs).Valid [.i32, .i32, .i32] [.i32] :=
  ⟨loadArg_valid kind imm u fs, loadNamed_valid h kind imm u fs, peep_valid u fs, reload_valid u fs⟩

/-- **C94 for dynamic fields** The same of the functions behind dynamic fields, for keys of any type. -/
theorem C94_dynamic_partial (key : Mv.Ty) (name : List UInt8) (h : Nat) :
    (hashKey key name).Valid [.i32, key.vt] [.i32] ∧ (addChild E T u fs).Valid [.i32, .i32] [] ∧ (borrowChild E T u fs).Valid [.i32, .i32] [.i32] ∧
    (removeChild E T u fs).Valid [.i32, .i32] [.i32] ∧ hasChild.Valid [.i32, .i32] [.i32] ∧ (hasChildTy h).Valid [.i32, .i32] [.i32] ∧
    (commitField E T u fs).Valid [.i32] [] :=
  ⟨hashKey_valid key name, addChild_valid u fs, borrowChild_valid u fs, removeChild_valid u fs, hasChild_valid, hasChildTy_valid h, commitField_valid u fs⟩

/-- **C94 for vectors** The same of the functions behind vectors of any type, copies, comparisons and references. -/
theorem C94_vector_partial (t : Mv.Ty) :
    (vecPush E t).Valid [.i32, t.vt] [] ∧ (vecPop E t).Valid [.i32] [t.vt] ∧ (vecSwap E t).Valid [.i32, .i64, .i64] [] ∧
    (borrowF E t).Valid [.i32, .i64] [.i32] ∧ (vecCopy E t).Valid [.i32, .i32] [.i32] ∧ (vecEq E t).Valid [.i32, .i32] [.i32] ∧
    (eqFn E t).Valid [t.vt, t.vt] [.i32] ∧ (readRef E t).Valid [.i32] [t.vt] ∧ (writeRefF t).Valid [t.vt, .i32] [] :=
  ⟨vecPush_valid t, vecPop_valid t, vecSwap_valid t, borrowF_valid t, vecCopy_valid t, vecEq_valid t, eqFn_valid t, readRef_valid t, writeRefF_valid t⟩

/-- **C94 for native functions** The same of the natives behind strings, of type names, fresh and named ids, and of the constructor. -/
theorem C94_native_partial (h : Nat) (name : List UInt8) {init : Fn} (hi : init.Valid [.i32] []) :
    checkUtf8.Valid [.i32] [.i32] ∧ isCharBoundary.Valid [.i32, .i64] [.i32] ∧ indexOf.Valid [.i32, .i32] [.i64] ∧
    subString.Valid [.i32, .i64, .i64] [.i32] ∧ (TyHash.typeNameGet name).Valid [] [.i32] ∧ (freshId h).Valid [] [.i32] ∧
    (computeNamedId h).Valid [] [.i32] ∧ asUid.Valid [.i32] [.i32] ∧ nativeData.Valid [] [.i32] ∧ (constructor h init).Valid [] [] :=
  ⟨checkUtf8_valid, isCharBoundary_valid, indexOf_valid, subString_valid, typeNameGet_valid name, freshId_valid h, computeNamedId_valid h, asUid_valid,
    nativeData_valid, constructor_valid h hi⟩

/-- An `init` function that does nothing meets the hypothesis. -/
example : (⟨1, 0, 0, []⟩ : Fn).Valid [.i32] [] := ⟨[], rfl, rfl, rfl, .nil⟩

/-- A key that is a vector of u64 is hashed through an i64 local; with an i32 local the code would not be valid. -/
example : (hashKey (.vec .u64) [118]).Valid [.i32, .i32] [.i32] ∧
    ¬ ∃ L : List VT, L.length = 1 ∧ Ok L [] [] [.op (.c32 0), .op (.load 8 0), .op (.lset 0), .op (.lget 0), .op (.un .eqz), .op (.lset 0)] [] [] := by
  refine ⟨(C94_dynamic_partial (fun _ => 0) (fun _ => 0) .address [] (.vec .u64) [118] 0).1, ?_⟩
  rintro ⟨L, hL, h⟩
  obtain ⟨t, rfl⟩ := List.length_eq_one_iff.mp hL
  cases t with
  | i32 =>
    cases h with
    | op h1 h =>
      simp only [opTys, List.mem_singleton] at h1; subst h1
      cases h with
      | op h2 h =>
        simp [opTys, memTys] at h2; subst h2
        cases h with
        | op h3 h => simp [opTys] at h3
  | i64 =>
    cases h with
    | op h1 h =>
      simp only [opTys, List.mem_singleton] at h1; subst h1
      cases h with
      | op h2 h =>
        simp [opTys, memTys] at h2; subst h2
        cases h with
        | op h3 h =>
          simp [opTys] at h3; subst h3
          cases h with
          | op h4 h =>
            simp [opTys] at h4; subst h4
            cases h with
            | op h5 h =>
              simp [opTys] at h5; subst h5
              cases h with
              | op h6 h => simp [opTys] at h6

/-- **C94 for enums** The same of the code that makes a value of an enum, takes it apart (by value and by reference) and selects by variant. -/
theorem C94_enum_partial (vss : List (List Mv.Ty)) (i : Nat) (fs : List Mv.Ty) {o0 o1 : Nat} {f0 f1 : Fn} (h0 : f0.Valid [] [.i32]) (h1 : f1.Valid [] [.i32]) :
    (mkVariant vss i fs).Valid (fs.map Mv.Ty.vt) [.i32] ∧ (openVariant fs).Valid [.i32] (fs.map Mv.Ty.vt).reverse ∧
    (openVariantRef fs).Valid [.i32] (List.replicate fs.length .i32) ∧ (matchFn o0 o1 f0 f1).Valid [.i32] [.i32] :=
  ⟨mkVariant_valid vss i fs, openVariant_valid fs, openVariantRef_valid fs, matchFn_valid o0 o1 h0 h1⟩

/-- Functions that return a constant meet the hypotheses. -/
example (n : Nat) : (⟨0, 1, 0, code[Op.c32 n]⟩ : Fn).Valid [] [.i32] := ⟨[], rfl, rfl, rfl, ok_c32 .nil⟩

/-- **C94 for constants and vector literals** The same of the code that loads a constant of any type from any bytes, if there is such code, and of literals of vectors. -/
theorem C94_const_partial {t : Mv.Ty} {bs : List UInt8} {f : Fn} (h : constFn t bs = some f) (n : Nat) :
    f.Valid [] [t.vt] ∧ (vecLit t n).Valid (List.replicate n t.vt) [.i32] ∧ (destroyEmpty E t).Valid [.i32] [] :=
  ⟨constFn_valid h, vecLit_valid t n, destroyEmpty_valid t⟩

/-- The constant `vector[vector[1u64], vector[]]`. -/
example : ∃ f, constFn (.vec (.vec .u64)) [2, 1, 1, 0, 0, 0, 0, 0, 0, 0, 0] = some f ∧ f.nl = 6 := ⟨_, rfl, by decide +kernel⟩

/-- **C94 for errors** The same of aborts, of functions with no result or one that is an i32, as all compiled functions are, and of the custom errors of a struct that has fields. -/
theorem C94_error_partial (c : Nat) (msg sel : List UInt8) {ty : RetTy} (hty : ty ≠ .i64) {ts : List MTy} (h0 : ts ≠ []) :
    (abortFn ty).Valid [.i64] ty.vts ∧ (abortConstFn c msg ty).Valid [.i64] ty.vts ∧ (revertFn E sel ts).Valid [.i32] [] :=
  ⟨abortFn_valid ty hty, abortConstFn_valid c msg ty hty, revertFn_valid sel h0⟩

example : (abortFn .none).Valid [.i64] [] ∧ (abortConstFn 7 [78, 111] .i32).Valid [.i64] [.i32] ∧ (revertFn E [1, 2, 3, 4] [.u64, .vec .string]).Valid [.i32] [] :=
  ⟨(C94_error_partial E 7 [] [] (ty := .none) (by simp) (ts := [.u8]) (by simp)).1, (C94_error_partial E 7 [78, 111] [] (ty := .i32) (by simp) (ts := [.u8]) (by simp)).2.1,
    (C94_error_partial E 7 [] [1, 2, 3, 4] (ty := .i32) (by simp) (by simp)).2.2⟩

/-- **C94 for events** The same of the code that emits an event with up to four indexed fields, the most that are allowed, of any types. -/
theorem C94_event_partial (sig : Option Nat) {is : List ETy} (hi : is.length ≤ 4) (ds : List MTy) : (emitEvent E sig is ds).Valid [.i32] [] := emitEvent_valid sig hi ds

example : (emitEvent E (some 5) [.val .u64, .id, .val (.vec (.vec .u64)), .val (.struct [.u64, .string])] [.u64, .string]).Valid [.i32] [] :=
  C94_event_partial E (some 5) (by simp) _

/-- **C94 for calls to other contracts** The same of the code for a call to another contract, unless it has a parameter of type `&u64` (or `&mut u64`), and with such a parameter
never: the parameter is an i32, a pointer, but is packed as if it were the number itself. -/
theorem C94_external_partial (static payable : Bool) (sel : Nat) (args : List PTy) (res : Option MTy) :
    (externalCall E static payable sel args res).Valid (.i32 :: args.map PTy.vt) [.i32] ↔ .ref .u64 ∉ args :=
  ⟨externalCall_invalid, fun h => externalCall_valid static payable sel (fun t ht => t.packs_iff.mpr (fun e => h (e ▸ ht))) res⟩

/-- A call with a number, a vector, a reference to a vector and one to a u32. -/
example : (externalCall E false true 7 [.val .u64, .val (.vec .u64), .ref (.vec .u64), .ref .u32] (some .u64)).Valid [.i32, .i64, .i32, .i32, .i32] [.i32] :=
  (C94_external_partial E false true 7 _ _).mpr (by simp)

/-- **C94 is false** of a call to another contract with a parameter of type `&u64`. -/
theorem C94_false_external (static payable : Bool) (sel : Nat) (res : Option MTy) :
    ¬ (externalCall E static payable sel [.ref .u64] res).Valid [.i32, .i32] [.i32] :=
  fun h => (C94_external_partial E static payable sel [.ref .u64] res).mp h (by simp)

end Props
