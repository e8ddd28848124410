import Verif.Rt.TypeHash
import Mathlib.Logic.Function.Basic

/-!
# The function table

Functions call each other through a WebAssembly table.  The code of a call is the index of the callee's entry; the
entries are made when a function is first called or translated, and filled when it has been translated
(translation/table.rs; translation.rs 642-900, 901-1123, `translate_and_link_functions` 3583-3678; lib.rs 186-240).  Generic
functions get an entry for every instance.

Of the body of a function only the calls are modelled, in the order in which they are translated; without the calls that
are handled specially (`uid.delete`, `NamedId::remove`).  `module_data.functions.information` is taken to be a map from
functions to what is known about them: that it can be indexed by function handles depends on Move's compiler listing the
handles of a module's own functions first, in the order of their definitions.
-/

namespace TyHash

mutual
/-- The derived `PartialEq for IntermediateType`. -/
def ITy.beq : ITy → ITy → Bool
  | .bool, .bool => true | .u8, .u8 => true | .u16, .u16 => true | .u32, .u32 => true | .u64, .u64 => true
  | .u128, .u128 => true | .u256, .u256 => true | .address, .address => true | .signer, .signer => true
  | .vec a, .vec b => a.beq b
  | .ref a, .ref b => a.beq b
  | .mref a, .mref b => a.beq b
  | .param i, .param j => i == j
  | .struct m i v, .struct n j w => m == n && i == j && v.beq w
  | .gstruct m i ts v, .gstruct n j us w => m == n && i == j && ITy.beqs ts us && v.beq w
  | .enum m i, .enum n j => m == n && i == j
  | .genum m i ts, .genum n j us => m == n && i == j && ITy.beqs ts us
  | _, _ => false
def ITy.beqs : List ITy → List ITy → Bool
  | [], [] => true
  | a :: as, b :: bs => a.beq b && ITy.beqs as bs
  | _, _ => false
def Vm.beq : Vm → Vm → Bool
  | .id m i, .id n j => m == n && i == j
  | .idG m i ts, .idG n j us => m == n && i == j && ITy.beqs ts us
  | .none, .none => true
  | _, _ => false
end

mutual
theorem ITy.eq_of_beq : ∀ {a b : ITy}, a.beq b = true → a = b
  | .bool, b, h | .u8, b, h | .u16, b, h | .u32, b, h | .u64, b, h | .u128, b, h | .u256, b, h | .address, b, h
  | .signer, b, h => by cases b <;> first | rfl | cases h
  | .vec a, b, h => by
    cases b <;> first | cases h | (rw [ITy.eq_of_beq (a := a) h])
  | .ref a, b, h => by
    cases b <;> first | cases h | (rw [ITy.eq_of_beq (a := a) h])
  | .mref a, b, h => by
    cases b <;> first | cases h | (rw [ITy.eq_of_beq (a := a) h])
  | .param i, b, h => by
    cases b <;> first | cases h | (simp [ITy.beq] at h; rw [h])
  | .struct m i v, b, h => by
    cases b <;> first | cases h | (simp [ITy.beq] at h; rw [h.1.1, h.1.2, Vm.eq_of_beq h.2])
  | .gstruct m i ts v, b, h => by
    cases b <;> first | cases h | (simp [ITy.beq] at h; rw [h.1.1.1, h.1.1.2, ITy.eq_of_beqs h.1.2, Vm.eq_of_beq h.2])
  | .enum m i, b, h => by
    cases b <;> first | cases h | (simp [ITy.beq] at h; rw [h.1, h.2])
  | .genum m i ts, b, h => by
    cases b <;> first | cases h | (simp [ITy.beq] at h; rw [h.1.1, h.1.2, ITy.eq_of_beqs h.2])
theorem ITy.eq_of_beqs : ∀ {as bs : List ITy}, ITy.beqs as bs = true → as = bs
  | [], [], _ => rfl
  | [], _ :: _, h => by cases h
  | _ :: _, [], h => by cases h
  | a :: as, b :: bs, h => by
    simp only [ITy.beqs, Bool.and_eq_true] at h
    rw [ITy.eq_of_beq h.1, ITy.eq_of_beqs h.2]
theorem Vm.eq_of_beq : ∀ {v w : Vm}, v.beq w = true → v = w
  | .id m i, w, h => by cases w <;> first | cases h | (simp [Vm.beq] at h; rw [h.1, h.2])
  | .idG m i ts, w, h => by
    cases w <;> first | cases h | (simp [Vm.beq] at h; rw [h.1.1, h.1.2, ITy.eq_of_beqs h.2])
  | .none, w, h => by cases w <;> first | rfl | cases h
end

mutual
theorem ITy.beq_refl : ∀ a : ITy, a.beq a = true
  | .bool | .u8 | .u16 | .u32 | .u64 | .u128 | .u256 | .address | .signer => rfl
  | .vec a | .ref a | .mref a => ITy.beq_refl a
  | .param i => by simp [ITy.beq]
  | .struct m i v => by simp [ITy.beq, Vm.beq_refl v]
  | .gstruct m i ts v => by simp [ITy.beq, Vm.beq_refl v, ITy.beqs_refl ts]
  | .enum m i => by simp [ITy.beq]
  | .genum m i ts => by simp [ITy.beq, ITy.beqs_refl ts]
theorem ITy.beqs_refl : ∀ as : List ITy, ITy.beqs as as = true
  | [] => rfl
  | a :: as => by simp [ITy.beqs, ITy.beq_refl a, ITy.beqs_refl as]
theorem Vm.beq_refl : ∀ v : Vm, v.beq v = true
  | .id m i => by simp [Vm.beq]
  | .idG m i ts => by simp [Vm.beq, ITy.beqs_refl ts]
  | .none => rfl
end

instance : DecidableEq ITy := fun a b =>
  if h : a.beq b = true then isTrue (ITy.eq_of_beq h) else isFalse fun e => h (e ▸ ITy.beq_refl a)

end TyHash

namespace Link
open TyHash (ITy Vm)

mutual
/-- `type_contains_generics` (generics.rs 10-25). -/
def hasParam : ITy → Bool
  | .ref t => hasParam t
  | .mref t => hasParam t
  | .vec t => hasParam t
  | .param _ => true
  | .gstruct _ _ ts _ => hasParams ts
  | .genum _ _ ts => hasParams ts
  | _ => false
def hasParams : List ITy → Bool
  | [] => false
  | t :: ts => hasParam t || hasParams ts
end

mutual
/-- `replace_type_parameters` (generics.rs 29-75): parameter `i` becomes `us[i]`.  `none`: there is no such type. -/
def subst (us : List ITy) : ITy → Option ITy
  | .param i => us[i]?
  | .ref t => (subst us t).map .ref
  | .mref t => (subst us t).map .mref
  | .gstruct m i ts vm => (substs us ts).map (.gstruct m i · vm)
  | .genum m i ts => (substs us ts).map (.genum m i ·)
  | .vec t => (subst us t).map .vec
  | t => some t
def substs (us : List ITy) : List ITy → Option (List ITy)
  | [] => some []
  | t :: ts => match subst us t, substs us ts with
    | some t', some ts' => some (t' :: ts')
    | _, _ => none
end

/-- `FunctionId` (translation/table.rs 21-28): a function (`fn` stands for its module and name), and the types it is
instantiated with. -/
structure Fid where
  fn : Nat
  tys : Option (List ITy)
  deriving DecidableEq

/-- A call in the body of a function: `Call` without types, `CallGeneric` with types. -/
structure Site where
  fn : Nat
  tys : Option (List ITy)

/-- A function: the number of its type parameters, its signature, whether it is native, the calls in its body
(`MappedFunction`, translation/functions.rs 41-59). -/
structure Info where
  nty : Nat
  args : List ITy
  rets : List ITy
  native : Bool
  calls : List Site

abbrev Prog := List Info

/-- `is_generic` (translation/functions.rs 84-85). -/
def Info.generic (I : Info) : Bool := hasParams I.args || hasParams I.rets

/-- `MappedFunction::instantiate` (translation/functions.rs 122-157). -/
def Info.inst (I : Info) (us : List ITy) : Option Info :=
  match substs us I.args, substs us I.rets with
  | some as, some rs => some { I with args := as, rets := rs }
  | _, _ => none

/-- A WebAssembly function type: for each parameter whether it is an i64 (or else i32), and whether there is a result. -/
structure Sig where
  params : List Bool
  res : Bool
  deriving DecidableEq

/-- `ValType::try_from` (intermediate_types.rs 1218-1242). -/
def valTy : ITy → Option Bool
  | .u64 => some true
  | .param _ => none
  | _ => some false

def valTys : List ITy → Option (List Bool)
  | [] => some []
  | t :: ts => match valTy t, valTys ts with
    | some b, some bs => some (b :: bs)
    | _, _ => none

/-- The WebAssembly type of a function (table.rs 90-98, translation.rs 211-213; intermediate_types.rs 1283-1293). -/
def Info.sig (I : Info) : Option Sig := (valTys I.args).map (⟨·, !I.rets.isEmpty⟩)

/-- A translated function: what it was translated from, its type, and the `call_indirect` instructions in its body (index
and type). -/
structure Code where
  id : Fid
  ty : Sig
  calls : List (Nat × Sig)

/-- `TableEntry` (table.rs 47-53). -/
structure Entry where
  idx : Nat
  id : Fid
  ty : Sig
  code : Option Code

/-- The table while compiling, and the element segments of the module. -/
structure St where
  entries : List Entry
  segs : List (Nat × Code)

/-- `get_by_function_id` (table.rs 140-142). -/
def find (es : List Entry) (id : Fid) : Option Entry := es.find? (fun e => decide (e.id = id))

/-- What a call refers to (translation.rs 643-654, 716-799 for `CallGeneric`, 902-918 for `Call`): the callee's id and
the callee instantiated. -/
def resolve (P : Prog) (caller : Fid) (c : Site) : Option (Fid × Info) :=
  match P[c.fn]? with
  | none => none
  | some I =>
    match c.tys with
    | none => some (⟨c.fn, none⟩, I)
    | some ts =>
      if hasParams ts then
        match caller.tys with
        | none => none
        | some us =>
          match substs us ts with
          | none => none
          | some vs => (I.inst vs).map fun J => (⟨c.fn, some vs⟩, J)
      else (I.inst ts).map fun J => (⟨c.fn, some ts⟩, J)

/-- The calls of a body (translation.rs 809-856, 990-1105): native functions are called directly; for others the entry is
looked up, or added (`FunctionTable::add`, table.rs 84-111) and the function noted for translation.  The results are the
instructions emitted, the entries, and the functions noted. -/
def callSites (P : Prog) (caller : Fid) : List Site → List Entry → Option (List (Nat × Sig) × List Entry × List Fid)
  | [], es => some ([], es, [])
  | c :: cs, es =>
    match resolve P caller c with
    | none => none
    | some (t, J) =>
      if J.native then callSites P caller cs es
      else
        match find es t with
        | some e =>
          match callSites P caller cs es with
          | none => none
          | some (k, es', l) => some ((e.idx, e.ty) :: k, es', l)
        | none =>
          match J.sig with
          | none => none
          | some s =>
            match callSites P caller cs (es ++ [⟨es.length, t, s, none⟩]) with
            | none => none
            | some (k, es', l) => some ((es.length, s) :: k, es', t :: l)

/-- The first entry of `id` gets its code (table.rs 131-135). -/
def fill (es : List Entry) (id : Fid) (c : Code) : List Entry :=
  match es with
  | [] => []
  | e :: es => if e.id = id then { e with code := some c } :: es else e :: fill es id c

/-- `add_to_wasm_table` (table.rs 113-138). -/
def addToTable (st : St) (id : Fid) (c : Code) : Option St :=
  match find st.entries id with
  | none => none
  | some e => some ⟨fill st.entries id c, st.segs ++ [(e.idx, c)]⟩

/-- The function to translate for `id`, and the id it has itself (translation.rs 3593-3623). -/
def instance? (P : Prog) (id : Fid) : Option (Fid × Info) :=
  match P[id.fn]? with
  | none => none
  | some I =>
    if I.generic then
      match id.tys with
      | none => none
      | some us => (I.inst us).map fun J => (⟨id.fn, some us⟩, J)
    else some (⟨id.fn, none⟩, I)

/-- `function_table.add` unless there is an entry already (translation.rs 3627-3638); `none`: nothing left to do. -/
def enter (st : St) (id own : Fid) (J : Info) : Option (Option St) :=
  match find st.entries own with
  | some e => if e.code.isSome then some none else some (some st)
  | none => J.sig.map fun s => some { st with entries := st.entries ++ [⟨st.entries.length, id, s, none⟩] }

/-- Translation of the body, and the entry of the result (translation.rs 3650-3661). -/
def translate (P : Prog) (st : St) (id own : Fid) (J : Info) : Option (St × List Fid) :=
  match J.sig, callSites P own J.calls st.entries with
  | some s, some (k, es, l) => (addToTable { st with entries := es } id ⟨own, s, k⟩).map (·, l)
  | _, _ => none

/-- `translate_and_link_functions` (translation.rs 3583-3678).  `ord` is the order in which a `HashSet` lists its elements;
the number bounds the depth of the recursion. -/
def link (P : Prog) (ord : List Fid → List Fid) : Nat → St → Fid → Option St
  | 0, _, _ => none
  | n + 1, st, id =>
    match instance? P id with
    | none => none
    | some (own, J) =>
      match enter st id own J with
      | none => none
      | some none => some st
      | some (some st) =>
        if J.native then some st
        else
          match translate P st id own J with
          | none => none
          | some (st, l) => (ord l).foldlM (link P ord n) st

/-- All functions of the root module that are neither native nor generic (`roots`) are translated, and at the end every
entry has to have code (lib.rs 187-198, 240; `ensure_all_functions_added`, table.rs 154-162). -/
def linkAll (P : Prog) (ord : List Fid → List Fid) (n : Nat) (roots : List Nat) : Option St :=
  match (roots.map (Fid.mk · none)).foldlM (link P ord n) ⟨[], []⟩ with
  | none => none
  | some st => if st.entries.all (·.code.isSome) then some st else none

/-- The table of the running module: element segments are applied in order. -/
def table (segs : List (Nat × Code)) : Nat → Option Code :=
  segs.foldl (fun T s => Function.update T s.1 (some s.2)) fun _ => none

/-- `call_indirect`: `none` is a trap. -/
def callIndirect (segs : List (Nat × Code)) (k : Nat × Sig) : Option Code :=
  match table segs k.1 with
  | some c => if c.ty = k.2 then some c else none
  | none => none

/-- The function called for an entry function of the module (lib.rs 200-205). -/
def entryCode (st : St) (f : Nat) : Option Code := (find st.entries ⟨f, none⟩).bind (·.code)

end Link
