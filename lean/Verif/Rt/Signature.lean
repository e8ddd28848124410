/-!
# Compile-time checks on public functions

Pure models of compile-time code: which signatures are accepted, how the object modifiers of a
function are validated, and which lookup is compiled for an object argument.

Names (`Symbol`) are strings.  The parser's `Type` (move-parse-special-attributes/src/types.rs 11-29)
and the compiler's `IntermediateType` (translation/intermediate_types.rs 55-110) are one type here:
that of a parameter of a function, seen by either stage.
-/

namespace Sig

/-- Types of parameters.  Structs are named and carry their `key` ability; enums and generic
parameters are opaque.  Unit, tuples and function types cannot be types of parameters. -/
inductive Ty where
  | bool | u8 | u16 | u32 | u64 | u128 | u256 | address | signer
  | vector (t : Ty)
  | ref (t : Ty)
  | mutRef (t : Ty)
  | struct (name : String) (key : Bool)
  | enum (name : String)
  | param (i : Nat)
deriving DecidableEq

/-! ### Signers in signatures -/

/-- `find_signature_type` (abi_types/public_function.rs 240-248). -/
def findSignatureType : Ty → Bool
  | .signer => true
  | .vector t => findSignatureType t
  | _ => false

/-- `PublicFunctionValidationError` (abi_types/error.rs), with the position counted from one. -/
inductive SigErr where
  | position (i : Nat)
  | complex (i : Nat)
deriving DecidableEq

/-- The loop of `check_signature_arguments` (abi_types/public_function.rs 209-234), at argument `i`. -/
def checkFrom : Nat → List Ty → Except SigErr Unit
  | _, [] => .ok ()
  | i, .signer :: ts => if i ≠ 0 then .error (.position (i + 1)) else checkFrom (i + 1) ts
  | i, .vector t :: ts => if findSignatureType t then .error (.complex (i + 1)) else checkFrom (i + 1) ts
  | i, _ :: ts => checkFrom (i + 1) ts

/-- `check_signature_arguments` (abi_types/public_function.rs 205-236). -/
def checkSignature (ts : List Ty) : Except SigErr Unit := checkFrom 0 ts

/-- Whether the router pushes the transaction's sender before the arguments are unpacked
(`build_router_block`, abi_types/public_function.rs 112-122). -/
def injectsSigner : List Ty → Bool
  | .signer :: _ => true
  | .ref .signer :: _ => true
  | _ => false

/-- Number of values the code unpacking an argument leaves on the stack (abi_types/unpacking.rs
134-360): nothing for a signer or a reference to one (line 197, 203), one otherwise. -/
def unpackedValues : Ty → Nat
  | .signer => 0
  | .ref .signer => 0
  | .mutRef .signer => 0
  | _ => 1

/-- Values on the stack when the function is called. -/
def pushedValues (ts : List Ty) : Nat :=
  (if injectsSigner ts then 1 else 0) + (ts.map unpackedValues).sum

/-! ### Object modifiers -/

/-- `Parameter` (move-parse-special-attributes/src/function_modifiers.rs 51-55). -/
structure Param where
  name : String
  ty : Ty

/-- `ObjectKind` (abi_types/unpacking.rs 30-38), `StorageObjectModifier`
(function_validation.rs 232-238). -/
inductive Kind where
  | owned | shared | frozen
deriving DecidableEq

/-- A modifier: `FunctionModifier::OwnedObjects` and so on (function_modifiers.rs 79-89). -/
structure Modifier where
  kind : Kind
  ids : List String

/-- `check_storage_object_param` (move-parse-special-attributes/src/function_validation.rs 244-312);
`structs` are the structs of the module with their `key` ability. -/
def checkParam (structs : List (String × Bool)) (ps : List Param) (id : String) (k : Kind) : Bool :=
  match ps.find? (fun p => p.name == id) with
  | none => false
  | some p =>
    let frozenOk := match k, p.ty with
      | .frozen, .ref _ => true
      | .frozen, _ => false
      | _, _ => true
    let name : Option String := match p.ty with
      | .struct n _ => some n
      | .ref (.struct n _) => some n
      | .mutRef (.struct n _) => some n
      | .enum n => some n
      | .ref (.enum n) => some n
      | .mutRef (.enum n) => some n
      | _ => none
    match frozenOk, name with
    | true, some n => match structs.find? (fun s => s.1 == n) with
      | some s => s.2
      | none => false
    | _, _ => false

/-- State of the loop over the modifiers of a function
(move-parse-special-attributes/src/lib.rs 483-627): whether an error was found, the names processed so
far, and the three lists of the function. -/
structure ModState where
  bad : Bool
  seen : List String
  owned : List String
  shared : List String
  frozen : List String
deriving DecidableEq

/-- One identifier of a modifier (lib.rs 533-556): the repetition check
(function_validation.rs 315-330) and the parameter check. -/
def ModState.ident (structs : List (String × Bool)) (ps : List Param) (k : Kind) (s : ModState) (id : String) : ModState :=
  let s := if id ∈ s.seen then { s with bad := true } else { s with seen := id :: s.seen }
  if checkParam structs ps id k then s else { s with bad := true }

/-- One modifier (lib.rs 530-627). -/
def ModState.modifier (structs : List (String × Bool)) (ps : List Param) (s : ModState) (m : Modifier) : ModState :=
  let s := m.ids.foldl (ModState.ident structs ps m.kind) s
  if s.bad then s else
  match m.kind with
  | .owned => { s with owned := s.owned ++ m.ids }
  | .shared => { s with shared := s.shared ++ m.ids }
  | .frozen => { s with frozen := s.frozen ++ m.ids }

/-- The modifiers of a function, in order; `none` if an error is reported. -/
def process (structs : List (String × Bool)) (ps : List Param) (ms : List Modifier) : Option ModState :=
  let s := ms.foldl (ModState.modifier structs ps) ⟨false, [], [], [], []⟩
  if s.bad then none else some s

/-- `compute_arguments_object_kind` (move-bytecode-to-wasm/src/lib.rs 266-301), for the function whose
modifiers have been processed to `s`; the entry for argument `i` of the resulting map. -/
def argumentKind (s : ModState) (ps : List Param) (i : Nat) : Option Kind :=
  if s.owned = [] ∧ s.shared = [] ∧ s.frozen = [] then none else
  match ps[i]? with
  | none => none
  | some p =>
    if p.name ∈ s.owned then some .owned
    else if p.name ∈ s.shared then some .shared
    else if p.name ∈ s.frozen then some .frozen
    else none

/-! ### The lookup compiled for an argument -/

/-- The runtime function called to find an object (runtime/unpacking/structs.rs 294-364):
owned, shared or frozen objects only, or a search that may include frozen objects. -/
inductive Lookup where
  | owned | shared | frozen
  | search (frozen : Bool)
deriving DecidableEq

/-- The lookup compiled for an object (abi_types/unpacking.rs 271-303); `parent`: the object is the target
of an immutable reference. -/
def lookup (parentRef : Bool) : Option Kind → Lookup
  | some .owned => .owned
  | some .shared => .shared
  | some .frozen => .frozen
  | none => .search parentRef

/-- The lookup for an argument of type `t` that is an object or a reference to one
(abi_types/unpacking.rs 198-222, 268-303); `none`: the argument itself is not an object. -/
def argLookup (k : Option Kind) : Ty → Option Lookup
  | .struct _ true => some (lookup false k)
  | .ref (.struct _ true) => some (lookup true k)
  | .mutRef (.struct _ true) => some (lookup false k)
  | _ => none

/-- Whether frozen objects can be found. -/
def Lookup.sees : Lookup → Bool
  | .owned => false
  | .shared => false
  | .frozen => true
  | .search f => f

end Sig
