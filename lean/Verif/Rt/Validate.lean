/-
The checks of structs and functions that are made on the source of a module before it is compiled
(`crates/move-parse-special-attributes/src`): the types of fields and signatures as the parser gives
them, `Type::parse_type`, `validate_struct` and the part of `validate_function` that looks at signatures.
Attributes are given already parsed; the checks of the bodies of functions (`parse_body.rs`,
`native_functions.rs`) are in `Rt/Body.lean`: `accepts` is what modules without calls of `emit` and `revert`
have to pass.
-/

namespace Validate

/-- Source types (`Type_` of the Move parser, as far as types.rs 33-117 looks at it): a name behind a
path, with type arguments; references; tuples; function types. -/
inductive STy where
  | app (path : List String) (name : String) (args : List STy)
  | ref (mutable : Bool) (t : STy)
  | unit
  | multiple (ts : List STy)
  | func (ts : List STy) (r : STy)
  deriving Repr

/-- `Type` (types.rs 13-30); the types without parts are in one constructor. -/
inductive Ty where
  | prim (name : String)
  | user (name : String) (args : List Ty)
  | vector (t : Ty)
  | tuple (ts : List Ty)
  | function (ts : List Ty) (r : Ty)
  | ref (t : Ty)
  | mutRef (t : Ty)
  deriving Repr

/-- The names that are built in types (types.rs 37-45). -/
def primNames : List String :=
  ["address", "bool", "signer", "u8", "u16", "u32", "u64", "u128", "u256"]

mutual
/-- `Type::parse_type` (types.rs 33-117).  `none` is a panic: a vector that has not one argument. -/
def parse : STy → Option Ty
  | .app [] n args =>
    if n ∈ primNames then some (.prim n)
    else if n = "vector" then
      (parses args).bind fun
        | [t] => some (.vector t)
        | _ => none
    else (parses args).map (.user n)
  | .app (_ :: _) n args => (parses args).map (.user n)
  | .ref true t => (parse t).map .mutRef
  | .ref false t => (parse t).map .ref
  | .unit => some (.prim "unit")
  | .multiple ts => (parses ts).map .tuple
  | .func ts r => do some (.function (← parses ts) (← parse r))
/-- The parts of a type. -/
def parses : List STy → Option (List Ty)
  | [] => some []
  | t :: ts => do some ((← parse t) :: (← parses ts))
end

mutual
/-- `extract_user_data_type_names` (types.rs 120-130). -/
def Ty.names : Ty → List String
  | .user n _ => [n]
  | .vector t => t.names
  | .tuple ts => namesAll ts
  | _ => []
/-- The names in a tuple. -/
def namesAll : List Ty → List String
  | [] => []
  | t :: ts => t.names ++ namesAll ts
end

/-- `is_event`, `is_abi_error` (types.rs 132-144): the names of the events or of the errors. -/
def Ty.isOneOf (ns : List String) : Ty → Bool
  | .user n _ => n ∈ ns
  | _ => false

/-- A struct as collected (lib.rs 52-59, 138-175). -/
structure Struct where
  name : String
  fields : List (String × STy)
  key : Bool
  /-- Marked as an event (lib.rs 221-245). -/
  event : Bool := false
  /-- Marked as an error (lib.rs 246-262). -/
  error : Bool := false

/-- A module: its address and name. -/
structure ModId where
  address : Nat
  name : String
  deriving DecidableEq, Repr

/-- The signature of a function (`entry`, type parameters, parameters, result). -/
structure Func where
  name : String
  entry : Bool
  typeParams : List String := []
  params : List (String × STy)
  result : STy

/-- A module: `imports` are the members imported by `use` (lib.rs 328-466), with their aliases, in the
order in which the hash map gives them; `deps` the structs of the other modules and whether they have the
`key` ability (`deps_structs`). -/
structure Module where
  id : ModId
  structs : List Struct
  functions : List Func
  imports : List (ModId × String × Option String) := []
  deps : ModId → Option (List (String × Bool)) := fun _ => none

/-- `SF_ADDRESS` (reserved_modules.rs 14-16). -/
def sfAddress : Nat := 2

/-- `SF_RESERVED_STRUCTS` (reserved_modules.rs 34-47). -/
def reservedStructs : List String :=
  ["TxContext", "Field", "CrossContractCall", "ContractCallResult", "ContractCallEmptyResult", "ID", "UID",
    "NamedId", "Table", "FrozenStorageObject", "OwnedStorageObject", "SharedStorageObject"]

/-- The errors of `StructValidationError` (struct_validation.rs 16-45). -/
inductive StructError where
  | keyIsEmpty
  | keyMissingUid
  | keyFirstFieldName
  | moreThanOneUid
  | uidWithoutKey
  | nestedEvent
  | nestedError
  | reserved
  deriving DecidableEq, Repr

/-- The pattern `Type::UserDataType(name, _)` with the names `UID` and `NamedId`
(struct_validation.rs 112-115, 135-138, 152-155). -/
def Ty.isId : Ty → Bool
  | .user n _ => n == "UID" || n == "NamedId"
  | _ => false

/-- `check_if_stylus_framework_reserved` (struct_validation.rs 171-193). -/
def checkReserved (address : Nat) (s : Struct) : List StructError :=
  if address ≠ sfAddress ∧ s.name ∈ reservedStructs then [.reserved] else []

/-- `validate_uid_and_named_id_placement` (struct_validation.rs 91-169); the fields are parsed. -/
def checkIds (address : Nat) (key : Bool) (fields : List (String × Ty)) : List StructError :=
  if address = sfAddress then []
  else if key then
    match fields with
    | [] => [.keyIsEmpty]
    | (n, t) :: rest =>
      (if ¬ t.isId then [.keyMissingUid] else if n ≠ "id" then [.keyFirstFieldName] else [])
        ++ (if rest.any (·.2.isId) then [.moreThanOneUid] else [])
  else if fields.any (·.2.isId) then [.uidWithoutKey] else []

mutual
/-- `check_type_for_nested_events_or_errors` (struct_validation.rs 215-259). -/
def nested (events errors : List String) : Ty → Option StructError
  | .user n _ => if n ∈ events then some .nestedEvent else if n ∈ errors then some .nestedError else none
  | .vector t => nested events errors t
  | .tuple ts => nestedAny events errors ts
  | _ => none
/-- The loop over the parts of a tuple. -/
def nestedAny (events errors : List String) : List Ty → Option StructError
  | [] => none
  | t :: ts => (nested events errors t).or (nestedAny events errors ts)
end

/-- The types of the fields (lib.rs 146-166). -/
def parseFields : List (String × STy) → Option (List (String × Ty))
  | [] => some []
  | (n, t) :: fs => do some ((n, ← parse t) :: (← parseFields fs))

/-- The names of the events of the module. -/
def Module.events (m : Module) : List String := (m.structs.filter (·.event)).map (·.name)
/-- The names of the errors of the module. -/
def Module.errors (m : Module) : List String := (m.structs.filter (·.error)).map (·.name)

/-- `validate_struct` (struct_validation.rs 59-89). -/
def validateStruct (m : Module) (s : Struct) : Option (List StructError) := do
  let fs ← parseFields s.fields
  some (checkReserved m.id.address s ++ checkIds m.id.address s.key fs
    ++ fs.filterMap fun f => nested m.events m.errors f.2)

/-- The errors of `FunctionValidationError` that depend on signatures (function_validation/error.rs). -/
inductive FuncError where
  | uidArgument
  | namedIdArgument
  | genericEntry
  | returnsKey
  | eventArgument
  | errorArgument
  deriving DecidableEq, Repr

/-- The search for a name among the imported members (function_validation.rs 119-143): the first member
that has this name, or this alias, and is a struct of its module.  The result is whether it has `key`. -/
def findImported (m : Module) (n : String) : Option Bool :=
  m.imports.findSome? fun (id, original, alias) =>
    if original = n ∨ alias = some n then
      (m.deps id).bind fun ss => (ss.find? (·.1 = original)).map (·.2)
    else none

/-- Whether a name of a result stands for a struct with `key` (function_validation.rs 114-163). -/
def returnsKey (m : Module) (n : String) : Bool :=
  match m.structs.find? (·.name = n) with
  | some s => s.key
  | none => (findImported m n).getD false

/-- The check of the parameters (function_validation.rs 80-100). -/
def uidError (address : Nat) (ps : List Ty) : Option FuncError :=
  if address = sfAddress then none
  else (namesAll ps).findSome? fun n =>
    if n = "UID" then some .uidArgument else if n = "NamedId" then some .namedIdArgument else none

/-- `validate_function` (function_validation.rs 68-226) for functions that are not natives of the
framework, up to the check of the body.  The outer `none` is a panic, the inner one no error. -/
def validateFunction (m : Module) (f : Func) : Option (Option FuncError) := do
  let ps ← parses (f.params.map (·.2))
  let r ← parse f.result
  some <|
    (uidError m.id.address ps).or <|
    (if f.entry ∧ f.typeParams ≠ [] then some .genericEntry else none).or <|
    (if f.entry ∧ r.names.any (returnsKey m) then some .returnsKey else none).or <|
    (if ps.any (·.isOneOf m.events) then some .eventArgument else none).or <|
    (if ps.any (·.isOneOf m.errors) then some .errorArgument else none)

/-- The module passes the checks of structs (lib.rs 310-326) and functions (lib.rs 490-511, 696-700). -/
def accepts (m : Module) : Bool :=
  m.structs.all (fun s => validateStruct m s == some [])
    && m.functions.all (fun f => validateFunction m f == some none)

end Validate
