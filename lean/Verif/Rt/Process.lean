import Verif.Rt.Attributes
import Verif.Rt.Validate
import Verif.Rt.Signature

/-!
The processing of a source file by `process_special_attributes`
(`crates/move-parse-special-attributes/src/lib.rs` 113-701): the loops over the structs and the functions
of all modules of the file, what is done with their modifiers, the checks of the declarations of external
calls (`external_call/structs.rs`, `external_call/function.rs`), of errors (`abi_error.rs`) and of the names
of objects (`function_validation.rs` 241-330); and the lookup of the kinds of objects of a function
(`crates/move-bytecode-to-wasm/src/lib.rs` 266-301).

Simplified: locations are left out.  The checks of `Rt/Validate.lean` and `Rt/Body.lean` (`validate_struct`,
`validate_function`), of constants and of imports are parameters.  Hash maps are lists with the newest entry
first; a lookup finds the newest entry.  A type that `Type::parse_type` panics on counts as a type that is
not an object.
-/

namespace Process
open Attributes Validate

/-- `StructDefinition` of the Move parser as far as it is looked at. -/
structure SDef where
  name : String
  /-- `StructFields::Positional` or `StructFields::Named`. -/
  positional : Bool
  fields : List STy
  drop : Bool := false
  key : Bool := false
  generic : Bool := false
  groups : List (List Attr) := []

/-- `Function` of the Move parser. -/
structure FDef where
  name : String
  native : Bool := false
  params : List (String × STy)
  result : STy
  groups : List (List Attr) := []

/-- A module of a file. -/
structure Mod where
  name : String
  structs : List SDef
  funs : List FDef

/-- The errors (error.rs, external_call/error.rs, abi_error.rs 19-32, event.rs 24-45,
function_validation/error.rs). -/
inductive PErr where
  | attr (e : Err)
  | missingDrop
  | missingConfiguration
  | tooManyFields
  | invalidConfiguration
  | eventWithKey
  | abiErrorName
  | genericAbiError
  | abiErrorWithKey
  | tooManyAttributes
  | notNative
  | returnType
  | firstArgument
  | repeated (id : String)
  | parameterNotFound (id : String)
  | notImmutableRef (id : String)
  | structNotFound (id : String)
  | structWithoutKey (id : String)
  | failureWithoutTest
  /-- An error of the checks that are parameters. -/
  | other (n : Nat)
  deriving DecidableEq

/-- `get_single_type_name` (shared.rs 16-25). -/
def singleName : STy → Option String
  | .app [] n _ => some n
  | .ref _ t => singleName t
  | _ => none

/-- `check_fields` (external_call/structs.rs 16-69). -/
def checkFields (s : SDef) : List PErr :=
  if s.positional then
    match s.fields with
    | [] => [.missingConfiguration]
    | [t] => if singleName t = some "CrossContractCall" then [] else [.invalidConfiguration]
    | _ => [.tooManyFields]
  else [.invalidConfiguration]

/-- `validate_external_call_struct` (external_call/structs.rs 71-102). -/
def checkCallStruct (s : SDef) : List PErr :=
  (if s.drop then [] else [.missingDrop]) ++ checkFields s

/-- `check_return_value` (external_call/function.rs 17-51): whether the type is one of the two results. -/
def resultOk : STy → Bool
  | .app [] n _ => n == "ContractCallEmptyResult" || n == "ContractCallResult"
  | _ => false

/-- `check_first_parameter_is_external_struct` (external_call/function.rs 57-70). -/
def firstOk (callStructs : List String) (f : FDef) : Bool :=
  match f.params with
  | (_, t) :: _ =>
    match singleName t with
    | some n => n ∈ callStructs
    | none => false
  | [] => false

/-- `validate_external_call_function` (external_call/function.rs 72-108). -/
def checkCall (callStructs : List String) (f : FDef) : List PErr :=
  (if f.native then [] else [.notNative]) ++ (if resultOk f.result then [] else [.returnType])
    ++ (if firstOk callStructs f then [] else [.firstArgument])

/-- `attribute_name` of the Move parser. -/
def attrName : Attr → String
  | .name n => n
  | .assigned n _ => n
  | .param n _ => n

/-- `AbiError::try_from` (abi_error.rs 46-116) on the attributes of the struct; `false`: not an error. -/
def tryAbi (s : SDef) : List Attr → Except PErr Bool
  | [] => .ok false
  | .param n (p :: ps) :: as =>
    if n = "ext" ∧ attrName p = "abi_error" then
      if s.name = "Error" then .error .abiErrorName
      else if s.generic then .error .genericAbiError
      else if s.key then .error .abiErrorWithKey
      else if ps ≠ [] then .error .tooManyAttributes
      else .ok true
    else tryAbi s as
  | _ :: as => tryAbi s as

/-- A function as it is kept (`Function`, function_modifiers.rs); the three lists of objects are in one. -/
structure Fn where
  name : String
  params : List (String × STy)
  objects : List (Sig.Kind × String) := []
  abi : List Sol := []

/-- `found_error`, `module_errors` and `SpecialAttributes` (lib.rs 74-105, 128-131); `seen` and `cur` are
`processed_storage_objects` and `function` of the loop over functions (lib.rs 484-490). -/
structure St where
  found : Bool := false
  errors : List PErr := []
  structs : List (String × Bool) := []
  events : List (String × Nat × Bool) := []
  abiErrors : List String := []
  callStructs : List String := []
  externals : List (String × Nat × String) := []
  tests : List (String × Bool) := []
  calls : List (String × List Sol) := []
  functions : List Fn := []
  seen : List String := []
  cur : Fn := ⟨"", [], [], []⟩

/-- Errors are added: `found_error = true; module_errors.extend(..)`. -/
def St.fail (st : St) (es : List PErr) : St :=
  { st with found := st.found || !es.isEmpty, errors := st.errors ++ es }

/-- What is done with a modifier of a struct (lib.rs 190-263). -/
def structMod (s : SDef) (st : St) : SMod → St
  | .external a m => { st with externals := (s.name, a, m) :: st.externals }
  | .call =>
    match checkCallStruct s with
    | [] => if s.name ∈ st.callStructs then st else { st with callStructs := s.name :: st.callStructs }
    | es => st.fail es
  | .event k an =>
    if s.key then st.fail [.eventWithKey] else { st with events := (s.name, k, an) :: st.events }
  | .abiError =>
    match tryAbi s s.groups.flatten with
    | .ok true => { st with abiErrors := s.name :: st.abiErrors }
    | .ok false => st
    | .error e => st.fail [e]

/-- One `#[..]` of a struct (lib.rs 177-264). -/
def structGroup (s : SDef) (st : St) (g : List Attr) : St :=
  (structMods [g]).1.foldl (structMod s) (st.fail ((structMods [g]).2.map .attr))

/-- A struct (lib.rs 141-265). -/
def structStep (st : St) (s : SDef) : St :=
  s.groups.foldl (structGroup s) { st with structs := st.structs ++ [(s.name, s.key)] }

/-- The name of the struct of a parameter (function_validation.rs 272-283). -/
def objectName : Option Ty → Option String
  | some (.user n _) => some n
  | some (.ref (.user n _)) => some n
  | some (.mutRef (.user n _)) => some n
  | _ => none

/-- `matches!(&param.type_, Type::Ref(_))` (function_validation.rs 263). -/
def immutable : Option Ty → Bool
  | some (.ref _) => true
  | _ => false

/-- `check_storage_object_param` (function_validation.rs 244-312). -/
def checkObject (structs : List (String × Bool)) (f : FDef) (k : Sig.Kind) (id : String) : List PErr :=
  match f.params.find? (·.1 = id) with
  | none => [.parameterNotFound id]
  | some p =>
    if k = .frozen ∧ immutable (parse p.2) = false then [.notImmutableRef id]
    else match objectName (parse p.2) with
      | none => [.parameterNotFound id]
      | some n =>
        match structs.find? (·.1 = n) with
        | none => [.structNotFound id]
        | some s => if s.2 then [] else [.structWithoutKey id]

/-- One name of a list of objects (lib.rs 533-554): `check_repeated_storage_object_param`
(function_validation.rs 315-330) and the check of the parameter. -/
def identStep (f : FDef) (k : Sig.Kind) (st : St) (id : String) : St :=
  (if id ∈ st.seen then st.fail [.repeated id] else { st with seen := id :: st.seen }).fail
    (checkObject st.structs f k id)

/-- A list of objects (lib.rs 530-627). -/
def objectsStep (f : FDef) (k : Sig.Kind) (st : St) (ids : List String) : St :=
  let st := ids.foldl (identStep f k) st
  if st.found then st
  else { st with cur := { st.cur with objects := st.cur.objects ++ ids.map fun i => (k, i) } }

/-- `test_functions.iter_mut().find(..)` and the assignment (lib.rs 636-641). -/
def expectFailure (n : String) : List (String × Bool) → List (String × Bool)
  | [] => []
  | t :: ts => if t.1 = n then (n, true) :: ts else t :: expectFailure n ts

/-- What is done with a modifier of a function (lib.rs 528-682). -/
def funMod (f : FDef) (st : St) : FMod → St
  | .owned ids => objectsStep f .owned st ids
  | .shared ids => objectsStep f .shared st ids
  | .frozen ids => objectsStep f .frozen st ids
  | .test => { st with tests := st.tests ++ [(f.name, false)] }
  | .expectedFailure =>
    if st.tests.any (·.1 = f.name) then { st with tests := expectFailure f.name st.tests }
    else st.fail [.failureWithoutTest]
  | .call ms =>
    match checkCall st.callStructs f with
    | [] => if st.found then st else { st with calls := (f.name, ms) :: st.calls }
    | es => st.fail es
  | .abi ms => if st.found then st else { st with cur := { st.cur with abi := st.cur.abi ++ ms } }
  | .skip => st

/-- One `#[..]` of a function (lib.rs 512-683). -/
def funGroup (f : FDef) (st : St) (g : List Attr) : St :=
  match parseFuns g with
  | .error e => st.fail [.attr e]
  | .ok ms => ms.foldl (funMod f) st

/-- A function (lib.rs 481-687); `valid` is `validate_function`. -/
def funStep (valid : FDef → Option PErr) (st : St) (f : FDef) : St :=
  let st := { st with seen := [], cur := { name := f.name, params := f.params } }
  let st := f.groups.foldl (funGroup f) (st.fail (valid f).toList)
  if st.found then st else { st with functions := st.functions ++ [st.cur] }

/-- `process_special_attributes` (lib.rs 113-701): all structs of all modules of the file, the checks that
are a parameter (lib.rs 280-301, 310-474), and all functions of all modules. -/
def processFile (valid : FDef → Option PErr) (extra : List PErr) (file : List Mod) : Except (List PErr) St :=
  let st := (file.flatMap (·.structs)).foldl structStep {}
  let st := st.fail extra
  let st := (file.flatMap (·.funs)).foldl (funStep valid) st
  if st.found then .error st.errors else .ok st

/-- `compute_arguments_object_kind` (move-bytecode-to-wasm/src/lib.rs 266-301): the entry for argument `i`
of the function with this name. -/
def argKind (r : St) (name : String) (i : Nat) : Option Sig.Kind :=
  match r.functions.find? (·.name = name) with
  | none => none
  | some g =>
    if g.objects = [] then none
    else match g.params[i]? with
      | none => none
      | some p =>
        if (.owned, p.1) ∈ g.objects then some .owned
        else if (.shared, p.1) ∈ g.objects then some .shared
        else if (.frozen, p.1) ∈ g.objects then some .frozen
        else none

end Process
