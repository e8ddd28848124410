import Verif.AbiJson

/-!
# Signatures and the exported ABI

Pure models of the two places that name the types of a contract's interface: the compiler, which hashes a
signature to get the selector of a function or an error and the topic of an event
(move-bytecode-to-wasm/src/abi_types), and the generator of the ABI file (crates/move-evm-abi-generator).

Declarations are kept in the type: `IntermediateType::IStruct` is a module and an index, here it is the module,
the name, the `key` ability, the types of the fields and the names the fields have in the source.  Looking up a
declaration therefore never fails.
-/

namespace Export
open Abi

/-- `ModuleId` (compilation_context/module_data.rs). -/
structure Mod where
  addr : Nat
  name : String
deriving DecidableEq

/-- `IntermediateType` (translation/intermediate_types.rs 55-110).  A struct with arguments is a
`IGenericStructInstance`, its fields are those after `instantiate`.  `fields` are the fields in the bytecode, where
a struct without fields has one of type `bool`; `names` those in the source (`Struct_::fields`,
move-parse-special-attributes/src/lib.rs 53-59).  `simple`: no variant has fields. -/
inductive ITy where
  | bool | u8 | u16 | u32 | u64 | u128 | u256 | address | signer
  | param (i : Nat)
  | vec (t : ITy)
  | ref (t : ITy)
  | mutRef (t : ITy)
  | struct (m : Mod) (n : String) (args : List ITy) (key : Bool) (fields : List ITy) (names : List String)
  | enum (m : Mod) (n : String) (generic simple : Bool)

/-! ### Reserved modules and types (compilation_context/reserved_modules.rs, vm_handled_types/*.rs) -/

def objectMod : Mod := ⟨2, "object"⟩
def txMod : Mod := ⟨2, "tx_context"⟩
def solMod : Mod := ⟨2, "sol_types"⟩
def stringMods : List Mod := [⟨1, "string"⟩, ⟨1, "ascii"⟩]

/-- `is_vm_type`: `none` if the name is reserved but the module is not the one it is reserved for
(vm_handled_types/string.rs 27-47 and the same functions of the other types). -/
def isVm (id : String) (ms : List Mod) (m : Mod) (n : String) : Option Bool :=
  if n = id then (if m ∈ ms then some true else none) else some false

/-- Names accepted by `Bytes::validate_identifier` (vm_handled_types/bytes.rs 52-61). -/
def bytesNames : List String :=
  ["Bytes1", "Bytes2", "Bytes3", "Bytes4", "Bytes5", "Bytes6", "Bytes7", "Bytes8", "Bytes9", "Bytes10", "Bytes11",
   "Bytes12", "Bytes13", "Bytes14", "Bytes15", "Bytes16", "Bytes17", "Bytes18", "Bytes19", "Bytes20", "Bytes21",
   "Bytes22", "Bytes23", "Bytes24", "Bytes25", "Bytes26", "Bytes27", "Bytes28", "Bytes29", "Bytes30", "Bytes31",
   "Bytes32"]

/-- `Bytes::is_vm_type` (vm_handled_types/bytes.rs 27-47). -/
def isBytes (m : Mod) (n : String) : Option Bool :=
  if n ∈ bytesNames then (if m = solMod then some true else none) else some false

def lower (s : String) : String := String.ofList (s.toList.map Char.toLower)

/-! ### The compiler -/

/-- `snake_to_camel` (move-bytecode-to-wasm/src/utils.rs 22-56) after the first character; the flag is
`NextOfSepMark`. -/
def camelRest : Bool → List Char → List Char
  | _, [] => []
  | b, c :: cs =>
    if c = '_' then (if cs.isEmpty then ['_'] else camelRest true cs)
    else (if b then c.toUpper else c) :: camelRest false cs

def camel (s : String) : String :=
  match s.toList with
  | [] => ""
  | c :: cs => String.ofList (c.toLower :: camelRest false cs)

/-- The first character in upper case (utils.rs 60-64). -/
def upperFirst (s : String) : String :=
  match s.toList with
  | [] => ""
  | c :: cs => String.ofList (c.toUpper :: cs)

/-- `snake_to_upper_camel` (utils.rs 58-66). -/
def upperCamel (s : String) : String := upperFirst (camel s)

/-- `sol_name_storage_ids` (abi_types/abi_encoding.rs 110-127), for the fields of the struct. -/
def storageIds : List ITy → Option (Option String)
  | .struct m n [] _ _ _ :: _ => (isVm "UID" [objectMod] m n).bind fun b => if b then some (some "bytes32") else none
  | .struct m n (_ :: _) _ _ _ :: _ => (isVm "NamedId" [objectMod] m n).bind fun b => if b then some none else none
  | _ => none

/-- The arms of `solidity_name` for structs with a reserved name (abi_types/abi_encoding.rs 78-98);
`none` inside: none of them. -/
def reserved (m : Mod) (n : String) : Option (Option (Option String)) := do
  if ← isVm "TxContext" [txMod] m n then return some none
  if ← isVm "String" stringMods m n then return some (some "string")
  if ← isBytes m n then return some (some (lower n))
  if ← isVm "UID" [objectMod] m n then return some (some "bytes32")
  if ← isVm "ID" [objectMod] m n then return some (some "bytes32")
  return none

mutual
/-- `solidity_name` (abi_types/abi_encoding.rs 50-108) with `sol_name` (abi_types/sol_name.rs 15-60) where it calls it.
`none`: the compiler reports an error; `some none`: the type is not part of signatures. -/
def solName : ITy → Option (Option String)
  | .bool => some (some "bool")
  | .u8 => some (some "uint8")
  | .u16 => some (some "uint16")
  | .u32 => some (some "uint32")
  | .u64 => some (some "uint64")
  | .u128 => some (some "uint128")
  | .u256 => some (some "uint256")
  | .address => some (some "address")
  | .signer => some none
  | .param _ => some none
  | .enum _ _ generic simple => some (if simple then (if generic then none else some "uint8") else none)
  | .ref t => solName t
  | .mutRef t => solName t
  | .vec t => (solName t).map (Option.map (· ++ "[]"))
  | .struct m n args key fields _ =>
    match (if args.isEmpty then reserved m n else some none) with
    | none => none
    | some (some r) => some r
    | some none =>
      if key then storageIds fields
      else (solNames fields).map (Option.map (fun ss => "(" ++ String.intercalate "," ss ++ ")"))
/-- The names of the fields, `some none` if one of them has none (`struct_fields_sol_name`,
abi_types/abi_encoding.rs 129-141: collecting stops at the first field without a name). -/
def solNames : List ITy → Option (Option (List String))
  | [] => some (some [])
  | t :: ts =>
    match solName t with
    | none => none
    | some none => some none
    | some (some s) => (solNames ts).map (Option.map (s :: ·))
end

/-- The signature hashed by `move_signature_to_abi_selector` (abi_types/abi_encoding.rs 25-48). -/
def signature (name : String) (ts : List ITy) : Option String :=
  (ts.mapM solName).map (fun ss => name ++ "(" ++ String.intercalate "," (ss.filterMap id) ++ ")")

/-- Of a function (abi_types/function_encoding.rs 13-24). -/
def functionSig (name : String) (ts : List ITy) : Option String := signature (camel name) ts

/-- Of an error (abi_types/error_encoding.rs 25-36). -/
def errorSig (name : String) (fields : List ITy) : Option String := signature (upperCamel name) fields

/-- `sol_name` (abi_types/sol_name.rs 15-60). -/
def baseName : ITy → Option (Option String)
  | .bool => some (some "bool")
  | .u8 => some (some "uint8")
  | .u16 => some (some "uint16")
  | .u32 => some (some "uint32")
  | .u64 => some (some "uint64")
  | .u128 => some (some "uint128")
  | .u256 => some (some "uint256")
  | .address => some (some "address")
  | .signer => some none
  | .param _ => some none
  | .enum _ _ generic _ => some (if generic then none else some "uint8")
  | .ref t => baseName t
  | .mutRef t => baseName t
  | .vec t => (baseName t).map (Option.map (· ++ "[]"))
  | .struct m n args _ _ _ =>
    if args.isEmpty then do
      if ← isVm "String" stringMods m n then return some "string"
      if ← isBytes m n then return some (lower n)
      return none
    else some none

/-- `struct_fields_sol_name` (abi_types/event_encoding.rs 92-104). -/
def baseNames : List ITy → Option (Option (List String))
  | [] => some (some [])
  | t :: ts =>
    match baseName t with
    | none => none
    | some none => some none
    | some (some s) => (baseNames ts).map (Option.map (s :: ·))

/-- The arms of `solidity_name` for structs with a reserved name (abi_types/event_encoding.rs 66-84). -/
def evReserved (m : Mod) (n : String) : Option (Option (Option String)) := do
  if ← isVm "TxContext" [txMod] m n then return some none
  if ← isVm "String" stringMods m n then return some (some "string")
  if ← isBytes m n then return some (some (lower n))
  if ← isVm "ID" [objectMod] m n then return some (some "bytes32")
  return none

/-- `solidity_name` (abi_types/event_encoding.rs 36-90). -/
def evName : ITy → Option (Option String)
  | .enum _ _ generic simple => some (if simple then (if generic then none else some "uint8") else none)
  | .ref t => evName t
  | .mutRef t => evName t
  | .vec t => (evName t).map (Option.map (· ++ "[]"))
  | .struct m n args _ fields _ =>
    match (if args.isEmpty then evReserved m n else some none) with
    | none => none
    | some (some r) => some r
    | some none => (baseNames fields).map (Option.map (fun ss => "(" ++ String.intercalate "," ss ++ ")"))
  | t => baseName t

/-- The signature hashed for the first topic of an event (`move_signature_to_event_signature_hash`,
abi_types/event_encoding.rs 17-34). -/
def eventSig (name : String) (fields : List ITy) : Option String :=
  (fields.mapM evName).map (fun ss => name ++ "(" ++ String.intercalate "," (ss.filterMap id) ++ ")")

/-! ### The ABI generator -/

/-- `Type` (move-evm-abi-generator/src/types.rs 20-77): the types without components are given by their name; `args` is
empty for `type_instances = None`. -/
inductive AT where
  | prim (s : String)
  | array (t : AT)
  | struct (n : String) (args : List AT) (m : Mod) (key : Bool)
  | enum (n : String) (m : Mod)
  | none

/-- `snake_to_camel` of the generator (common.rs 5-33) after the first character. -/
def genCamelRest : Bool → List Char → List Char
  | _, [] => []
  | b, c :: cs =>
    if c = '_' then genCamelRest true cs
    else (if b then c.toUpper else c) :: genCamelRest false cs

def genCamel (s : String) : String :=
  match s.toList with
  | [] => ""
  | c :: cs => String.ofList (c.toLower :: genCamelRest false cs)

/-- `snake_to_upper_camel` of the generator (common.rs 35-43). -/
def genUpperCamel (s : String) : String := upperFirst (genCamel s)

mutual
/-- `Type::name` (types.rs 80-161). -/
def AT.name : AT → String
  | .prim s => s
  | .array t => t.name ++ "[]"
  | .struct n args _ _ =>
    if args.isEmpty then n else genUpperCamel (n ++ "_" ++ String.intercalate "_" (AT.names args))
  | .enum n _ => n
  | .none => ""
def AT.names : List AT → List String
  | [] => []
  | t :: ts => t.name :: AT.names ts
end

/-- The struct arm of `from_intermediate_type` (types.rs 184-260) for a struct without arguments; `none` inside: none of the
reserved types. -/
def genReserved (m : Mod) (n : String) : Option (Option AT) :=
  if m = objectMod ∧ (n = "ID" ∨ n = "UID") then some (some (.prim "bytes32"))
  else if m ∈ stringMods ∧ n = "String" then some (some (.prim "string"))
  else if m = solMod then
    (if n ∈ bytesNames then some (some (.prim ("bytes" ++ String.ofList (n.toList.drop 5)))) else none)
  else some none

mutual
/-- `Type::from_intermediate_type` (types.rs 163-344). -/
def genTy : ITy → Option AT
  | .bool => some (.prim "bool")
  | .u8 => some (.prim "uint8")
  | .u16 => some (.prim "uint16")
  | .u32 => some (.prim "uint32")
  | .u64 => some (.prim "uint64")
  | .u128 => some (.prim "uint128")
  | .u256 => some (.prim "uint256")
  | .address => some (.prim "address")
  | .signer => some .none
  | .param _ => some .none
  | .vec t => (genTy t).map .array
  | .ref t => genTy t
  | .mutRef t => genTy t
  | .enum m n _ simple => some (if simple then .enum n m else .none)
  | .struct m n args key _ _ =>
    if args.isEmpty then
      match genReserved m n with
      | none => none
      | some (some t) => some t
      | some none => some (.struct n [] m key)
    else
      (genTys args).map fun as =>
        if m = objectMod ∧ n = "NamedId" then .prim "bytes32" else .struct n as m key
def genTys : List ITy → Option (List AT)
  | [] => some []
  | t :: ts => (genTy t).bind fun a => (genTys ts).map (a :: ·)
end

/-- `should_process_struct` (abi.rs 855-890). -/
def shouldProcess : ITy → Bool
  | .struct m n _ _ _ _ =>
    !(m = objectMod ∧ (n = "NamedId" ∨ n = "UID" ∨ n = "ID")) &&
    !(n = "String" ∧ m ∈ stringMods) &&
    !(m = solMod ∧ n.startsWith "Bytes")
  | _ => false

/-- `Struct_` of the generator (abi.rs 53-58), with the types of its fields. -/
structure AStruct where
  name : String
  fields : List (String × AT)

/-- The entry for a struct (abi.rs 556-590): its fields in the bytecode are paired with the names in the source, what has no
partner is dropped. -/
def structEntry : ITy → Option AStruct
  | t@(.struct _ _ _ _ fields names) => do
    let fs ← (fields.zip names).mapM (fun p => (genTy p.1).map (p.2, ·))
    let a ← genTy t
    return ⟨a.name, fs⟩
  | _ => none

/-- The structs among the types of the paired fields (abi.rs 557-568). -/
def childStructs : ITy → List ITy
  | .struct _ _ _ _ fields names => ((fields.zip names).map (·.1)).filter shouldProcess
  | _ => []

/-- `process_structs` (abi.rs 514-602).  The structs come in the order of a hash set, here in any order: `ord` gives it for
every set.  `fuel` bounds the depth of the recursion, which in the code is that of the types.  `seen` are the processed
structs; whether a struct is among them is decided by `same`, the equality of `IntermediateType`. -/
def processStructs (same : ITy → ITy → Bool) (ord : List ITy → List ITy) :
    Nat → List ITy → List ITy → Option (List AStruct × List ITy)
  | 0, _, _ => none
  | fuel + 1, ts, seen =>
    (ord ts).foldlM (fun (acc : List AStruct × List ITy) t =>
      if acc.2.any (same t) then some acc
      else do
        let e ← structEntry t
        let (es, seen) ← processStructs same ord fuel (childStructs t) (t :: acc.2)
        return (acc.1 ++ e :: es, seen)) ([], seen)

mutual
/-- `encode_for_json_abi` (json_format.rs 311-460) for the entry `name` (the entries are `JsonIO` and `JsonComponent`, 63-87); `fuel` bounds the depth of the recursion, which in
the code is unbounded. -/
def encodeJson (ss : List AStruct) : Nat → String → AT → Option J
  | 0, _, _ => none
  | fuel + 1, name, t =>
    match t with
    | .prim s => some (.mk name s false [])
    | .enum _ _ => some (.mk name "uint8" false [])
    | .array t => (encodeJson ss fuel name t).map fun
        | .mk n ty tup cs => .mk n (ty ++ "[]") tup cs
    | .struct n args m key =>
      if key then some (.mk name "bytes32" false [])
      else (ss.find? (fun s => s.name == (AT.struct n args m key).name)).bind fun s =>
        (encodeFields ss fuel s.fields).map fun cs => .mk name "tuple" true cs
    | .none => none
def encodeFields (ss : List AStruct) : Nat → List (String × AT) → Option (List J)
  | 0, _ => none
  | _ + 1, [] => some []
  | fuel + 1, p :: ps => (encodeJson ss fuel p.1 p.2).bind fun j => (encodeFields ss fuel ps).map (j :: ·)
end

/-- `process_io` (json_format.rs 270-297) for all parameters. -/
def processIO (ss : List AStruct) (fuel : Nat) : List (String × AT) → Option (List J)
  | [] => some []
  | (_, .none) :: ps => processIO ss fuel ps
  | p :: ps => (encodeJson ss fuel p.1 p.2).bind fun j => (processIO ss fuel ps).map (j :: ·)

/-- `process_storage_struct` (abi.rs 420-512): the parameter is listed, left out, or there is an error. -/
def storageParam (name : String) (t : ITy) (fields : List ITy) : Option (List (String × AT)) :=
  match fields with
  | .struct m n args _ _ _ :: _ =>
    if m = objectMod ∧ n = "UID" ∧ args.isEmpty then (genTy t).map fun a => [(name, a)]
    else if m = objectMod ∧ n = "NamedId" ∧ ¬ args.isEmpty then some []
    else none
  | _ => none

/-- What one parameter contributes. -/
inductive Contribution where
  | params (ps : List (String × AT)) (structs : List ITy)
  | generic

/-- The type of a parameter without reference (abi.rs 186-192). -/
def strip : ITy → ITy
  | .ref t => t
  | .mutRef t => t
  | t => t

/-- One parameter of `process_functions` (abi.rs 194-345), its type without reference. -/
def paramOf1 (name : String) (t : ITy) : Option Contribution :=
  match t with
  | .signer => some (.params [] [])
  | .param _ => some .generic
  | .struct m n args key fields _ =>
    if args.isEmpty ∧ n = "TxContext" ∧ m = txMod then some (.params [] [])
    else if key then (storageParam name t fields).map (.params · [])
    else (genTy t).map fun a => .params [(name, a)] (if shouldProcess t then [t] else [])
  | .enum _ _ _ simple =>
    if simple then (genTy t).map fun a => .params [(name, a)] [] else none
  | _ => (genTy t).map fun a => .params [(name, a)] []

/-- One parameter of `process_functions` (abi.rs 178-345). -/
def paramOf (name : String) (t : ITy) : Option Contribution := paramOf1 name (strip t)

/-- The parameters of a function; `some none` if it is left out of the ABI because it is generic. -/
def paramsOf : List (String × ITy) → Option (Option (List (String × AT) × List ITy))
  | [] => some (some ([], []))
  | p :: ps =>
    match paramOf p.1 p.2 with
    | none => none
    | some .generic => some none
    | some (.params as ts) =>
      (paramsOf ps).map (Option.map fun (as', ts') => (as ++ as', ts ++ ts'))

/-- `process_return_type` (abi.rs 893-934): the struct a result contributes. -/
def returnStructs : ITy → List ITy
  | .ref t => returnStructs t
  | .mutRef t => returnStructs t
  | t => if shouldProcess t then [t] else []

/-- An event or an error: its name, the types of its fields and their names in the source. -/
structure Decl where
  name : String
  fields : List ITy
  names : List String

/-- What the ABI of a module is made of: the entry functions (without `init`, `receive` and `fallback`, which have no
signature in the ABI) with names and types of their parameters, the types of all results, the events and the errors. -/
structure Source where
  functions : List (String × List (String × ITy))
  results : List ITy
  events : List Decl
  errors : List Decl

/-- The entries of the JSON file that have a signature.  The list of functions is parallel to that of the source; `none` is a
function that is left out. -/
structure Exported where
  functions : List (Option (String × List J))
  events : List (String × List J)
  errors : List (String × List J)

/-- Events and errors (abi.rs 604-716, 762-850): the fields, paired with the names in the source. -/
def fieldsOf (d : Decl) : Option (List (String × AT)) :=
  (d.fields.zip d.names).mapM (fun p => (genTy p.1).map (p.2, ·))

/-- The structs to process (abi.rs 102-125): those of the fields of events (abi.rs 683-688) and errors (826-831), of the
parameters and of the results. -/
def Source.structs (src : Source) (ps : List (Option (List (String × AT) × List ITy))) : List ITy :=
  (src.events.flatMap fun d => d.fields.filter shouldProcess) ++
  (src.errors.flatMap fun d => d.fields.filter shouldProcess) ++
  (ps.flatMap fun | some p => p.2 | none => []) ++ src.results.flatMap returnStructs

/-- `Abi::new` (abi.rs 102-137) followed by `process_abi` (json_format.rs 89-103), for the signatures. -/
def Source.export (same : ITy → ITy → Bool) (ord : List ITy → List ITy) (fuel : Nat) (src : Source) : Option Exported := do
  let es ← src.events.mapM fieldsOf
  let rs ← src.errors.mapM fieldsOf
  let ps ← src.functions.mapM (fun f => paramsOf f.2)
  let (ss, _) ← processStructs same ord fuel (src.structs ps) []
  let js ← es.mapM (processIO ss fuel)
  let ks ← rs.mapM (processIO ss fuel)
  let fs ← ps.mapM (fun | some p => (processIO ss fuel p.1).map some | none => some none)
  return {
    functions := (src.functions.zip fs).map fun (f, o) => o.map (genCamel f.1, ·)
    events := (src.events.zip js).map fun (d, j) => (d.name, j)
    errors := (src.errors.zip ks).map fun (d, j) => (d.name, j) }

/-- The outputs of a function with the results `rs` (abi.rs 362-390, json_format.rs 225-245): one result or several, each is an
entry without a name. -/
def Source.outputs (same : ITy → ITy → Bool) (ord : List ITy → List ITy) (fuel : Nat) (src : Source) (rs : List ITy) :
    Option (List J) := do
  let ps ← src.functions.mapM (fun f => paramsOf f.2)
  let (ss, _) ← processStructs same ord fuel (src.structs ps) []
  let as ← rs.mapM genTy
  processIO ss fuel (as.map ("", ·))

end Export
