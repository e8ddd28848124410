import Verif.Rt.Export

/-!
# The interface for humans

Transcription of crates/move-evm-abi-generator/src/human_readable.rs: the text of a Solidity interface for a contract.  Text is a list of characters.
-/

namespace Export

/-- `FunctionType` (abi.rs 29-36). -/
inductive FKind
  | constructor | fallback | receive | function
deriving DecidableEq

/-- `return_types` (abi.rs 366-390): `Type::None`, a type, or `Type::Tuple` of at least two. -/
inductive Rets
  | none
  | one (t : AT)
  | tuple (ts : List AT)

/-- `Function` (abi.rs 44-53); `mods` by their names (`SolidityFunctionModifier::as_str`, move-parse-special-attributes/src/function_modifiers.rs). -/
structure HFun where
  kind : FKind
  name : String
  params : List (String × AT)
  rets : Rets
  isPublic : Bool
  mods : List String
  isEntry : Bool

/-- `Enum_` (abi.rs 62-66). -/
structure HEnum where
  name : String
  variants : List String

/-- `Event` (abi.rs 68-74); a field is its name, its type and whether it is indexed. -/
structure HEvent where
  name : String
  fields : List (String × AT × Bool)
  anonymous : Bool
  positional : Bool

/-- An entry of `abi_errors` (`Struct_`, abi.rs 55-60). -/
structure HError where
  name : String
  fields : List (String × AT)
  positional : Bool

/-- `Abi` (abi.rs 89-97). -/
structure HAbi where
  name : String
  functions : List HFun
  structs : List AStruct
  enums : List HEnum
  events : List HEvent
  errors : List HError

abbrev Text := List Char

/-- `HEADER` (human_readable.rs 7-15). -/
def header : Text := ("/**\n * This file was automatically generated and represents a Move program.\n * For more information, please see [The Move to Stylus compiler](https://github.com/rather-labs/move-stylus).\n */\n\n// SPDX-License-Identifier: MIT-OR-APACHE-2.0\npragma solidity ^0.8.23;\n\n").toList

/-- `join(", ")`. -/
def joinComma : List Text → Text
  | [] => []
  | [t] => t
  | t :: ts => t ++ ", ".toList ++ joinComma ts

/-- `join(" ")`. -/
def joinSpace : List Text → Text
  | [] => []
  | [t] => t
  | t :: ts => t ++ " ".toList ++ joinSpace ts

/-- `sort_by_key` with the order of strings. -/
def sortBy {α : Type} (key : α → String) (l : List α) : List α := l.mergeSort (fun a b => decide (key a ≤ key b))

/-- Is the function listed (human_readable.rs 46-51)? -/
def HFun.listed (f : HFun) : Bool := f.isPublic || f.isEntry || f.kind == .constructor

/-- All modifiers (human_readable.rs 74-84). -/
def HFun.allMods (f : HFun) : List Text :=
  f.mods.map String.toList ++ (if f.isPublic then ["public".toList] else []) ++ (if f.isEntry then ["external".toList] else [])

/-- The results (human_readable.rs 91-102); `Type::name` of a tuple has the parentheses (types.rs 152-160). -/
def Rets.text : Rets → Text
  | .none => []
  | .one t => " returns ".toList ++ "(".toList ++ t.name.toList ++ ")".toList
  | .tuple ts => " returns ".toList ++ ("(".toList ++ joinComma (ts.map (·.name.toList)) ++ ")".toList)

/-- The line of a function (human_readable.rs 53-106). -/
def HFun.text (f : HFun) : Text :=
  (if f.kind = .function ∨ f.kind = .constructor then "    function ".toList ++ f.name.toList else "    ".toList ++ f.name.toList) ++
  "(".toList ++ joinComma (f.params.map fun p => p.2.name.toList ++ " ".toList ++ p.1.toList) ++ ")".toList ++
  (if f.allMods = [] then [] else " ".toList ++ joinSpace f.allMods) ++ f.rets.text ++ ";".toList ++ "\n".toList

/-- `process_functions` (human_readable.rs 40-108). -/
def functionsText (A : HAbi) : Text := ((sortBy HFun.name A.functions).filter HFun.listed).flatMap HFun.text

/-- The declaration of a struct (human_readable.rs 115-130). -/
def structText (s : AStruct) : Text :=
  "    struct ".toList ++ s.name.toList ++ " {\n".toList ++
  s.fields.flatMap (fun f => "        ".toList ++ f.2.name.toList ++ " ".toList ++ f.1.toList ++ ";\n".toList) ++ "    }\n\n".toList

/-- `process_structs` (human_readable.rs 110-132). -/
def structsText (A : HAbi) : Text := (sortBy AStruct.name A.structs).flatMap structText

/-- The declaration of an enum (human_readable.rs 139-152). -/
def enumText (e : HEnum) : Text :=
  "    enum ".toList ++ e.name.toList ++ " {\n".toList ++
  e.variants.flatMap (fun v => "        ".toList ++ v.toList ++ ",\n".toList) ++ "    }\n\n".toList

/-- `process_enums` (human_readable.rs 134-154). -/
def enumsText (A : HAbi) : Text := (sortBy HEnum.name A.enums).flatMap enumText

/-- `format_signature` (human_readable.rs 158-178). -/
def HEvent.fieldsText (e : HEvent) : Text :=
  joinComma (e.fields.map fun f => f.2.1.name.toList ++ (if f.2.2 then " indexed".toList else []) ++ (if e.positional then [] else " ".toList ++ f.1.toList))

/-- The line of an event (human_readable.rs 188-200). -/
def HEvent.text (e : HEvent) : Text :=
  "    event ".toList ++ e.name.toList ++ "(".toList ++ e.fieldsText ++ ")".toList ++ (if e.anonymous then " anonymous".toList else []) ++ ";\n".toList

/-- `process_events` (human_readable.rs 156-201): sorted by name, then by the text of the fields. -/
def eventsText (A : HAbi) : Text :=
  (A.events.mergeSort (fun a b => decide (a.name < b.name ∨ (a.name = b.name ∧ String.ofList a.fieldsText ≤ String.ofList b.fieldsText)))).flatMap HEvent.text

/-- The line of an error (human_readable.rs 208-228). -/
def HError.text (e : HError) : Text :=
  "    error ".toList ++ e.name.toList ++ "(".toList ++
  joinComma (e.fields.map fun f => f.2.name.toList ++ (if e.positional then [] else " ".toList ++ f.1.toList)) ++ ");\n".toList

/-- `process_abi_errors` (human_readable.rs 203-229). -/
def errorsText (A : HAbi) : Text := (sortBy HError.name A.errors).flatMap HError.text

/-- `process_abi` (human_readable.rs 17-38). -/
def interfaceText (A : HAbi) : Text :=
  header ++ "interface ".toList ++ (genUpperCamel A.name).toList ++ " {\n\n".toList ++
  eventsText A ++ (if A.events = [] then [] else "\n".toList) ++ errorsText A ++ (if A.errors = [] then [] else "\n".toList) ++
  structsText A ++ enumsText A ++ functionsText A ++ "\n}".toList

end Export
