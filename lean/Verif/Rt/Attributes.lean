/-!
How attributes of structs and functions are read: `StructModifier::parse_struct_modifier`
(`crates/move-parse-special-attributes/src/struct_modifiers.rs`), `FunctionModifier::parse_modifiers`
(`function_modifiers.rs`) and the loops of `process_special_attributes` over attributes (`lib.rs`).

Simplified: locations are left out; an address is a number.
-/

namespace Attributes

/-- `AttributeValue_` as far as it is looked at: the text of a number, `@0x2`, `@name`, `b"name"`, or
something else. -/
inductive AValue where
  | num (text : List Char)
  | address (a : Nat)
  | named (n : String)
  | bytes (s : String)
  | other
  deriving DecidableEq, Repr

/-- `Attribute_`: `n`, `n = v`, `n(args)`. -/
inductive Attr where
  | name (n : String)
  | assigned (n : String) (v : AValue)
  | param (n : String) (args : List Attr)
  deriving Repr

/-- `EventParseError` (event.rs 24-45), `ExternalStructError` (external_struct.rs 16-43) and the errors of
function modifiers (error.rs). -/
inductive Err where
  | invalidEvent
  | expectedNumber
  | tooMany (n : Nat)
  | invalidNumber
  | tooManyAnonymous (n : Nat)
  | duplicatedAddress
  | expectedNumericalAddress
  | expectedAddress
  | duplicatedModule
  | expectedByteString
  | invalidExternal
  | identifiers
  | solidity (n : String)
  | solidityAttribute
  deriving DecidableEq, Repr

/-- `StructModifier` (struct_modifiers.rs 13-24). -/
inductive SMod where
  | external (address : Nat) (module : String)
  | call
  | event (indexes : Nat) (anonymous : Bool)
  | abiError
  deriving DecidableEq, Repr

/-- The value of decimal digits. -/
def digits : Nat → List Char → Option Nat
  | v, [] => some v
  | v, c :: cs => if c.isDigit then digits (10 * v + (c.toNat - 48)) cs else none

/-- `str::parse::<u8>` for the text of a number, which does not start with a sign. -/
def parseU8 (s : List Char) : Option Nat :=
  if s = [] then none
  else match digits 0 s with
    | some n => if n < 256 then some n else none
    | none => none

/-- The value of `indexes` (struct_modifiers.rs 50-95). -/
def indexOf : AValue → Except Err Nat
  | .num s =>
    match parseU8 s with
    | none => .error .invalidNumber
    | some j => if j ≤ 4 then .ok j else .error (.tooMany j)
  | _ => .error .expectedNumber

/-- The loop over the arguments of `event` (struct_modifiers.rs 44-106). -/
def eventArgs : Nat → Bool → List Attr → Except Err (Nat × Bool)
  | k, an, [] => .ok (k, an)
  | k, _, .name n :: as => if n = "anonymous" then eventArgs k true as else .error .invalidEvent
  | _, an, .assigned n v :: as =>
    if n = "indexes" then
      match indexOf v with
      | .error e => .error e
      | .ok j => eventArgs j an as
    else .error .invalidEvent
  | _, _, .param _ _ :: _ => .error .invalidEvent

/-- `event(args)` (struct_modifiers.rs 41-123). -/
def parseEvent (args : List Attr) : Except Err (Option SMod) :=
  match eventArgs 0 false args with
  | .error e => .error e
  | .ok (k, an) => if an = false ∧ 4 ≤ k then .error (.tooManyAnonymous k) else .ok (some (.event k an))

/-- The value of `address` (struct_modifiers.rs 135-181), if `a` was given before. -/
def addressOf (a : Option Nat) : AValue → Except Err Nat
  | .address x => if a = none then .ok x else .error .duplicatedAddress
  | .named _ => .error .expectedNumericalAddress
  | _ => .error .expectedAddress

/-- The value of `module_name` (struct_modifiers.rs 183-224), if `m` was given before. -/
def moduleOf (m : Option String) : AValue → Except Err String
  | .bytes s => if m = none then .ok s else .error .duplicatedModule
  | _ => .error .expectedByteString

/-- The loop over the arguments of `external_struct` (struct_modifiers.rs 132-234); what has been found so
far. -/
def externalArgs : Option Nat → Option String → List Attr → Except Err (Option Nat × Option String)
  | a, m, [] => .ok (a, m)
  | a, m, .assigned n v :: as =>
    if n = "address" then
      match addressOf a v with
      | .error e => .error e
      | .ok x => externalArgs (some x) m as
    else if n = "module_name" then
      match moduleOf m v with
      | .error e => .error e
      | .ok s => externalArgs a (some s) as
    else .error .invalidExternal
  | _, _, _ :: _ => .error .invalidExternal

/-- `external_struct(args)` (struct_modifiers.rs 125-240): what is not given is zero and the empty name. -/
def parseExternal (args : List Attr) : Except Err (Option SMod) :=
  match externalArgs none none args with
  | .error e => .error e
  | .ok (a, m) => .ok (some (.external (a.getD 0) (m.getD "")))

mutual
/-- `StructModifier::parse_struct_modifier` (struct_modifiers.rs 36-261). -/
def parseStruct : Attr → Except Err (Option SMod)
  | .param n args =>
    if n = "event" then parseEvent args
    else if n = "external_struct" then parseExternal args
    else parseHead args
  | .name n =>
    if n = "external_call" then .ok (some .call)
    else if n = "event" then .ok (some (.event 0 false))
    else if n = "abi_error" then .ok (some .abiError)
    else .ok none
  | .assigned _ _ => .ok none

/-- `.iter().map(..).next()` (struct_modifiers.rs 242-249). -/
def parseHead : List Attr → Except Err (Option SMod)
  | [] => .ok none
  | a :: _ => parseStruct a
end

/-- The loop over the attributes of a struct (lib.rs 177-189): the modifiers and the errors.  A group is one
`#[..]`. -/
def structMods (groups : List (List Attr)) : List SMod × List Err :=
  let rs := groups.flatten.map parseStruct
  (rs.filterMap fun r => match r with
    | .ok m => m
    | .error _ => none,
   rs.filterMap fun r => match r with
    | .ok _ => none
    | .error e => some e)

/-- `SolidityFunctionModifier` (function_modifiers.rs 65-69). -/
inductive Sol where
  | pure
  | view
  | payable
  deriving DecidableEq, Repr

/-- `FunctionModifier` (function_modifiers.rs 82-91). -/
inductive FMod where
  | call (ms : List Sol)
  | abi (ms : List Sol)
  | test
  | skip
  | expectedFailure
  | owned (ids : List String)
  | shared (ids : List String)
  | frozen (ids : List String)
  deriving DecidableEq, Repr

/-- `parse_identifiers` (function_modifiers.rs 201-214). -/
def parseId : Attr → Except Err String
  | .name n => .ok n
  | _ => .error .identifiers

/-- `parse_solidity_modifier` (function_modifiers.rs 216-240). -/
def parseSol : Attr → Except Err Sol
  | .name n =>
    if n = "pure" then .ok .pure
    else if n = "view" then .ok .view
    else if n = "payable" then .ok .payable
    else .error (.solidity n)
  | _ => .error .solidityAttribute

/-- `.map(f).collect::<Result<Vec<_>, _>>()`. -/
def collect {α β} (f : α → Except Err β) : List α → Except Err (List β)
  | [] => .ok []
  | a :: as =>
    match f a with
    | .error e => .error e
    | .ok b =>
      match collect f as with
      | .error e => .error e
      | .ok bs => .ok (b :: bs)

mutual
/-- `FunctionModifier::parse_modifiers` (function_modifiers.rs 127-199). -/
def parseFun : Attr → Except Err (List FMod)
  | .param n args =>
    if n = "owned_objects" then (collect parseId args).map fun ids => [.owned ids]
    else if n = "shared_objects" then (collect parseId args).map fun ids => [.shared ids]
    else if n = "frozen_objects" then (collect parseId args).map fun ids => [.frozen ids]
    else if n = "abi" then (collect parseSol args).map fun ms => [.abi ms]
    else if n = "external_call" then (collect parseSol args).map fun ms => [.call ms]
    else if n = "expected_failure" then .ok [.expectedFailure]
    else parseFuns args
  | .name n =>
    if n = "external_call" then .ok [.call []]
    else if n = "test" then .ok [.test]
    else if n = "skip" then .ok [.skip]
    else if n = "expected_failure" then .ok [.expectedFailure]
    else .ok []
  | .assigned _ _ => .ok []

/-- All arguments (function_modifiers.rs 178-185), and all attributes of a group (lib.rs 513-517). -/
def parseFuns : List Attr → Except Err (List FMod)
  | [] => .ok []
  | a :: as =>
    match parseFun a with
    | .error e => .error e
    | .ok m =>
      match parseFuns as with
      | .error e => .error e
      | .ok ms => .ok (m ++ ms)
end

/-- The loop over the attributes of a function (lib.rs 512-526): the modifiers and the errors. -/
def funMods (groups : List (List Attr)) : List FMod × List Err :=
  let rs := groups.map parseFuns
  ((rs.map fun r => match r with
    | .ok ms => ms
    | .error _ => []).flatten,
   rs.filterMap fun r => match r with
    | .ok _ => none
    | .error e => some e)

end Attributes
