import Mathlib.Data.List.Basic

/-!
# Solidity interfaces

Specification: the part of Solidity's grammar (version 0.8, as pinned by the `pragma` of the generated files) that interfaces are written in, as a
reader, and the rules of the language on what is read that matter for interfaces.

* Comments and white space separate tokens (Solidity documentation, "Language Grammar", lexer).
* `interface-definition`, `struct-definition`, `enum-definition`, `event-definition`, `error-definition`, `function-definition`, `parameter-list`.
* Rules: identifiers are not keywords, types are elementary or declared, names of types are declared once, structs have members, enums have variants, functions of an
  interface are `external`, at most one visibility and one state mutability, data locations are given for parameters and results that are of reference type and only for them,
  no two functions have the same name and types of parameters.
* Not covered: inheritance, imports, mappings, arrays of fixed length, modifiers, function types.  The generator emits none of them.
-/

namespace Sol

/-- Characters of identifiers, keywords and numbers. -/
def isWord (c : Char) : Bool := c.isAlphanum || c == '_' || c == '$'

def isSpace (c : Char) : Bool := c == ' ' || c == '\n' || c == '\t' || c == '\r'

inductive Tok
  | word (s : List Char)
  | sym (c : Char)
deriving DecidableEq

/-- What the reader is in: code, a comment to the end of the line, a comment to `*/`. -/
inductive Mode
  | code | line | block

def flush (w : List Char) : List Tok := if w = [] then [] else [.word w]

/-- Tokens; `w` are the characters of the word that is being read. -/
def lex : Mode → List Char → List Char → List Tok
  | _, w, [] => flush w
  | .line, _, c :: cs => if c = '\n' then lex .code [] cs else lex .line [] cs
  | .block, _, c :: cs =>
    match c, cs with
    | '*', '/' :: cs => lex .code [] cs
    | _, cs => lex .block [] cs
  | .code, w, c :: cs =>
    match c, cs with
    | '/', '/' :: cs => flush w ++ lex .line [] cs
    | '/', '*' :: cs => flush w ++ lex .block [] cs
    | c, cs =>
      if isWord c then lex .code (w ++ [c]) cs
      else flush w ++ (if isSpace c then lex .code [] cs else .sym c :: lex .code [] cs)

def tokens (text : List Char) : List Tok := lex .code [] text

/-- A name of a type with as many `[]` after it. -/
structure STy where
  base : List Char
  dims : Nat
deriving DecidableEq

inductive Loc
  | memory | calldata | storage
deriving DecidableEq

/-- A parameter, a result, a member of a struct or a field of an event or error. -/
structure Param where
  ty : STy
  loc : Option Loc
  indexed : Bool
  name : Option (List Char)
deriving DecidableEq

inductive Item
  | function (name : List Char) (params : List Param) (mods : List (List Char)) (rets : List Param)
  | struct (name : List Char) (members : List Param)
  | enum (name : List Char) (variants : List (List Char))
  | event (name : List Char) (params : List Param) (anonymous : Bool)
  | error (name : List Char) (params : List Param)
deriving DecidableEq

structure Interface where
  name : List Char
  items : List Item
deriving DecidableEq

/-- Keywords and words reserved (documentation, "Reserved Keywords" and lexer), apart from elementary types. -/
def keywords : List String :=
  ["abstract", "after", "alias", "anonymous", "apply", "as", "assembly", "auto", "bool", "break", "bytes", "calldata", "case", "catch", "constant",
   "constructor", "continue", "contract", "copyof", "default", "define", "delete", "do", "else", "emit", "enum", "event", "external", "fallback", "false", "final",
   "for", "function", "hex", "if", "immutable", "implements", "import", "in", "indexed", "inline", "interface", "internal", "is", "let", "library", "macro", "mapping",
   "match", "memory", "modifier", "mutable", "new", "null", "of", "override", "partial", "payable", "pragma", "private", "promise", "public", "pure",
   "receive", "reference", "relocatable", "return", "returns", "sealed", "sizeof", "static", "storage", "string", "struct", "supports", "switch", "this", "super", "throw", "true",
   "try", "type", "typedef", "typeof", "unchecked", "using", "var", "view", "virtual", "while", "seconds", "minutes", "hours", "days", "weeks", "wei", "gwei", "ether", "address",
   "fixed", "ufixed", "int", "uint", "byte"]

/-- Elementary types of fixed size. -/
def valueTypes : List String :=
  ["bool", "address", "uint8", "uint16", "uint24", "uint32", "uint40", "uint48", "uint56", "uint64", "uint72", "uint80", "uint88", "uint96", "uint104", "uint112",
   "uint120", "uint128", "uint136", "uint144", "uint152", "uint160", "uint168", "uint176", "uint184", "uint192", "uint200", "uint208", "uint216", "uint224", "uint232", "uint240",
   "uint248", "uint256", "uint", "int",
   "bytes1", "bytes2", "bytes3", "bytes4", "bytes5", "bytes6", "bytes7", "bytes8", "bytes9", "bytes10", "bytes11", "bytes12", "bytes13", "bytes14", "bytes15", "bytes16",
   "bytes17", "bytes18", "bytes19", "bytes20", "bytes21", "bytes22", "bytes23", "bytes24", "bytes25", "bytes26", "bytes27", "bytes28", "bytes29", "bytes30", "bytes31", "bytes32"]

/-- Elementary types of reference type. -/
def refTypes : List String := ["string", "bytes"]

/-- The word can be used as an identifier. -/
def isIdent (w : List Char) : Bool :=
  w.all isWord && (match w with | [] => false | c :: _ => !c.isDigit) && !((keywords ++ valueTypes ++ refTypes).map String.toList).contains w

/-- The words between commas; `cur` is read backwards. -/
def splitComma : List Tok → List Tok → List (List Tok)
  | cur, [] => [cur]
  | cur, .sym ',' :: ts => cur :: splitComma [] ts
  | cur, t :: ts => splitComma (cur ++ [t]) ts

/-- `[]` as often as there are, and what follows. -/
def readDims : List Tok → Nat × List Tok
  | .sym '[' :: .sym ']' :: ts => ((readDims ts).1 + 1, (readDims ts).2)
  | ts => (0, ts)

def readLoc : List Tok → Option Loc × List Tok
  | .word w :: ts =>
    if w = "memory".toList then (some .memory, ts) else if w = "calldata".toList then (some .calldata, ts)
    else if w = "storage".toList then (some .storage, ts) else (none, .word w :: ts)
  | ts => (none, ts)

def readIndexed : List Tok → Bool × List Tok
  | .word w :: ts => if w = "indexed".toList then (true, ts) else (false, .word w :: ts)
  | ts => (false, ts)

/-- `type-name data-location? 'indexed'? identifier?`. -/
def readParam : List Tok → Option Param
  | .word w :: ts =>
    let (n, ts) := readDims ts
    let (l, ts) := readLoc ts
    let (i, ts) := readIndexed ts
    match ts with
    | [] => some ⟨⟨w, n⟩, l, i, none⟩
    | [.word x] => if isIdent x then some ⟨⟨w, n⟩, l, i, some x⟩ else none
    | _ => none
  | _ => none

/-- A list of parameters without its parentheses. -/
def readParams (ts : List Tok) : Option (List Param) :=
  if ts = [] then some [] else (splitComma [] ts).mapM readParam

/-- The tokens before the first `c` and those after it. -/
def upTo (c : Char) : List Tok → Option (List Tok × List Tok)
  | [] => none
  | t :: ts => if t = .sym c then some ([], ts) else (upTo c ts).map fun r => (t :: r.1, r.2)

/-- The members of a struct: each ends with a semicolon. -/
def readMembers : List Tok → List Tok → Option (List Param)
  | cur, [] => if cur = [] then some [] else none
  | cur, .sym ';' :: ts => do
    let p ← readParam cur
    let ps ← readMembers [] ts
    return p :: ps
  | cur, t :: ts => readMembers (cur ++ [t]) ts

/-- The variants of an enum: `identifier (',' identifier)*`. -/
def readVariants (ts : List Tok) : Option (List (List Char)) :=
  (splitComma [] ts).mapM fun
    | [.word w] => if isIdent w then some w else none
    | _ => none

/-- Words up to `returns` or the end. -/
def readMods : List Tok → Option (List (List Char) × List Tok)
  | [] => some ([], [])
  | .word w :: ts => if w = "returns".toList then some ([], .word w :: ts) else (readMods ts).map fun r => (w :: r.1, r.2)
  | _ => none

/-- `('returns' '(' parameter-list ')')?`. -/
def readReturns : List Tok → Option (List Param)
  | [] => some []
  | .word w :: .sym '(' :: ts =>
    if w = "returns".toList then
      match upTo ')' ts with
      | some (ps, []) => if ps = [] then none else readParams ps
      | _ => none
    else none
  | _ => none

/-- A declaration without the `;` or `}` at its end. -/
def readItem : List Tok → Option Item
  | .word k :: .word n :: .sym c :: ts =>
    if c = '(' then do
      let (ps, ts) ← upTo ')' ts
      let ps ← readParams ps
      if k = "function".toList then
        let (ms, ts) ← readMods ts
        let rs ← readReturns ts
        if isIdent n then some (.function n ps ms rs) else none
      else if k = "event".toList then
        match ts with
        | [] => if isIdent n then some (.event n ps false) else none
        | [.word a] => if isIdent n ∧ a = "anonymous".toList then some (.event n ps true) else none
        | _ => none
      else if k = "error".toList ∧ ts = [] then (if isIdent n then some (.error n ps) else none)
      else none
    else if c = '{' then
      if k = "struct".toList then do
        let ms ← readMembers [] ts
        if isIdent n then some (.struct n ms) else none
      else if k = "enum".toList then do
        let vs ← readVariants ts
        if isIdent n then some (.enum n vs) else none
      else none
    else none
  | _ => none

/-- Is it the beginning of a declaration that ends with `}`? -/
def braced : List Tok → Bool
  | .word k :: _ => k = "struct".toList || k = "enum".toList
  | _ => false

/-- The declarations up to the `}` of the interface, after which nothing may follow.  `fuel`: at least the number of tokens. -/
def readItems : Nat → List Tok → Option (List Item)
  | 0, _ => none
  | fuel + 1, ts =>
    if ts = [.sym '}'] then some []
    else do
      let (it, ts') ← upTo (if braced ts then '}' else ';') ts
      let i ← readItem it
      let is ← readItems fuel ts'
      return i :: is

/-- `pragma … ; interface N { … }`. -/
def readInterface (text : List Char) : Option Interface :=
  match upTo ';' (tokens text) with
  | some (.word p :: _, .word k :: .word n :: .sym '{' :: ts) =>
    if p = "pragma".toList ∧ k = "interface".toList ∧ isIdent n then (readItems (ts.length + 1) ts).map (⟨n, ·⟩) else none
  | _ => none

/-! ## Rules -/

def Interface.structs (I : Interface) : List (List Char) := I.items.filterMap fun | .struct n _ => some n | _ => none
def Interface.enums (I : Interface) : List (List Char) := I.items.filterMap fun | .enum n _ => some n | _ => none

/-- Elementary or declared. -/
def Interface.knows (I : Interface) (t : STy) : Prop :=
  t.base ∈ (valueTypes ++ refTypes).map String.toList ∨ t.base ∈ I.structs ∨ t.base ∈ I.enums

/-- Arrays, strings and structs. -/
def Interface.isRef (I : Interface) (t : STy) : Prop := t.dims ≠ 0 ∨ t.base ∈ refTypes.map String.toList ∨ t.base ∈ I.structs

def visibilities : List String := ["external", "public", "internal", "private"]
def mutabilities : List String := ["pure", "view", "payable"]

/-- Rules of one declaration. -/
def Interface.itemOk (I : Interface) : Item → Prop
  | .function _ ps ms rs =>
    (∀ p ∈ ps ++ rs, I.knows p.ty ∧ p.indexed = false ∧ (I.isRef p.ty ↔ p.loc = some .memory ∨ p.loc = some .calldata) ∧ p.loc ≠ some .storage) ∧
    ms.filter (· ∈ visibilities.map String.toList) = ["external".toList] ∧
    (ms.filter (· ∈ mutabilities.map String.toList)).length ≤ 1 ∧
    ∀ m ∈ ms, m ∈ (visibilities ++ mutabilities).map String.toList
  | .struct _ ms => ms ≠ [] ∧ (ms.map (·.name)).Nodup ∧ ∀ p ∈ ms, I.knows p.ty ∧ p.indexed = false ∧ p.loc = none ∧ p.name.isSome
  | .enum _ vs => vs.Nodup
  | .event _ ps anon => (∀ p ∈ ps, I.knows p.ty ∧ p.loc = none) ∧ (ps.filter (·.indexed)).length ≤ if anon then 4 else 3
  | .error _ ps => ∀ p ∈ ps, I.knows p.ty ∧ p.indexed = false ∧ p.loc = none

/-- Name and types of parameters, by which a function is found. -/
def Item.overload : Item → Option (List Char × List STy)
  | .function n ps _ _ => some (n, ps.map (·.ty))
  | _ => none

/-- The text of a type, for the types of which it is the canonical name: elementary types other than `uint` and `int`, and arrays of them. -/
def STy.text (t : STy) : String := String.ofList (t.base ++ (List.replicate t.dims "[]".toList).flatten)

/-- The signature from which a caller derives the selector of a function. -/
def Item.signature : Item → Option String
  | .function n ps _ _ => some (String.ofList n ++ "(" ++ String.intercalate "," (ps.map (·.ty.text)) ++ ")")
  | _ => none

/-- The interface satisfies the rules of the language. -/
structure Interface.Ok (I : Interface) : Prop where
  items : ∀ i ∈ I.items, I.itemOk i
  types : (I.structs ++ I.enums).Nodup
  overloads : (I.items.filterMap Item.overload).Nodup

/-- The text is an interface that the Solidity compiler accepts. -/
def Accepts (text : List Char) (I : Interface) : Prop := readInterface text = some I ∧ I.Ok

end Sol
