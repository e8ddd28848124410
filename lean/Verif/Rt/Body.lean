import Verif.Rt.Validate

/-
The check of the calls of `emit` and `revert` that is made on the source of functions before compilation
(`crates/move-parse-special-attributes/src/function_validation`: `parse_body.rs`, `native_functions.rs`,
and the end of `validate_function`, function_validation.rs 199-226).

Simplified: the final expression of a block is a list of at most one expression, as is the branch `else`
and the guard of a match arm; forms of expressions at which `extract_from_exp` stops are one constructor,
`other`, that carries the datatype of its value; hash maps are lists whose first entry counts.  The types of
variables bound by patterns are given with the patterns: the check does not look at them.
-/

namespace Validate

/-- A datatype or function: the module that defines it and its name there. -/
abbrev Item := ModId × String

mutual
/-- Source expressions (`Exp_` of the Move parser), as far as parse_body.rs 105-213 distinguishes them. -/
inductive SExp where
  /-- `path::name(args)`: a call or a struct with positional fields. -/
  | call (path : List String) (name : String) (args : List SExp)
  /-- `recv.name(args)` -/
  | dotCall (recv : SExp) (name : String) (args : List SExp)
  /-- `path::name { fields }` -/
  | pack (path : List String) (name : String) (fields : List SExp)
  /-- A variable or a constant. -/
  | name (path : List String) (x : String)
  | parens (e : SExp)
  | copy (e : SExp)
  | move (e : SExp)
  | labeled (e : SExp)
  | block (items : List SItem) (final : List SExp)
  | ite (c t : SExp) (e : List SExp)
  | while (c b : SExp)
  | loop (b : SExp)
  | mtch (s : SExp) (arms : List SArm)
  | lambda (vars : List (String × Option Item)) (b : SExp)
  | list (es : List SExp)
  /-- All other forms: operators, borrows, dereferences, fields, casts, literals, assignments, `abort`,
  `return`, vectors; with the datatype of the value, if it is one, and the parts. -/
  | other (ty : Option Item) (es : List SExp)
/-- Statements (`SequenceItem_`). -/
inductive SItem where
  | seq (e : SExp)
  | declare (vars : List (String × Option Item))
  | bind (bs : List SBind) (e : SExp)
/-- The arm of a match: variables of the pattern, guard, right-hand side. -/
inductive SArm where
  | arm (vars : List (String × Option Item)) (guard : List SExp) (rhs : SExp)
/-- One element of the left side of a `let` (`Bind_`). -/
inductive SBind where
  | var (x : String) (ty : Option Item)
  | unpack (vars : List (String × Option Item))
end

/-- `VariableBindings` (parse_body.rs 17-19). -/
abbrev Bindings := List (String × String)

/-- `HashMap::get`. -/
def Bindings.get (B : Bindings) (x : String) : Option String := (B.find? (·.1 = x)).map (·.2)

/-- `extract_struct_name_from_exp` (parse_body.rs 266-301). -/
def structName (B : Bindings) : SExp → Option String
  | .pack _ n _ => some n
  | .call _ n _ => some n
  | .name _ x => some ((B.get x).getD x)
  | .parens e => structName B e
  | .copy e => structName B e
  | .move e => structName B e
  | _ => none

/-- The insertions for the variables of a `let` (parse_body.rs 93-99). -/
def insertBinds (n : String) : List SBind → Bindings → Bindings
  | [], B => B
  | .var x _ :: bs, B => insertBinds n bs ((x, n) :: B)
  | .unpack _ :: bs, B => insertBinds n bs B

mutual
/-- The bindings after `extract_from_exp` (parse_body.rs 109-213). -/
def SExp.binds : SExp → Bindings → Bindings
  | .call _ _ args, B => bindsAll args B
  | .dotCall r _ args, B => bindsAll args (r.binds B)
  | .block is f, B => bindsAll f (bindsItems is B)
  | .ite c t e, B => bindsAll e (t.binds (c.binds B))
  | .while c b, B => b.binds (c.binds B)
  | .loop b, B => b.binds B
  | .mtch s arms, B => bindsArms arms (s.binds B)
  | .labeled e, B => e.binds B
  | .parens e, B => e.binds B
  | .lambda _ b, B => b.binds B
  | .list es, B => bindsAll es B
  | .pack .., B | .name .., B | .copy _, B | .move _, B | .other .., B => B
/-- The loop over expressions. -/
def bindsAll : List SExp → Bindings → Bindings
  | [], B => B
  | e :: es, B => bindsAll es (e.binds B)
/-- `extract_from_sequence_item` (parse_body.rs 74-103) for the items in order. -/
def bindsItems : List SItem → Bindings → Bindings
  | [], B => B
  | i :: is, B => bindsItems is (i.binds B)
/-- `extract_from_sequence_item` (parse_body.rs 74-103). -/
def SItem.binds : SItem → Bindings → Bindings
  | .seq e, B => e.binds B
  | .declare _, B => B
  | .bind bs e, B =>
    e.binds (match structName B e with
      | some n => insertBinds n bs B
      | none => B)
/-- The loop over the arms of a match (parse_body.rs 180-186). -/
def bindsArms : List SArm → Bindings → Bindings
  | [], B => B
  | a :: as, B => bindsArms as (a.binds B)
/-- One arm (parse_body.rs 181-185). -/
def SArm.binds : SArm → Bindings → Bindings
  | .arm _ g r, B => r.binds (bindsAll g B)
end

/-- `ExtractedFunctionCall` (parse_body.rs 21-39): the name without the path and the arguments; the path
and whether it is a method are recorded by the code and not used. -/
abbrev XCall := String × List SExp

mutual
/-- The calls that `extract_from_exp` collects, in order (parse_body.rs 109-213). -/
def SExp.calls : SExp → List XCall
  | .call _ n args => (n, args) :: callsAll args
  | .dotCall r n args => (n, args) :: (r.calls ++ callsAll args)
  | .block is f => callsItems is ++ callsAll f
  | .ite c t e => c.calls ++ (t.calls ++ callsAll e)
  | .while c b => c.calls ++ b.calls
  | .loop b => b.calls
  | .mtch s arms => s.calls ++ callsArms arms
  | .labeled e => e.calls
  | .parens e => e.calls
  | .lambda _ b => b.calls
  | .list es => callsAll es
  | .pack .. | .name .. | .copy _ | .move _ | .other .. => []
/-- The loop over expressions. -/
def callsAll : List SExp → List XCall
  | [] => []
  | e :: es => e.calls ++ callsAll es
/-- The loop over statements. -/
def callsItems : List SItem → List XCall
  | [] => []
  | i :: is => i.calls ++ callsItems is
/-- `extract_from_sequence_item` (parse_body.rs 74-103). -/
def SItem.calls : SItem → List XCall
  | .seq e => e.calls
  | .declare _ => []
  | .bind _ e => e.calls
/-- The loop over the arms of a match. -/
def callsArms : List SArm → List XCall
  | [] => []
  | a :: as => a.calls ++ callsArms as
/-- One arm. -/
def SArm.calls : SArm → List XCall
  | .arm _ g r => callsAll g ++ r.calls
end

/-- `emit` of `stylus::event` and `revert` of `stylus::error` (reserved_modules.rs). -/
def emitFn : Item := (⟨sfAddress, "event"⟩, "emit")
@[inherit_doc emitFn] def revertFn : Item := (⟨sfAddress, "error"⟩, "revert")

/-- `build_function_alias_map` (function_validation.rs 44-59): what a name or alias was imported from.  The
imports are those of all modules of the file (lib.rs 333-466). -/
def aliasOf (imports : List (ModId × String × Option String)) (n : String) : Option Item :=
  (imports.reverse.find? (fun i => i.2.2.getD i.2.1 = n)).map fun i => (i.1, i.2.1)

/-- The errors of the check of a body (function_validation/error.rs). -/
inductive BodyError where
  | emitCount
  | emitNotEvent
  | revertCount
  | revertNotError
  deriving DecidableEq, Repr

/-- One round of `validate_native_function_calls` (native_functions.rs 105-156). -/
def checkCall (m : Module) (B : Bindings) (c : XCall) : Option BodyError :=
  if aliasOf m.imports c.1 = some emitFn then
    match c.2 with
    | [a] => if (structName B a).any (· ∈ m.events) then none else some .emitNotEvent
    | _ => some .emitCount
  else if aliasOf m.imports c.1 = some revertFn then
    match c.2 with
    | [a] => if (structName B a).any (· ∈ m.errors) then none else some .revertNotError
    | _ => some .revertCount
  else none

/-- The names of the structs of the module (function_validation.rs 201-206): constructors are no calls. -/
def Module.structNames (m : Module) : List String := m.structs.map (·.name)

/-- The last part of `validate_function` (function_validation.rs 199-226) for a function with this body:
all calls and bindings are collected, then the calls are checked.  `none`: the body is accepted. -/
def validateBody (m : Module) (body : List SItem) (final : List SExp) : Option BodyError :=
  ((SExp.block body final).calls.filter (fun c => c.1 ∉ m.structNames)).findSome?
    (checkCall m ((SExp.block body final).binds []))

end Validate
