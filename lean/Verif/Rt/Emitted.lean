import Verif.Rt.Export

/-!
# Which events and errors the ABI lists

Transcription of `process_events_and_errors` (crates/move-evm-abi-generator/src/lib.rs 137-333), which looks for calls of `emit` and `revert` in the bytecode of a
module and of the modules it calls.  Of the bytecode only calls are kept; a handle of a function is its module and its name.
-/

namespace Emitted
open Export

/-- `SignatureToken`; `datatype` and `inst` have an index into the handles of the module. -/
inductive Tok
  | prim (s : String)
  | param (i : Nat)
  | vec (t : Tok)
  | ref (t : Tok)
  | mutRef (t : Tok)
  | datatype (h : Nat)
  | inst (h : Nat) (args : List Tok)

/-- A name of a struct or enum: module and identifier. -/
structure SName where
  mod : Mod
  name : String
deriving DecidableEq

/-- A type whose handles are resolved (`IntermediateType`; a struct is named by its module and its identifier rather than its index). -/
inductive RTy
  | prim (s : String)
  | param (i : Nat)
  | vec (t : RTy)
  | ref (t : RTy)
  | mutRef (t : RTy)
  | struct (n : SName) (args : List RTy)

/-- An instruction: only calls matter. -/
inductive Ins
  | call (m : Mod) (f : String)
  | callGeneric (m : Mod) (f : String) (tys : List Tok)
  | other

/-- A function definition; `code` is `none` for natives. -/
structure FDef where
  name : String
  code : Option (List Ins)

/-- `CompiledModule`. -/
structure CMod where
  id : Mod
  handles : List SName
  funs : List FDef

/-- All modules of the package: dependencies, then roots. -/
abbrev Pkg := List CMod

mutual
/-- `try_from_signature_token` (translation/intermediate_types.rs 197-273). -/
def Tok.resolve (hs : List SName) : Tok → Option RTy
  | .prim s => some (.prim s)
  | .param i => some (.param i)
  | .vec t => (t.resolve hs).map .vec
  | .ref t => (t.resolve hs).map .ref
  | .mutRef t => (t.resolve hs).map .mutRef
  | .datatype h => hs[h]?.map (.struct · [])
  | .inst h args => hs[h]?.bind fun n => (Tok.resolves hs args).map (.struct n)
def Tok.resolves (hs : List SName) : List Tok → Option (List RTy)
  | [] => some []
  | t :: ts => (t.resolve hs).bind fun r => (Tok.resolves hs ts).map (r :: ·)
end

/-- `EventStruct` (lib.rs 124-129). -/
structure EventStruct where
  name : SName
  params : Option (List RTy)

/-- The module with the identifier (`find_child_module`, lib.rs 232-255; `modules_data.get`). -/
def Pkg.module (p : Pkg) (m : Mod) : Option CMod := p.find? (fun c => c.id = m)

def eventMod : Mod := ⟨2, "event"⟩
def errorMod : Mod := ⟨2, "error"⟩

/-- `parse_event` (lib.rs 258-311).  The arguments of a generic event are looked up among the handles of the module of the event (302-309). -/
def parseEvent (p : Pkg) (c : CMod) : Tok → Option EventStruct
  | .datatype h => c.handles[h]?.map (⟨·, none⟩)
  | .inst h args => do
    let n ← c.handles[h]?
    let e ← p.module n.mod
    let ts ← Tok.resolves e.handles args
    return ⟨n, some ts⟩
  | _ => none

/-- `parse_error` (lib.rs 314-329). -/
def parseError (c : CMod) : Tok → Option SName
  | .datatype h => c.handles[h]?
  | _ => none

/-- One instruction (lib.rs 166-217): events, errors and the module called. -/
def scanIns (p : Pkg) (c : CMod) : Ins → Option (List EventStruct × List SName × List Mod)
  | .other => some ([], [], [])
  | .call m _ => some ([], [], [m])
  | .callGeneric m f tys =>
    if m.addr = 2 ∧ m.name = "event" ∧ f = "emit" then
      match tys with
      | [] => none
      | t :: _ => (parseEvent p c t).map fun e => ([e], [], [m])
    else if m.addr = 2 ∧ m.name = "error" ∧ f = "revert" then
      match tys with
      | [] => none
      | t :: _ => (parseError c t).map fun e => ([], [e], [m])
    else some ([], [], [m])

def scanAll (p : Pkg) (c : CMod) : List Ins → Option (List EventStruct × List SName × List Mod)
  | [] => some ([], [], [])
  | i :: is => do
    let (a, b, d) ← scanIns p c i
    let (a', b', d') ← scanAll p c is
    return (a ++ a', b ++ b', d ++ d')

/-- The instructions of all functions with code (lib.rs 160-165). -/
def CMod.code (c : CMod) : List Ins := c.funs.flatMap fun f => f.code.getD []

mutual
/-- `process_events_and_errors` (lib.rs 137-243), with the set of processed modules as part of the result.  `fuel` bounds the depth of the recursion. -/
def process (p : Pkg) : Nat → CMod → List Mod → Option (List EventStruct × List SName × List Mod)
  | 0, _, _ => none
  | fuel + 1, c, done => do
    let (es, rs, ms) ← scanAll p c c.code
    let (es', rs', done') ← children p fuel c.id ms (c.id :: done)
    return (es ++ es', rs ++ rs', done')
/-- The loop over the calls (lib.rs 220-240). -/
def children (p : Pkg) : Nat → Mod → List Mod → List Mod → Option (List EventStruct × List SName × List Mod)
  | _, _, [], done => some ([], [], done)
  | fuel, self, m :: ms, done =>
    if m = self ∨ m ∈ done then children p fuel self ms done
    else do
      let c ← p.module m
      let (es, rs, done') ← process p fuel c done
      let (es', rs', done'') ← children p fuel self ms done'
      return (es ++ es', rs ++ rs', done'')
end

/-! ## What can happen -/

mutual
/-- A type with the arguments of the function in place of its parameters. -/
def RTy.subst (as : List RTy) : RTy → RTy
  | .prim s => .prim s
  | .param i => as[i]?.getD (.param i)
  | .vec t => .vec (t.subst as)
  | .ref t => .ref (t.subst as)
  | .mutRef t => .mutRef (t.subst as)
  | .struct n args => .struct n (RTy.substs as args)
def RTy.substs (as : List RTy) : List RTy → List RTy
  | [] => []
  | t :: ts => t.subst as :: RTy.substs as ts
end

/-- In an execution that starts with a function of the module `root`, the function `f` of the module `m` may be called with the type arguments `as`. -/
inductive Reach (p : Pkg) (root : Mod) : Mod → String → List RTy → Prop
  | start (f : String) (as : List RTy) : Reach p root root f as
  | call {m f as c d is m' f'} : Reach p root m f as → p.module m = some c → d ∈ c.funs → d.name = f → d.code = some is → Ins.call m' f' ∈ is →
      Reach p root m' f' []
  | callGeneric {m f as c d is m' f' tys ts} : Reach p root m f as → p.module m = some c → d ∈ c.funs → d.name = f → d.code = some is →
      Ins.callGeneric m' f' tys ∈ is → Tok.resolves c.handles tys = some ts → Reach p root m' f' (RTy.substs as ts)

/-- An execution may emit an event of the type. -/
def Emits (p : Pkg) (root : Mod) (t : RTy) : Prop := ∃ ts, Reach p root eventMod "emit" (t :: ts)

/-- An execution may revert with an error of the type. -/
def Reverts (p : Pkg) (root : Mod) (t : RTy) : Prop := ∃ ts, Reach p root errorMod "revert" (t :: ts)

end Emitted
