/-!
# The interface of a compiled module

A model of what the compiler exports and imports and of the check before a module is written:
`new_module_with_host` (crates/move-bytecode-to-wasm/src/hostio.rs), `setup_module_memory` (memory.rs),
`get_or_insert_import` (hostio/host_functions.rs, hostio/host_test_functions.rs), `add_entrypoint`
(hostio/entrypoint_router.rs) and `validate_stylus_wasm` (wasm_validation.rs).

Simplified: functions have a type only, an id is a position (walrus ids are never dangling), a step of the
translation is an import of a host function or a new function (the only ones that matter to the interface),
and what wasmparser says of the module is a parameter (C94).
-/

namespace WasmIface

/-- Types of values. -/
inductive VT | i32 | i64 | f32 | f64 | v128 | ref
  deriving DecidableEq

/-- Types of functions. -/
structure FTy where
  params : List VT
  results : List VT
  deriving DecidableEq

/-- Memories, with the arguments of `add_local`. -/
structure MemDef where
  shared : Bool
  memory64 : Bool
  initial : Nat
  maximum : Option Nat
  pageLog : Option Nat
  deriving DecidableEq

/-- What is exported. -/
inductive Item
  | func (i : Nat) | mem (i : Nat) | other
  deriving DecidableEq

/-- What is imported. -/
inductive Kind
  | func (i : Nat) | other
  deriving DecidableEq

/-- An import. -/
structure Imp where
  modName : String
  name : String
  kind : Kind
  deriving DecidableEq

/-- A module. -/
structure WMod where
  funcs : List FTy := []
  mems : List MemDef := []
  exports : List (String × Item) := []
  imports : List Imp := []
  deriving DecidableEq

/-- The errors of `validate_stylus_wasm`. -/
inductive VErr
  | invalid
  | noEntry | entryNotFunction | entryType
  | noMemory | memoryNotMemory | memoryType
  | noGrow | growModule | growNotFunction | growType
  | dangling
  deriving DecidableEq

/-- `validate_entrypoint_function` (wasm_validation.rs 42-84). -/
def checkEntry (m : WMod) : Except VErr Unit :=
  match m.exports.find? (fun e => e.1 == "user_entrypoint") with
  | none => .error .noEntry
  | some (_, .func i) =>
    match m.funcs[i]? with
    | none => .error .dangling
    | some t => if t.params = [.i32] ∧ t.results = [.i32] then .ok () else .error .entryType
  | some _ => .error .entryNotFunction

/-- `validate_memory_export` (wasm_validation.rs 94-142). -/
def checkMemory (m : WMod) : Except VErr Unit :=
  match m.exports.find? (fun e => e.1 == "memory") with
  | none => .error .noMemory
  | some (_, .mem i) =>
    match m.mems[i]? with
    | none => .error .dangling
    | some d =>
      if d.shared = false ∧ d.memory64 = false ∧ d.pageLog = none ∧ d.initial = 1 ∧ d.maximum = none then .ok ()
      else .error .memoryType
  | some _ => .error .memoryNotMemory

/-- `validate_pay_for_memory_grow_import` (wasm_validation.rs 145-189). -/
def checkGrow (m : WMod) : Except VErr Unit :=
  match m.imports.find? (fun i => i.name == "pay_for_memory_grow") with
  | none => .error .noGrow
  | some ⟨mn, _, k⟩ =>
    if mn = "vm_hooks" then
      match k with
      | .func i =>
        match m.funcs[i]? with
        | none => .error .dangling
        | some t => if t.results = [] ∧ t.params = [.i32] then .ok () else .error .growType
      | .other => .error .growNotFunction
    else .error .growModule

/-- `validate_stylus_wasm` (wasm_validation.rs 27-39). -/
def validate (wasmOk : WMod → Bool) (m : WMod) : Except VErr Unit :=
  if wasmOk m then
    match checkEntry m with
    | .error e => .error e
    | .ok () =>
      match checkMemory m with
      | .error e => .error e
      | .ok () => checkGrow m
  else .error .invalid

/-! ## What the compiler makes -/

/-- A function is added. -/
def addFunc (m : WMod) (t : FTy) : WMod × Nat :=
  ({ m with funcs := m.funcs ++ [t] }, m.funcs.length)

/-- `module.exports.add`. -/
def addExport (m : WMod) (n : String) (i : Item) : WMod :=
  { m with exports := m.exports ++ [(n, i)] }

/-- `add_import_func`: a function and its import. -/
def addImport (m : WMod) (mn n : String) (t : FTy) : WMod × Nat :=
  ({ m with funcs := m.funcs ++ [t], imports := m.imports ++ [⟨mn, n, .func m.funcs.length⟩] }, m.funcs.length)

/-- `module.imports.get_func`: the function imported under these names. -/
def getFunc (m : WMod) (mn n : String) : Option Nat :=
  m.imports.findSome? fun i =>
    if i.modName = mn ∧ i.name = n then
      match i.kind with
      | .func f => some f
      | .other => none
    else none

/-- `get_or_insert_import` (host_functions.rs 350-368, host_test_functions.rs 38-56). -/
def getOrInsert (m : WMod) (mn n : String) (t : FTy) : WMod × Nat :=
  match getFunc m mn n with
  | some f => (m, f)
  | none => addImport m mn n t

/-- `new_module_with_host` (hostio.rs 21-44) with `setup_module_memory` (memory.rs 23-125). -/
def newModule : WMod :=
  let m : WMod := { mems := [⟨false, false, 1, none, none⟩] }
  let m := addExport m "memory" (.mem 0)
  let m := (addFunc m ⟨[.i32], [.i32]⟩).1
  let g := getOrInsert m "vm_hooks" "pay_for_memory_grow" ⟨[.i32], []⟩
  addExport g.1 "pfmg" (.func g.2)

/-- A step of the translation. -/
inductive Step
  | host (n : String)
  | testHost (n : String)
  | fn (t : FTy)

/-- Steps of the translation; `sig` and `testSig` are the types of the functions of the host
(host_functions.rs, host_test_functions.rs). -/
def step (sig testSig : String → FTy) (m : WMod) : Step → WMod
  | .host n => (getOrInsert m "vm_hooks" n (sig n)).1
  | .testHost n => (getOrInsert m "vm_test_hooks" n (testSig n)).1
  | .fn t => (addFunc m t).1

/-- The router (entrypoint_router.rs 328): a function and its export. -/
def addRouter (m : WMod) : WMod :=
  let r := addFunc m ⟨[.i32], [.i32]⟩
  addExport r.1 "user_entrypoint" (.func r.2)

/-- The module `translate_package` (lib.rs 103-244) checks. -/
def compiled (sig testSig : String → FTy) (steps : List Step) : WMod :=
  addRouter (steps.foldl (step sig testSig) newModule)

end WasmIface
