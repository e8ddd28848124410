import Verif.Rt.Ext
import Verif.Wp

/-!
# Running the unit tests of a package

Transcription of `move-stylus test`: which functions are tests (crates/move-parse-special-attributes/src/lib.rs 479-708 and function_modifiers.rs 125-203, of which
only the attributes about tests are kept; attributes the parser refuses are not in the model), how they are exported (move-bytecode-to-wasm/src/translation.rs 295-306), run
(move-test-runner/src/lib.rs, wasm_runner.rs 699-730) and reported (move-cli/src/base/test.rs).

Of a file the modules, functions and attributes are kept; the emitted functions are given.  The functions exported besides the tests (`user_entrypoint`) are left out.
-/

namespace TestRun
open Wasm Rt

/-- `Attribute_` of the Move parser: `#[n]`, `#[n = v]`, `#[n(..)]`. -/
inductive Attr
  | name (n : String)
  | assigned (n : String) (v : Nat)
  | param (n : String) (as : List Attr)

/-- `FunctionModifier` (function_modifiers.rs 82-91); `other` are those that are not about tests. -/
inductive FMod | test | skip | expectedFailure | other
deriving DecidableEq

mutual
/-- `parse_modifiers` (function_modifiers.rs 125-203). -/
def Attr.mods : Attr → List FMod
  | .param n as =>
    if n = "owned_objects" ∨ n = "shared_objects" ∨ n = "frozen_objects" ∨ n = "abi" ∨ n = "external_call" then [.other]
    else if n = "expected_failure" then [.expectedFailure]
    else Attr.modsL as
  | .name n =>
    if n = "external_call" then [.other] else if n = "test" then [.test] else if n = "skip" then [.skip]
    else if n = "expected_failure" then [.expectedFailure] else []
  | .assigned _ _ => []
def Attr.modsL : List Attr → List FMod
  | [] => []
  | a :: as => a.mods ++ Attr.modsL as
end

/-- A function in the source: its name and its attributes, one list for each `#[..]`. -/
structure SFun where
  name : String
  attrs : List (List Attr)

/-- A module in the source. -/
structure SMod where
  name : String
  funs : List SFun

/-- `TestFunction` (move-parse-special-attributes/src/lib.rs 68-72). -/
structure TestFn where
  name : String
  expect : Bool
deriving DecidableEq

/-- `test_functions.iter_mut().find(..)` and the assignment (lib.rs 636-641). -/
def setExpect (n : String) : List TestFn → Option (List TestFn)
  | [] => none
  | t :: ts => if t.name = n then some (⟨t.name, true⟩ :: ts) else (setExpect n ts).map (t :: ·)

/-- The tests found so far, and `found_error`. -/
structure Found where
  tests : List TestFn
  err : Bool

/-- The arms `Test` and `ExpectedFailure` of the loop over the modifiers (lib.rs 629-649). -/
def Found.step (n : String) (r : Found) : FMod → Found
  | .test => ⟨r.tests ++ [⟨n, false⟩], r.err⟩
  | .expectedFailure =>
    match setExpect n r.tests with
    | some ts => ⟨ts, r.err⟩
    | none => ⟨r.tests, true⟩
  | _ => r

/-- The loops over the attributes of a function (lib.rs 510-528). -/
def Found.fn (r : Found) (f : SFun) : Found := (Attr.modsL f.attrs.flatten).foldl (Found.step f.name) r

/-- `process_special_attributes` for the modules of a file (lib.rs 476-708): the tests, unless there is an error. -/
def fileTests (ms : List SMod) : Option (List TestFn) :=
  let r := (ms.flatMap (·.funs)).foldl Found.fn ⟨[], false⟩
  if r.err then none else some r.tests

/-- A compiled module of the package: the path of its source file, its name, and the functions emitted for its own (non-generic) functions. -/
structure TUnit where
  path : String
  name : String
  funs : List (String × Fn)

/-- `instance.get_func` (wasm_runner.rs 710): functions with the name of a test are exported (translation.rs 295-306). -/
def TUnit.export (u : TUnit) (ts : List TestFn) (n : String) : Option Fn :=
  if ts.any (·.name = n) then u.funs.lookup n else none

/-- A test is called without arguments and without room for results (wasm_runner.rs 712-714), in state `σ`, and returns; `b`: the error pointer is set
afterwards (wasm_runner.rs 716-728). -/
def Finishes (f : Fn) (σ : Store) (b : Bool) : Prop :=
  f.nr = 0 ∧ f.Calls [] σ (fun _ σ' => decide (errWord σ' ≠ 0) = b)

/-- `call_test_function` gives an error: the function has parameters or results, or it traps. -/
def Crashes (f : Fn) (σ : Store) : Prop := f.na ≠ 0 ∨ f.nr ≠ 0 ∨ f.Traps [] σ

/-- The loop of `run_tests` (move-test-runner/src/lib.rs 34-63): for each test, whether it is reported as passed; `none` if the runner panics (`unwrap`).  Each test has
a new sandbox, with state `σ`. -/
inductive RunTests (ex : String → Option Fn) (σ : Store) : List TestFn → Option (List (String × Bool)) → Prop
  | nil : RunTests ex σ [] (some [])
  | missing {t ts} : ex t.name = none → RunTests ex σ (t :: ts) none
  | crash {t ts f} : ex t.name = some f → Crashes f σ → RunTests ex σ (t :: ts) none
  | done {t ts f b r} : ex t.name = some f → Finishes f σ b → RunTests ex σ ts r →
      RunTests ex σ (t :: ts) (r.map ((t.name, b == t.expect) :: ·))

/-- How `move-stylus test` ends: with compilation errors, a panic, or a report, a line for each test that is run (module, test, whether it passed), and whether the exit
code is 1. -/
inductive TRes
  | refused | panic
  | report (lines : List (String × String × Bool)) (failed : Bool)
deriving DecidableEq

def TRes.before (ls : List (String × String × Bool)) : TRes → TRes
  | .report ls' b => .report (ls ++ ls') b
  | r => r

/-- The loop over the modules (move-cli/src/base/test.rs 62-73); the last argument but one is `test_failed`.  `||` does not run the tests of a module after a failure. -/
inductive RunMods (tests : TUnit → List TestFn) (σ : TUnit → Store) : List TUnit → Bool → TRes → Prop
  | nil {b} : RunMods tests σ [] b (.report [] b)
  | skip {u us b r} : tests u = [] ∨ b = true → RunMods tests σ us b r → RunMods tests σ (u :: us) b r
  | panic {u us} : tests u ≠ [] → RunTests (u.export (tests u)) (σ u) (tests u) none → RunMods tests σ (u :: us) false .panic
  | run {u us ls r} : tests u ≠ [] → RunTests (u.export (tests u)) (σ u) (tests u) (some ls) →
      RunMods tests σ us (ls.any (fun l => !l.2)) r → RunMods tests σ (u :: us) false (r.before (ls.map (fun l => (u.name, l.1, l.2))))

/-- `modules_paths` (move-bytecode-to-wasm/src/lib.rs 325-383): a module replaces an earlier one with the same path. -/
def pathMods (us : List TUnit) : List TUnit := us.foldl (fun m u => m.filter (fun v => v.path ≠ u.path) ++ [u]) []

/-- `move-stylus test` on a package with the compiled modules `us`; `files` gives the modules in the source at a path, `σ` the state of a new instance.  The order in which
modules are visited is that of a hash map: arbitrary. -/
inductive TestCmd (files : String → List SMod) (σ : TUnit → Store) (us : List TUnit) : TRes → Prop
  | refused {u} : u ∈ us → fileTests (files u.path) = none → TestCmd files σ us .refused
  | ran {tests vs r} : (∀ u ∈ us, fileTests (files u.path) = some (tests u)) → vs.Perm (pathMods us) → RunMods tests σ vs false r → TestCmd files σ us r

end TestRun
