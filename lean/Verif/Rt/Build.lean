/-
How a package is compiled: `process_dependency_tree` and the loop of `translate_package`
(`crates/move-bytecode-to-wasm/src/lib.rs`), and the files that `move-stylus build` writes
(`crates/move-cli/src/base.rs`).

Simplified: what `process_special_attributes` finds wrong in a module is a list of errors given with the
module; `build_module_data` and the translation of functions succeed (what they make is the rest of this
development); a compiled module is the id of its source and the ids of the modules whose data were at hand.
Hash maps are lists; the recursion has a bound that counts its depth.
-/

namespace Build

/-- The id of a module (`ModuleId`): address and name. -/
structure MId where
  address : Nat
  name : String
  deriving DecidableEq, Repr

/-- A compiled unit: its id, its immediate dependencies, and the errors of its source. -/
structure CUnit where
  id : MId
  deps : List MId := []
  errors : List String := []
  deriving DecidableEq, Repr

/-- `CompiledPackage`: `deps_compiled_units` and `root_compiled_units`. -/
structure Package where
  deps : List CUnit
  roots : List CUnit

/-- `DependencyError` (error.rs 86-92), an internal compiler error. -/
inductive Ice where
  | notFound (name : String)
  | twice (id : MId)
  deriving DecidableEq, Repr

/-- `Result<(), DependencyProcessingError>` (error.rs 20-27). -/
inductive Out where
  | ok
  | ice (e : Ice)
  | code (errors : List String)
  deriving DecidableEq, Repr

/-- The end of the loop (lib.rs 499-503). -/
def Out.ofErrors (es : List String) : Out := if es = [] then .ok else .code es

/-- The loop of `process_dependency_tree` (lib.rs 412-497); `rec` is the recursive call, `data` the ids
of the modules in `dependencies_data`, `acc` the errors so far.  The data are kept when errors occur. -/
def depLoop (rec : List MId → List MId → Option (List MId × Out)) (units : List CUnit) :
    List MId → List String → List MId → Option (List MId × Out)
  | data, acc, [] => some (data, .ofErrors acc)
  | data, acc, d :: ds =>
    if d ∈ data then depLoop rec units data acc ds
    else
      match units.find? (·.id = d) with
      | none => some (data, .ice (.notFound d.name))
      | some u =>
        match if u.deps = [] then some (data, .ok) else rec data u.deps with
        | none => none
        | some (data', .ice e) => some (data', .ice e)
        | some (data', .code es) => depLoop rec units data' (acc ++ es) ds
        | some (data', .ok) =>
          if u.errors ≠ [] then depLoop rec units data' (acc ++ u.errors) ds
          else if d ∈ data' then some (data', .ice (.twice d))
          else depLoop rec units (d :: data') acc ds

/-- `process_dependency_tree` (lib.rs 402-504); `none` if the recursion is deeper than the bound. -/
def processDeps (units : List CUnit) : Nat → List MId → List MId → Option (List MId × Out)
  | 0, _, _ => none
  | n + 1, data, deps => depLoop (processDeps units n) units data [] deps

/-- A compiled module: the unit and the modules whose data were at hand. -/
structure Wasm where
  id : MId
  known : List MId
  deriving DecidableEq, Repr

/-- What `translate_package` returns: modules by name, an internal error, the errors of the sources, or that
there is nothing to compile. -/
inductive Result where
  | ok (files : List (String × Wasm))
  | ice (e : Ice)
  | code (errors : List String)
  | noFiles
  deriving DecidableEq, Repr

/-- The loop of `translate_package` (lib.rs 103-244). -/
def rootLoop (n : Nat) (units : List CUnit) :
    List MId → List (String × Wasm) → List String → List CUnit → Option Result
  | _, files, errs, [] => some (if errs = [] then .ok files else .code errs)
  | data, files, errs, r :: rs =>
    match processDeps units n data r.deps with
    | none => none
    | some (_, .ice e) => some (.ice e)
    | some (data', .code es) => rootLoop n units data' files (errs ++ es) rs
    | some (data', .ok) =>
      if r.errors ≠ [] then rootLoop n units data' files (errs ++ r.errors) rs
      else rootLoop n units (r.id :: data')
        ((r.id.name, ⟨r.id, data'⟩) :: files.filter (fun f => f.1 ≠ r.id.name)) errs rs

/-- `translate_package` (lib.rs 69-254): the modules named `m`, or all (lib.rs 85-98).  `move-stylus build`
writes each of the modules to `<name>.wasm` (base.rs 57-63). -/
def translate (n : Nat) (P : Package) (m : Option String) : Option Result :=
  let roots := match m with
    | some m => P.roots.filter (·.id.name = m)
    | none => P.roots
  if roots = [] then some .noFiles else rootLoop n P.deps [] [] [] roots

/-- The call of `translate_package_cli` (base.rs 57). -/
def translatePackage (n : Nat) (P : Package) : Option Result := translate n P none

end Build
