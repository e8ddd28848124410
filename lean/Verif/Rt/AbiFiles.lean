import Verif.Rt.Build

/-!
The files of `move-stylus export-abi` (`crates/move-cli/src/base/export_abi.rs`): `package_module_data`
(`crates/move-bytecode-to-wasm/src/lib.rs`), `generate_abi` (`crates/move-evm-abi-generator/src/lib.rs`) and
the loop that writes the files.

Simplified: what an ABI says is the pair of the module whose functions it describes and the module whose events
and errors it lists (the contents are in `Rt/Export.lean`, `Rt/Interface.lean` and `Rt/Emitted.lean`); whether
it is empty is a parameter.  `generate_abi` itself does not fail for these contents.
-/

namespace Build

/-- A source file: `<dir>/<stem>.move`. -/
structure Path where
  dir : String
  stem : String
  deriving DecidableEq, Repr

/-- A module of the package with its `source_path`. -/
structure RootUnit where
  unit : CUnit
  path : Path
  deriving DecidableEq, Repr

/-- `Result<PackageModuleData, CompilationError>`: the ids in `modules_data`, and `modules_paths`. -/
inductive DataResult where
  | ok (data : List MId) (paths : List (Path × MId))
  | ice (e : Ice)
  | code (errors : List String)
  deriving DecidableEq, Repr

/-- The loop of `package_module_data` (lib.rs 328-396). -/
def dataLoop (n : Nat) (units : List CUnit) :
    List MId → List (Path × MId) → List String → List RootUnit → Option DataResult
  | data, paths, errs, [] => some (if errs = [] then .ok data paths else .code errs)
  | data, paths, errs, r :: rs =>
    match processDeps units n data r.unit.deps with
    | none => none
    | some (_, .ice e) => some (.ice e)
    | some (data', .code es) => dataLoop n units data' paths (errs ++ es) rs
    | some (data', .ok) =>
      if r.unit.errors ≠ [] then dataLoop n units data' paths (errs ++ r.unit.errors) rs
      else dataLoop n units (r.unit.id :: data')
        ((r.path, r.unit.id) :: paths.filter (fun p => p.1 ≠ r.path)) errs rs

/-- What an ABI says: the module whose functions it has (`module_data`), and the module for which events and
errors were collected (`root_compiled_module`). -/
structure AbiOf where
  functions : MId
  events : MId
  deriving DecidableEq, Repr

/-- The loop of `generate_abi` (abi generator, lib.rs 46-106); `none` for the errors `ModuleIdNotFound` and
`ModuleDataNotFound`. -/
def abiLoop (empty : AbiOf → Bool) (data : List MId) (paths : List (Path × MId)) :
    List RootUnit → Option (List (Path × AbiOf))
  | [] => some []
  | r :: rs => do
    let p ← paths.find? (·.1 = r.path)
    if p.2 ∉ data then none
    let rest ← abiLoop empty data paths rs
    if empty ⟨p.2, r.unit.id⟩ then some rest else some ((r.path, ⟨p.2, r.unit.id⟩) :: rest)

/-- The formats. -/
inductive Ext where
  | sol
  | json
  deriving DecidableEq, Repr

/-- `std::fs::write`: replaces the file. -/
def writeFile (f : String × Ext) (c : AbiOf) (fs : List ((String × Ext) × AbiOf)) :
    List ((String × Ext) × AbiOf) :=
  (f, c) :: fs.filter (fun g => g.1 ≠ f)

/-- The loop that writes the files (export_abi.rs 86-103): the file name of the source with another extension,
in one directory. -/
def writeLoop (json human : Bool) :
    List ((String × Ext) × AbiOf) → List (Path × AbiOf) → List ((String × Ext) × AbiOf)
  | fs, [] => fs
  | fs, (p, c) :: as =>
    let fs := if human then writeFile (p.stem, .sol) c fs else fs
    let fs := if json then writeFile (p.stem, .json) c fs else fs
    writeLoop json human fs as

/-- What `export-abi` does. -/
inductive ExportResult where
  | ok (files : List ((String × Ext) × AbiOf))
  | ice (e : Ice)
  | code (errors : List String)
  | failed
  deriving DecidableEq, Repr

/-- `ExportAbi::execute` (export_abi.rs 28-113) with the flags `--json` and `--human-readable` (JSON if
neither, line 60), for all modules as `main.rs` 76-81 calls it. -/
def exportAbi (n : Nat) (empty : AbiOf → Bool) (deps : List CUnit) (roots : List RootUnit) (json human : Bool) :
    Option ExportResult :=
  match dataLoop n deps [] [] [] roots with
  | none => none
  | some (.ice e) => some (.ice e)
  | some (.code es) => some (.code es)
  | some (.ok data paths) =>
    match abiLoop empty data paths roots with
    | none => some .failed
    | some abis => some (.ok (writeLoop (json || !human) human [] abis))

end Build
