/-!
# The commands `new`, `deploy` and `activate`

A model of `New::execute` (crates/move-cli/src/base/new.rs), `Deploy::execute`
(crates/move-cli/src/base/deploy.rs), `Activate::execute` (crates/move-cli/src/base/activate.rs) and of the
files `translate_package_cli` writes (crates/move-cli/src/base.rs 40-118).

Simplified: texts are lists of characters (a `.gitignore` that is not UTF-8 is not modelled), paths are
lists of components, file operations succeed, and a contract name is one component.  What cargo-stylus
does is a parameter, and so is `Identifier::is_valid`, which is code of a dependency.
-/

namespace Cli

/-- Texts. -/
abbrev Text := List Char

/-- Paths. -/
abbrev FPath := List Text

/-- The files of the disk. -/
abbrev Disk (α : Type) := FPath → Option α

/-- `File::create` and a write (new.rs 91, 164): what the file held is lost. -/
def Disk.write {α : Type} (fs : Disk α) (p : FPath) (x : α) : Disk α :=
  fun q => if q = p then some x else fs q

/-- The end of a line as `BufRead::lines` cuts it: without `\r`. -/
def dropCr (l : Text) : Text :=
  if l.getLast? = some '\r' then l.dropLast else l

/-- `BufRead::lines` (new.rs 71); `acc` is the line so far, backwards. -/
def linesAux (acc : Text) : Text → List Text
  | [] => if acc = [] then [] else [acc.reverse]
  | c :: cs => if c = '\n' then dropCr acc.reverse :: linesAux [] cs else linesAux (c :: acc) cs

/-- `BufRead::lines`. -/
def linesOf (t : Text) : List Text := linesAux [] t

/-- `writeln!` of several lines. -/
def unlines : List Text → Text
  | [] => []
  | l :: ls => l ++ '\n' :: unlines ls

/-- The entry of new.rs 61. -/
def ignoreEntry : Text := ['b', 'u', 'i', 'l', 'd', '/', '*']

/-- `write_gitignore` (new.rs 60-79): the file is created if it is not there; `lines` reads to the end, so
the entry is written at the end. -/
def gitignore (old : Option Text) : Text :=
  let t := old.getD []
  if ignoreEntry ∈ linesOf t then t else t ++ unlines [ignoreEntry]

/-- `write_move_toml` without dependencies, addresses and additions (new.rs 82-157, 26-33), line by line. -/
def manifestText (name : Text) : Text :=
  unlines [
    "[package]".toList,
    "name = \"".toList ++ name ++ "\"".toList,
    "edition = \"2024\"".toList,
    "# license = \"\"           # e.g., \"MIT\", \"GPL\", \"Apache 2.0\"".toList,
    "# authors = [\"...\"]      # e.g., [\"Joe Smith (joesmith@noemail.com)\", \"John Snow (johnsnow@noemail.com)\"]".toList,
    [],
    "[dependencies]".toList,
    [],
    "# For remote import, use the `{ git = \"...\", subdir = \"...\", rev = \"...\" }`.".toList,
    "# Revision can be a branch, a tag, and a commit hash.".toList,
    "# MyRemotePackage = { git = \"https://some.remote/host.git\", subdir = \"remote/path\", rev = \"main\" }".toList,
    [],
    "# For local dependencies use `local = path`. Path is relative to the package root".toList,
    "# Local = { local = \"../path/to\" }".toList,
    [],
    "# To resolve a version conflict and force a specific version for dependency".toList,
    "# override use `override = true`".toList,
    "# Override = { local = \"../conflicting/version\", override = true }".toList,
    [],
    "[addresses]".toList,
    name ++ " = \"0x0\"".toList,
    [],
    "# Named addresses will be accessible in Move as `@name`. They're also exported:".toList,
    "# for example, `std = \"0x1\"` is exported by the Standard Library.".toList,
    "# alice = \"0xA11CE\"".toList,
    [],
    "[dev-dependencies]".toList,
    "# The dev-dependencies section allows overriding dependencies for `--test` and".toList,
    "# `--dev` modes. You can introduce test-only dependencies here.".toList,
    "# Local = { local = \"../path/to/dev-build\" }".toList,
    [],
    "[dev-addresses]".toList,
    "# The dev-addresses section allows overwriting named addresses for the `--test`".toList,
    "# and `--dev` modes.".toList,
    "# alice = \"0xB0B\"".toList,
    []]

/-- `write_default_module` (new.rs 160-181), line by line. -/
def moduleText (name : Text) : Text :=
  unlines [
    "module ".toList ++ name ++ "::".toList ++ name ++ ";".toList,
    [],
    "entry fun hello_world(): vector<u8> {".toList,
    "    b\"hello world\"".toList,
    "}".toList,
    [],
    "#[test]".toList,
    "fun test_hello() {".toList,
    "    assert!(hello_world() == b\"hello world\", 1);".toList,
    "}".toList]

/-- `{path}/Move.toml`. -/
def manifestPath (path : FPath) : FPath := path ++ ["Move.toml".toList]

/-- `{path}/sources/{name}.move` (new.rs 161-162). -/
def modulePath (path : FPath) (name : Text) : FPath := path ++ ["sources".toList, name ++ ".move".toList]

/-- `{path}/.gitignore` (new.rs 68). -/
def ignorePath (path : FPath) : FPath := path ++ [".gitignore".toList]

/-- `New::execute_with_defaults` (new.rs 26-57); `none` is the error about the name.  `cwd` is where relative
paths start. -/
def newPackage (isValid : Text → Bool) (cwd : FPath) (fs : Disk Text) (path : Option FPath) (name : Text) :
    Option (Disk Text) :=
  if isValid name then
    let path := path.getD (cwd ++ [name])
    let fs := fs.write (manifestPath path) (manifestText name)
    let fs := fs.write (modulePath path name) (moduleText name)
    some (fs.write (ignorePath path) (gitignore (fs (ignorePath path))))
  else none

/-! ## What build writes -/

/-- `get_build_directory` (base.rs 102-118). -/
def buildDir (root : FPath) (pkg : Text) (install : Option FPath) : FPath :=
  install.getD root ++ ["build".toList, pkg, "wasm".toList]

/-- One module of `translate_package_cli` (base.rs 60-96): it is written and optimised in place (`opt`), and
printed if asked (`wat`). -/
def writeModule {α : Type} (opt : α → α) (wat : Option (α → α)) (dir : FPath) (n : Text) (m : α)
    (fs : Disk α) : Disk α :=
  match wat with
  | some w => (fs.write (dir ++ [n ++ ".wasm".toList]) (opt m)).write (dir ++ [n ++ ".wat".toList]) (w m)
  | none => fs.write (dir ++ [n ++ ".wasm".toList]) (opt m)

/-- The loop of `translate_package_cli` (base.rs 59-97). -/
def writeModules {α : Type} (opt : α → α) (wat : Option (α → α)) (dir : FPath) :
    List (Text × α) → Disk α → Disk α
  | [], fs => fs
  | nm :: ms, fs => writeModules opt wat dir ms (writeModule opt wat dir nm.1 nm.2 fs)

/-- `translate_package_cli` (base.rs 40-100) with what `translate_package` returns: on an error nothing is
written (base.rs 57), and nothing is ever removed. -/
def buildPackage {α : Type} (opt : α → α) (wat : Option (α → α)) (root : FPath) (pkg : Text)
    (install : Option FPath) (result : Option (List (Text × α))) (fs : Disk α) : Disk α :=
  match result with
  | some ms => writeModules opt wat (buildDir root pkg install) ms fs
  | none => fs

/-- The commands that write modules, with what `translate_package` returns for each: `build` (base/build.rs
42-57, optimised except with `--dev`), `test` (base/test.rs 27-48: the package is compiled for tests; the same directory, not
optimised) and, in debug builds, `disassemble` (base/disassemble.rs 99-107: not optimised, printed). -/
inductive Cmd (α : Type)
  | build (dev wat : Bool) (install : Option FPath) (result : Option (List (Text × α)))
  | test (install : Option FPath) (result : Option (List (Text × α)))
  | disassemble (install : Option FPath) (result : Option (List (Text × α)))

/-- A command is run; `opt` is wasm-opt, `wat` is wasmprinter. -/
def runCmd {α : Type} (opt wat : α → α) (root : FPath) (pkg : Text) (fs : Disk α) : Cmd α → Disk α
  | .build dev w install r => buildPackage (if dev then id else opt) (if w then some wat else none) root pkg install r fs
  | .test install r => buildPackage id none root pkg install r fs
  | .disassemble install r => buildPackage id (some wat) root pkg install r fs

/-! ## deploy and activate -/

/-- `contract_name.replace(".move", ".wasm")` (deploy.rs 157): every occurrence, from the left. -/
def replaceMove : Text → Text
  | '.' :: 'm' :: 'o' :: 'v' :: 'e' :: t => ".wasm".toList ++ replaceMove t
  | c :: cs => c :: replaceMove cs
  | [] => []

/-- The name of the file (deploy.rs 156-160). -/
def wasmName (contract : Text) : Text :=
  if ".move".toList.isSuffixOf contract then replaceMove contract else contract ++ ".wasm".toList

/-- The arguments of `deploy` (deploy.rs 10-57); `clap` makes sure that one of the keys is given. -/
structure DeployArgs where
  contract : Text
  endpoint : Text
  verbose : Bool
  estimateGas : Bool
  noActivate : Bool
  maxFee : Option Text
  bump : Text
  key : Option Text
  keyPath : Option Text

/-- The arguments of `activate` (activate.rs 13-48). -/
structure ActivateArgs where
  address : Text
  endpoint : Text
  verbose : Bool
  estimateGas : Bool
  maxFee : Option Text
  key : Option Text
  keyPath : Option Text

/-- One argument of cargo-stylus: a word, or the path of a file. -/
inductive Arg
  | word (t : Text)
  | file (p : FPath)
  deriving DecidableEq

/-- A word. -/
def w (s : String) : Arg := .word s.toList

/-- The arguments of the key (deploy.rs 121-135, activate.rs 94-108). -/
def keyArgs (key keyPath : Option Text) : List Arg :=
  match key, keyPath with
  | some k, _ => [w "--private-key", .word k]
  | none, some p => [w "--private-key-path", .word p]
  | none, none => []

/-- A flag. -/
def flag (b : Bool) (s : String) : List Arg := if b then [w s] else []

/-- `--max-fee-per-gas-gwei` (deploy.rs 115-119, activate.rs 88-92). -/
def feeArgs : Option Text → List Arg
  | some f => [w "--max-fee-per-gas-gwei", .word f]
  | none => []

/-- The command of `deploy` (deploy.rs 88-135). -/
def deployCommand (d : DeployArgs) (file : FPath) : List Arg :=
  [w "--", w "deploy", w "--wasm-file", .file file, w "--endpoint", .word d.endpoint,
    w "--data-fee-bump-percent", .word d.bump, w "--no-verify"]
  ++ flag d.verbose "--verbose" ++ flag d.estimateGas "--estimate-gas" ++ flag d.noActivate "--no-activate"
  ++ feeArgs d.maxFee ++ keyArgs d.key d.keyPath

/-- The command of `activate` (activate.rs 71-108). -/
def activateCommand (a : ActivateArgs) : List Arg :=
  [w "--", w "activate", w "--address", .word a.address, w "--endpoint", .word a.endpoint]
  ++ flag a.verbose "--verbose" ++ flag a.estimateGas "--estimate-gas"
  ++ feeArgs a.maxFee ++ keyArgs a.key a.keyPath

/-- What the commands see: the root found from the path (`reroot_path`, base.rs 29-38), the package name of
its manifest, whether cargo-stylus is installed, and what it does: `none` if it cannot be started, or
whether it succeeds. -/
structure World where
  root : Option FPath
  package : FPath → Option Text
  installed : Bool
  stylus : List Arg → Option Bool

/-- What a command did: the command it ran, if any, whether it said that it succeeded, and its exit code
(`main` returns the `Result`, main.rs 99-102). -/
structure Outcome where
  ran : Option (List Arg)
  saidOk : Bool
  exit : Nat
  deriving DecidableEq

/-- An `Err` before cargo-stylus is started. -/
def refused : Outcome := ⟨none, false, 1⟩

/-- The end of both commands (deploy.rs 137-148, activate.rs 110-121). -/
def finish (W : World) (args : List Arg) : Outcome :=
  match W.stylus args with
  | none => ⟨none, false, 1⟩
  | some true => ⟨some args, true, 0⟩
  | some false => ⟨some args, false, 0⟩

/-- `Deploy::execute` (deploy.rs 60-149) with `get_wasm_file_with_path` (deploy.rs 152-172). -/
def deploy {α : Type} (W : World) (fs : Disk α) (d : DeployArgs) : Outcome :=
  match W.root with
  | none => refused
  | some root =>
    match W.package root with
    | none => refused
    | some pkg =>
      if W.installed then
        let file := root ++ ["build".toList, pkg, "wasm".toList, wasmName d.contract]
        match fs file with
        | none => refused
        | some _ => finish W (deployCommand d file)
      else refused

/-- `Activate::execute` (activate.rs 51-122). -/
def activate (W : World) (a : ActivateArgs) : Outcome :=
  if W.installed then finish W (activateCommand a) else refused

end Cli
