import Verif.Rt.Cli

/-!
# C116, C117: making packages, deploying and activating contracts

Statements about `Cli.newPackage`, `Cli.buildPackage`, `Cli.deploy` and `Cli.activate`.
-/

namespace Props.CliCmd

open Cli

theorem write_self {α : Type} (fs : Disk α) (p : FPath) (x : α) : fs.write p x p = some x := by
  simp [Disk.write]

theorem write_ne {α : Type} (fs : Disk α) {p q : FPath} (x : α) (h : q ≠ p) : fs.write p x q = fs q := by
  simp [Disk.write, h]

/-! ## C116 -/

/-- A line of a section of a TOML file: after its heading and before the next. -/
def InSection (t sec l : Text) : Prop :=
  ∃ a b c, linesOf t = a ++ sec :: (b ++ l :: c) ∧ ∀ x ∈ b, x.head? ≠ some '['

/-- The text ends with a whole line. -/
def Ended (t : Text) : Prop := t = [] ∨ t.getLast? = some '\n'

theorem linesAux_append (t : Text) : ∀ acc u : Text, t.getLast? = some '\n' →
    linesAux acc (t ++ u) = linesAux acc t ++ linesAux [] u := by
  induction t with
  | nil => intro acc u h; simp at h
  | cons c cs ih =>
    intro acc u h
    cases cs with
    | nil =>
      simp at h
      subst h
      simp [linesAux]
    | cons d ds =>
      have h' : (d :: ds).getLast? = some '\n' := by simpa [List.getLast?_cons_cons] using h
      rw [List.cons_append, linesAux, linesAux]
      split
      · rw [ih [] u h', List.cons_append]
      · exact ih (c :: acc) u h'

theorem linesOf_append {t : Text} (u : Text) (h : Ended t) : linesOf (t ++ u) = linesOf t ++ linesOf u := by
  rcases h with rfl | h
  · simp [linesOf, linesAux]
  · exact linesAux_append t [] u h

theorem linesAux_line (l : Text) : ∀ acc u : Text, '\n' ∉ l →
    linesAux acc (l ++ '\n' :: u) = dropCr (acc.reverse ++ l) :: linesAux [] u := by
  induction l with
  | nil => intro acc u _; simp [linesAux]
  | cons c cs ih =>
    intro acc u h
    simp only [List.mem_cons, not_or] at h
    rw [List.cons_append, linesAux, if_neg (fun e => h.1 e.symm), ih _ _ h.2]
    simp

/-- A line that is read as it was written. -/
def Plain (l : Text) : Prop := '\n' ∉ l ∧ l.getLast? ≠ some '\r'

instance (l : Text) : Decidable (Plain l) := by unfold Plain; infer_instance

theorem linesOf_unlines (ls : List Text) (h : ∀ l ∈ ls, Plain l) : linesOf (unlines ls) = ls := by
  induction ls with
  | nil => simp [unlines, linesOf, linesAux]
  | cons l ls ih =>
    have hl := h l (by simp)
    have ih' := ih fun x hx => h x (by simp [hx])
    rw [unlines, linesOf, linesAux_line l [] _ hl.1]
    have : dropCr ([].reverse ++ l) = l := by simp [dropCr, hl.2]
    rw [this]
    exact congrArg _ ih'

/-- Valid names have letters, digits and underscores only (the message of new.rs 46-47). -/
def NamesOk (isValid : Text → Bool) : Prop :=
  ∀ n, isValid n = true → ∀ c ∈ n, c.isAlphanum = true ∨ c = '_'

theorem plain_mid {a n b : Text} (hn : ∀ c ∈ n, c.isAlphanum = true ∨ c = '_') (ha : '\n' ∉ a) (hb : '\n' ∉ b)
    (hb0 : b ≠ []) (hb1 : b.getLast? ≠ some '\r') : Plain (a ++ n ++ b) := by
  have h1 : '\n' ∉ n := fun h => by
    rcases hn _ h with h | h
    · exact absurd h (by decide)
    · exact absurd h (by decide)
  refine ⟨?_, ?_⟩
  · simp [ha, hb, h1]
  · rw [List.getLast?_append]
    cases hb' : b.getLast? with
    | none => exact absurd (List.getLast?_eq_none_iff.mp hb') hb0
    | some x => rw [hb'] at hb1; simpa using hb1

theorem manifest_lines {n : Text} (hn : ∀ c ∈ n, c.isAlphanum = true ∨ c = '_') :
    InSection (manifestText n) "[package]".toList ("name = \"".toList ++ n ++ "\"".toList) ∧
    InSection (manifestText n) "[addresses]".toList (n ++ " = \"0x0\"".toList) := by
  have h1 : Plain ("name = \"".toList ++ n ++ "\"".toList) :=
    plain_mid hn (by decide) (by decide) (by decide) (by decide)
  have h2 : Plain (n ++ " = \"0x0\"".toList) := by
    have := plain_mid (a := []) (b := " = \"0x0\"".toList) hn (by decide) (by decide) (by decide) (by decide)
    simpa using this
  unfold InSection manifestText
  rw [linesOf_unlines]
  · refine ⟨⟨[], [], _, rfl, by simp⟩, ?_⟩
    exact ⟨[_, _, _, _, _, _, _, _, _, _, _, _, _, _, _, _, _, _, _], [], _, rfl, by simp⟩
  · simp only [List.forall_mem_cons]
    refine ⟨by decide, h1, by decide, by decide, by decide, by decide, by decide, by decide, by decide,
      by decide, by decide, by decide, by decide, by decide, by decide, by decide, by decide, by decide,
      by decide, by decide, h2, by decide, by decide, by decide, by decide, by decide, by decide,
      by decide, by decide, by decide, by decide, by decide, by decide, by decide, by decide, by decide,
      by simp⟩

theorem module_head {n : Text} (hn : ∀ c ∈ n, c.isAlphanum = true ∨ c = '_') :
    (linesOf (moduleText n)).head? =
      some ("module ".toList ++ n ++ "::".toList ++ n ++ ";".toList) := by
  have hn' : '\n' ∉ n := fun h => by
    rcases hn _ h with h | h
    · exact absurd h (by decide)
    · exact absurd h (by decide)
  have h1 : Plain ("module ".toList ++ n ++ "::".toList ++ n ++ ";".toList) := by
    refine plain_mid hn ?_ (by decide) (by decide) (by decide)
    simp only [List.mem_append, not_or]
    exact ⟨⟨by decide, hn'⟩, by decide⟩
  unfold moduleText
  rw [linesOf_unlines]
  · rfl
  · simp only [List.forall_mem_cons]
    exact ⟨h1, by decide, by decide, by decide, by decide, by decide, by decide, by decide, by decide,
      by decide, by simp⟩

theorem ignore_spec (old : Option Text) :
    old.getD [] <+: gitignore old ∧
    (ignoreEntry ∈ linesOf (old.getD []) → gitignore old = old.getD []) ∧
    (Ended (old.getD []) ∨ ignoreEntry ∈ linesOf (old.getD []) →
      linesOf (old.getD []) <+: linesOf (gitignore old) ∧ ignoreEntry ∈ linesOf (gitignore old) ∧
      ∀ l ∈ linesOf (gitignore old), l ∈ linesOf (old.getD []) ∨ l = ignoreEntry) := by
  unfold gitignore
  dsimp only
  split
  · rename_i h
    exact ⟨List.prefix_refl _, fun _ => rfl, fun _ => ⟨List.prefix_refl _, h, fun l hl => .inl hl⟩⟩
  · rename_i h
    refine ⟨List.prefix_append _ _, fun hh => absurd hh h, fun ho => ?_⟩
    have ho := ho.resolve_right h
    rw [linesOf_append _ ho, linesOf_unlines [ignoreEntry] (by decide)]
    exact ⟨List.prefix_append _ _, by simp, fun l hl => by simpa using hl⟩

/-- C116 (partial): for all names, directories and disks, `new` refuses exactly the names that are not valid,
and then writes nothing.  Otherwise only the manifest, the module and `.gitignore` of the package change; the
manifest names the package and gives the address of that name, the module has that name at that address, and
`.gitignore` keeps what it held; if its last line was ended (or the entry is there), its lines are those before
and `build/*`.  Missing: an existing manifest or module (`C116_false_manifest`, `C116_false_module`), a last
line that is not ended (`C116_false_gitignore`), and what the Move compiler says of the package (a name that is
a keyword, such as `module`, is valid here). -/
theorem C116_partial (isValid : Text → Bool) (hv : NamesOk isValid) (cwd : FPath) (fs : Disk Text)
    (path : Option FPath) (name : Text) :
    (newPackage isValid cwd fs path name = none ↔ isValid name = false) ∧
    ∀ fs', newPackage isValid cwd fs path name = some fs' →
      let p := path.getD (cwd ++ [name])
      let m := p ++ ["Move.toml".toList]
      let s := p ++ ["sources".toList, name ++ ".move".toList]
      let g := p ++ [".gitignore".toList]
      (∀ q, q ≠ m → q ≠ s → q ≠ g → fs' q = fs q) ∧
      (∃ t, fs' m = some t ∧
        InSection t "[package]".toList ("name = \"".toList ++ name ++ "\"".toList) ∧
        InSection t "[addresses]".toList (name ++ " = \"0x0\"".toList)) ∧
      (∃ t, fs' s = some t ∧ (linesOf t).head? =
        some ("module ".toList ++ name ++ "::".toList ++ name ++ ";".toList)) ∧
      (∃ t, fs' g = some t ∧ (fs g).getD [] <+: t ∧
        (['b', 'u', 'i', 'l', 'd', '/', '*'] ∈ linesOf ((fs g).getD []) → t = (fs g).getD []) ∧
        (Ended ((fs g).getD []) ∨ ['b', 'u', 'i', 'l', 'd', '/', '*'] ∈ linesOf ((fs g).getD []) →
          linesOf ((fs g).getD []) <+: linesOf t ∧ ['b', 'u', 'i', 'l', 'd', '/', '*'] ∈ linesOf t ∧
          ∀ l ∈ linesOf t, l ∈ linesOf ((fs g).getD []) ∨ l = ['b', 'u', 'i', 'l', 'd', '/', '*'])) := by
  unfold newPackage
  by_cases hn : isValid name = true
  · have hn' := hv _ hn
    rw [if_pos hn]
    refine ⟨by simp [hn], fun fs' h => ?_⟩
    dsimp only at h ⊢
    have h := (Option.some.inj h).symm
    subst h
    generalize path.getD (cwd ++ [name]) = p
    have hms : p ++ ["Move.toml".toList] ≠ p ++ ["sources".toList, name ++ ".move".toList] := by simp
    have hmg : p ++ ["Move.toml".toList] ≠ p ++ [".gitignore".toList] := by simp
    have hsg : p ++ ["sources".toList, name ++ ".move".toList] ≠ p ++ [".gitignore".toList] := by simp
    rw [show manifestPath p = p ++ ["Move.toml".toList] from rfl,
      show modulePath p name = p ++ ["sources".toList, name ++ ".move".toList] from rfl,
      show ignorePath p = p ++ [".gitignore".toList] from rfl]
    refine ⟨fun q h1 h2 h3 => by rw [write_ne _ _ h3, write_ne _ _ h2, write_ne _ _ h1], ⟨_, ?_, manifest_lines hn'⟩, ⟨_, ?_, module_head hn'⟩,
      ⟨gitignore (fs (p ++ [".gitignore".toList])), ?_, ignore_spec _⟩⟩
    · rw [write_ne _ _ hmg, write_ne _ _ hms, write_self]
    · rw [write_ne _ _ hsg, write_self]
    · rw [write_self, write_ne _ _ hsg.symm, write_ne _ _ hmg.symm]
  · have hn : isValid name = false := by simpa using hn
    simp [hn]

/-- The names the message of new.rs 46-47 speaks of. -/
def nameOk (n : Text) : Bool :=
  !n.isEmpty && n.all (fun c => c.isAlphanum || c == '_') && n.head?.all fun c => !c.isDigit

theorem nameOk_ok : NamesOk nameOk := by
  intro n h c hc
  unfold nameOk at h
  simp only [Bool.and_eq_true, List.all_eq_true, Bool.or_eq_true, beq_iff_eq] at h
  exact h.1.2 c hc

set_option maxRecDepth 20000 in
/-- The hypotheses are met: a package is made in an empty directory. -/
example : ∃ fs', newPackage nameOk [] (fun _ => none) none ['a'] = some fs' ∧
    fs' [['a'], ".gitignore".toList] = some (ignoreEntry ++ ['\n']) ∧
    fs' [['a'], "sources".toList, ['a'] ++ ".move".toList] = some (moduleText ['a']) :=
  ⟨_, rfl, by decide, by decide⟩

example : newPackage nameOk [] (fun _ => none) none ['1'] = none := by decide

/-- What a user relies on: files that are there are kept. -/
def NewKeeps : Prop :=
  ∀ (isValid : Text → Bool), NamesOk isValid → ∀ (cwd : FPath) (fs fs' : Disk Text) (path : Option FPath)
    (name : Text), newPackage isValid cwd fs path name = some fs' →
    ∀ q t, fs q = some t → ∃ t', fs' q = some t' ∧ ∀ l ∈ linesOf t, l ∈ linesOf t'

set_option maxRecDepth 20000 in
/-- C116 is false: the manifest of the package that is there is overwritten (`File::create`, new.rs 91). -/
theorem C116_false_manifest : ¬ NewKeeps := by
  intro h
  obtain ⟨t', h1, h2⟩ := h nameOk nameOk_ok [] (fun q => if q = [['p'], "Move.toml".toList] then some ['x', '\n'] else none)
    _ (some [['p']]) ['a'] rfl [['p'], "Move.toml".toList] ['x', '\n'] (by decide)
  have h2 := h2 ['x'] (by decide)
  have : t' = manifestText ['a'] := by
    have e : (some t' : Option Text) = some (manifestText ['a']) := h1.symm.trans (by decide)
    exact Option.some.inj e
  subst this
  exact absurd h2 (by decide)

set_option maxRecDepth 20000 in
/-- C116 is false: so is the module (new.rs 164). -/
theorem C116_false_module : ∃ fs fs' : Disk Text, newPackage nameOk [] fs none ['a'] = some fs' ∧
    ∃ q t, fs q = some t ∧ ['x'] ∈ linesOf t ∧ ∃ t', fs' q = some t' ∧ ['x'] ∉ linesOf t' :=
  ⟨fun q => if q = [['a'], "sources".toList, ['a'] ++ ".move".toList] then some ['x', '\n'] else none, _, rfl,
    [['a'], "sources".toList, ['a'] ++ ".move".toList], ['x', '\n'], by decide, by decide,
    moduleText ['a'], by decide, by decide⟩

/-- C116 is false: `build/*` is written after the last line of `.gitignore` even if that is not ended (new.rs
77); then neither is a line. -/
theorem C116_false_gitignore : ∃ fs fs' : Disk Text, newPackage nameOk [] fs none ['a'] = some fs' ∧
    ∃ t t', fs [['a'], ".gitignore".toList] = some t ∧ fs' [['a'], ".gitignore".toList] = some t' ∧
    linesOf t = [['x']] ∧ ['x'] ∉ linesOf t' ∧ ['b', 'u', 'i', 'l', 'd', '/', '*'] ∉ linesOf t' :=
  ⟨fun q => if q = [['a'], ".gitignore".toList] then some ['x'] else none, _, rfl,
    ['x'], ['x'] ++ ignoreEntry ++ ['\n'], by decide, by decide, by decide, by decide, by decide⟩

/-! ## C117 -/

/-- The options of cargo-stylus. -/
structure Opts where
  file : Option FPath := none
  address : Option Text := none
  endpoint : Option Text := none
  bump : Option Text := none
  maxFee : Option Text := none
  key : Option Text := none
  keyPath : Option Text := none
  verbose : Bool := false
  estimateGas : Bool := false
  noActivate : Bool := false
  noVerify : Bool := false

/-- An option with a value; each may be given once. -/
def setVal (t : Text) (v : Arg) (o : Opts) : Option Opts :=
  match v with
  | .file p => if t = "--wasm-file".toList ∧ o.file = none then some { o with file := some p } else none
  | .word v =>
    if t = "--address".toList ∧ o.address = none then some { o with address := some v }
    else if t = "--endpoint".toList ∧ o.endpoint = none then some { o with endpoint := some v }
    else if t = "--data-fee-bump-percent".toList ∧ o.bump = none then some { o with bump := some v }
    else if t = "--max-fee-per-gas-gwei".toList ∧ o.maxFee = none then some { o with maxFee := some v }
    else if t = "--private-key".toList ∧ o.key = none then some { o with key := some v }
    else if t = "--private-key-path".toList ∧ o.keyPath = none then some { o with keyPath := some v }
    else none

/-- How cargo-stylus reads its options, in any order. -/
def readOpts : List Arg → Opts → Option Opts
  | [], o => some o
  | .file _ :: _, _ => none
  | .word t :: rest, o =>
    if t = "--verbose".toList then readOpts rest { o with verbose := true }
    else if t = "--estimate-gas".toList then readOpts rest { o with estimateGas := true }
    else if t = "--no-activate".toList then readOpts rest { o with noActivate := true }
    else if t = "--no-verify".toList then readOpts rest { o with noVerify := true }
    else match rest with
      | v :: rest => match setVal t v o with
        | some o => readOpts rest o
        | none => none
      | [] => none

/-- The subcommand and the options. -/
def readCommand : List Arg → Option (Text × Opts)
  | .word d :: .word c :: rest => if d = "--".toList then (readOpts rest {}).map fun o => (c, o) else none
  | _ => none

theorem read_verbose (b : Bool) (rest : List Arg) (o : Opts) (h : o.verbose = false) :
    readOpts (flag b "--verbose" ++ rest) o = readOpts rest { o with verbose := b } := by
  cases b
  · cases o; simp_all [flag]
  · cases rest <;> simp [flag, readOpts, w]

theorem read_estimate (b : Bool) (rest : List Arg) (o : Opts) (h : o.estimateGas = false) :
    readOpts (flag b "--estimate-gas" ++ rest) o = readOpts rest { o with estimateGas := b } := by
  cases b
  · cases o; simp_all [flag]
  · cases rest <;> simp [flag, readOpts, w]

theorem read_noActivate (b : Bool) (rest : List Arg) (o : Opts) (h : o.noActivate = false) :
    readOpts (flag b "--no-activate" ++ rest) o = readOpts rest { o with noActivate := b } := by
  cases b
  · cases o; simp_all [flag]
  · cases rest <;> simp [flag, readOpts, w]

theorem read_fee (f : Option Text) (rest : List Arg) (o : Opts) (h : o.maxFee = none) :
    readOpts (feeArgs f ++ rest) o = readOpts rest { o with maxFee := f } := by
  cases o; cases f <;> simp_all [feeArgs, readOpts, setVal, w]

theorem read_key (k p : Option Text) (o : Opts) (h : o.key = none) (h' : o.keyPath = none)
    (hk : k.isSome ≠ p.isSome) :
    readOpts (keyArgs k p) o = some { o with key := k, keyPath := p } := by
  cases o; cases k <;> cases p <;> simp_all [keyArgs, readOpts, setVal, w]

theorem read_deploy (d : DeployArgs) (f : FPath) (hk : d.key.isSome ≠ d.keyPath.isSome) :
    readCommand (deployCommand d f) = some ("deploy".toList,
      { file := some f, endpoint := some d.endpoint, bump := some d.bump, maxFee := d.maxFee, key := d.key,
        keyPath := d.keyPath, verbose := d.verbose, estimateGas := d.estimateGas, noActivate := d.noActivate,
        noVerify := true }) := by
  have h : readOpts ([w "--wasm-file", .file f, w "--endpoint", .word d.endpoint,
      w "--data-fee-bump-percent", .word d.bump, w "--no-verify"] ++ (flag d.verbose "--verbose" ++
      (flag d.estimateGas "--estimate-gas" ++ (flag d.noActivate "--no-activate" ++ (feeArgs d.maxFee ++
      keyArgs d.key d.keyPath))))) {} = readOpts (flag d.verbose "--verbose" ++
      (flag d.estimateGas "--estimate-gas" ++ (flag d.noActivate "--no-activate" ++ (feeArgs d.maxFee ++
      keyArgs d.key d.keyPath))))
      { file := some f, endpoint := some d.endpoint, bump := some d.bump, noVerify := true } := by
    generalize flag d.verbose "--verbose" ++ _ = rest
    cases rest <;> simp [readOpts, setVal, w]
  rw [read_verbose _ _ _ rfl, read_estimate _ _ _ rfl, read_noActivate _ _ _ rfl, read_fee _ _ _ rfl,
    read_key _ _ _ rfl rfl hk] at h
  unfold deployCommand
  simp only [List.append_assoc]
  show readCommand (.word "--".toList :: .word "deploy".toList :: (_ ++ _)) = _
  rw [readCommand, if_pos rfl]
  exact (congrArg (Option.map _) h)

theorem read_activate (a : ActivateArgs) (hk : a.key.isSome ≠ a.keyPath.isSome) :
    readCommand (activateCommand a) = some ("activate".toList,
      { address := some a.address, endpoint := some a.endpoint, maxFee := a.maxFee, key := a.key,
        keyPath := a.keyPath, verbose := a.verbose, estimateGas := a.estimateGas }) := by
  have h : readOpts ([w "--address", .word a.address, w "--endpoint", .word a.endpoint] ++
      (flag a.verbose "--verbose" ++ (flag a.estimateGas "--estimate-gas" ++ (feeArgs a.maxFee ++
      keyArgs a.key a.keyPath)))) {} = readOpts (flag a.verbose "--verbose" ++
      (flag a.estimateGas "--estimate-gas" ++ (feeArgs a.maxFee ++ keyArgs a.key a.keyPath)))
      { address := some a.address, endpoint := some a.endpoint } := by
    generalize flag a.verbose "--verbose" ++ _ = rest
    simp [readOpts, setVal, w]
  rw [read_verbose _ _ _ rfl, read_estimate _ _ _ rfl, read_fee _ _ _ rfl,
    read_key _ _ _ rfl rfl hk] at h
  unfold activateCommand
  simp only [List.append_assoc]
  show readCommand (.word "--".toList :: .word "activate".toList :: (_ ++ _)) = _
  rw [readCommand, if_pos rfl]
  exact (congrArg (Option.map _) h)

theorem replaceMove_plain (n : Text) (h : '.' ∉ n) :
    replaceMove (n ++ ".move".toList) = n ++ ".wasm".toList := by
  induction n with
  | nil => rfl
  | cons c cs ih =>
    simp only [List.mem_cons, not_or] at h
    rw [List.cons_append, replaceMove, ih h.2]
    · rfl
    · intro t hc _; exact h.1 hc.symm

theorem wasmName_spec (c n : Text) (h : '.' ∉ n) (hc : c = n ∨ c = n ++ ".move".toList) :
    wasmName c = n ++ ".wasm".toList := by
  unfold wasmName
  rcases hc with rfl | rfl
  · rw [if_neg]
    intro hs
    have hs := List.isSuffixOf_iff_suffix.mp hs
    exact h (hs.subset (by decide))
  · rw [if_pos (List.isSuffixOf_iff_suffix.mpr (List.suffix_append _ _)), replaceMove_plain n h]

theorem name_ext_ne (a b : Text) : a ++ ".wasm".toList ≠ b ++ ".wat".toList := by
  intro h
  have := congrArg List.getLast? h
  simp at this

theorem write_other {α : Type} (opt : α → α) (wat : Option (α → α)) (dir : FPath) (n : Text) :
    ∀ (ms : List (Text × α)) (fs : Disk α), n ∉ ms.map Prod.fst →
    writeModules opt wat dir ms fs (dir ++ [n ++ ".wasm".toList]) = fs (dir ++ [n ++ ".wasm".toList]) := by
  intro ms
  induction ms with
  | nil => intro fs _; rfl
  | cons a ms ih =>
    intro fs h
    obtain ⟨k, x⟩ := a
    simp only [List.map_cons, List.mem_cons, not_or] at h
    show writeModules opt wat dir ms (writeModule opt wat dir k x fs) _ = _
    rw [ih _ h.2]
    have h1 : dir ++ [n ++ ".wasm".toList] ≠ dir ++ [k ++ ".wasm".toList] := by
      intro e; simp at e; exact h.1 e
    have h2 : dir ++ [n ++ ".wasm".toList] ≠ dir ++ [k ++ ".wat".toList] := by
      intro e; exact name_ext_ne n k (by simpa using e)
    cases wat with
    | none => exact write_ne _ _ h1
    | some w => exact (write_ne _ _ h2).trans (write_ne _ _ h1)

theorem write_mem {α : Type} (opt : α → α) (wat : Option (α → α)) (dir : FPath) (n : Text) (m : α) :
    ∀ (ms : List (Text × α)) (fs : Disk α), (ms.map Prod.fst).Nodup → (n, m) ∈ ms →
    writeModules opt wat dir ms fs (dir ++ [n ++ ".wasm".toList]) = some (opt m) := by
  intro ms
  induction ms with
  | nil => intro fs _ h; cases h
  | cons a ms ih =>
    intro fs hd h
    obtain ⟨k, x⟩ := a
    simp only [List.map_cons, List.nodup_cons] at hd
    show writeModules opt wat dir ms (writeModule opt wat dir k x fs) _ = _
    rcases List.mem_cons.mp h with h | h
    · cases h
      rw [write_other _ _ _ _ _ _ hd.1]
      have h2 : dir ++ [n ++ ".wasm".toList] ≠ dir ++ [n ++ ".wat".toList] := by
        intro e; simp at e
      cases wat with
      | none => exact write_self _ _ _
      | some w => exact (write_ne _ _ h2).trans (write_self _ _ _)
    · exact ih _ hd.2 h

/-- C117 (partial): for all disks, packages, modules and options, after a build without `--install-dir` that
made the module `n`, `deploy` with the name `n` or `n.move` runs cargo-stylus, with the file that holds what the
build made of `n`, and with exactly the options the user gave (and no verification).  Missing: builds that
failed or went elsewhere, modules that are gone (`C117_false_stale`, `C117_false_install`), and the exit code
(`C117_exit`, `C117_false_exit`). -/
theorem C117_partial {α : Type} (W : World) (opt : α → α) (wat : Option (α → α)) (root : FPath) (pkg n : Text)
    (m : α) (ms : List (Text × α)) (fs : Disk α) (d : DeployArgs) (ok : Bool)
    (hroot : W.root = some root) (hpkg : W.package root = some pkg) (hi : W.installed = true)
    (hn : '.' ∉ n) (hc : d.contract = n ∨ d.contract = n ++ ".move".toList)
    (hnd : (ms.map Prod.fst).Nodup) (hm : (n, m) ∈ ms) (hk : d.key.isSome ≠ d.keyPath.isSome)
    (hs : ∀ a, W.stylus a = some ok) :
    let fs' := buildPackage opt wat root pkg none (some ms) fs
    ∃ args o f, (deploy W fs' d).ran = some args ∧ readCommand args = some ("deploy".toList, o) ∧
      o.file = some f ∧ fs' f = some (opt m) ∧
      o.address = none ∧ o.endpoint = some d.endpoint ∧ o.bump = some d.bump ∧ o.maxFee = d.maxFee ∧
      o.key = d.key ∧ o.keyPath = d.keyPath ∧ o.verbose = d.verbose ∧ o.estimateGas = d.estimateGas ∧
      o.noActivate = d.noActivate ∧ o.noVerify = true := by
  dsimp only
  have hf : buildPackage opt wat root pkg none (some ms) fs
      (root ++ ["build".toList, pkg, "wasm".toList, n ++ ".wasm".toList]) = some (opt m) := by
    have := write_mem opt wat (buildDir root pkg none) n m ms fs hnd hm
    simpa [buildPackage, buildDir] using this
  refine ⟨_, _, _, ?_, read_deploy d _ hk, rfl, hf, rfl, rfl, rfl, rfl, rfl, rfl, rfl, rfl, rfl, rfl⟩
  unfold deploy
  rw [hroot]
  dsimp only
  rw [hpkg]
  dsimp only
  rw [if_pos hi, wasmName_spec _ _ hn hc, hf]
  dsimp only
  unfold finish
  rw [hs]
  cases ok <;> rfl

/-- C117, activation: `activate` runs cargo-stylus with exactly the options the user gave. -/
theorem C117_activate (W : World) (a : ActivateArgs) (ok : Bool) (hi : W.installed = true)
    (hk : a.key.isSome ≠ a.keyPath.isSome) (hs : ∀ x, W.stylus x = some ok) :
    ∃ args o, (activate W a).ran = some args ∧ readCommand args = some ("activate".toList, o) ∧
      o.file = none ∧ o.address = some a.address ∧ o.endpoint = some a.endpoint ∧ o.bump = none ∧
      o.maxFee = a.maxFee ∧ o.key = a.key ∧ o.keyPath = a.keyPath ∧ o.verbose = a.verbose ∧
      o.estimateGas = a.estimateGas := by
  refine ⟨_, _, ?_, read_activate a hk, rfl, rfl, rfl, rfl, rfl, rfl, rfl, rfl, rfl⟩
  unfold activate finish
  rw [if_pos hi, hs]
  cases ok <;> rfl

theorem finish_spec (W : World) (args : List Arg) :
    ((finish W args).saidOk = true ↔ W.stylus args = some true) ∧
    ((finish W args).exit = 0 ↔ (finish W args).ran = some args) ∧
    ((finish W args).ran = some args ↔ ∃ b, W.stylus args = some b) ∧
    (∀ x, (finish W args).ran = some x → x = args) := by
  unfold finish
  cases W.stylus args with
  | none => simp
  | some b => cases b <;> simp <;> exact fun x h => h.symm

/-- C117, what the commands say: `deploy` and `activate` say that they succeeded if and only if cargo-stylus ran
and succeeded; they exit with 0 if and only if cargo-stylus ran. -/
theorem C117_exit {α : Type} (W : World) (fs : Disk α) :
    (∀ d, ((deploy W fs d).saidOk = true ↔
        ∃ args, (deploy W fs d).ran = some args ∧ W.stylus args = some true) ∧
      ((deploy W fs d).exit = 0 ↔ (deploy W fs d).ran ≠ none)) ∧
    (∀ a, ((activate W a).saidOk = true ↔
        ∃ args, (activate W a).ran = some args ∧ W.stylus args = some true) ∧
      ((activate W a).exit = 0 ↔ (activate W a).ran ≠ none)) := by
  have hfin : ∀ args, ((finish W args).saidOk = true ↔
        ∃ x, (finish W args).ran = some x ∧ W.stylus x = some true) ∧
      ((finish W args).exit = 0 ↔ (finish W args).ran ≠ none) := by
    intro args
    unfold finish
    cases h : W.stylus args with
    | none => simp
    | some b => cases b <;> simp [h]
  have href : (refused.saidOk = true ↔ ∃ x, refused.ran = some x ∧ W.stylus x = some true) ∧
      (refused.exit = 0 ↔ refused.ran ≠ none) := by simp [refused]
  refine ⟨fun d => ?_, fun a => ?_⟩
  · unfold deploy
    split
    · exact href
    · split
      · exact href
      · split
        · dsimp only
          split
          · exact href
          · exact hfin _
        · exact href
  · unfold activate
    split
    · exact hfin _
    · exact href

/-- What a command makes of the module `n` in the directory of the package. -/
def made {α : Type} (opt : α → α) (root : FPath) (n : Text) : Cmd α → Option α
  | .build dev _ install (some ms) =>
    if install.getD root = root then (ms.lookup n).map (if dev then id else opt) else none
  | .test install (some ms) => if install.getD root = root then ms.lookup n else none
  | .disassemble install (some ms) => if install.getD root = root then ms.lookup n else none
  | _ => none

/-- The modules of a command have different names (they are the keys of a map). -/
def DistinctNames {α : Type} : Cmd α → Prop
  | .build _ _ _ (some ms) => (ms.map Prod.fst).Nodup
  | .test _ (some ms) => (ms.map Prod.fst).Nodup
  | .disassemble _ (some ms) => (ms.map Prod.fst).Nodup
  | _ => True

theorem lookup_mem {α : Type} {n : Text} {m : α} : ∀ {ms : List (Text × α)}, ms.lookup n = some m → (n, m) ∈ ms := by
  intro ms
  induction ms with
  | nil => intro h; cases h
  | cons a ms ih =>
    intro h
    obtain ⟨k, x⟩ := a
    rw [List.lookup_cons] at h
    split at h
    · rename_i hk
      have : n = k := by simpa using hk
      cases h; subst this; exact List.mem_cons_self ..
    · exact List.mem_cons_of_mem _ (ih h)

theorem lookup_none {α : Type} {n : Text} : ∀ {ms : List (Text × α)}, ms.lookup n = none → n ∉ ms.map Prod.fst := by
  intro ms
  induction ms with
  | nil => intro _ h; cases h
  | cons a ms ih =>
    intro h
    obtain ⟨k, x⟩ := a
    rw [List.lookup_cons] at h
    split at h
    · cases h
    · rename_i hk
      simp only [List.map_cons, List.mem_cons, not_or]
      exact ⟨by simpa using hk, ih h⟩

/-- The file of a module in the directory of the package. -/
def wasmFile (root : FPath) (pkg n : Text) : FPath :=
  root ++ ["build".toList, pkg, "wasm".toList, n ++ ".wasm".toList]

theorem write_elsewhere {α : Type} (opt : α → α) (wat : Option (α → α)) (d root : FPath) (pkg n : Text)
    (hd : d ≠ root) : ∀ (ms : List (Text × α)) (fs : Disk α),
    writeModules opt wat (d ++ ["build".toList, pkg, "wasm".toList]) ms fs (wasmFile root pkg n) =
      fs (wasmFile root pkg n) := by
  have hne : ∀ x, wasmFile root pkg n ≠ d ++ ["build".toList, pkg, "wasm".toList] ++ [x] := by
    intro x e
    unfold wasmFile at e
    rw [List.append_assoc] at e
    exact hd ((List.append_inj' e rfl).1.symm)
  intro ms
  induction ms with
  | nil => intro fs; rfl
  | cons a ms ih =>
    intro fs
    show writeModules opt wat _ ms (writeModule opt wat _ a.1 a.2 fs) _ = _
    rw [ih]
    cases wat with
    | none => exact write_ne _ _ (hne _)
    | some w => exact (write_ne _ _ (hne _)).trans (write_ne _ _ (hne _))

theorem build_file {α : Type} (opt : α → α) (wat : Option (α → α)) (root : FPath) (pkg n : Text)
    (install : Option FPath) (ms : List (Text × α)) (fs : Disk α) (hd : (ms.map Prod.fst).Nodup) :
    buildPackage opt wat root pkg install (some ms) fs (wasmFile root pkg n) =
      ((if install.getD root = root then (ms.lookup n).map opt else none).or (fs (wasmFile root pkg n))) := by
  unfold buildPackage buildDir
  dsimp only
  split
  · rename_i he
    rw [he]
    have hw : wasmFile root pkg n = root ++ ["build".toList, pkg, "wasm".toList] ++ [n ++ ".wasm".toList] := by
      simp [wasmFile]
    rw [hw]
    cases hl : ms.lookup n with
    | none => rw [write_other _ _ _ _ _ _ (lookup_none hl)]; rfl
    | some m => rw [write_mem _ _ _ _ _ _ _ hd (lookup_mem hl)]; rfl
  · rename_i he
    rw [write_elsewhere _ _ _ _ _ _ he]; rfl

theorem cmd_file {α : Type} (opt wat : α → α) (root : FPath) (pkg n : Text) (fs : Disk α) (c : Cmd α)
    (hd : DistinctNames c) : runCmd opt wat root pkg fs c (wasmFile root pkg n) =
      (made opt root n c).or (fs (wasmFile root pkg n)) := by
  cases c with
  | build dev w i r =>
    cases r with
    | none => rfl
    | some ms => exact build_file _ _ root pkg n i ms fs hd
  | test i r =>
    cases r with
    | none => rfl
    | some ms =>
      have := build_file id none root pkg n i ms fs hd
      simpa [runCmd, made] using this
  | disassemble i r =>
    cases r with
    | none => rfl
    | some ms =>
      have := build_file id (some wat) root pkg n i ms fs hd
      simpa [runCmd, made] using this

/-- C117, histories: after any commands, the file `deploy` takes for `n` holds what the last command that made `n` in
the directory of the package made of it, be it `build`, `test` or `disassemble`, or what was there before if none
did. -/
theorem C117_history {α : Type} (opt wat : α → α) (root : FPath) (pkg n : Text) (cmds : List (Cmd α))
    (fs : Disk α) (hd : ∀ c ∈ cmds, DistinctNames c) :
    cmds.foldl (runCmd opt wat root pkg) fs (wasmFile root pkg n) =
      (cmds.filterMap (made opt root n)).getLast?.or (fs (wasmFile root pkg n)) := by
  induction cmds generalizing fs with
  | nil => rfl
  | cons c cs ih =>
    rw [List.foldl_cons, ih _ fun x hx => hd x (List.mem_cons_of_mem _ hx),
      cmd_file opt wat root pkg n fs c (hd c (List.mem_cons_self ..))]
    cases hm : made opt root n c with
    | none => rw [List.filterMap_cons_none hm]; rfl
    | some x =>
      rw [List.filterMap_cons_some hm, List.getLast?_cons]
      cases (cs.filterMap (made opt root n)).getLast? <;> rfl

/-- C117, deployment: the file `deploy` gives to cargo-stylus is that one. -/
theorem C117_file {α : Type} (W : World) (fs : Disk α) (d : DeployArgs) (root : FPath) (pkg n : Text)
    (hroot : W.root = some root) (hpkg : W.package root = some pkg)
    (hn : '.' ∉ n) (hc : d.contract = n ∨ d.contract = n ++ ".move".toList)
    (hk : d.key.isSome ≠ d.keyPath.isSome) (args : List Arg) (h : (deploy W fs d).ran = some args) :
    ∃ o, readCommand args = some ("deploy".toList, o) ∧
      o.file = some (root ++ ["build".toList, pkg, "wasm".toList, n ++ ".wasm".toList]) := by
  unfold deploy at h
  rw [hroot] at h
  dsimp only at h
  rw [hpkg] at h
  dsimp only at h
  split at h
  · rw [wasmName_spec _ _ hn hc] at h
    split at h
    · cases h
    · have := (finish_spec W (deployCommand d (root ++ ["build".toList, pkg, "wasm".toList, n ++ ".wasm".toList]))).2.2.2
        args h
      subst this
      exact ⟨_, read_deploy d _ hk, rfl⟩
  · cases h

/-- A package `p` at the root of the disk, with cargo-stylus installed. -/
def world (ok : Bool) : World := ⟨some [], fun _ => some ['p'], true, fun _ => some ok⟩

/-- `deploy --contract-name a --private-key k`. -/
def deployA : DeployArgs :=
  ⟨['a'], ['e'], false, false, false, none, ['2', '0'], some ['k'], none⟩

/-- The hypotheses are met. -/
example : ∃ args o f, (deploy (world true) (buildPackage id none [] ['p'] none (some [(['a'], 7)]) fun _ => none)
      deployA).ran = some args ∧ readCommand args = some ("deploy".toList, o) ∧ o.file = some f ∧
    (buildPackage id none [] ['p'] none (some [(['a'], 7)]) fun _ => none) f = some 7 := by
  obtain ⟨a, o, f, h1, h2, h3, h4, -⟩ := C117_partial (world true) id none [] ['p'] ['a'] 7 [(['a'], 7)]
    (fun _ => none) deployA true rfl rfl rfl (by decide) (.inl rfl) (by decide) (by decide) (by decide)
    (fun _ => rfl)
  exact ⟨a, o, f, h1, h2, h3, h4⟩

example : (activate (world true) ⟨['x'], ['e'], true, false, none, none, some ['k']⟩).exit = 0 := by decide

/-- C117 is false: cargo-stylus fails, nothing is deployed or activated, and the exit code is 0 (deploy.rs
141-148, activate.rs 114-121). -/
theorem C117_false_exit :
    (∃ (W : World) (fs : Disk Nat) (d : DeployArgs) (args : List Arg), (deploy W fs d).ran = some args ∧
      W.stylus args = some false ∧ (deploy W fs d).exit = 0) ∧
    (∃ (W : World) (a : ActivateArgs) (args : List Arg), (activate W a).ran = some args ∧
      W.stylus args = some false ∧ (activate W a).exit = 0) :=
  ⟨⟨world false, fun _ => some 0, deployA, _, rfl, rfl, rfl⟩,
    ⟨world false, ⟨['x'], ['e'], true, false, none, none, some ['k']⟩, _, rfl, rfl, rfl⟩⟩

/-- C117 is false: after a build that failed, or that has no such module any more, `deploy` deploys what an
earlier build made and says that it succeeded. -/
theorem C117_false_stale (result : Option (List (Text × Nat))) (hr : result = none ∨ result = some [(['b'], 8)]) :
    let old := buildPackage id none [] ['p'] none (some [(['a'], 7)]) fun _ => none
    let new := buildPackage id none [] ['p'] none result old
    (deploy (world true) new deployA).saidOk = true ∧
      ∃ args o f, (deploy (world true) new deployA).ran = some args ∧
        readCommand args = some ("deploy".toList, o) ∧ o.file = some f ∧ new f = some 7 := by
  have key : ∀ fs : Disk Nat, fs [["build".toList, ['p'], "wasm".toList, "a.wasm".toList]].flatten = some 7 →
      (deploy (world true) fs deployA).saidOk = true ∧
      ∃ args o f, (deploy (world true) fs deployA).ran = some args ∧
        readCommand args = some ("deploy".toList, o) ∧ o.file = some f ∧ fs f = some 7 := by
    intro fs h
    have hw : wasmName deployA.contract = "a.wasm".toList := by
      exact wasmName_spec _ ['a'] (by decide) (.inl rfl)
    have hd : deploy (world true) fs deployA =
        ⟨some (deployCommand deployA ["build".toList, ['p'], "wasm".toList, "a.wasm".toList]), true, 0⟩ := by
      unfold deploy
      simp only [world, if_true, hw]
      rw [show ([] : FPath) ++ ["build".toList, ['p'], "wasm".toList, "a.wasm".toList] =
        [["build".toList, ['p'], "wasm".toList, "a.wasm".toList]].flatten from rfl, h]
      rfl
    rw [hd]
    exact ⟨rfl, _, _, _, rfl, read_deploy _ _ (by decide), rfl, h⟩
  rcases hr with rfl | rfl
  · exact key _ (by decide)
  · exact key _ (by decide)

/-- C117 is false: a build with `--install-dir` writes elsewhere (base.rs 107-111); `deploy` does not look there
(deploy.rs 162), and deploys what an earlier build made. -/
theorem C117_false_install :
    let old := buildPackage id none [] ['p'] none (some [(['a'], 7)]) fun _ => none
    let new := buildPackage id none [] ['p'] (some [['o']]) (some [(['a'], 8)]) old
    (deploy (world true) new deployA).saidOk = true ∧
      (deploy (world true) new deployA).ran =
        some (deployCommand deployA ["build".toList, ['p'], "wasm".toList, "a.wasm".toList]) ∧
      new ["build".toList, ['p'], "wasm".toList, "a.wasm".toList] = some (7 : Nat) := by
  dsimp only
  refine ⟨by decide, by decide, by decide⟩

/-- Two builds and a test run: the test run counts. -/
example : [Cmd.build false false none (some [(['a'], 1)]), .build false true (some [['o']]) (some [(['a'], 2)]),
    .test none (some [(['a'], 3)]), .build true false none none].filterMap (made (· + 10) [] ['a']) = [11, 3] := by decide

/-- C117 is false: `move-stylus test` writes the modules it compiled for tests, with their test functions and
addresses and not optimised, over those of `build` (base/test.rs 37-45); `deploy` deploys them. -/
theorem C117_false_test :
    let fs := [Cmd.build false false none (some [(['a'], 7)]), .test none (some [(['a'], 8)])].foldl
      (runCmd id id [] ['p']) fun _ => none
    (deploy (world true) fs deployA).saidOk = true ∧
      (deploy (world true) fs deployA).ran =
        some (deployCommand deployA ["build".toList, ['p'], "wasm".toList, "a.wasm".toList]) ∧
      fs ["build".toList, ['p'], "wasm".toList, "a.wasm".toList] = some (8 : Nat) := by
  dsimp only
  refine ⟨by decide, by decide, by decide⟩

end Props.CliCmd
