import Verif.Rt.AbiFiles
import Verif.Props.Build

/-!
C112: `move-stylus export-abi` writes the ABI of every module of the package that has one.
-/

namespace Props.Pkg
open Build

/-- The package without the paths. -/
def plain (deps : List CUnit) (roots : List RootUnit) : Package := ⟨deps, roots.map (·.unit)⟩

section
variable {deps : List CUnit} {roots : List RootUnit} {rank : MId → Nat} (hP : Sound (plain deps roots) rank)
include hP

/-- What `modules_paths` has after the modules `l`. -/
structure Paths (P : Package) (l : List RootUnit) (paths : List (Path × MId)) : Prop where
  made : ∀ r ∈ l, Clean P r.unit.id → paths.find? (·.1 = r.path) = some (r.path, r.unit.id)
  only : ∀ p ∈ paths, ∃ r ∈ l, p.1 = r.path

theorem dataLoop_spec {n : Nat} (hn : 0 < n) (hr : ∀ r ∈ roots, ∀ d ∈ r.unit.deps, rank d < n)
    (hpaths : (roots.map (·.path)).Nodup)
    (hroots : ∀ r ∈ roots, ∀ e ∈ r.unit.deps, (∃ v ∈ roots, v.unit.id = e) → Clean (plain deps roots) e) :
    ∀ (rs l : List RootUnit) (data : List MId) (paths : List (Path × MId)) (errs : List String),
      roots = l ++ rs → Did (plain deps roots) [] (l.map (·.unit.id)) data errs →
      Paths (plain deps roots) l paths →
      ∃ data' paths' errs', dataLoop n deps data paths errs rs =
          some (if errs' = [] then .ok data' paths' else .code errs') ∧
        Did (plain deps roots) [] (roots.map (·.unit.id)) data' errs' ∧
        Paths (plain deps roots) roots paths' := by
  intro rs
  induction rs with
  | nil =>
    intro l data paths errs hl hd hf
    obtain rfl : roots = l := by simpa using hl
    exact ⟨data, paths, errs, rfl, hd, hf⟩
  | cons r rs ih =>
    intro l data paths errs hl hd hf
    have hmem : r ∈ roots := by rw [hl]; simp
    have hmem' : r.unit ∈ (plain deps roots).roots := List.mem_map_of_mem hmem
    have hlook := find_mem hP (List.mem_append_right (plain deps roots).deps hmem')
    have hl' : roots = (l ++ [r]) ++ rs := by simpa using hl
    have hpath : ∀ v ∈ l, v.path ≠ r.path := by
      intro v hv
      rw [hl, List.map_append, List.nodup_append] at hpaths
      exact hpaths.2.2 _ (List.mem_map_of_mem hv) _ (by simp)
    have hfound : Found (plain deps roots) data r.unit.deps := by
      intro e he
      have hs : (plain deps roots).roots = l.map (·.unit) ++ r.unit :: rs.map (·.unit) := by simp [plain, hl]
      rcases (hP.roots _ _ _ hs e he).1 with h | ⟨v, hv, rfl⟩
      · exact .inr h
      · obtain ⟨v, hv', rfl⟩ := List.mem_map.1 hv
        refine .inl (hd.got _ (List.mem_map.2 ⟨v, hv', rfl⟩) (hroots r hmem _ he ⟨v, ?_, rfl⟩))
        rw [hl]
        exact List.mem_append_left _ hv'
    obtain ⟨data1, es, h1, h2⟩ := processDeps_spec hP n data r.unit.deps hn hd.done hfound (hr r hmem)
    have keep : ¬ Clean (plain deps roots) r.unit.id → Paths (plain deps roots) (l ++ [r]) paths := by
      intro hc
      refine ⟨fun v hv hcv => ?_, fun p hp => ?_⟩
      · rcases List.mem_append.1 hv with hv | hv
        · exact hf.made v hv hcv
        · rw [List.mem_singleton.1 hv] at hcv
          exact absurd hcv hc
      · obtain ⟨v, hv, h⟩ := hf.only p hp
        exact ⟨v, List.mem_append_left _ hv, h⟩
    have step : ∀ {data2 es2}, Did (plain deps roots) data [r.unit.id] data2 es2 →
        Did (plain deps roots) [] ((l ++ [r]).map (·.unit.id)) data2 (errs ++ es2) := by
      intro data2 es2 h
      simpa using hd.append h
    rw [dataLoop]
    have h1' : processDeps deps n data r.unit.deps = some (data1, .ofErrors es) := h1
    simp only [h1']
    by_cases hes : es = []
    · subst hes
      rw [show Out.ofErrors [] = .ok from rfl]
      by_cases hre : r.unit.errors = []
      · simp only [hre, ne_eq, not_true_eq_false, if_false]
        have hg := Did.good hP hlook h2 hre
        have hfil : paths.filter (fun p => p.1 ≠ r.path) = paths := by
          rw [List.filter_eq_self]
          intro p hp
          obtain ⟨v, hv, h⟩ := hf.only p hp
          simpa [h] using hpath v hv
        simp only [ne_eq] at hfil
        rw [hfil]
        refine ih (l ++ [r]) _ _ errs hl' (by simpa using step hg) ⟨fun v hv hcv => ?_, fun p hp => ?_⟩
        · rcases List.mem_append.1 hv with hv | hv
          · rw [List.find?_cons_of_neg (by simpa using (hpath v hv).symm)]
            exact hf.made v hv hcv
          · obtain rfl := List.mem_singleton.1 hv
            simp
        · rcases List.mem_cons.1 hp with rfl | hp
          · exact ⟨r, by simp, rfl⟩
          · obtain ⟨v, hv, h⟩ := hf.only p hp
            exact ⟨v, List.mem_append_left _ hv, h⟩
      · simp only [ne_eq, hre, not_false_eq_true, if_true]
        exact ih (l ++ [r]) _ _ _ hl' (step (Did.bad hP hlook h2 hre))
          (keep fun hc => hre ((clean_iff hP hlook).1 hc).1)
    · rw [ofErrors_ne hes]
      exact ih (l ++ [r]) _ _ _ hl' (step (Did.badDeps hP hlook h2 hes))
        (keep fun hc => hes (h2.errors.2 ((clean_iff hP hlook).1 hc).2))

end

/-- Each module gets its own ABI if the paths are right. -/
theorem abiLoop_spec {empty : AbiOf → Bool} {data : List MId} {paths : List (Path × MId)} :
    ∀ roots : List RootUnit, (∀ r ∈ roots, paths.find? (·.1 = r.path) = some (r.path, r.unit.id) ∧
        r.unit.id ∈ data) →
      abiLoop empty data paths roots = some ((roots.filter (fun r => ¬ empty ⟨r.unit.id, r.unit.id⟩)).map
        (fun r => (r.path, ⟨r.unit.id, r.unit.id⟩))) := by
  intro roots
  induction roots with
  | nil => intro _; rfl
  | cons r rs ih =>
    intro h
    obtain ⟨h1, h2⟩ := h r List.mem_cons_self
    simp only [abiLoop, h1, ih fun r hr => h r (List.mem_cons_of_mem _ hr), Option.bind_eq_bind,
      Option.bind_some, h2, not_true_eq_false, if_false]
    by_cases he : empty ⟨r.unit.id, r.unit.id⟩ = true
    · simp [he]
    · simp [he]

/-- Which formats are written. -/
def wants (json human : Bool) : Ext → Prop
  | .sol => human
  | .json => json

theorem mem_writeFile {f c fs} {g : (String × Ext) × AbiOf} :
    g ∈ writeFile f c fs ↔ g = (f, c) ∨ g ∈ fs ∧ g.1 ≠ f := by
  simp [writeFile]

/-- With different stems nothing is overwritten. -/
theorem writeLoop_spec {json human : Bool} : ∀ (as : List (Path × AbiOf)) (fs : List ((String × Ext) × AbiOf)),
    (as.map (·.1.stem)).Nodup → (∀ f ∈ fs, ∀ a ∈ as, f.1.1 ≠ a.1.stem) →
    ∀ g, g ∈ writeLoop json human fs as ↔
      g ∈ fs ∨ ∃ a ∈ as, g.1.1 = a.1.stem ∧ g.2 = a.2 ∧ wants json human g.1.2 := by
  intro as
  induction as with
  | nil => intro fs _ _ g; simp [writeLoop]
  | cons a as ih =>
    obtain ⟨p, c⟩ := a
    intro fs hn hf g
    simp only [List.map_cons, List.nodup_cons] at hn
    have key : ∀ g, g ∈ (if json then writeFile (p.stem, .json) c
          (if human then writeFile (p.stem, .sol) c fs else fs) else
          (if human then writeFile (p.stem, .sol) c fs else fs)) ↔
        g ∈ fs ∨ (g.1.1 = p.stem ∧ g.2 = c ∧ wants json human g.1.2) := by
      intro g
      have hfs : g ∈ fs → g.1.1 ≠ p.stem := fun h => hf g h (p, c) List.mem_cons_self
      obtain ⟨⟨s, e⟩, d⟩ := g
      simp only at hfs
      cases json <;> cases human <;> cases e <;> simp [mem_writeFile, wants] <;> grind
    rw [writeLoop]
    rw [ih _ hn.2 ?_ g]
    · rw [key]
      simp only [List.mem_cons, exists_eq_or_imp, or_assoc]
    · intro f hff a ha
      rcases (key f).1 hff with h | ⟨h, -⟩
      · exact hf f h a (List.mem_cons_of_mem _ ha)
      · rw [h]
        intro he
        exact hn.1 (he ▸ List.mem_map_of_mem (f := fun a : Path × AbiOf => a.1.stem) ha)

end Props.Pkg

namespace Props
open Build Pkg

/-- **C112 (partial).**  For every package as the Move compiler gives it (`Sound`) with modules in source files
of different names, in which no module uses a module of the package that has errors or needs one that has:
- if no module has errors, `export-abi` ends with exactly these files: for each module whose ABI is not empty
  and each requested format (JSON if none is), one file with the name of the source file, which has the
  functions of that module and its events and errors;
- otherwise it ends with errors, as the build does (C111).
Missing: what is false, `C112_false_file`, `C112_false_folder`, `C112_false_name`, `C112_false_ice`. -/
theorem C112_partial (deps : List CUnit) (roots : List RootUnit) (rank : MId → Nat)
    (hP : Sound (plain deps roots) rank) (empty : AbiOf → Bool) (json human : Bool)
    (hstems : (roots.map (·.path.stem)).Nodup)
    (hroots : ∀ r ∈ roots, ∀ e ∈ r.unit.deps, (∃ v ∈ roots, v.unit.id = e) → Clean (plain deps roots) e) :
    ∃ N, ∀ n ≥ N,
      ((∀ r ∈ roots, Clean (plain deps roots) r.unit.id) →
        ∃ files, exportAbi n empty deps roots json human = some (.ok files) ∧
          ∀ stem ext abi, ((stem, ext), abi) ∈ files ↔
            ∃ r ∈ roots, r.path.stem = stem ∧ abi = ⟨r.unit.id, r.unit.id⟩ ∧
              ¬ empty ⟨r.unit.id, r.unit.id⟩ ∧
              ((ext = .json ∧ (json ∨ ¬ human)) ∨ (ext = .sol ∧ human))) ∧
      ((∃ r ∈ roots, ¬ Clean (plain deps roots) r.unit.id) →
        ∃ es, exportAbi n empty deps roots json human = some (.code es) ∧ es ≠ [] ∧
          (∀ e ∈ es, ∃ r ∈ roots, ∃ x, Needs (plain deps roots) r.unit.id x ∧
            e ∈ errorsOf (plain deps roots) x) ∧
          ∀ r ∈ roots, ∀ x, Needs (plain deps roots) r.unit.id x → CleanDeps (plain deps roots) x →
            ∀ e ∈ errorsOf (plain deps roots) x, e ∈ es) := by
  obtain ⟨N, hN⟩ := bound rank (roots.flatMap (·.unit.deps))
  refine ⟨N + 1, fun n hn => ?_⟩
  have hr : ∀ r ∈ roots, ∀ d ∈ r.unit.deps, rank d < n := fun r hr d hd => by
    have := hN d (List.mem_flatMap.2 ⟨r, hr, hd⟩)
    omega
  have hpaths : (roots.map (·.path)).Nodup := by
    have : ((roots.map (·.path)).map (·.stem)).Nodup := by rw [List.map_map]; exact hstems
    exact List.Pairwise.of_map _ (fun a b h e => h (congrArg _ e)) this
  obtain ⟨data, paths, errs, h1, h2, h3⟩ := dataLoop_spec hP (n := n) (by omega) hr hpaths hroots roots [] [] []
    [] rfl (Did.nil ⟨by simp, by simp⟩) ⟨by simp, by simp⟩
  have herr : errs = [] ↔ ∀ r ∈ roots, Clean (plain deps roots) r.unit.id := by
    rw [h2.errors]; simp
  rw [exportAbi, h1]
  constructor
  · intro hc
    rw [if_pos (herr.2 hc)]
    have ha := abiLoop_spec (empty := empty) (data := data) (paths := paths) roots fun r hr =>
      ⟨h3.made r hr (hc r hr), h2.got _ (List.mem_map.2 ⟨r, hr, rfl⟩) (hc r hr)⟩
    simp only [ha]
    refine ⟨_, rfl, fun stem ext abi => ?_⟩
    rw [writeLoop_spec]
    · constructor
      · rintro (h | ⟨a, ha, hs, hc, hw⟩)
        · simp at h
        · simp only [List.mem_map, List.mem_filter] at ha
          obtain ⟨r, ⟨hr, he⟩, rfl⟩ := ha
          refine ⟨r, hr, hs.symm, hc, by simpa using he, ?_⟩
          cases ext
          · exact .inr ⟨rfl, hw⟩
          · exact .inl ⟨rfl, by simpa [wants] using hw⟩
      · rintro ⟨r, hr, hs, hc, he, hw⟩
        refine .inr ⟨_, List.mem_map.2 ⟨r, List.mem_filter.2 ⟨hr, by simpa using he⟩, rfl⟩, hs.symm, hc, ?_⟩
        rcases hw with ⟨rfl, hw⟩ | ⟨rfl, hw⟩
        · simpa [wants] using hw
        · exact hw
    · rw [List.map_map]
      exact (List.filter_sublist.map _).nodup hstems
    · simp
  · rintro ⟨r, hr, hc⟩
    have he : errs ≠ [] := fun h => hc (herr.1 h r hr)
    rw [if_neg he]
    refine ⟨errs, rfl, he, fun e h => ?_, fun r hr x hx => h2.all _ (List.mem_map.2 ⟨r, hr, rfl⟩) x hx⟩
    obtain ⟨d, hd, x, hx⟩ := h2.right e h
    obtain ⟨r, hr, rfl⟩ := List.mem_map.1 hd
    exact ⟨r, hr, x, hx⟩

/-! ### A package -/

/-- `coin` is in `sources/token.move`, `shop` in `sources/shop.move`. -/
def coinSources : List RootUnit :=
  [⟨{ id := ⟨1, "coin"⟩, deps := [⟨2, "balance"⟩, ⟨2, "object"⟩] }, ⟨"sources", "token"⟩⟩,
   ⟨{ id := ⟨1, "shop"⟩, deps := [⟨1, "coin"⟩, ⟨2, "event"⟩] }, ⟨"sources", "shop"⟩⟩]

/-- `coinSources` meets the hypotheses of `C112_partial` and is in its first case. -/
example : Sound (plain coinDeps coinSources) coinRank ∧ (coinSources.map (·.path.stem)).Nodup ∧
    (∀ r ∈ coinSources, ∀ e ∈ r.unit.deps, (∃ v ∈ coinSources, v.unit.id = e) →
      Clean (plain coinDeps coinSources) e) ∧
    (∀ r ∈ coinSources, Clean (plain coinDeps coinSources) r.unit.id) ∧
    exportAbi 5 (fun _ => false) coinDeps coinSources true true = some (.ok
      [(("shop", .json), ⟨⟨1, "shop"⟩, ⟨1, "shop"⟩⟩), (("shop", .sol), ⟨⟨1, "shop"⟩, ⟨1, "shop"⟩⟩),
       (("token", .json), ⟨⟨1, "coin"⟩, ⟨1, "coin"⟩⟩), (("token", .sol), ⟨⟨1, "coin"⟩, ⟨1, "coin"⟩⟩)]) :=
  ⟨coinShop_sound, by decide, fun r hr e he hv => by
    have : ∀ r ∈ coinSources, ∀ e ∈ r.unit.deps, (∃ v ∈ coinSources, v.unit.id = e) → e = ⟨1, "coin"⟩ := by
      decide
    rw [this r hr e he hv]
    exact coin_clean, fun r hr => clean_of_no_errors (find_mem (P := plain coinDeps coinSources) coinShop_sound
      (List.mem_append_right _ (List.mem_map_of_mem hr))) (by decide), by decide⟩

/-- With an error in the framework it is in the second case. -/
example : ∃ r ∈ coinSources, ¬ Clean (plain coinBroken.deps coinSources) r.unit.id := by
  refine ⟨_, List.mem_cons_self, fun h => ?_⟩
  have hb : Needs (plain coinBroken.deps coinSources) ⟨2, "balance"⟩ ⟨2, "balance"⟩ :=
    .self (u := ⟨⟨2, "balance"⟩, [⟨2, "object"⟩], ["bad struct", "bad key"]⟩) (by decide)
  have := h.2 _ (.dep (u := ⟨⟨1, "coin"⟩, [⟨2, "balance"⟩, ⟨2, "object"⟩], []⟩) (by decide) (by decide) hb)
  exact absurd this (by decide)

/-! ### What is false -/

/-- The package `coinShop` with its modules in these source files. -/
def coinIn (a b : Path) : List RootUnit :=
  [⟨{ id := ⟨1, "coin"⟩, deps := [⟨2, "balance"⟩, ⟨2, "object"⟩] }, a⟩,
   ⟨{ id := ⟨1, "shop"⟩, deps := [⟨1, "coin"⟩, ⟨2, "event"⟩] }, b⟩]

theorem coinIn_clean (a b : Path) : Sound (plain coinDeps (coinIn a b)) coinRank ∧
    ∀ r ∈ coinIn a b, Clean (plain coinDeps (coinIn a b)) r.unit.id :=
  ⟨coinShop_sound, fun r hr => clean_of_no_errors (find_mem (P := plain coinDeps (coinIn a b)) coinShop_sound
      (List.mem_append_right _ (List.mem_map_of_mem hr))) (by decide : ∀ v ∈ coinShop.deps ++ coinShop.roots, v.errors = [])⟩

/-- **C112 is false: one file.**  Of two modules in one source file the first has no ABI: the only file has the
functions of the second. -/
theorem C112_false_file :
    let roots := coinIn ⟨"sources", "main"⟩ ⟨"sources", "main"⟩
    (Sound (plain coinDeps roots) coinRank ∧ ∀ r ∈ roots, Clean (plain coinDeps roots) r.unit.id) ∧
    ∀ n, ∃ files, exportAbi (n + 2) (fun _ => false) coinDeps roots true false = some (.ok files) ∧
      files ≠ [] ∧ ∀ f ∈ files, f.2.functions ≠ ⟨1, "coin"⟩ := by
  refine ⟨coinIn_clean _ _, fun n => ⟨[(("main", .json), ⟨⟨1, "shop"⟩, ⟨1, "shop"⟩⟩)], ?_, by decide, by decide⟩⟩
  simp [exportAbi, coinIn, coinDeps, dataLoop, processDeps, depLoop, Out.ofErrors, abiLoop, writeLoop, writeFile]

/-- The ABI made for the first of two modules in one file has the functions of the second with the events of
the first. -/
theorem C112_false_mixed : ∀ n, ∃ data paths,
    dataLoop (n + 2) coinDeps [] [] [] (coinIn ⟨"sources", "main"⟩ ⟨"sources", "main"⟩) =
      some (.ok data paths) ∧
    abiLoop (fun _ => false) data paths (coinIn ⟨"sources", "main"⟩ ⟨"sources", "main"⟩) =
      some [(⟨"sources", "main"⟩, ⟨⟨1, "shop"⟩, ⟨1, "coin"⟩⟩),
        (⟨"sources", "main"⟩, ⟨⟨1, "shop"⟩, ⟨1, "shop"⟩⟩)] := by
  intro n
  refine ⟨[⟨1, "shop"⟩, ⟨2, "event"⟩, ⟨1, "coin"⟩, ⟨2, "balance"⟩, ⟨2, "object"⟩],
    [(⟨"sources", "main"⟩, ⟨1, "shop"⟩)], ?_, by decide⟩
  simp [coinIn, coinDeps, dataLoop, processDeps, depLoop, Out.ofErrors]

/-- **C112 is false: folders.**  Of two modules in source files of the same name in different folders one has no
ABI. -/
theorem C112_false_folder :
    let roots := coinIn ⟨"sources/coin", "main"⟩ ⟨"sources/shop", "main"⟩
    (Sound (plain coinDeps roots) coinRank ∧ ∀ r ∈ roots, Clean (plain coinDeps roots) r.unit.id) ∧
    (roots.map (·.path)).Nodup ∧
    ∀ n, ∃ files, exportAbi (n + 2) (fun _ => false) coinDeps roots true false = some (.ok files) ∧
      files ≠ [] ∧ ∀ f ∈ files, f.2.functions ≠ ⟨1, "coin"⟩ := by
  refine ⟨coinIn_clean _ _, by decide, fun n =>
    ⟨[(("main", .json), ⟨⟨1, "shop"⟩, ⟨1, "shop"⟩⟩)], ?_, by decide, by decide⟩⟩
  simp [exportAbi, coinIn, coinDeps, dataLoop, processDeps, depLoop, Out.ofErrors, abiLoop, writeLoop, writeFile]

/-- **C112 is false: names.**  The ABI is named after the source file while the contract is named after the
module: `shop.json` may have the functions of `coin`, and `shop.wasm` is `shop`. -/
theorem C112_false_name :
    let roots := coinIn ⟨"sources", "shop"⟩ ⟨"sources", "coin"⟩
    (Sound (plain coinDeps roots) coinRank ∧ ∀ r ∈ roots, Clean (plain coinDeps roots) r.unit.id) ∧
    ∀ n, ∃ abis files, exportAbi (n + 2) (fun _ => false) coinDeps roots true false = some (.ok abis) ∧
      translatePackage (n + 2) (plain coinDeps roots) = some (.ok files) ∧
      (("shop", .json), ⟨⟨1, "coin"⟩, ⟨1, "coin"⟩⟩) ∈ abis ∧
      ∃ known, ("shop", ⟨⟨1, "shop"⟩, known⟩) ∈ files := by
  refine ⟨coinIn_clean _ _, fun n =>
    ⟨[(("coin", .json), ⟨⟨1, "shop"⟩, ⟨1, "shop"⟩⟩), (("shop", .json), ⟨⟨1, "coin"⟩, ⟨1, "coin"⟩⟩)],
     [("shop", ⟨⟨1, "shop"⟩, [⟨2, "event"⟩, ⟨1, "coin"⟩, ⟨2, "balance"⟩, ⟨2, "object"⟩]⟩),
       ("coin", ⟨⟨1, "coin"⟩, [⟨2, "balance"⟩, ⟨2, "object"⟩]⟩)], ?_, ?_, by decide, _, List.mem_cons_self⟩⟩
  · simp [exportAbi, coinIn, coinDeps, dataLoop, processDeps, depLoop, Out.ofErrors, abiLoop, writeLoop,
      writeFile]
  · simp [plain, coinIn, translatePackage, translate, coinDeps, rootLoop, processDeps, depLoop, Out.ofErrors]

/-- **C112 is false: internal errors**, as in `C111_false_ice`. -/
theorem C112_false_ice :
    let roots : List RootUnit :=
      [⟨{ id := ⟨1, "coin"⟩, deps := [⟨2, "object"⟩], errors := ["bad event"] }, ⟨"sources", "coin"⟩⟩,
       ⟨{ id := ⟨1, "shop"⟩, deps := [⟨1, "coin"⟩] }, ⟨"sources", "shop"⟩⟩]
    Sound (plain coinDeps roots) coinRank ∧ errorsOf (plain coinDeps roots) ⟨1, "coin"⟩ = ["bad event"] ∧
    ∀ n, exportAbi (n + 1) (fun _ => false) coinDeps roots true false = some (.ice (.notFound "coin")) := by
  refine ⟨C111_false_ice.1, by decide, fun n => ?_⟩
  simp [exportAbi, coinDeps, dataLoop, processDeps, depLoop, Out.ofErrors]

end Props
