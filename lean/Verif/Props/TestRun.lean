import Verif.Proof.TestRun
import Verif.Props.Compile

/-!
# C109: `move-stylus test` tells which unit tests pass

What Move says: a function with the attribute `test` is a test; it passes if it returns, or, with the attribute `expected_failure`, if it fails (in the way the arguments of
the attribute tell).  Executions are those of the Move machine (`Runs`); the functions that are run are compiled by the model of the compiler (`compileProg`).
-/

namespace Props
open TestRun Wasm Rt Move

variable {E : ErrPtrs} {U : Nat}

/-- What an attribute demands of the end of a test. -/
def attrAllows (a : Attr) (h : Halt) : Prop :=
  match a with
  | .param "expected_failure" as => ∀ x ∈ as,
    match x with
    | .assigned "abort_code" c => h = .abort c
    | .name "arithmetic_error" => (∃ f, h = .arith f) ∨ h = .divZero
    | _ => True
  | _ => True

/-- A test that ends with `h` passes. -/
def Passes (f : SFun) (h : Halt) : Prop :=
  ((∃ vs M, h = .ret vs M) ↔ f.fails = false) ∧ ∀ a ∈ f.attrs.flatten, attrAllows a h

/-- The module `m` is compiled to `u`; its tests have neither parameters nor results, and, run in a new instance with state `σ`, end as `out` says and within
the memory there is. -/
structure Compiled (E : ErrPtrs) (U : Nat) (u : TUnit) (m : SMod) (σ : Store) (out : String → Halt) (P : Prog) (flows : List Flow) (tbl : List (MFun × Fn)) : Prop where
  names : (m.funs.map (·.name)).Nodup
  heap : Heap σ
  unit : ∀ F ∈ P.funs, 64 * F.args.length ≤ U ∧ tupleSize F.rets ≤ U
  fit : ∀ z ∈ P.funs.zip flows, z.2.fits z.1 = true
  code : compileProg E P flows = some tbl
  funs : u.funs = (m.funs.map (·.name)).zip (tbl.map (·.2))
  truth : Truthful P σ.host
  runs : ∀ (i : Nat) (f : SFun), m.funs[i]? = some f → f.isTest = true → ∃ F n, P.funs[i]? = some F ∧ F.args = [] ∧ F.rets = [] ∧
    Runs P (fun F c => ¬ Excluded F c) F (F.start [] []) n (out f.name) ∧ Room σ (U * (n + 1))

theorem compileFuns_nr {E : ErrPtrs} {consts : List Const} : ∀ {zs : List (MFun × Flow)} {tbl tbl' : List (MFun × Fn)},
    compileFuns E consts zs tbl = some tbl' → (∀ x ∈ tbl, x.2.nr = x.1.retTy.nr) → ∀ x ∈ tbl', x.2.nr = x.1.retTy.nr
  | [], tbl, tbl', h, ht => by cases h; exact ht
  | (F, flow) :: zs, tbl, tbl', h, ht => by
    simp only [compileFuns] at h
    split at h
    · rename_i fn hfn
      refine compileFuns_nr h ?_
      intro x hx
      rcases List.mem_append.mp hx with hx | hx
      · exact ht x hx
      · simp only [List.mem_singleton] at hx
        subst hx
        simp only [compileFun] at hfn
        split at hfn
        · cases hfn; rfl
        · cases hfn
    · cases h

theorem compileProg_nr {P : Prog} {flows : List Flow} {tbl : List (MFun × Fn)} (h : compileProg E P flows = some tbl) :
    ∀ x ∈ tbl, x.2.nr = x.1.retTy.nr := by
  unfold compileProg at h
  split at h
  · exact compileFuns_nr h (fun x hx => by cases hx)
  · cases h

/-- Whether a function has failed. -/
def aborted : Halt → Bool
  | .ret _ _ => false
  | _ => true

/-- One test function without parameters and results: after the call the error pointer is set if and only if the Move function fails, unless by a division by zero. -/
theorem C109_verdict_partial (hE : E.Valid) (hU : 400 ≤ U) {P : Prog} {flows : List Flow} {tbl : List (MFun × Fn)}
    (hF : ∀ F ∈ P.funs, 64 * F.args.length ≤ U ∧ tupleSize F.rets ≤ U) (hfit : ∀ z ∈ P.funs.zip flows, z.2.fits z.1 = true)
    (hc : compileProg E P flows = some tbl) {i : Nat} {F : MFun} (hf : P.funs[i]? = some F) (ha : F.args = []) (hr : F.rets = [])
    {σ : Store} (hσ : Heap σ) (ht : Truthful P σ.host) {n : Nat} {h : Halt} (hrun : Runs P (fun F c => ¬ Excluded F c) F (F.start [] []) n h)
    (hroom : Room σ (U * (n + 1))) :
    ∃ fn, tbl[i]? = some (F, fn) ∧ (h ≠ .divZero → Finishes fn σ (aborted h)) ∧ (h = .divZero → Crashes fn σ) := by
  obtain ⟨fn, h1, h2⟩ := C66_partial hE hU hF hfit hc hf
  obtain ⟨fn', h1', h3⟩ := C67_partial hE hU hF hfit hc hf
  rw [h1] at h1'
  cases h1'
  have hnr : fn.nr = 0 := by
    rw [compileProg_nr hc _ (List.mem_of_getElem? h1)]
    rw [MFun.retTy, hr]; rfl
  have harg : ([] : List Opd).map (·.ty) = F.args := by rw [ha]; rfl
  have hA : ArgsRep σ (Frozen σ (Own [] [] (fun _ => 0) (fun _ => 0))) [] [] [] (fun _ => 0) := fun _ => rfl
  have hfail : ∀ h', fn.Calls [] σ (fun _ σ' => Failed E P.consts (fun x => Own [] [] (fun _ => 0) (fun _ => 0) x ≠ 0 ∧ (fun _ => 0) x = 0) σ h' σ') →
      Finishes fn σ true := by
    intro h' hcall
    refine ⟨hnr, hcall.mono ?_⟩
    intro r σ' hx
    have := (hx.err hE hσ (fun x h => absurd (by simp [Own, live]) h.1)).2
    simpa using this
  have h3' := h3 (world_nil hσ) harg hA hrun hroom ht
  refine ⟨fn, h1, ?_, fun hd => .inr (.inr (h3'.2.2 hd))⟩
  intro hd
  cases h with
  | ret vs M =>
    refine ⟨hnr, (h2 (world_nil hσ) harg hA hrun hroom ht).mono ?_⟩
    rintro r σ' ⟨ρ', m', -, hW, -⟩
    have := hW.heap.ready.noErr
    simp [aborted, this]
  | abort c => exact hfail _ (h3'.1 c rfl)
  | arith o => exact hfail _ (h3'.2.1 o rfl)
  | divZero => exact absurd rfl hd

theorem lookup_zip {α : Type} : ∀ {ns : List String} {xs : List α} {i : Nat} {n : String} {x : α}, ns.Nodup → ns[i]? = some n → xs[i]? = some x →
    (ns.zip xs).lookup n = some x
  | [], _, _, _, _, _, h, _ => by simp at h
  | m :: ns, [], _, _, _, _, _, h => by simp at h
  | m :: ns, y :: xs, 0, n, x, _, h1, h2 => by
    cases h1; cases h2
    simp
  | m :: ns, y :: xs, i + 1, n, x, hn, h1, h2 => by
    simp only [List.nodup_cons] at hn
    have hm : n ≠ m := by
      rintro rfl
      exact hn.1 (List.mem_of_getElem? (by simpa using h1))
    rw [List.zip_cons_cons, List.lookup, beq_false_of_ne hm]
    exact lookup_zip hn.2 (by simpa using h1) (by simpa using h2)

theorem quiet_allows {f : SFun} (hp : f.Plain) (h : Halt) : ∀ a ∈ f.attrs.flatten, attrAllows a h := by
  have key : ∀ a : Attr, a.Quiet → attrAllows a h := by
    intro a ha
    unfold attrAllows
    split
    · exact absurd (.inl rfl) ha.2
    · trivial
  have hn : ∀ s, attrAllows (.name s) h := fun s => trivial
  intro a ha
  rcases hp with hq | ⟨p, q, he, hp, hq⟩ | ⟨p, q, r, he, hp, hq, hr⟩
  · exact key a (hq a ha)
  · rw [he] at ha
    simp only [List.mem_append, List.mem_cons] at ha
    rcases ha with ha | rfl | ha
    · exact key a (hp a ha)
    · exact hn _
    · exact key a (hq a ha)
  · rw [he] at ha
    simp only [List.mem_append, List.mem_cons] at ha
    rcases ha with ha | rfl | ha | rfl | ha
    · exact key a (hp a ha)
    · exact hn _
    · exact key a (hq a ha)
    · exact hn _
    · exact key a (hr a ha)

theorem passes_iff {f : SFun} (hp : f.Plain) (h : Halt) : Passes f h ↔ (aborted h == f.fails) = true := by
  unfold Passes
  rw [and_iff_left (quiet_allows hp h)]
  cases h <;> cases f.fails <;> simp [aborted]

/-- **C109 (partial)** A package in which each source file has one module, tests are marked `#[test]` or `#[test, expected_failure]`, and no test divides by zero: the
command ends with a report; the exit code is 1 if and only if some test does not pass; every line of the report is right; without failures every test is reported, and
with failures one of them is reported.  Missing: the restrictions on attributes, files and divisions, without which the claim is false; tests that never end; what the
sandbox answers to calls of the host other than those of the compiler model. -/
theorem C109_partial (hE : E.Valid) (hU : 400 ≤ U) {files : String → List SMod} {σ : TUnit → Store} {us : List TUnit} (hpath : (us.map (·.path)).Nodup)
    {src : TUnit → SMod} (hfile : ∀ u ∈ us, files u.path = [src u]) (hplain : ∀ u ∈ us, ∀ f ∈ (src u).funs, f.Plain) {out : TUnit → String → Halt}
    (hcomp : ∀ u ∈ us, ∃ P flows tbl, Compiled E U u (src u) (σ u) (out u) P flows tbl)
    (hdiv : ∀ u ∈ us, ∀ f ∈ (src u).funs, f.isTest = true → out u f.name ≠ .divZero) :
    (∃ r, TestCmd files σ us r) ∧ ∀ r, TestCmd files σ us r → ∃ lines failed, r = .report lines failed ∧
      (failed = true ↔ ∃ u ∈ us, ∃ f ∈ (src u).funs, f.isTest = true ∧ ¬ Passes f (out u f.name)) ∧
      (∀ l ∈ lines, ∃ u ∈ us, ∃ f ∈ (src u).funs, f.isTest = true ∧ l.1 = u.name ∧ l.2.1 = f.name ∧ (l.2.2 = true ↔ Passes f (out u f.name))) ∧
      (failed = false → ∀ u ∈ us, ∀ f ∈ (src u).funs, f.isTest = true → (u.name, f.name, true) ∈ lines) ∧
      (failed = true → ∃ l ∈ lines, l.2.2 = false) := by
  have htests : ∀ u ∈ us, fileTests (files u.path) = some (declared (src u).funs) := by
    intro u hu
    obtain ⟨P, flows, tbl, hc⟩ := hcomp u hu
    rw [hfile u hu]
    exact fileTests_plain (hplain u hu) hc.names
  have hfin : ∀ (tests : TUnit → List TestFn), (∀ u ∈ us, tests u = declared (src u).funs) → ∀ u ∈ us, ∀ t ∈ tests u,
      ∃ f, u.export (tests u) t.name = some f ∧ Finishes f (σ u) (aborted (out u t.name)) := by
    intro tests hts u hu t ht
    obtain ⟨P, flows, tbl, hc⟩ := hcomp u hu
    have hany : (tests u).any (fun x => decide (x.name = t.name)) = true := List.any_eq_true.mpr ⟨t, ht, by simp⟩
    rw [hts u hu] at ht
    obtain ⟨f, hf, hft, rfl⟩ := declared_name ht
    obtain ⟨i, hi⟩ := List.getElem?_of_mem hf
    obtain ⟨F, n, hF, ha, hr, hrun, hroom⟩ := hc.runs i f hi hft
    obtain ⟨fn, h1, h2, -⟩ := C109_verdict_partial hE hU hc.unit hc.fit hc.code hF ha hr hc.heap hc.truth hrun hroom
    refine ⟨fn, ?_, h2 (hdiv u hu f hf hft)⟩
    rw [TUnit.export, if_pos hany, hc.funs]
    exact lookup_zip hc.names (i := i) (by simp [hi]) (by simp [h1])
  have hline : ∀ (tests : TUnit → List TestFn), (∀ u ∈ us, tests u = declared (src u).funs) → ∀ u ∈ us, ∀ l, l ∈ linesOf tests (fun u n => aborted (out u n)) u ↔
      ∃ f ∈ (src u).funs, f.isTest = true ∧ l = (u.name, f.name, aborted (out u f.name) == f.fails) := by
    intro tests hts u hu l
    unfold linesOf
    rw [List.mem_map, hts u hu]
    constructor
    · rintro ⟨t, ht, rfl⟩
      obtain ⟨f, hf, hft, rfl⟩ := declared_name ht
      exact ⟨f, hf, hft, rfl⟩
    · rintro ⟨f, hf, hft, rfl⟩
      exact ⟨_, mem_declared hf hft, rfl⟩
  have hbad : ∀ (tests : TUnit → List TestFn), (∀ u ∈ us, tests u = declared (src u).funs) → ∀ u ∈ us, bad tests (fun u n => aborted (out u n)) u = true ↔
      ∃ f ∈ (src u).funs, f.isTest = true ∧ ¬ Passes f (out u f.name) := by
    intro tests hts u hu
    unfold bad
    rw [List.any_eq_true, hts u hu]
    constructor
    · rintro ⟨t, ht, hb⟩
      obtain ⟨f, hf, hft, rfl⟩ := declared_name ht
      refine ⟨f, hf, hft, ?_⟩
      rw [passes_iff (hplain u hu f hf)]
      simpa using hb
    · rintro ⟨f, hf, hft, hb⟩
      refine ⟨_, mem_declared hf hft, ?_⟩
      rw [passes_iff (hplain u hu f hf)] at hb
      simpa using hb
  constructor
  · refine ⟨_, .ran (tests := fun u => declared (src u).funs) htests (List.Perm.refl _) (runMods_all (out := fun u n => aborted (out u n)) ?_).1⟩
    rw [pathMods_nodup hpath]
    exact hfin _ (fun _ _ => rfl)
  · intro r hr
    cases hr with
    | refused hu hn => rw [htests _ hu] at hn; cases hn
    | @ran tests vs _ ht hperm hrun =>
      rw [pathMods_nodup hpath] at hperm
      have hmem : ∀ u, u ∈ vs ↔ u ∈ us := fun u => hperm.mem_iff
      have hts : ∀ u ∈ us, tests u = declared (src u).funs := fun u hu => Option.some.inj ((ht u hu).symm.trans (htests u hu))
      have := (runMods_all (out := fun u n => aborted (out u n)) (fun u hu => hfin tests hts u ((hmem u).mp hu))).2 _ hrun
      subst this
      obtain ⟨lines, failed, h1, h2, h3, h4, h5⟩ := fullReport_spec (tests := tests) (out := fun u n => aborted (out u n)) (us := vs) (b := false)
      refine ⟨lines, failed, h1, ?_, ?_, ?_, ?_⟩
      · rw [h2]
        simp only [Bool.false_eq_true, false_or]
        constructor
        · rintro ⟨u, hu, hb⟩
          exact ⟨u, (hmem u).mp hu, (hbad tests hts u ((hmem u).mp hu)).mp hb⟩
        · rintro ⟨u, hu, hb⟩
          exact ⟨u, (hmem u).mpr hu, (hbad tests hts u hu).mpr hb⟩
      · intro l hl
        obtain ⟨u, hu, hl⟩ := h3 l hl
        obtain ⟨f, hf, hft, rfl⟩ := (hline tests hts u ((hmem u).mp hu) l).mp hl
        exact ⟨u, (hmem u).mp hu, f, hf, hft, rfl, rfl, (passes_iff (hplain u ((hmem u).mp hu) f hf) _).symm⟩
      · intro hff u hu f hf hft
        refine h4 hff u ((hmem u).mpr hu) _ ((hline tests hts u hu _).mpr ⟨f, hf, hft, ?_⟩)
        have hnb : ¬ bad tests (fun u n => aborted (out u n)) u = true := by
          intro hb
          have := h2.mpr (.inr ⟨u, (hmem u).mpr hu, hb⟩)
          rw [hff] at this
          cases this
        rw [hbad tests hts u hu] at hnb
        have hpass : Passes f (out u f.name) := by
          by_contra hx
          exact hnb ⟨f, hf, hft, hx⟩
        rw [(passes_iff (hplain u hu f hf) _).mp hpass]
      · intro hff
        rcases h5 hff with hb | ⟨u, hu, hb, hl⟩
        · cases hb
        · obtain ⟨f, hf, hft, hx⟩ := (hbad tests hts u ((hmem u).mp hu)).mp hb
          refine ⟨_, hl _ ((hline tests hts u ((hmem u).mp hu) _).mpr ⟨f, hf, hft, rfl⟩), ?_⟩
          rw [passes_iff (hplain u ((hmem u).mp hu) f hf)] at hx
          simpa using hx

/-! ### Examples -/

def okFun : MFun := ⟨[], [], [], [.ldTrue, .pop, .ret]⟩
def abortFun : MFun := ⟨[], [], [], [.ldInt u64 2, .abort]⟩
def divFun : MFun := ⟨[], [], [], [.ldInt u64 1, .ldInt u64 0, .bin (.arith .div), .pop, .ret]⟩

def testProg : Prog := ⟨[], [okFun, abortFun, divFun], mute⟩
def testFlows : List Flow := [lineFlow 3, lineFlow 2, lineFlow 5]
def testTbl : List (MFun × Fn) := (compileProg E0 testProg testFlows).getD []

theorem testTbl_eq : compileProg E0 testProg testFlows = some testTbl := by
  have h : (compileProg E0 testProg testFlows).isSome = true := by decide +kernel
  obtain ⟨t, ht⟩ := Option.isSome_iff_exists.mp h
  rw [testTbl, ht]
  rfl

theorem test_fit : ∀ z ∈ testProg.funs.zip testFlows, z.2.fits z.1 = true := by decide +kernel
theorem test_unit : ∀ F ∈ testProg.funs, 64 * F.args.length ≤ 400 ∧ tupleSize F.rets ≤ 400 := by decide

theorem ok_runs : ∃ M, Runs testProg (fun F c => ¬ Excluded F c) okFun (okFun.start [] []) 3 (.ret [] M) := runMove_ret 20 (by decide +kernel)
theorem abort_runs : Runs testProg (fun F c => ¬ Excluded F c) abortFun (abortFun.start [] []) 2 (.abort 2) := runMove_sound (k := 20) (by decide +kernel)
theorem div_runs : Runs testProg (fun F c => ¬ Excluded F c) divFun (divFun.start [] []) 3 .divZero := runMove_sound (k := 20) (by decide +kernel)

/-- The module compiled from `testProg`, its functions called `ns`. -/
def testUnit (path name : String) (ns : List String) : TUnit := ⟨path, name, ns.zip (testTbl.map (·.2))⟩

/-- `#[test] fun works() {}`, `#[test, expected_failure] fun stops() { abort 2 }` and `fun divides() { 1 / 0; }`. -/
def goodMod : SMod := ⟨"m", [⟨"works", [[.name "test"]]⟩, ⟨"stops", [[.name "test", .name "expected_failure"]]⟩, ⟨"divides", []⟩]⟩

def goodUnit : TUnit := testUnit "m.move" "m" ["works", "stops", "divides"]

noncomputable def goodOut (n : String) : Halt := if n = "works" then .ret [] (Classical.choose ok_runs) else .abort 2

theorem good_compiled : Compiled E0 400 goodUnit goodMod store0 goodOut testProg testFlows testTbl := by
  refine ⟨by decide, store0_heap, test_unit, test_fit, testTbl_eq, rfl, truthful_mute, ?_⟩
  intro i f hf hft
  match i with
  | 0 =>
    cases hf
    refine ⟨okFun, 3, rfl, rfl, rfl, ?_, by decide, by decide⟩
    rw [goodOut, if_pos rfl]
    exact Classical.choose_spec ok_runs
  | 1 =>
    cases hf
    refine ⟨abortFun, 2, rfl, rfl, rfl, ?_, by decide, by decide⟩
    rw [goodOut, if_neg (by decide)]
    exact abort_runs
  | 2 => cases hf; cases hft
  | i + 3 => simp [goodMod] at hf

theorem good_plain : ∀ f ∈ goodMod.funs, f.Plain := by
  intro f hf
  simp only [goodMod, List.mem_cons, List.not_mem_nil, or_false] at hf
  rcases hf with rfl | rfl | rfl
  · exact .inr (.inl ⟨[], [], rfl, by simp, by simp⟩)
  · exact .inr (.inr ⟨[], [], [], rfl, by simp, by simp, by simp⟩)
  · exact .inl (by simp)

/-- Both tests of the module are reported as passed, and the exit code is 0. -/
example {r : TRes} (h : TestCmd (fun _ => [goodMod]) (fun _ => store0) [goodUnit] r) :
    ∃ lines, r = .report lines false ∧ ("m", "works", true) ∈ lines ∧ ("m", "stops", true) ∈ lines := by
  obtain ⟨-, hx⟩ := C109_partial (E := E0) (U := 400) E0_valid (Nat.le_refl 400) (files := fun _ => [goodMod]) (σ := fun _ => store0) (us := [goodUnit]) (by simp)
    (src := fun _ => goodMod) (fun _ _ => rfl) (fun _ _ => good_plain) (out := fun _ => goodOut)
    (fun u hu => by simp only [List.mem_singleton] at hu; subst hu; exact ⟨_, _, _, good_compiled⟩)
    (fun u hu f hf hft => by unfold goodOut; split <;> simp)
  obtain ⟨lines, failed, rfl, h1, -, h2, -⟩ := hx r h
  have hpass : ¬ ∃ u ∈ [goodUnit], ∃ f ∈ goodMod.funs, f.isTest = true ∧ ¬ Passes f (goodOut f.name) := by
    rintro ⟨u, -, f, hf, hft, hp⟩
    rw [passes_iff (good_plain f hf)] at hp
    simp only [goodMod, List.mem_cons, List.not_mem_nil, or_false] at hf
    rcases hf with rfl | rfl | rfl
    · exact hp (by rw [goodOut, if_pos rfl]; rfl)
    · exact hp (by rw [goodOut, if_neg (by decide)]; rfl)
    · cases hft
  have hf : failed = false := by
    cases failed
    · rfl
    · exact absurd (h1.mp rfl) hpass
  subst hf
  exact ⟨lines, rfl, h2 rfl goodUnit (by simp) ⟨"works", [[.name "test"]]⟩ (by simp [goodMod]) (by decide),
    h2 rfl goodUnit (by simp) ⟨"stops", [[.name "test", .name "expected_failure"]]⟩ (by simp [goodMod]) (by decide)⟩

/-! ### Where the claim is false -/

theorem test_fn (i : Nat) (F : MFun) (n : Nat) (h : Halt) (hf : testProg.funs[i]? = some F) (ha : F.args = []) (hr : F.rets = [])
    (hrun : Runs testProg (fun F c => ¬ Excluded F c) F (F.start [] []) n h) (hroom : Room store0 (400 * (n + 1))) :
    ∃ fn, testTbl[i]? = some (F, fn) ∧ (h ≠ .divZero → Finishes fn store0 (aborted h)) ∧ (h = .divZero → Crashes fn store0) :=
  C109_verdict_partial E0_valid (Nat.le_refl 400) test_unit test_fit testTbl_eq hf ha hr store0_heap truthful_mute hrun hroom

theorem test_lookup {i : Nat} {F : MFun} {fn : Fn} {n : String} {ns : List String} (hn : ns.Nodup) (h : ns[i]? = some n) (hf : testTbl[i]? = some (F, fn)) :
    (ns.zip (testTbl.map (·.2))).lookup n = some fn := lookup_zip hn h (by simp [hf])

def divMod : SMod := ⟨"m", [⟨"a", []⟩, ⟨"b", []⟩, ⟨"divides", [[.name "test", .param "expected_failure" [.name "arithmetic_error"]]]⟩]⟩

/-- **C109 is false** of divisions by zero: `#[test, expected_failure(arithmetic_error)] fun divides() { 1 / 0; }` passes, but the compiled function traps and the runner
panics, without a report. -/
theorem C109_false_div : (∀ f ∈ divMod.funs, f.isTest = true → f.name = "divides" ∧ Passes f .divZero) ∧
    Runs testProg (fun F c => ¬ Excluded F c) divFun (divFun.start [] []) 3 .divZero ∧
    TestCmd (fun _ => [divMod]) (fun _ => store0) [testUnit "m.move" "m" ["a", "b", "divides"]] .panic := by
  refine ⟨?_, div_runs, ?_⟩
  · intro f hf hft
    simp only [divMod, List.mem_cons, List.not_mem_nil, or_false] at hf
    rcases hf with rfl | rfl | rfl
    · cases hft
    · cases hft
    · refine ⟨rfl, by simp [SFun.fails, Attr.head], ?_⟩
      intro a ha
      simp only [List.flatten_cons, List.flatten_nil, List.append_nil, List.mem_cons, List.not_mem_nil, or_false] at ha
      rcases ha with rfl | rfl
      · trivial
      · intro x hx
        simp only [List.mem_singleton] at hx
        subst hx
        exact .inr rfl
  · obtain ⟨fn, h1, -, h2⟩ := test_fn 2 divFun 3 .divZero rfl rfl rfl div_runs ⟨by decide, by decide⟩
    refine .ran (tests := fun _ => [⟨"divides", true⟩]) (fun u _ => by simp [fileTests, divMod, Found.fn, Attr.modsL, Attr.mods, Found.step, setExpect]) (List.Perm.refl _)
      (.panic (by simp) (.crash ?_ (h2 rfl)))
    rw [TUnit.export, if_pos (by simp)]
    exact test_lookup (by decide) rfl h1

def codeMod : SMod := ⟨"m", [⟨"a", []⟩, ⟨"stops", [[.name "test", .param "expected_failure" [.assigned "abort_code" 1]]]⟩, ⟨"b", []⟩]⟩

/-- **C109 is false** of abort codes: `#[test, expected_failure(abort_code = 1)] fun stops() { abort 2 }` does not pass, but is reported as passed. -/
theorem C109_false_code : (∀ f ∈ codeMod.funs, f.isTest = true → f.name = "stops" ∧ ¬ Passes f (.abort 2)) ∧
    Runs testProg (fun F c => ¬ Excluded F c) abortFun (abortFun.start [] []) 2 (.abort 2) ∧
    TestCmd (fun _ => [codeMod]) (fun _ => store0) [testUnit "m.move" "m" ["a", "stops", "b"]] (.report [("m", "stops", true)] false) := by
  refine ⟨?_, abort_runs, ?_⟩
  · intro f hf hft
    simp only [codeMod, List.mem_cons, List.not_mem_nil, or_false] at hf
    rcases hf with rfl | rfl | rfl
    · cases hft
    · refine ⟨rfl, fun h => ?_⟩
      have := h.2 (.param "expected_failure" [.assigned "abort_code" 1]) (by simp)
      have h1 : Halt.abort 2 = Halt.abort 1 := this _ (by simp : Attr.assigned "abort_code" 1 ∈ _)
      exact absurd h1 (by decide)
    · cases hft
  · obtain ⟨fn, h1, h2, -⟩ := test_fn 1 abortFun 2 (.abort 2) rfl rfl rfl abort_runs ⟨by decide, by decide⟩
    refine .ran (tests := fun _ => [⟨"stops", true⟩]) (fun u _ => by simp [fileTests, codeMod, Found.fn, Attr.modsL, Attr.mods, Found.step, setExpect]) (List.Perm.refl _)
      (.run (ls := [("stops", true)]) (List.cons_ne_nil _ _) (.done (b := true) (r := some []) ?_ (h2 (by simp)) .nil) .nil)
    rw [TUnit.export, if_pos (by simp)]
    exact test_lookup (by decide) rfl h1

def swapMod : SMod := ⟨"m", [⟨"a", []⟩, ⟨"stops", [[.name "expected_failure"], [.name "test"]]⟩, ⟨"b", []⟩]⟩

/-- **C109 is false** of the order of attributes: with `#[expected_failure] #[test] fun stops() { abort 2 }` there is no report, the package is refused. -/
theorem C109_false_order : (∀ f ∈ swapMod.funs, f.isTest = true → f.name = "stops" ∧ Passes f (.abort 2)) ∧
    ∀ r, TestCmd (fun _ => [swapMod]) (fun _ => store0) [testUnit "m.move" "m" ["a", "stops", "b"]] r → r = .refused := by
  constructor
  · intro f hf hft
    simp only [swapMod, List.mem_cons, List.not_mem_nil, or_false] at hf
    rcases hf with rfl | rfl | rfl
    · cases hft
    · refine ⟨rfl, by simp [SFun.fails, Attr.head], ?_⟩
      intro a ha
      simp only [List.flatten_cons, List.flatten_nil, List.append_nil, List.singleton_append, List.mem_cons, List.not_mem_nil, or_false] at ha
      rcases ha with rfl | rfl <;> trivial
    · cases hft
  · intro r hr
    cases hr with
    | refused _ _ => rfl
    | ran ht _ _ =>
      have := ht _ (List.mem_singleton.mpr rfl)
      simp [fileTests, swapMod, Found.fn, Attr.modsL, Attr.mods, Found.step, setExpect] at this

def argMod : SMod := ⟨"m", [⟨"a", []⟩, ⟨"stops", [[.param "test" [.assigned "x" 1]]]⟩, ⟨"b", []⟩]⟩

/-- **C109 is false** of tests with arguments: `#[test(x = @1)]` marks a test, but it is not run, whatever it does; the exit code is 0. -/
theorem C109_false_args : (∃ f ∈ argMod.funs, f.isTest = true ∧ ¬ Passes f (.abort 2)) ∧
    ∀ r, TestCmd (fun _ => [argMod]) (fun _ => store0) [testUnit "m.move" "m" ["a", "stops", "b"]] r → r = .report [] false := by
  constructor
  · exact ⟨_, List.mem_cons_of_mem _ (List.mem_cons_self ..), by simp [SFun.isTest, Attr.head], fun h => by simpa [SFun.fails, Attr.head] using h.1⟩
  · intro r hr
    have h0 : fileTests [argMod] = some [] := by simp [fileTests, argMod, Found.fn, Attr.modsL, Attr.mods]
    cases hr with
    | refused hu hn => rw [h0] at hn; cases hn
    | @ran tests vs _ ht hp hr =>
      have h1 : tests (testUnit "m.move" "m" ["a", "stops", "b"]) = [] :=
        (Option.some.inj (h0.symm.trans (ht _ (List.mem_singleton.mpr rfl)))).symm
      have h2 : vs = [testUnit "m.move" "m" ["a", "stops", "b"]] := List.perm_singleton.mp (by simpa [pathMods] using hp)
      subst h2
      cases hr with
      | skip _ hr => cases hr; rfl
      | panic hn _ => exact absurd h1 hn
      | run hn _ _ => exact absurd h1 hn

/-- `#[test] fun stops() { abort 2 }` in two modules. -/
def stopMod (m n : String) : SMod := ⟨m, [⟨"a", []⟩, ⟨n, [[.name "test"]]⟩, ⟨"b", []⟩]⟩

theorem stop_tests (m n : String) : fileTests [stopMod m n] = some [⟨n, false⟩] := by
  simp [fileTests, stopMod, Found.fn, Attr.modsL, Attr.mods, Found.step]

/-- **C109 is false** of reports with failures: of two modules with a failing test only one is reported; the tests of the other are not run. -/
theorem C109_false_rest :
    TestCmd (fun p => if p = "m.move" then [stopMod "m" "s"] else [stopMod "n" "t"]) (fun _ => store0)
      [testUnit "m.move" "m" ["a", "s", "b"], testUnit "n.move" "n" ["a", "t", "b"]] (.report [("m", "s", false)] true) := by
  obtain ⟨fn, h1, h2, -⟩ := test_fn 1 abortFun 2 (.abort 2) rfl rfl rfl abort_runs ⟨by decide, by decide⟩
  refine .ran (tests := fun u => if u.path = "m.move" then [⟨"s", false⟩] else [⟨"t", false⟩]) ?_ (List.Perm.refl _) ?_
  · intro u hu
    simp only [List.mem_cons, List.not_mem_nil, or_false] at hu
    rcases hu with rfl | rfl
    · exact stop_tests "m" "s"
    · exact stop_tests "n" "t"
  · show RunMods _ _ [testUnit "m.move" "m" ["a", "s", "b"], testUnit "n.move" "n" ["a", "t", "b"]] false _
    refine .run (ls := [("s", false)]) (by simp [testUnit]) ?_ (.skip (.inr rfl) .nil)
    show RunTests ((testUnit "m.move" "m" ["a", "s", "b"]).export [⟨"s", false⟩]) store0 [⟨"s", false⟩] _
    refine .done (b := true) (r := some []) ?_ (h2 (by simp)) .nil
    rw [TUnit.export, if_pos (by simp)]
    exact test_lookup (by decide) rfl h1

theorem runTests_missing {ex : String → Option Fn} {σ : Store} {t : TestFn} {ts : List TestFn} {r : Option (List (String × Bool))} (h : ex t.name = none)
    (hr : RunTests ex σ (t :: ts) r) : r = none := by
  cases hr with
  | missing _ => rfl
  | crash _ _ => rfl
  | done he _ _ => rw [h] at he; cases he

/-- **C109 is false** of files with several modules: the tests of both are looked for in the one compiled last, and the runner panics. -/
theorem C109_false_file :
    ∀ r, TestCmd (fun _ => [stopMod "m" "s", stopMod "n" "t"]) (fun _ => store0)
      [testUnit "m.move" "m" ["a", "s", "b"], testUnit "m.move" "n" ["a", "t", "b"]] r → r = .panic := by
  have h0 : fileTests [stopMod "m" "s", stopMod "n" "t"] = some [⟨"s", false⟩, ⟨"t", false⟩] := by
    simp [fileTests, stopMod, Found.fn, Attr.modsL, Attr.mods, Found.step]
  intro r hr
  cases hr with
  | refused hu hn => rw [h0] at hn; cases hn
  | @ran tests vs _ ht hp hr =>
    have h1 : tests (testUnit "m.move" "n" ["a", "t", "b"]) = [⟨"s", false⟩, ⟨"t", false⟩] :=
      (Option.some.inj (h0.symm.trans (ht _ (by simp)))).symm
    have h2 : vs = [testUnit "m.move" "n" ["a", "t", "b"]] := List.perm_singleton.mp (by simpa [pathMods, testUnit] using hp)
    subst h2
    have hex : (testUnit "m.move" "n" ["a", "t", "b"]).export [⟨"s", false⟩, ⟨"t", false⟩] "s" = none := by
      rw [TUnit.export, if_pos (by simp)]
      have hl : ∀ xs : List Fn, (["a", "t", "b"].zip xs).lookup "s" = none := by
        intro xs
        match xs with
        | [] => rfl
        | [_] => rfl
        | [_, _] => rfl
        | _ :: _ :: _ :: _ => rfl
      exact hl _
    cases hr with
    | skip hs _ => rcases hs with hs | hs; rw [h1] at hs; cases hs; cases hs
    | panic _ _ => rfl
    | run _ hl _ =>
      rw [h1] at hl
      cases runTests_missing hex hl

end Props
