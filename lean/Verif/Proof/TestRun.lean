import Verif.Rt.TestRun
import Verif.Rt.Compile

/-!
# Running the unit tests of a package: what is found and reported
-/

namespace TestRun
open Wasm Rt

variable {tests : TUnit → List TestFn} {σs : TUnit → Store} {ex : String → Option Fn} {σ : Store}

/-! ### Attributes -/

/-- The name of an attribute. -/
def Attr.head : Attr → String
  | .name n => n
  | .assigned n _ => n
  | .param n _ => n

mutual
/-- The name `s` occurs in the attribute. -/
def Attr.mentions (s : String) : Attr → Prop
  | .name n => n = s
  | .assigned n _ => n = s
  | .param n as => n = s ∨ Attr.mentionsL s as
def Attr.mentionsL (s : String) : List Attr → Prop
  | [] => False
  | a :: as => a.mentions s ∨ Attr.mentionsL s as
end

/-- The function is a test, for Move: it has an attribute `test`. -/
def SFun.isTest (f : SFun) : Bool := f.attrs.flatten.any (fun a => a.head == "test")

/-- The test is expected to fail: it has an attribute `expected_failure`. -/
def SFun.fails (f : SFun) : Bool := f.attrs.flatten.any (fun a => a.head == "expected_failure")

/-- An attribute that says nothing about tests. -/
def Attr.Quiet (a : Attr) : Prop := ¬ a.mentions "test" ∧ ¬ a.mentions "expected_failure"

/-- The attributes of the function are such that it is not a test, or is one by `#[test]`, possibly followed by `#[expected_failure]`. -/
def SFun.Plain (f : SFun) : Prop :=
  (∀ a ∈ f.attrs.flatten, a.Quiet) ∨
  (∃ p q, f.attrs.flatten = p ++ .name "test" :: q ∧ (∀ a ∈ p, a.Quiet) ∧ ∀ a ∈ q, a.Quiet) ∨
  (∃ p q r, f.attrs.flatten = p ++ .name "test" :: (q ++ .name "expected_failure" :: r) ∧ (∀ a ∈ p, a.Quiet) ∧ (∀ a ∈ q, a.Quiet) ∧ ∀ a ∈ r, a.Quiet)

/-- Modifiers that are not about tests. -/
def Idle (m : FMod) : Prop := m ≠ .test ∧ m ≠ .expectedFailure

mutual
theorem Attr.Quiet.idle : ∀ {a : Attr}, a.Quiet → ∀ m ∈ a.mods, Idle m
  | .name n, h, m, hm => by
    obtain ⟨h1, h2⟩ := h
    simp only [Attr.mentions] at h1 h2
    simp only [Attr.mods, if_neg h1, if_neg h2] at hm
    split at hm
    · simp only [List.mem_singleton] at hm; subst hm; exact ⟨by decide, by decide⟩
    · split at hm
      · simp only [List.mem_singleton] at hm; subst hm; exact ⟨by decide, by decide⟩
      · cases hm
  | .assigned n v, _, m, hm => by simp [Attr.mods] at hm
  | .param n as, h, m, hm => by
    obtain ⟨h1, h2⟩ := h
    simp only [Attr.mentions, not_or] at h1 h2
    simp only [Attr.mods, if_neg h2.1] at hm
    split at hm
    · simp only [List.mem_singleton] at hm; subst hm; exact ⟨by decide, by decide⟩
    · exact Attr.quietL_idle h1.2 h2.2 m hm
theorem Attr.quietL_idle : ∀ {as : List Attr}, ¬ Attr.mentionsL "test" as → ¬ Attr.mentionsL "expected_failure" as → ∀ m ∈ Attr.modsL as, Idle m
  | [], _, _, m, hm => by simp [Attr.modsL] at hm
  | a :: as, h1, h2, m, hm => by
    simp only [Attr.mentionsL, not_or] at h1 h2
    simp only [Attr.modsL, List.mem_append] at hm
    rcases hm with hm | hm
    · exact Attr.Quiet.idle ⟨h1.1, h2.1⟩ m hm
    · exact Attr.quietL_idle h1.2 h2.2 m hm
end

theorem quiets_idle : ∀ {as : List Attr}, (∀ a ∈ as, a.Quiet) → ∀ m ∈ Attr.modsL as, Idle m
  | [], _, m, hm => by simp [Attr.modsL] at hm
  | a :: as, h, m, hm => by
    simp only [Attr.modsL, List.mem_append] at hm
    rcases hm with hm | hm
    · exact (h a (by simp)).idle m hm
    · exact quiets_idle (fun b hb => h b (by simp [hb])) m hm

theorem modsL_append : ∀ (as bs : List Attr), Attr.modsL (as ++ bs) = Attr.modsL as ++ Attr.modsL bs
  | [], _ => by simp [Attr.modsL]
  | a :: as, bs => by simp [Attr.modsL, modsL_append as bs]

theorem foldl_idle {n : String} : ∀ {ms : List FMod} {r : Found}, (∀ m ∈ ms, Idle m) → ms.foldl (Found.step n) r = r
  | [], _, _ => rfl
  | m :: ms, r, h => by
    have h1 := h m (by simp)
    have : Found.step n r m = r := by
      cases m with
      | test => exact absurd rfl h1.1
      | expectedFailure => exact absurd rfl h1.2
      | skip => rfl
      | other => rfl
    rw [List.foldl_cons, this]
    exact foldl_idle (fun m hm => h m (by simp [hm]))

theorem setExpect_last {n : String} : ∀ {ts : List TestFn}, (∀ t ∈ ts, t.name ≠ n) → setExpect n (ts ++ [⟨n, false⟩]) = some (ts ++ [⟨n, true⟩])
  | [], _ => by simp [setExpect]
  | t :: ts, h => by
    have h1 : t.name ≠ n := h t (by simp)
    rw [List.cons_append, setExpect, if_neg h1, setExpect_last (fun t ht => h t (by simp [ht]))]
    rfl

theorem head_mentions {a : Attr} {s : String} (h : ¬ a.mentions s) : a.head ≠ s := by
  cases a with
  | name n => simpa [Attr.mentions, Attr.head] using h
  | assigned n v => simpa [Attr.mentions, Attr.head] using h
  | param n as => simp only [Attr.mentions, not_or] at h; exact h.1

theorem any_quiet {as : List Attr} (h : ∀ a ∈ as, a.Quiet) :
    as.any (fun a => a.head == "test") = false ∧ as.any (fun a => a.head == "expected_failure") = false := by
  constructor
  · rw [List.any_eq_false]
    intro a ha
    have := head_mentions (h a ha).1
    simpa using this
  · rw [List.any_eq_false]
    intro a ha
    have := head_mentions (h a ha).2
    simpa using this

/-- The tests declared by functions. -/
def declared (fs : List SFun) : List TestFn := fs.flatMap (fun f => if f.isTest then [⟨f.name, f.fails⟩] else [])

theorem fn_plain {f : SFun} {r : Found} (hp : f.Plain) (hn : ∀ t ∈ r.tests, t.name ≠ f.name) :
    r.fn f = ⟨r.tests ++ declared [f], r.err⟩ := by
  unfold Found.fn declared
  rcases hp with hq | ⟨p, q, he, hp, hq⟩ | ⟨p, q, s, he, hp, hq, hs⟩
  · have h1 := any_quiet hq
    have ht : f.isTest = false := h1.1
    rw [foldl_idle (quiets_idle hq)]
    simp [ht]
  · have h1 := any_quiet hp
    have h2 := any_quiet hq
    rw [he, modsL_append, List.foldl_append, foldl_idle (quiets_idle hp)]
    rw [Attr.modsL, List.foldl_append, foldl_idle (quiets_idle hq)]
    have ht : f.isTest = true := by simp [SFun.isTest, he, Attr.head]
    have hf : f.fails = false := by
      rw [SFun.fails, he, List.any_append, List.any_cons, h1.2, h2.2]
      rfl
    simp [ht, hf, Attr.mods, Found.step]
  · have h1 := any_quiet hp
    have h2 := any_quiet hq
    rw [he, modsL_append, List.foldl_append, foldl_idle (quiets_idle hp)]
    rw [Attr.modsL, List.foldl_append, modsL_append, List.foldl_append, foldl_idle (quiets_idle hq)]
    rw [Attr.modsL, List.foldl_append, foldl_idle (quiets_idle hs)]
    have ht : f.isTest = true := by simp [SFun.isTest, he, Attr.head]
    have hf : f.fails = true := by simp [SFun.fails, he, Attr.head]
    have m1 : (Attr.name "test").mods = [.test] := by simp [Attr.mods]
    have m2 : (Attr.name "expected_failure").mods = [.expectedFailure] := by simp [Attr.mods]
    rw [m1, m2]
    simp only [List.foldl_cons, List.foldl_nil, Found.step, setExpect_last hn]
    simp [ht, hf]

theorem declared_name {fs : List SFun} {t : TestFn} (h : t ∈ declared fs) : ∃ f ∈ fs, f.isTest = true ∧ t = ⟨f.name, f.fails⟩ := by
  simp only [declared, List.mem_flatMap] at h
  obtain ⟨f, hf, h⟩ := h
  split at h
  · rename_i ht
    exact ⟨f, hf, ht, by simpa using h⟩
  · cases h

theorem mem_declared {fs : List SFun} {f : SFun} (h : f ∈ fs) (ht : f.isTest = true) : ⟨f.name, f.fails⟩ ∈ declared fs := by
  simp only [declared, List.mem_flatMap]
  exact ⟨f, h, by simp [ht]⟩

theorem foldl_plain : ∀ {fs : List SFun} {r : Found}, (∀ f ∈ fs, f.Plain) → (fs.map (·.name)).Nodup → (∀ t ∈ r.tests, ∀ f ∈ fs, t.name ≠ f.name) →
    fs.foldl Found.fn r = ⟨r.tests ++ declared fs, r.err⟩
  | [], r, _, _, _ => by simp [declared]
  | f :: fs, r, hp, hn, ht => by
    simp only [List.map_cons, List.nodup_cons] at hn
    rw [List.foldl_cons, fn_plain (hp f (by simp)) (fun t h => ht t h f (by simp)),
      foldl_plain (fun g hg => hp g (by simp [hg])) hn.2 ?_]
    · simp [declared]
    · intro t h g hg
      rcases List.mem_append.mp h with h | h
      · exact ht t h g (by simp [hg])
      · obtain ⟨f', hf', _, rfl⟩ := declared_name h
        simp only [List.mem_singleton] at hf'
        subst hf'
        intro e
        exact hn.1 (List.mem_map.mpr ⟨g, hg, e.symm⟩)

/-- In a file with one module whose attributes are plain, the tests are those that are declared. -/
theorem fileTests_plain {m : SMod} (hp : ∀ f ∈ m.funs, f.Plain) (hn : (m.funs.map (·.name)).Nodup) : fileTests [m] = some (declared m.funs) := by
  simp only [fileTests, List.flatMap_cons, List.flatMap_nil, List.append_nil]
  rw [foldl_plain hp hn (fun t h => by cases h)]
  simp

/-! ### Runs have one result -/

theorem Finishes.det {f : Fn} {b b' : Bool} (h : Finishes f σ b) (h' : Finishes f σ b') : b = b' := by
  obtain ⟨-, n, h1, h2⟩ := h.2.and h'.2
  revert h2
  cases run n f.body [] ([] ++ List.replicate f.nl 0) σ with
  | ok => rintro ⟨h3, h4⟩; exact h3.symm.trans h4
  | br k => cases k with
    | zero => rintro ⟨h3, h4⟩; exact h3.symm.trans h4
    | succ k => exact False.elim
  | ret => rintro ⟨h3, h4⟩; exact h3.symm.trans h4
  | trap => exact False.elim
  | oof => exact False.elim

theorem Finishes.safe {f : Fn} {b : Bool} (h : Finishes f σ b) : ¬ Crashes f σ := by
  rintro (h1 | h1 | h1)
  · exact h1 h.2.1.symm
  · exact h1 h.1
  · obtain ⟨n, h2, h3, h4⟩ := wp_and h.2.2 h1.2
    rw [h4] at h3
    exact h3

/-- If every test finishes, the report is determined. -/
theorem runTests_all {out : String → Bool} : ∀ {ts : List TestFn}, (∀ t ∈ ts, ∃ f, ex t.name = some f ∧ Finishes f σ (out t.name)) →
    RunTests ex σ ts (some (ts.map (fun t => (t.name, out t.name == t.expect)))) ∧
    ∀ r, RunTests ex σ ts r → r = some (ts.map (fun t => (t.name, out t.name == t.expect)))
  | [], _ => ⟨.nil, fun r h => by cases h; rfl⟩
  | t :: ts, h => by
    obtain ⟨f, hf, hd⟩ := h t (by simp)
    obtain ⟨h1, h2⟩ := runTests_all (ts := ts) (fun t ht => h t (by simp [ht]))
    refine ⟨.done hf hd h1, ?_⟩
    intro r hr
    cases hr with
    | missing he => rw [hf] at he; cases he
    | crash he hc => rw [hf] at he; cases he; exact absurd hc hd.safe
    | done he hd' hr' =>
      rw [hf] at he
      cases he
      rw [← hd.det hd', h2 _ hr']
      rfl

/-- The lines for a module. -/
def linesOf (tests : TUnit → List TestFn) (out : TUnit → String → Bool) (u : TUnit) : List (String × String × Bool) :=
  (tests u).map (fun t => (u.name, t.name, out u t.name == t.expect))

/-- Whether some test of a module fails. -/
def bad (tests : TUnit → List TestFn) (out : TUnit → String → Bool) (u : TUnit) : Bool := (tests u).any (fun t => !(out u t.name == t.expect))

/-- The whole report. -/
def fullReport (tests : TUnit → List TestFn) (out : TUnit → String → Bool) : List TUnit → Bool → TRes
  | [], b => .report [] b
  | _ :: us, true => fullReport tests out us true
  | u :: us, false => (fullReport tests out us (bad tests out u)).before (linesOf tests out u)

theorem TRes.before_nil (r : TRes) : r.before [] = r := by cases r <;> rfl

theorem runMods_all {out : TUnit → String → Bool} : ∀ {us : List TUnit} {b : Bool},
    (∀ u ∈ us, ∀ t ∈ tests u, ∃ f, u.export (tests u) t.name = some f ∧ Finishes f (σs u) (out u t.name)) →
    RunMods tests σs us b (fullReport tests out us b) ∧ ∀ r, RunMods tests σs us b r → r = fullReport tests out us b
  | [], b, _ => ⟨.nil, fun r h => by cases h; rfl⟩
  | u :: us, true, h => by
    obtain ⟨h1, h2⟩ := runMods_all (us := us) (b := true) (fun v hv => h v (by simp [hv]))
    refine ⟨.skip (.inr rfl) h1, ?_⟩
    intro r hr
    cases hr with
    | skip _ hr => exact h2 _ hr
  | u :: us, false, h => by
    obtain ⟨h3, h4⟩ := runTests_all (h u (by simp))
    have e1 : ((tests u).map (fun t => (t.name, out u t.name == t.expect))).any (fun l => !l.2) = bad tests out u := by
      simp [bad, List.any_map, Function.comp_def]
    have e2 : ((tests u).map (fun t => (t.name, out u t.name == t.expect))).map (fun l => (u.name, l.1, l.2)) = linesOf tests out u := by
      simp [linesOf]
    obtain ⟨h1, h2⟩ := runMods_all (us := us) (b := bad tests out u) (fun v hv => h v (by simp [hv]))
    by_cases he : tests u = []
    · have hb : bad tests out u = false := by simp [bad, he]
      have hl : linesOf tests out u = [] := by simp [linesOf, he]
      rw [hb] at h1 h2
      rw [fullReport, hb, hl, TRes.before_nil]
      refine ⟨.skip (.inl he) h1, ?_⟩
      intro r hr
      cases hr with
      | skip _ hr => exact h2 _ hr
      | panic hn _ => exact absurd he hn
      | run hn _ _ => exact absurd he hn
    · constructor
      · have := RunMods.run he h3 (by rw [e1]; exact h1)
        rw [e2] at this
        exact this
      · intro r hr
        cases hr with
        | skip hs hr => rcases hs with hs | hs; exact absurd hs he; cases hs
        | panic _ hr => cases h4 _ hr
        | run _ hl hr =>
          cases h4 _ hl
          rw [e1] at hr
          rw [e2, h2 _ hr]
          rfl

/-- What the report says. -/
theorem fullReport_spec {out : TUnit → String → Bool} : ∀ {us : List TUnit} {b : Bool}, ∃ lines failed, fullReport tests out us b = .report lines failed ∧
    (failed = true ↔ b = true ∨ ∃ u ∈ us, bad tests out u = true) ∧
    (∀ l ∈ lines, ∃ u ∈ us, l ∈ linesOf tests out u) ∧
    (failed = false → ∀ u ∈ us, ∀ l ∈ linesOf tests out u, l ∈ lines) ∧
    (failed = true → b = true ∨ ∃ u ∈ us, bad tests out u = true ∧ ∀ l ∈ linesOf tests out u, l ∈ lines)
  | [], b => ⟨[], b, rfl, by simp, by simp, by simp, fun h => .inl h⟩
  | u :: us, true => by
    obtain ⟨lines, failed, h1, h2, h3, h4, h5⟩ := fullReport_spec (us := us) (b := true)
    have hf : failed = true := h2.mpr (.inl rfl)
    refine ⟨lines, failed, h1, by simp [hf], ?_, by simp [hf], fun _ => .inl rfl⟩
    intro l hl
    obtain ⟨v, hv, h⟩ := h3 l hl
    exact ⟨v, by simp [hv], h⟩
  | u :: us, false => by
    obtain ⟨lines, failed, h1, h2, h3, h4, h5⟩ := fullReport_spec (us := us) (b := bad tests out u)
    refine ⟨linesOf tests out u ++ lines, failed, by rw [fullReport, h1]; rfl, ?_, ?_, ?_, ?_⟩
    · rw [h2]; simp
    · intro l hl
      rcases List.mem_append.mp hl with hl | hl
      · exact ⟨u, by simp, hl⟩
      · obtain ⟨v, hv, h⟩ := h3 l hl
        exact ⟨v, by simp [hv], h⟩
    · intro hf v hv l hl
      rcases List.mem_cons.mp hv with rfl | hv
      · simp [hl]
      · exact List.mem_append.mpr (.inr (h4 hf v hv l hl))
    · intro hf
      rcases h5 hf with hb | ⟨v, hv, hb, h⟩
      · exact .inr ⟨u, by simp, hb, fun l hl => by simp [hl]⟩
      · exact .inr ⟨v, by simp [hv], hb, fun l hl => List.mem_append.mpr (.inr (h l hl))⟩

/-- Modules with different paths are all visited. -/
theorem pathMods_nodup {us : List TUnit} (h : (us.map (·.path)).Nodup) : pathMods us = us := by
  have key : ∀ (us acc : List TUnit), ((acc ++ us).map (·.path)).Nodup →
      us.foldl (fun m u => m.filter (fun v => v.path ≠ u.path) ++ [u]) acc = acc ++ us := by
    intro us
    induction us with
    | nil => simp
    | cons u us ih =>
      intro acc h
      rw [List.foldl_cons]
      have hf : acc.filter (fun v => decide (v.path ≠ u.path)) = acc := by
        rw [List.filter_eq_self]
        intro v hv
        simp only [List.map_append, List.map_cons] at h
        have := (List.nodup_append.mp h).2.2 v.path (List.mem_map.mpr ⟨v, hv, rfl⟩) u.path (by simp)
        simpa using this
      rw [hf, ih (acc ++ [u]) (by simpa using h)]
      simp
  exact key us [] (by simpa using h)

end TestRun
