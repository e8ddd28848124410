import Verif.Rt.Build

/-!
C111: `move-stylus build` makes a file for every module of the package, compiled with the data of all
modules it depends on, or reports the errors of the sources.
-/

namespace Props.Pkg
open Build

/-- The module with this id. -/
def look (P : Package) (d : MId) : Option CUnit := (P.deps ++ P.roots).find? (·.id = d)

/-- `x` is `d` or a module that `d` depends on, directly or not. -/
inductive Needs (P : Package) : MId → MId → Prop where
  | self {d u} : look P d = some u → Needs P d d
  | dep {d u e x} : look P d = some u → e ∈ u.deps → Needs P e x → Needs P d x

/-- The errors of the source of a module. -/
def errorsOf (P : Package) (d : MId) : List String := ((look P d).map (·.errors)).getD []

/-- Neither the module nor any module it depends on has errors. -/
def Clean (P : Package) (d : MId) : Prop :=
  (∃ u, look P d = some u) ∧ ∀ x, Needs P d x → errorsOf P x = []

/-- No module that `x` depends on has errors. -/
def CleanDeps (P : Package) (x : MId) : Prop :=
  ∀ u, look P x = some u → ∀ e ∈ u.deps, Clean P e

/-- What the Move compiler guarantees: ids are unique; the dependencies of a dependency are dependencies,
those of a module of the package dependencies or modules of the package that come before it; there are no
cycles (`rank`). -/
structure Sound (P : Package) (rank : MId → Nat) : Prop where
  unique : ((P.deps ++ P.roots).map (·.id)).Nodup
  deps : ∀ u ∈ P.deps, ∀ e ∈ u.deps, (∃ v ∈ P.deps, v.id = e) ∧ rank e < rank u.id
  roots : ∀ l r l', P.roots = l ++ r :: l' → ∀ e ∈ r.deps,
    ((∃ v ∈ P.deps, v.id = e) ∨ ∃ v ∈ l, v.id = e) ∧ rank e < rank r.id

/-! ### Looking up modules -/

theorem find_unique {l : List CUnit} {u : CUnit} (h : (l.map (·.id)).Nodup) (hu : u ∈ l) :
    l.find? (·.id = u.id) = some u := by
  induction l with
  | nil => simp at hu
  | cons a l ih =>
    simp only [List.map_cons, List.nodup_cons] at h
    rcases List.mem_cons.1 hu with rfl | hu
    · simp
    · have hne : a.id ≠ u.id := fun e => h.1 (e ▸ List.mem_map_of_mem hu)
      simp [hne, ih h.2 hu]

section
variable {P : Package} {rank : MId → Nat} (hP : Sound P rank)
include hP

theorem find_mem {u : CUnit} (h : u ∈ P.deps ++ P.roots) : look P u.id = some u :=
  find_unique hP.unique h

theorem find_dep {u : CUnit} (h : u ∈ P.deps) : P.deps.find? (·.id = u.id) = some u := by
  refine find_unique ?_ h
  have := hP.unique
  rw [List.map_append, List.nodup_append] at this
  exact this.1

omit hP in
theorem find_id {d u} (h : look P d = some u) : u.id = d ∧ u ∈ P.deps ++ P.roots := by
  have h1 := List.find?_some h
  exact ⟨by simpa using h1, List.mem_of_find?_eq_some h⟩

/-- Dependencies have lower rank. -/
theorem dep_rank {d u e} (h : look P d = some u) (he : e ∈ u.deps) : rank e < rank d := by
  obtain ⟨rfl, hm⟩ := find_id h
  rcases List.mem_append.1 hm with hm | hm
  · exact (hP.deps u hm e he).2
  · obtain ⟨l, l', hl⟩ := List.append_of_mem hm
    exact (hP.roots l u l' hl e he).2

theorem needs_rank {d x} (h : Needs P d x) : rank x ≤ rank d := by
  induction h with
  | self _ => exact Nat.le_refl _
  | dep h he _ ih => exact Nat.le_of_lt (Nat.lt_of_le_of_lt ih (dep_rank hP h he))

theorem clean_iff {d u} (h : look P d = some u) :
    Clean P d ↔ u.errors = [] ∧ ∀ e ∈ u.deps, Clean P e := by
  constructor
  · rintro ⟨-, hc⟩
    refine ⟨by simpa [errorsOf, h] using hc d (.self h), fun e he => ⟨?_, fun x hx => hc x (.dep h he hx)⟩⟩
    obtain ⟨rfl, hm⟩ := find_id h
    rcases List.mem_append.1 hm with hm | hm
    · obtain ⟨⟨v, hv, rfl⟩, -⟩ := hP.deps u hm e he
      exact ⟨v, find_mem hP (List.mem_append_left _ hv)⟩
    · obtain ⟨l, l', hl⟩ := List.append_of_mem hm
      rcases (hP.roots l u l' hl e he).1 with ⟨v, hv, rfl⟩ | ⟨v, hv, rfl⟩
      · exact ⟨v, find_mem hP (List.mem_append_left _ hv)⟩
      · exact ⟨v, find_mem hP (List.mem_append_right _ (by rw [hl]; exact List.mem_append_left _ hv))⟩
  · rintro ⟨h1, h2⟩
    refine ⟨⟨u, h⟩, fun x hx => ?_⟩
    cases hx with
    | self _ => simpa [errorsOf, h] using h1
    | dep h' he hx =>
      rw [h] at h'
      cases h'
      exact (h2 _ he).2 x hx

end

/-! ### The dependencies -/

/-- All modules whose data are there have no errors, and the data of the modules they depend on are there. -/
structure Done (P : Package) (data : List MId) : Prop where
  clean : ∀ x ∈ data, Clean P x
  closed : ∀ x ∈ data, ∀ u, look P x = some u → ∀ e ∈ u.deps, e ∈ data

/-- What the loop over `deps` has done, `acc` apart. -/
structure Did (P : Package) (data deps data' : List MId) (es : List String) : Prop where
  done : Done P data'
  sub : ∀ x ∈ data, x ∈ data'
  new : ∀ x ∈ data', x ∈ data ∨ ∃ d ∈ deps, Needs P d x
  got : ∀ d ∈ deps, Clean P d → d ∈ data'
  errors : es = [] ↔ ∀ d ∈ deps, Clean P d
  right : ∀ e ∈ es, ∃ d ∈ deps, ∃ x, Needs P d x ∧ e ∈ errorsOf P x
  all : ∀ d ∈ deps, ∀ x, Needs P d x → CleanDeps P x → ∀ e ∈ errorsOf P x, e ∈ es

theorem needs_done {P data d x} (h : Done P data) (hd : d ∈ data) (hn : Needs P d x) : x ∈ data := by
  induction hn with
  | self _ => exact hd
  | dep h' he _ ih => exact ih (h.closed _ hd _ h' _ he)

theorem Did.nil {P data} (h : Done P data) : Did P data [] data [] where
  done := h
  sub _ hx := hx
  new _ hx := .inl hx
  got _ h := by simp at h
  errors := by simp
  right := by simp
  all := by simp

/-- Two loops one after the other. -/
theorem Did.append {P data deps data1 es1 deps2 data2 es2} (h1 : Did P data deps data1 es1)
    (h2 : Did P data1 deps2 data2 es2) : Did P data (deps ++ deps2) data2 (es1 ++ es2) where
  done := h2.done
  sub x hx := h2.sub x (h1.sub x hx)
  new x hx := by
    rcases h2.new x hx with hx | ⟨d, hd, hn⟩
    · rcases h1.new x hx with hx | ⟨d, hd, hn⟩
      · exact .inl hx
      · exact .inr ⟨d, List.mem_append_left _ hd, hn⟩
    · exact .inr ⟨d, List.mem_append_right _ hd, hn⟩
  got d hd hc := by
    rcases List.mem_append.1 hd with hd | hd
    · exact h2.sub d (h1.got d hd hc)
    · exact h2.got d hd hc
  errors := by
    rw [List.append_eq_nil_iff, h1.errors, h2.errors]
    simp [or_imp, forall_and]
  right e he := by
    rcases List.mem_append.1 he with he | he
    · obtain ⟨d, hd, h⟩ := h1.right e he; exact ⟨d, List.mem_append_left _ hd, h⟩
    · obtain ⟨d, hd, h⟩ := h2.right e he; exact ⟨d, List.mem_append_right _ hd, h⟩
  all d hd x hx hc e he := by
    rcases List.mem_append.1 hd with hd | hd
    · exact List.mem_append_left _ (h1.all d hd x hx hc e he)
    · exact List.mem_append_right _ (h2.all d hd x hx hc e he)

/-- A module that is there already. -/
theorem Did.cached {P data d} (h : Done P data) (hd : d ∈ data) : Did P data [d] data [] where
  done := h
  sub _ hx := hx
  new _ hx := .inl hx
  got _ hx _ := by simpa using (List.mem_singleton.1 hx) ▸ hd
  errors := by simpa using h.clean d hd
  right := by simp
  all d' hd' x hx _ e he := by
    obtain rfl := List.mem_singleton.1 hd'
    have := (h.clean _ (needs_done h hd hx)).2 x
    obtain ⟨u, hu⟩ := (h.clean _ (needs_done h hd hx)).1
    rw [this (.self hu)] at he
    cases he

section
variable {P : Package} {rank : MId → Nat} (hP : Sound P rank)
include hP

/-- A module whose dependencies have errors. -/
theorem Did.badDeps {data d u data' es} (hf : look P d = some u) (h : Did P data u.deps data' es)
    (he : es ≠ []) : Did P data [d] data' es where
  done := h.done
  sub := h.sub
  new x hx := (h.new x hx).imp_right fun ⟨e, he, hn⟩ => ⟨d, List.mem_singleton.2 rfl, .dep hf he hn⟩
  got x hx hc := by
    obtain rfl := List.mem_singleton.1 hx
    exact absurd (h.errors.2 ((clean_iff hP hf).1 hc).2) he
  errors := by
    refine iff_of_false he fun hc => he (h.errors.2 ((clean_iff hP hf).1 (hc d (List.mem_singleton.2 rfl))).2)
  right e he := by
    obtain ⟨d', hd', x, hx, hex⟩ := h.right e he
    exact ⟨d, List.mem_singleton.2 rfl, x, .dep hf hd' hx, hex⟩
  all x hx y hy hc e hey := by
    obtain rfl := List.mem_singleton.1 hx
    cases hy with
    | self _ => exact absurd (h.errors.2 (hc u hf)) he
    | dep hf' hd hy =>
      rw [hf] at hf'
      cases hf'
      exact h.all _ hd y hy hc e hey

/-- A module with errors, whose dependencies have none. -/
theorem Did.bad {data d u data'} (hf : look P d = some u) (h : Did P data u.deps data' [])
    (he : u.errors ≠ []) : Did P data [d] data' u.errors where
  done := h.done
  sub := h.sub
  new x hx := (h.new x hx).imp_right fun ⟨e, he, hn⟩ => ⟨d, List.mem_singleton.2 rfl, .dep hf he hn⟩
  got x hx hc := by
    obtain rfl := List.mem_singleton.1 hx
    exact absurd ((clean_iff hP hf).1 hc).1 he
  errors := iff_of_false he fun hc => he ((clean_iff hP hf).1 (hc d (List.mem_singleton.2 rfl))).1
  right e he := ⟨d, List.mem_singleton.2 rfl, d, .self hf, by simpa [errorsOf, hf] using he⟩
  all x hx y hy hc e hey := by
    obtain rfl := List.mem_singleton.1 hx
    cases hy with
    | self _ => simpa [errorsOf, hf] using hey
    | dep hf' hd hy =>
      rw [hf] at hf'
      cases hf'
      exact absurd (h.all _ hd y hy hc e hey) (by simp)

/-- A module without errors. -/
theorem Did.good {data d u data'} (hf : look P d = some u) (h : Did P data u.deps data' [])
    (he : u.errors = []) : Did P data [d] (d :: data') [] := by
  have hdeps := h.errors.1 rfl
  have hc : Clean P d := (clean_iff hP hf).2 ⟨he, hdeps⟩
  refine ⟨⟨?_, ?_⟩, fun x hx => List.mem_cons_of_mem _ (h.sub x hx), ?_, ?_, ?_, by simp, ?_⟩
  · intro x hx
    rcases List.mem_cons.1 hx with rfl | hx
    · exact hc
    · exact h.done.clean x hx
  · intro x hx v hv e hev
    rcases List.mem_cons.1 hx with rfl | hx
    · rw [hf] at hv
      cases hv
      exact List.mem_cons_of_mem _ (h.got e hev (hdeps e hev))
    · exact List.mem_cons_of_mem _ (h.done.closed x hx v hv e hev)
  · intro x hx
    rcases List.mem_cons.1 hx with rfl | hx
    · exact .inr ⟨x, List.mem_singleton.2 rfl, .self hf⟩
    · exact (h.new x hx).imp_right fun ⟨e, he, hn⟩ => ⟨d, List.mem_singleton.2 rfl, .dep hf he hn⟩
  · intro x hx _
    obtain rfl := List.mem_singleton.1 hx
    exact List.mem_cons_self
  · simpa using hc
  · intro x hx y hy _ e hey
    obtain rfl := List.mem_singleton.1 hx
    rw [hc.2 y hy] at hey
    cases hey

/-- The dependencies are there or are among the dependencies of the package. -/
def Found (P : Package) (data deps : List MId) : Prop := ∀ d ∈ deps, d ∈ data ∨ ∃ v ∈ P.deps, v.id = d

omit hP in
theorem ofErrors_ne {es : List String} (h : es ≠ []) : Out.ofErrors es = .code es := if_neg h

theorem depLoop_spec {n : Nat}
    (ih : ∀ data deps, 0 < n → Done P data → Found P data deps → (∀ d ∈ deps, rank d < n) →
      ∃ data' es, processDeps P.deps n data deps = some (data', .ofErrors es) ∧ Did P data deps data' es) :
    ∀ (deps data : List MId) (acc : List String), Done P data → Found P data deps →
      (∀ d ∈ deps, rank d < n + 1) →
      ∃ data' es, depLoop (processDeps P.deps n) P.deps data acc deps = some (data', .ofErrors (acc ++ es)) ∧
        Did P data deps data' es := by
  intro deps
  induction deps with
  | nil => intro data acc hd _ _; exact ⟨data, [], by simp [depLoop], Did.nil hd⟩
  | cons d ds ihl =>
    intro data acc hdone hfound hrank
    have next : ∀ data1 es1, Did P data [d] data1 es1 → ∃ data' es,
        depLoop (processDeps P.deps n) P.deps data1 (acc ++ es1) ds = some (data', .ofErrors (acc ++ es)) ∧
          Did P data (d :: ds) data' es := by
      intro data1 es1 h1
      obtain ⟨data', es, h2, h3⟩ := ihl data1 (acc ++ es1) h1.done
        (fun x hx => (hfound x (List.mem_cons_of_mem _ hx)).imp_left (h1.sub x))
        (fun x hx => hrank x (List.mem_cons_of_mem _ hx))
      exact ⟨data', es1 ++ es, by rw [h2, List.append_assoc], h1.append h3⟩
    rw [depLoop]
    by_cases hd : d ∈ data
    · rw [if_pos hd]
      simpa using next data [] (Did.cached hdone hd)
    · rw [if_neg hd]
      rcases hfound d List.mem_cons_self with h | ⟨u, hu, hid⟩
      · exact absurd h hd
      subst hid
      rw [find_dep hP hu]
      have hf := find_mem hP (List.mem_append_left P.roots hu)
      have hlt := hrank _ List.mem_cons_self
      have hrec : ∃ data' es, (if u.deps = [] then some (data, Out.ok) else processDeps P.deps n data u.deps) =
          some (data', .ofErrors es) ∧ Did P data u.deps data' es := by
        split
        · rename_i h0
          exact ⟨data, [], rfl, by rw [h0]; exact Did.nil hdone⟩
        · rename_i h0
          refine ih data u.deps ?_ hdone (fun e he => .inr (hP.deps u hu e he).1)
            (fun e he => by have := (hP.deps u hu e he).2; omega)
          obtain ⟨e, he⟩ := List.exists_mem_of_ne_nil _ h0
          have := (hP.deps u hu e he).2
          omega
      obtain ⟨data', es, h1, h2⟩ := hrec
      simp only [h1]
      by_cases hes : es = []
      · subst hes
        rw [show Out.ofErrors [] = .ok from rfl]
        by_cases hue : u.errors = []
        · have hnd : u.id ∉ data' := by
            intro h
            rcases h2.new _ h with h | ⟨e, he, hn⟩
            · exact hd h
            · have := needs_rank hP hn
              have := dep_rank hP hf he
              omega
          have := next _ [] (Did.good hP hf h2 hue)
          rw [List.append_nil] at this
          simpa only [hue, hnd, ne_eq, not_true_eq_false, if_false] using this
        · simpa only [ne_eq, hue, not_false_eq_true, if_true] using next _ _ (Did.bad hP hf h2 hue)
      · rw [ofErrors_ne hes]
        exact next _ _ (Did.badDeps hP hf h2 hes)

theorem processDeps_spec : ∀ (n : Nat) (data deps : List MId), 0 < n → Done P data → Found P data deps →
    (∀ d ∈ deps, rank d < n) →
    ∃ data' es, processDeps P.deps n data deps = some (data', .ofErrors es) ∧ Did P data deps data' es := by
  intro n
  induction n with
  | zero => intro _ _ h; omega
  | succ n ih =>
    intro data deps _ hd hf hr
    simpa [processDeps] using depLoop_spec hP ih deps data [] hd hf hr

/-! ### The modules of the package -/

/-- The files made for the modules `l`: one for each that has no errors. -/
structure Files (P : Package) (l : List CUnit) (files : List (String × Wasm)) : Prop where
  made : ∀ r ∈ l, Clean P r.id → ∃ known, (r.id.name, ⟨r.id, known⟩) ∈ files ∧
    ∀ x, Needs P r.id x → x ≠ r.id → x ∈ known
  only : ∀ f ∈ files, ∃ r ∈ l, f.1 = r.id.name ∧ f.2.id = r.id
  names : (files.map Prod.fst).Nodup

theorem rootLoop_spec {n : Nat} (hn : 0 < n) (hr : ∀ r ∈ P.roots, ∀ d ∈ r.deps, rank d < n)
    (hnames : (P.roots.map (·.id.name)).Nodup)
    (hroots : ∀ r ∈ P.roots, ∀ e ∈ r.deps, (∃ v ∈ P.roots, v.id = e) → Clean P e) :
    ∀ (rs l : List CUnit) (data : List MId) (files : List (String × Wasm)) (errs : List String),
      P.roots = l ++ rs → Did P [] (l.map (·.id)) data errs → Files P l files →
      ∃ data' files' errs', rootLoop n P.deps data files errs rs =
          some (if errs' = [] then .ok files' else .code errs') ∧
        Did P [] (P.roots.map (·.id)) data' errs' ∧ Files P P.roots files' := by
  intro rs
  induction rs with
  | nil =>
    intro l data files errs hl hd hf
    obtain rfl : P.roots = l := by simpa using hl
    exact ⟨data, files, errs, rfl, hd, hf⟩
  | cons r rs ih =>
    intro l data files errs hl hd hf
    have hmem : r ∈ P.roots := by rw [hl]; simp
    have hlook := find_mem hP (List.mem_append_right P.deps hmem)
    have hl' : P.roots = (l ++ [r]) ++ rs := by simpa using hl
    have hname : ∀ v ∈ l, v.id.name ≠ r.id.name := by
      intro v hv
      rw [hl, List.map_append, List.nodup_append] at hnames
      exact hnames.2.2 _ (List.mem_map_of_mem hv) _ (by simp)
    have hfound : Found P data r.deps := by
      intro e he
      rcases (hP.roots l r rs hl e he).1 with h | ⟨v, hv, rfl⟩
      · exact .inr h
      · refine .inl (hd.got _ (List.mem_map_of_mem hv) (hroots r hmem _ he ⟨v, ?_, rfl⟩))
        rw [hl]
        exact List.mem_append_left _ hv
    obtain ⟨data1, es, h1, h2⟩ := processDeps_spec hP n data r.deps hn hd.done hfound (hr r hmem)
    have keep : ¬ Clean P r.id → Files P (l ++ [r]) files := by
      intro hc
      refine ⟨fun v hv hcv => ?_, fun f hf' => ?_, hf.names⟩
      · rcases List.mem_append.1 hv with hv | hv
        · exact hf.made v hv hcv
        · rw [List.mem_singleton.1 hv] at hcv
          exact absurd hcv hc
      · obtain ⟨v, hv, h⟩ := hf.only f hf'
        exact ⟨v, List.mem_append_left _ hv, h⟩
    have step : ∀ {data2 es2}, Did P data [r.id] data2 es2 →
        Did P [] ((l ++ [r]).map (·.id)) data2 (errs ++ es2) := by
      intro data2 es2 h
      simpa using hd.append h
    rw [rootLoop]
    simp only [h1]
    by_cases hes : es = []
    · subst hes
      rw [show Out.ofErrors [] = .ok from rfl]
      by_cases hre : r.errors = []
      · simp only [hre, ne_eq, not_true_eq_false, if_false]
        have hg := Did.good hP hlook h2 hre
        have hc : Clean P r.id := (clean_iff hP hlook).2 ⟨hre, h2.errors.1 rfl⟩
        have hfil : files.filter (fun f => f.1 ≠ r.id.name) = files := by
          rw [List.filter_eq_self]
          intro f hf'
          obtain ⟨v, hv, h, -⟩ := hf.only f hf'
          simpa [h] using hname v hv
        rw [hfil]
        refine ih (l ++ [r]) _ _ errs hl' (by simpa using step hg) ⟨fun v hv hcv => ?_, fun f hf' => ?_, ?_⟩
        · rcases List.mem_append.1 hv with hv | hv
          · obtain ⟨k, hk, h⟩ := hf.made v hv hcv
            exact ⟨k, List.mem_cons_of_mem _ hk, h⟩
          · obtain rfl := List.mem_singleton.1 hv
            refine ⟨data1, List.mem_cons_self, fun x hx hne => ?_⟩
            cases hx with
            | self _ => exact absurd rfl hne
            | dep hl2 he hx =>
              rw [hlook] at hl2
              cases hl2
              exact needs_done h2.done (h2.got _ he (h2.errors.1 rfl _ he)) hx
        · rcases List.mem_cons.1 hf' with rfl | hf'
          · exact ⟨r, by simp, rfl, rfl⟩
          · obtain ⟨v, hv, h⟩ := hf.only f hf'
            exact ⟨v, List.mem_append_left _ hv, h⟩
        · rw [List.map_cons, List.nodup_cons]
          refine ⟨fun h => ?_, hf.names⟩
          obtain ⟨f, hf', h⟩ := List.mem_map.1 h
          obtain ⟨v, hv, h', -⟩ := hf.only f hf'
          exact hname v hv (h'.symm.trans h)
      · simp only [ne_eq, hre, not_false_eq_true, if_true]
        exact ih (l ++ [r]) _ _ _ hl' (step (Did.bad hP hlook h2 hre))
          (keep fun hc => hre ((clean_iff hP hlook).1 hc).1)
    · rw [ofErrors_ne hes]
      exact ih (l ++ [r]) _ _ _ hl' (step (Did.badDeps hP hlook h2 hes))
        (keep fun hc => hes (h2.errors.2 ((clean_iff hP hlook).1 hc).2))

end

/-- A bound on a function over a list. -/
theorem bound {α} (f : α → Nat) (l : List α) : ∃ N, ∀ x ∈ l, f x < N := by
  induction l with
  | nil => exact ⟨0, by simp⟩
  | cons a l ih =>
    obtain ⟨N, h⟩ := ih
    refine ⟨N + f a + 1, fun x hx => ?_⟩
    rcases List.mem_cons.1 hx with rfl | hx
    · omega
    · have := h x hx; omega

end Props.Pkg

namespace Props
open Build Pkg

/-- **C111 (partial).**  For every package as the Move compiler gives it (`Sound`) with modules of different
names, in which no module uses a module of the package that has errors or needs a module that has:
- if no module has errors, the build ends with exactly one file per module of the package, named after it and
  compiled from it with the data of all modules it needs;
- otherwise the build ends with a list of errors; it is not empty, each is an error of a module that the
  package needs, and all errors of a needed module are listed if the modules it uses have none.
Missing: the errors of the other modules are not reported until those are corrected (the code skips such
modules), and what is false: `C111_false_ice`, `C111_false_names`, `C111_false_twice`, `C111_false_single`. -/
theorem C111_partial (P : Package) (rank : MId → Nat) (hP : Sound P rank) (hne : P.roots ≠ [])
    (hnames : (P.roots.map (·.id.name)).Nodup)
    (hroots : ∀ r ∈ P.roots, ∀ e ∈ r.deps, (∃ v ∈ P.roots, v.id = e) → Clean P e) :
    ∃ N, ∀ n ≥ N,
      ((∀ r ∈ P.roots, Clean P r.id) → ∃ files, translatePackage n P = some (.ok files) ∧
        (∀ r ∈ P.roots, ∃ known, (r.id.name, ⟨r.id, known⟩) ∈ files ∧
          ∀ x, Needs P r.id x → x ≠ r.id → x ∈ known) ∧
        (∀ f ∈ files, ∃ r ∈ P.roots, f.1 = r.id.name ∧ f.2.id = r.id) ∧
        (files.map Prod.fst).Nodup) ∧
      ((∃ r ∈ P.roots, ¬ Clean P r.id) → ∃ es, translatePackage n P = some (.code es) ∧ es ≠ [] ∧
        (∀ e ∈ es, ∃ r ∈ P.roots, ∃ x, Needs P r.id x ∧ e ∈ errorsOf P x) ∧
        ∀ r ∈ P.roots, ∀ x, Needs P r.id x → CleanDeps P x → ∀ e ∈ errorsOf P x, e ∈ es) := by
  obtain ⟨N, hN⟩ := bound rank (P.roots.flatMap (·.deps))
  refine ⟨N + 1, fun n hn => ?_⟩
  have hr : ∀ r ∈ P.roots, ∀ d ∈ r.deps, rank d < n := fun r hr d hd => by
    have := hN d (List.mem_flatMap.2 ⟨r, hr, hd⟩)
    omega
  obtain ⟨data, files, errs, h1, h2, h3⟩ := rootLoop_spec hP (n := n) (by omega) hr hnames hroots P.roots [] [] []
    [] rfl (Did.nil ⟨by simp, by simp⟩) ⟨by simp, by simp, by simp⟩
  have herr := h2.errors
  simp only [List.mem_map, forall_exists_index, and_imp, forall_apply_eq_imp_iff₂] at herr
  rw [show translatePackage n P = some (if errs = [] then .ok files else .code errs) from
    (if_neg hne).trans h1]
  constructor
  · intro hc
    refine ⟨files, by rw [if_pos (herr.2 hc)], fun r hr => h3.made r hr (hc r hr), h3.only, h3.names⟩
  · rintro ⟨r, hr, hc⟩
    have he : errs ≠ [] := fun h => hc (herr.1 h r hr)
    refine ⟨errs, by rw [if_neg he], he, fun e h => ?_, fun r hr x hx => h2.all _ (List.mem_map_of_mem hr) x hx⟩
    obtain ⟨d, hd, x, hx⟩ := h2.right e h
    obtain ⟨r, hr, rfl⟩ := List.mem_map.1 hd
    exact ⟨r, hr, x, hx⟩

/-! ### A package -/

/-- Modules of the package are at address 1, those of the framework at 2. -/
def coinDeps : List CUnit :=
  [{ id := ⟨2, "object"⟩ }, { id := ⟨2, "event"⟩ }, { id := ⟨2, "balance"⟩, deps := [⟨2, "object"⟩] }]

/-- `shop` uses `coin`; both use the framework. -/
def coinShop : Package where
  deps := coinDeps
  roots := [{ id := ⟨1, "coin"⟩, deps := [⟨2, "balance"⟩, ⟨2, "object"⟩] },
    { id := ⟨1, "shop"⟩, deps := [⟨1, "coin"⟩, ⟨2, "event"⟩] }]

/-- The same with errors in the framework's `balance`, and a module without errors. -/
def coinBroken : Package where
  deps := [{ id := ⟨2, "object"⟩ }, { id := ⟨2, "event"⟩, errors := ["bad event"] },
    { id := ⟨2, "balance"⟩, deps := [⟨2, "object"⟩], errors := ["bad struct", "bad key"] }]
  roots := [{ id := ⟨1, "coin"⟩, deps := [⟨2, "balance"⟩, ⟨2, "object"⟩] },
    { id := ⟨1, "shop"⟩, deps := [⟨2, "object"⟩] }]

/-- The depth of the modules above. -/
def coinRank (d : MId) : Nat :=
  if d.name = "shop" then 3 else if d.name = "coin" then 2 else if d.name = "balance" then 1 else 0

theorem two_split {α} {a b r : α} {l l' : List α} (h : [a, b] = l ++ r :: l') :
    (l = [] ∧ r = a) ∨ (l = [a] ∧ r = b) := by
  rcases l with _ | ⟨c, _ | ⟨d, l⟩⟩ <;> simp_all

theorem coinShop_sound : Sound coinShop coinRank where
  unique := by decide
  deps := by decide
  roots l r l' h := by
    rcases two_split h with ⟨rfl, rfl⟩ | ⟨rfl, rfl⟩ <;> decide

theorem coinBroken_sound : Sound coinBroken coinRank where
  unique := by decide
  deps := by decide
  roots l r l' h := by
    rcases two_split h with ⟨rfl, rfl⟩ | ⟨rfl, rfl⟩ <;> decide

/-- A package without errors has only modules without errors. -/
theorem clean_of_no_errors {P : Package} {d u} (hd : look P d = some u)
    (h : ∀ v ∈ P.deps ++ P.roots, v.errors = []) : Clean P d := by
  refine ⟨⟨u, hd⟩, fun x _ => ?_⟩
  rcases hx : look P x with _ | v
  · simp [errorsOf, hx]
  · simpa [errorsOf, hx] using h v (find_id hx).2

theorem coin_clean : Clean coinShop ⟨1, "coin"⟩ :=
  clean_of_no_errors (u := { id := ⟨1, "coin"⟩, deps := [⟨2, "balance"⟩, ⟨2, "object"⟩] }) (by decide) (by decide)

/-- `coinShop` meets the hypotheses of `C111_partial` and is in its first case. -/
example : Sound coinShop coinRank ∧ coinShop.roots ≠ [] ∧ (coinShop.roots.map (·.id.name)).Nodup ∧
    (∀ r ∈ coinShop.roots, ∀ e ∈ r.deps, (∃ v ∈ coinShop.roots, v.id = e) → Clean coinShop e) ∧
    (∀ r ∈ coinShop.roots, Clean coinShop r.id) ∧
    translatePackage 5 coinShop = some (.ok
      [("shop", ⟨⟨1, "shop"⟩, [⟨2, "event"⟩, ⟨1, "coin"⟩, ⟨2, "balance"⟩, ⟨2, "object"⟩]⟩),
       ("coin", ⟨⟨1, "coin"⟩, [⟨2, "balance"⟩, ⟨2, "object"⟩]⟩)]) := by
  refine ⟨coinShop_sound, by decide, by decide, ?_, ?_, by decide⟩
  · intro r hr e he hv
    have : ∀ r ∈ coinShop.roots, ∀ e ∈ r.deps, (∃ v ∈ coinShop.roots, v.id = e) → e = ⟨1, "coin"⟩ := by decide
    rw [this r hr e he hv]
    exact coin_clean
  · intro r hr
    exact clean_of_no_errors (find_mem coinShop_sound (List.mem_append_right _ hr)) (by decide)

/-- `coinBroken` meets the hypotheses of `C111_partial` and is in its second case. -/
example : Sound coinBroken coinRank ∧ coinBroken.roots ≠ [] ∧ (coinBroken.roots.map (·.id.name)).Nodup ∧
    (∀ r ∈ coinBroken.roots, ∀ e ∈ r.deps, (∃ v ∈ coinBroken.roots, v.id = e) → Clean coinBroken e) ∧
    (∃ r ∈ coinBroken.roots, ¬ Clean coinBroken r.id) ∧
    translatePackage 5 coinBroken = some (.code ["bad struct", "bad key"]) := by
  refine ⟨coinBroken_sound, by decide, by decide, ?_, ?_, by decide⟩
  · intro r hr e he hv
    have : ∀ r ∈ coinBroken.roots, ∀ e ∈ r.deps, ¬ ∃ v ∈ coinBroken.roots, v.id = e := by decide
    exact absurd hv (this r hr e he)
  · refine ⟨{ id := ⟨1, "coin"⟩, deps := [⟨2, "balance"⟩, ⟨2, "object"⟩] }, by decide, fun h => ?_⟩
    have hb : Needs coinBroken ⟨2, "balance"⟩ ⟨2, "balance"⟩ :=
      .self (u := ⟨⟨2, "balance"⟩, [⟨2, "object"⟩], ["bad struct", "bad key"]⟩) (by decide)
    have := h.2 _ (.dep (u := ⟨⟨1, "coin"⟩, [⟨2, "balance"⟩, ⟨2, "object"⟩], []⟩) (by decide) (by decide) hb)
    exact absurd this (by decide)

/-! ### What is false -/

/-- `coin` has an error and `shop` uses it. -/
def coinWrong : Package where
  deps := coinDeps
  roots := [{ id := ⟨1, "coin"⟩, deps := [⟨2, "object"⟩], errors := ["bad event"] },
    { id := ⟨1, "shop"⟩, deps := [⟨1, "coin"⟩] }]

/-- **C111 is false: internal errors.**  An error in a module of the package is not reported if another module
of the package uses the module: the build ends with an internal error, "could not find dependency". -/
theorem C111_false_ice : Sound coinWrong coinRank ∧ (coinWrong.roots.map (·.id.name)).Nodup ∧
    errorsOf coinWrong ⟨1, "coin"⟩ = ["bad event"] ∧
    ∀ n, translatePackage (n + 1) coinWrong = some (.ice (.notFound "coin")) := by
  refine ⟨⟨by decide, by decide, fun l r l' h => ?_⟩, by decide, by decide, fun n => ?_⟩
  · rcases two_split h with ⟨rfl, rfl⟩ | ⟨rfl, rfl⟩ <;> decide
  · simp [translatePackage, translate, coinWrong, coinDeps, rootLoop, processDeps, depLoop, Out.ofErrors]

/-- Modules of the same name at two addresses. -/
def twoCoins : Package where
  deps := coinDeps
  roots := [{ id := ⟨1, "coin"⟩, deps := [⟨2, "object"⟩] }, { id := ⟨3, "coin"⟩, deps := [⟨2, "event"⟩] }]

/-- **C111 is false: names.**  Of two modules of the same name at different addresses one has no file, and
nothing is reported. -/
theorem C111_false_names : Sound twoCoins coinRank ∧ (∀ r ∈ twoCoins.roots, Clean twoCoins r.id) ∧
    ∀ n, ∃ files, translatePackage (n + 1) twoCoins = some (.ok files) ∧
      ∀ f ∈ files, f.2.id ≠ ⟨1, "coin"⟩ := by
  have hs : Sound twoCoins coinRank := by
    refine ⟨by decide, by decide, fun l r l' h => ?_⟩
    rcases two_split h with ⟨rfl, rfl⟩ | ⟨rfl, rfl⟩ <;> decide
  refine ⟨hs, fun r hr => clean_of_no_errors (find_mem hs (List.mem_append_right _ hr)) (by decide), fun n =>
    ⟨[("coin", ⟨⟨3, "coin"⟩, [⟨2, "event"⟩, ⟨1, "coin"⟩, ⟨2, "object"⟩]⟩)], ?_, by decide⟩⟩
  simp [translatePackage, translate, twoCoins, coinDeps, rootLoop, processDeps, depLoop, Out.ofErrors]

/-- A module of the framework with an error, used by both modules of the package. -/
def badObject : Package where
  deps := [{ id := ⟨2, "object"⟩, errors := ["bad key"] }]
  roots := [{ id := ⟨1, "coin"⟩, deps := [⟨2, "object"⟩] }, { id := ⟨1, "shop"⟩, deps := [⟨2, "object"⟩] }]

/-- **C111 is false: twice.**  The one error of a module is reported once for every module that uses it. -/
theorem C111_false_twice : Sound badObject coinRank ∧ (badObject.roots.map (·.id.name)).Nodup ∧
    errorsOf badObject ⟨2, "object"⟩ = ["bad key"] ∧
    ∀ n, translatePackage (n + 1) badObject = some (.code ["bad key", "bad key"]) := by
  refine ⟨⟨by decide, by decide, fun l r l' h => ?_⟩, by decide, by decide, fun n => ?_⟩
  · rcases two_split h with ⟨rfl, rfl⟩ | ⟨rfl, rfl⟩ <;> decide
  · simp [translatePackage, translate, badObject, rootLoop, processDeps, depLoop, Out.ofErrors]

/-- **C111 is false: one module.**  Translating one module of the package (`translate_single_module`) ends with
an internal error if it uses another module of the package, although nothing is wrong with either. -/
theorem C111_false_single : Sound coinShop coinRank ∧ (∀ r ∈ coinShop.roots, Clean coinShop r.id) ∧
    ∀ n, translate (n + 1) coinShop (some "shop") = some (.ice (.notFound "coin")) := by
  refine ⟨coinShop_sound, fun r hr =>
    clean_of_no_errors (find_mem coinShop_sound (List.mem_append_right _ hr)) (by decide), fun n => ?_⟩
  simp [translate, coinShop, coinDeps, rootLoop, processDeps, depLoop]

end Props
