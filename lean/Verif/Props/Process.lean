import Verif.Rt.Process
import Mathlib.Data.List.Nodup
import Mathlib.Data.List.Basic

/-!
# The processing of the attributes of a file: C114, C115
-/

namespace Props.Proc
open Process Attributes Validate

/-! ### States -/

theorem fail_nil (st : St) : st.fail [] = st := by cases st; simp [St.fail]

theorem fail_found {st : St} {es : List PErr} : (st.fail es).found = false ↔ st.found = false ∧ es = [] := by
  cases es <;> simp [St.fail]

/-- The flag is set if and only if there are errors. -/
def Told (st : St) : Prop := st.found = !st.errors.isEmpty

theorem Told.fail {st : St} (h : Told st) (es : List PErr) : Told (st.fail es) := by
  unfold Told at *
  simp only [St.fail, h]
  cases st.errors <;> cases es <;> simp

theorem foldl_told {α} {step : St → α → St} (hs : ∀ st a, Told st → Told (step st a)) :
    ∀ (l : List α) (st : St), Told st → Told (l.foldl step st)
  | [], _, h => h
  | a :: l, st, h => foldl_told hs l _ (hs st a h)

/-! ### Structs -/

theorem structMod_told (s : SDef) (st : St) (m : SMod) (h : Told st) : Told (structMod s st m) := by
  unfold structMod
  split
  · exact h
  · split
    · split <;> exact h
    · exact h.fail _
  · split
    · exact h.fail _
    · exact h
  · split
    · exact h
    · exact h
    · exact h.fail _

theorem structStep_told (st : St) (s : SDef) (h : Told st) : Told (structStep st s) :=
  foldl_told (fun _ _ h => foldl_told (structMod_told s) _ _ (h.fail _)) _ _ h

/-- What a modifier needs of its struct. -/
def SModOk (s : SDef) : SMod → Prop
  | .external _ _ => True
  | .call => checkCallStruct s = []
  | .event _ _ => s.key = false
  | .abiError => ∃ b, tryAbi s s.groups.flatten = .ok b

theorem structMod_found {s : SDef} {st : St} {m : SMod} :
    (structMod s st m).found = false ↔ st.found = false ∧ SModOk s m := by
  cases m with
  | external a m => simp [structMod, SModOk]
  | call =>
    unfold structMod SModOk
    cases hc : checkCallStruct s with
    | nil => by_cases hn : s.name ∈ st.callStructs <;> simp [hn]
    | cons e es => simp [fail_found]
  | event k an =>
    unfold structMod SModOk
    cases hk : s.key <;> simp [fail_found]
  | abiError =>
    unfold structMod SModOk
    cases ht : tryAbi s s.groups.flatten with
    | error e => simp [fail_found]
    | ok b => cases b <;> simp

theorem structMod_calls {s : SDef} {st : St} {m : SMod} {n : String} :
    n ∈ (structMod s st m).callStructs ↔ n ∈ st.callStructs ∨ (m = .call ∧ checkCallStruct s = [] ∧ n = s.name) := by
  cases m with
  | external a m => simp [structMod]
  | call =>
    unfold structMod
    cases hc : checkCallStruct s with
    | nil =>
      by_cases hn : s.name ∈ st.callStructs
      · simp only [hn, if_true]
        constructor
        · exact .inl
        · rintro (h | ⟨_, _, rfl⟩)
          · exact h
          · exact hn
      · simp [hn, or_comm]
    | cons e es => simp [St.fail]
  | event k an =>
    unfold structMod
    cases hk : s.key <;> simp [St.fail]
  | abiError =>
    unfold structMod
    cases ht : tryAbi s s.groups.flatten with
    | error e => simp [St.fail]
    | ok b => cases b <;> simp

/-- The parts of the state that the loop over structs does not change. -/
def Rest (st st' : St) : Prop :=
  st'.structs = st.structs ∧ st'.tests = st.tests ∧ st'.calls = st.calls ∧ st'.functions = st.functions

theorem Rest.refl (st : St) : Rest st st := ⟨rfl, rfl, rfl, rfl⟩

theorem Rest.trans {a b c : St} (h : Rest a b) (h' : Rest b c) : Rest a c :=
  ⟨h'.1.trans h.1, h'.2.1.trans h.2.1, h'.2.2.1.trans h.2.2.1, h'.2.2.2.trans h.2.2.2⟩

theorem structMod_rest (s : SDef) (st : St) (m : SMod) : Rest st (structMod s st m) := by
  unfold structMod
  split
  · exact ⟨rfl, rfl, rfl, rfl⟩
  · split
    · split <;> exact ⟨rfl, rfl, rfl, rfl⟩
    · exact ⟨rfl, rfl, rfl, rfl⟩
  · split <;> exact ⟨rfl, rfl, rfl, rfl⟩
  · split <;> exact ⟨rfl, rfl, rfl, rfl⟩

theorem structMods_foldl (s : SDef) : ∀ (ms : List SMod) (st : St),
    ((ms.foldl (structMod s) st).found = false ↔ st.found = false ∧ ∀ m ∈ ms, SModOk s m) ∧
    (∀ n, n ∈ (ms.foldl (structMod s) st).callStructs ↔
      n ∈ st.callStructs ∨ (.call ∈ ms ∧ checkCallStruct s = [] ∧ n = s.name)) ∧
    Rest st (ms.foldl (structMod s) st)
  | [], st => by simp [Rest.refl]
  | m :: ms, st => by
    obtain ⟨h1, h2, h3⟩ := structMods_foldl s ms (structMod s st m)
    refine ⟨?_, ?_, (structMod_rest s st m).trans h3⟩
    · simp only [List.foldl_cons, h1, structMod_found, List.forall_mem_cons, and_assoc]
    · intro n
      simp only [List.foldl_cons, h2, structMod_calls, List.mem_cons, eq_comm (a := SMod.call)]
      tauto

theorem structGroup_spec (s : SDef) (st : St) (g : List Attr) :
    ((structGroup s st g).found = false ↔
      st.found = false ∧ (structMods [g]).2 = [] ∧ ∀ m ∈ (structMods [g]).1, SModOk s m) ∧
    (∀ n, n ∈ (structGroup s st g).callStructs ↔
      n ∈ st.callStructs ∨ (.call ∈ (structMods [g]).1 ∧ checkCallStruct s = [] ∧ n = s.name)) ∧
    Rest st (structGroup s st g) := by
  obtain ⟨h1, h2, h3⟩ := structMods_foldl s (structMods [g]).1 (st.fail ((structMods [g]).2.map .attr))
  refine ⟨?_, ?_, ?_⟩
  · unfold structGroup
    rw [h1, fail_found, List.map_eq_nil_iff, and_assoc]
  · exact h2
  · exact h3

theorem structMods_mods (groups : List (List Attr)) :
    (structMods groups).1 = groups.flatMap fun g => (structMods [g]).1 := by
  induction groups with
  | nil => rfl
  | cons g gs ih => simp only [List.flatMap_cons, ← ih]; simp [structMods, List.filterMap_append]

theorem structMods_errs (groups : List (List Attr)) :
    (structMods groups).2 = groups.flatMap fun g => (structMods [g]).2 := by
  induction groups with
  | nil => rfl
  | cons g gs ih => simp only [List.flatMap_cons, ← ih]; simp [structMods, List.filterMap_append]

theorem structGroups_foldl (s : SDef) : ∀ (gs : List (List Attr)) (st : St),
    ((gs.foldl (structGroup s) st).found = false ↔
      st.found = false ∧ (structMods gs).2 = [] ∧ ∀ m ∈ (structMods gs).1, SModOk s m) ∧
    (∀ n, n ∈ (gs.foldl (structGroup s) st).callStructs ↔
      n ∈ st.callStructs ∨ (.call ∈ (structMods gs).1 ∧ checkCallStruct s = [] ∧ n = s.name)) ∧
    Rest st (gs.foldl (structGroup s) st)
  | [], st => by simp [Rest.refl, structMods]
  | g :: gs, st => by
    obtain ⟨h1, h2, h3⟩ := structGroups_foldl s gs (structGroup s st g)
    obtain ⟨g1, g2, g3⟩ := structGroup_spec s st g
    refine ⟨?_, ?_, g3.trans h3⟩
    · rw [List.foldl_cons, h1, g1, structMods_mods (g :: gs), structMods_errs (g :: gs), List.flatMap_cons,
        List.flatMap_cons, ← structMods_mods, ← structMods_errs, List.append_eq_nil_iff, List.forall_mem_append]
      tauto
    · intro n
      rw [List.foldl_cons, h2, g2, structMods_mods (g :: gs), List.flatMap_cons, ← structMods_mods, List.mem_append]
      tauto

/-- What the attributes of a struct need. -/
def StructOk (s : SDef) : Prop := (structMods s.groups).2 = [] ∧ ∀ m ∈ (structMods s.groups).1, SModOk s m

/-- A struct that is marked for the configuration of external calls, and passes the check. -/
def Config (s : SDef) : Prop := .call ∈ (structMods s.groups).1 ∧ checkCallStruct s = []

theorem structs_foldl : ∀ (ss : List SDef) (st : St),
    ((ss.foldl structStep st).found = false ↔ st.found = false ∧ ∀ s ∈ ss, StructOk s) ∧
    (∀ n, n ∈ (ss.foldl structStep st).callStructs ↔ n ∈ st.callStructs ∨ ∃ s ∈ ss, Config s ∧ n = s.name) ∧
    (ss.foldl structStep st).structs = st.structs ++ ss.map (fun s => (s.name, s.key)) ∧
    (ss.foldl structStep st).tests = st.tests ∧ (ss.foldl structStep st).calls = st.calls ∧
    (ss.foldl structStep st).functions = st.functions
  | [], st => by simp
  | s :: ss, st => by
    obtain ⟨h1, h2, h3, h4⟩ := structs_foldl ss (structStep st s)
    obtain ⟨g1, g2, g3, g4⟩ := structGroups_foldl s s.groups { st with structs := st.structs ++ [(s.name, s.key)] }
    refine ⟨?_, ?_, ?_, ?_⟩
    · rw [List.foldl_cons, h1, structStep, g1, List.forall_mem_cons, StructOk, and_assoc]
    · intro n
      rw [List.foldl_cons, h2, structStep, g2]
      simp only [List.mem_cons, or_and_right, exists_or, exists_eq_left, Config, and_assoc, or_assoc]
    · rw [List.foldl_cons, h3, structStep, g3]
      simp
    · simp only [List.foldl_cons, h4]
      exact g4

/-! ### Functions -/

/-- The objects that a modifier names. -/
def objectsOf : FMod → List (Sig.Kind × String)
  | .owned ids => ids.map fun i => (.owned, i)
  | .shared ids => ids.map fun i => (.shared, i)
  | .frozen ids => ids.map fun i => (.frozen, i)
  | _ => []

/-- The words of `abi(..)`. -/
def abiOf : FMod → List Sol
  | .abi ms => ms
  | _ => []

/-- The tables after the modifier of a function that has no error. -/
structure Next (f : FDef) (m : FMod) (st st' : St) : Prop where
  found : st'.found = false
  structs : st'.structs = st.structs
  callStructs : st'.callStructs = st.callStructs
  functions : st'.functions = st.functions
  seen : ∀ n, n ∈ st'.seen ↔ n ∈ st.seen ∨ n ∈ (objectsOf m).map (·.2)
  tests : ∀ n, n ∈ st'.tests.map (·.1) ↔ n ∈ st.tests.map (·.1) ∨ (m = .test ∧ n = f.name)
  name : st'.cur.name = st.cur.name
  params : st'.cur.params = st.cur.params
  objects : st'.cur.objects = st.cur.objects ++ objectsOf m
  abi : st'.cur.abi = st.cur.abi ++ abiOf m
  calls : st'.calls = (match m with | .call ms => [(f.name, ms)] | _ => []) ++ st.calls

/-- What a modifier needs in this state. -/
structure FModOk (f : FDef) (m : FMod) (st : St) : Prop where
  nodup : ((objectsOf m).map (·.2)).Nodup
  fresh : ∀ o ∈ objectsOf m, o.2 ∉ st.seen
  object : ∀ o ∈ objectsOf m, checkObject st.structs f o.1 o.2 = []
  call : ∀ ms, m = .call ms → checkCall st.callStructs f = []
  test : m = .expectedFailure → f.name ∈ st.tests.map (·.1)

theorem identStep_found {f : FDef} {k : Sig.Kind} {st : St} {id : String} :
    (identStep f k st id).found = false ↔ st.found = false ∧ id ∉ st.seen ∧ checkObject st.structs f k id = [] := by
  unfold identStep
  by_cases h : id ∈ st.seen
  · simp [h, fail_found]
  · simp [h, fail_found]

theorem identStep_ok {f : FDef} {k : Sig.Kind} {st : St} {id : String} (h : (identStep f k st id).found = false) :
    identStep f k st id = { st with seen := id :: st.seen } := by
  obtain ⟨_, h2, h3⟩ := identStep_found.1 h
  simp [identStep, h2, h3, fail_nil]

theorem idents_found {f : FDef} {k : Sig.Kind} : ∀ {ids : List String} {st : St},
    ((ids.foldl (identStep f k) st).found = false ↔ st.found = false ∧ ids.Nodup ∧ (∀ i ∈ ids, i ∉ st.seen) ∧
      ∀ i ∈ ids, checkObject st.structs f k i = []) ∧
    ((ids.foldl (identStep f k) st).found = false →
      ids.foldl (identStep f k) st = { st with seen := ids.reverse ++ st.seen })
  | [], st => by simp
  | i :: ids, st => by
    obtain ⟨h1, h2⟩ := idents_found (f := f) (k := k) (ids := ids) (st := identStep f k st i)
    by_cases hf : (identStep f k st i).found = false
    · have he := identStep_ok hf
      obtain ⟨a, b, c⟩ := identStep_found.1 hf
      refine ⟨?_, ?_⟩
      · rw [List.foldl_cons, h1, he]
        rw [List.nodup_cons, List.forall_mem_cons, List.forall_mem_cons]
        simp only [List.mem_cons, not_or]
        constructor
        · rintro ⟨_, hn, hs, hc⟩
          exact ⟨a, ⟨fun hi => (hs i hi).1 rfl, hn⟩, ⟨b, fun x hx => (hs x hx).2⟩, c, hc⟩
        · rintro ⟨_, ⟨hi, hn⟩, ⟨_, hs⟩, _, hc⟩
          exact ⟨a, hn, fun x hx => ⟨fun e => hi (e ▸ hx), hs x hx⟩, hc⟩
      · intro h
        rw [List.foldl_cons] at h ⊢
        rw [h2 h, he]
        simp
    · refine ⟨?_, ?_⟩
      · rw [List.foldl_cons, h1]
        constructor
        · rintro ⟨h, _⟩
          exact absurd h hf
        · rintro ⟨a, hn, hs, hc⟩
          exact absurd (identStep_found.2 ⟨a, hs i (by simp), hc i (by simp)⟩) hf
      · intro h
        rw [List.foldl_cons] at h
        exact absurd (h1.1 h).1 hf

theorem objectsStep_spec {f : FDef} {k : Sig.Kind} {ids : List String} {st : St} :
    ((objectsStep f k st ids).found = false ↔ st.found = false ∧ ids.Nodup ∧ (∀ i ∈ ids, i ∉ st.seen) ∧
      ∀ i ∈ ids, checkObject st.structs f k i = []) ∧
    ((objectsStep f k st ids).found = false → objectsStep f k st ids =
      { st with seen := ids.reverse ++ st.seen,
                cur := { st.cur with objects := st.cur.objects ++ ids.map fun i => (k, i) } }) := by
  obtain ⟨h1, h2⟩ := idents_found (f := f) (k := k) (ids := ids) (st := st)
  rw [← h1]
  unfold objectsStep
  by_cases hf : (ids.foldl (identStep f k) st).found = false
  · simp only [h2 hf]
    have := (h1.1 hf).1
    simp [this]
  · simp only [Bool.not_eq_false] at hf
    simp [hf]

theorem expectFailure_names (n : String) : ∀ ts, (expectFailure n ts).map (·.1) = ts.map (·.1)
  | [] => rfl
  | t :: ts => by
    unfold expectFailure
    split
    · rename_i h; simp [h]
    · simp [expectFailure_names n ts]

theorem funMod_found {f : FDef} {m : FMod} {st : St} :
    ((funMod f st m).found = false ↔ st.found = false ∧ FModOk f m st) ∧
    ((funMod f st m).found = false → Next f m st (funMod f st m)) := by
  have objs : ∀ (k : Sig.Kind) (ids : List String), objectsOf m = (ids.map fun i => (k, i)) →
      funMod f st m = objectsStep f k st ids → (∀ ms, m ≠ .call ms) → m ≠ .expectedFailure → m ≠ .test → abiOf m = [] →
      ((funMod f st m).found = false ↔ st.found = false ∧ FModOk f m st) ∧
      ((funMod f st m).found = false → Next f m st (funMod f st m)) := by
    intro k ids ho hm hc he ht ha
    obtain ⟨h1, h2⟩ := objectsStep_spec (f := f) (k := k) (ids := ids) (st := st)
    have hmap : (objectsOf m).map (·.2) = ids := by rw [ho]; simp [Function.comp_def]
    rw [hm]
    refine ⟨?_, ?_⟩
    · rw [h1]
      constructor
      · rintro ⟨a, b, c, d⟩
        refine ⟨a, by rw [hmap]; exact b, ?_, ?_, fun ms e => absurd e (hc ms), fun e => absurd e he⟩
        · rw [ho]; simpa using c
        · rw [ho]; simpa using d
      · rintro ⟨a, b⟩
        refine ⟨a, hmap ▸ b.nodup, ?_, ?_⟩
        · have := b.fresh; rw [ho] at this; simpa using this
        · have := b.object; rw [ho] at this; simpa using this
    · intro h
      have hf := (h1.1 h).1
      rw [h2 h]
      refine ⟨hf, rfl, rfl, rfl, ?_, ?_, rfl, rfl, ?_, ?_, ?_⟩
      · intro n; rw [hmap]; simp [or_comm]
      · intro n; simp [ht]
      · simp [ho]
      · simp [ha]
      · cases m with
        | call ms => exact absurd rfl (hc ms)
        | _ => rfl
  cases m with
  | owned ids => exact objs .owned ids rfl rfl (by simp) (by simp) (by simp) rfl
  | shared ids => exact objs .shared ids rfl rfl (by simp) (by simp) (by simp) rfl
  | frozen ids => exact objs .frozen ids rfl rfl (by simp) (by simp) (by simp) rfl
  | test =>
    refine ⟨?_, ?_⟩
    · constructor
      · intro h; exact ⟨h, by simp [objectsOf], by simp [objectsOf], by simp [objectsOf], by simp, by simp⟩
      · intro h; exact h.1
    · intro h
      refine ⟨h, rfl, rfl, rfl, by simp [funMod, objectsOf], ?_, rfl, rfl, by simp [funMod, objectsOf],
        by simp [funMod, abiOf], rfl⟩
      intro n
      simp [funMod]
  | skip =>
    refine ⟨?_, ?_⟩
    · constructor
      · intro h; exact ⟨h, by simp [objectsOf], by simp [objectsOf], by simp [objectsOf], by simp, by simp⟩
      · intro h; exact h.1
    · intro h
      exact ⟨h, rfl, rfl, rfl, by simp [funMod, objectsOf], by simp [funMod], rfl, rfl, by simp [funMod, objectsOf],
        by simp [funMod, abiOf], rfl⟩
  | expectedFailure =>
    have ha : (st.tests.any (·.1 = f.name)) = true ↔ f.name ∈ st.tests.map (·.1) := by simp
    by_cases ht : f.name ∈ st.tests.map (·.1)
    · have hm : funMod f st .expectedFailure = { st with tests := expectFailure f.name st.tests } := by
        simp only [funMod, ha.2 ht, if_true]
      rw [hm]
      refine ⟨⟨?_, fun h => h.1⟩, ?_⟩
      · intro h; exact ⟨h, by simp [objectsOf], by simp [objectsOf], by simp [objectsOf], by simp, fun _ => ht⟩
      · intro h
        refine ⟨h, rfl, rfl, rfl, by simp [objectsOf], ?_, rfl, rfl, by simp [objectsOf], by simp [abiOf], rfl⟩
        intro n
        rw [expectFailure_names]
        simp
    · have hm : funMod f st .expectedFailure = st.fail [.failureWithoutTest] := by
        have : ¬ (st.tests.any (·.1 = f.name)) = true := fun h => ht (ha.1 h)
        simp only [funMod, this]
        rfl
      rw [hm]
      refine ⟨⟨?_, fun h => absurd (h.2.test rfl) ht⟩, ?_⟩
      · intro h; simp [fail_found] at h
      · intro h; simp [fail_found] at h
  | call ms =>
    cases hc : checkCall st.callStructs f with
    | nil =>
      have hm : funMod f st (.call ms) = if st.found then st else { st with calls := (f.name, ms) :: st.calls } := by
        simp only [funMod, hc]
      rw [hm]
      refine ⟨⟨?_, ?_⟩, ?_⟩
      · intro h
        have hf : st.found = false := by cases hx : st.found <;> simp [hx] at h ⊢
        exact ⟨hf, by simp [objectsOf], by simp [objectsOf], by simp [objectsOf], fun _ _ => hc, by simp⟩
      · intro h; simp [h.1]
      · intro h
        have hf : st.found = false := by cases hx : st.found <;> simp [hx] at h ⊢
        simp only [hf, Bool.false_eq_true, if_false]
        exact ⟨rfl, rfl, rfl, rfl, by simp [objectsOf], by simp, rfl, rfl, by simp [objectsOf], by simp [abiOf], rfl⟩
    | cons e es =>
      have hm : funMod f st (.call ms) = st.fail (e :: es) := by simp only [funMod, hc]
      rw [hm]
      refine ⟨⟨?_, ?_⟩, ?_⟩
      · intro h; simp [fail_found] at h
      · intro h
        have := h.2.call ms rfl
        rw [hc] at this
        cases this
      · intro h; simp [fail_found] at h
  | abi ms =>
    have hm : funMod f st (.abi ms) =
      if st.found then st else { st with cur := { st.cur with abi := st.cur.abi ++ ms } } := rfl
    rw [hm]
    refine ⟨⟨?_, ?_⟩, ?_⟩
    · intro h
      have hf : st.found = false := by cases hx : st.found <;> simp [hx] at h ⊢
      exact ⟨hf, by simp [objectsOf], by simp [objectsOf], by simp [objectsOf], by simp, by simp⟩
    · intro h; simp [h.1]
    · intro h
      have hf : st.found = false := by cases hx : st.found <;> simp [hx] at h ⊢
      simp only [hf, Bool.false_eq_true, if_false]
      exact ⟨rfl, rfl, rfl, rfl, by simp [objectsOf], by simp, rfl, rfl, by simp [objectsOf], by simp [abiOf], rfl⟩

theorem foldl_found {α} {step : St → α → St} (hs : ∀ st a, (step st a).found = false → st.found = false) :
    ∀ (l : List α) (st : St), (l.foldl step st).found = false → st.found = false
  | [], _, h => h
  | a :: l, st, h => hs st a (foldl_found hs l _ h)

theorem funMod_mono (f : FDef) (st : St) (m : FMod) (h : (funMod f st m).found = false) : st.found = false :=
  (funMod_found.1.1 h).1

theorem funGroup_mono (f : FDef) (st : St) (g : List Attr) (h : (funGroup f st g).found = false) :
    st.found = false := by
  unfold funGroup at h
  split at h
  · exact (fail_found.1 h).1
  · exact foldl_found (funMod_mono f) _ _ h

theorem funMods_cons (g : List Attr) (gs : List (List Attr)) :
    funMods (g :: gs) = ((match parseFuns g with | .ok ms => ms | .error _ => []) ++ (funMods gs).1,
      (match parseFuns g with | .ok _ => [] | .error e => [e]) ++ (funMods gs).2) := by
  cases hp : parseFuns g <;> simp [funMods, hp]

/-- The loop over the groups is the loop over all modifiers, if there is no error. -/
theorem groups_foldl (f : FDef) : ∀ (gs : List (List Attr)) (st : St),
    ((gs.foldl (funGroup f) st).found = false ↔
      (funMods gs).2 = [] ∧ ((funMods gs).1.foldl (funMod f) st).found = false) ∧
    ((gs.foldl (funGroup f) st).found = false → gs.foldl (funGroup f) st = (funMods gs).1.foldl (funMod f) st)
  | [], st => by simp [funMods]
  | g :: gs, st => by
    obtain ⟨h1, h2⟩ := groups_foldl f gs (funGroup f st g)
    rw [funMods_cons, List.foldl_cons]
    cases hp : parseFuns g with
    | error e =>
      have hm : (funGroup f st g).found ≠ false := by
        unfold funGroup
        rw [hp]
        simp [fail_found]
      refine ⟨⟨fun h => absurd (foldl_found (funGroup_mono f) _ _ h) hm, fun h => by simp at h⟩,
        fun h => absurd (foldl_found (funGroup_mono f) _ _ h) hm⟩
    | ok ms =>
      have hm : funGroup f st g = ms.foldl (funMod f) st := by
        unfold funGroup
        rw [hp]
      rw [hm] at h1 h2 ⊢
      simp only [List.nil_append, List.foldl_append]
      exact ⟨h1, h2⟩

/-- The objects that the modifiers name. -/
def objectsIn (ms : List FMod) : List (Sig.Kind × String) := ms.flatMap objectsOf

/-- What the modifiers of a function need in this state. -/
structure FunOk (f : FDef) (ms : List FMod) (st : St) : Prop where
  nodup : ((objectsIn ms).map (·.2)).Nodup
  fresh : ∀ o ∈ objectsIn ms, o.2 ∉ st.seen
  object : ∀ o ∈ objectsIn ms, checkObject st.structs f o.1 o.2 = []
  call : ∀ cs, .call cs ∈ ms → checkCall st.callStructs f = []
  test : ∀ a b, ms = a ++ .expectedFailure :: b → .test ∈ a ∨ f.name ∈ st.tests.map (·.1)

/-- The tables after the modifiers of a function. -/
structure After (f : FDef) (ms : List FMod) (st st' : St) : Prop where
  structs : st'.structs = st.structs
  callStructs : st'.callStructs = st.callStructs
  functions : st'.functions = st.functions
  tests : ∀ n, n ∈ st'.tests.map (·.1) ↔ n ∈ st.tests.map (·.1) ∨ (.test ∈ ms ∧ n = f.name)
  name : st'.cur.name = st.cur.name
  params : st'.cur.params = st.cur.params
  objects : st'.cur.objects = st.cur.objects ++ objectsIn ms
  abi : st'.cur.abi = st.cur.abi ++ ms.flatMap abiOf
  calls : ∀ n cs, (n, cs) ∈ st'.calls ↔ (n, cs) ∈ st.calls ∨ (n = f.name ∧ .call cs ∈ ms)

theorem funOk_cons {f : FDef} {m : FMod} {ms : List FMod} {st st' : St} (hn : Next f m st st') :
    FModOk f m st ∧ FunOk f ms st' ↔ FunOk f (m :: ms) st := by
  have ho : objectsIn (m :: ms) = objectsOf m ++ objectsIn ms := rfl
  constructor
  · rintro ⟨a, b⟩
    refine ⟨?_, ?_, ?_, ?_, ?_⟩
    · rw [ho, List.map_append, List.nodup_append]
      refine ⟨a.nodup, b.nodup, ?_⟩
      rintro x hx y hy rfl
      obtain ⟨o, h3, rfl⟩ := List.mem_map.1 hy
      exact b.fresh o h3 ((hn.seen _).2 (.inr hx))
    · rw [ho]
      intro o h
      rcases List.mem_append.1 h with h | h
      · exact a.fresh o h
      · exact fun hs => b.fresh o h ((hn.seen _).2 (.inl hs))
    · rw [ho]
      intro o h
      rcases List.mem_append.1 h with h | h
      · exact a.object o h
      · exact hn.structs ▸ b.object o h
    · intro cs h
      rcases List.mem_cons.1 h with h | h
      · exact a.call cs h.symm
      · exact hn.callStructs ▸ b.call cs h
    · intro x y h
      cases x with
      | nil =>
        rw [List.nil_append] at h
        injection h with h3 h4
        exact .inr (a.test h3)
      | cons z x =>
        rw [List.cons_append] at h
        injection h with h3 h4
        rcases b.test x y h4 with h | h
        · exact .inl (List.mem_cons_of_mem _ h)
        · rcases (hn.tests _).1 h with h | h
          · exact .inr h
          · exact .inl (by rw [← h3, h.1]; simp)
  · rintro ⟨a, b, c, d, e⟩
    rw [ho, List.map_append, List.nodup_append] at a
    rw [ho] at b c
    refine ⟨⟨a.1, fun o h => b o (List.mem_append_left _ h), fun o h => c o (List.mem_append_left _ h),
      fun cs h => d cs (by rw [h]; simp), fun h => ?_⟩, a.2.1, ?_, ?_, ?_, ?_⟩
    · rcases e [] ms (by rw [h]; rfl) with h | h
      · simp at h
      · exact h
    · intro o h hs
      rcases (hn.seen _).1 hs with hs | hs
      · exact b o (List.mem_append_right _ h) hs
      · exact a.2.2 _ hs _ (List.mem_map.2 ⟨o, h, rfl⟩) rfl
    · intro o h
      rw [hn.structs]
      exact c o (List.mem_append_right _ h)
    · intro cs h
      rw [hn.callStructs]
      exact d cs (List.mem_cons_of_mem _ h)
    · intro x y h
      rcases e (m :: x) y (by rw [h]; rfl) with h3 | h3
      · rcases List.mem_cons.1 h3 with h3 | h3
        · exact .inr ((hn.tests _).2 (.inr ⟨h3.symm, rfl⟩))
        · exact .inl h3
      · exact .inr ((hn.tests _).2 (.inl h3))

theorem funMods_foldl (f : FDef) : ∀ (ms : List FMod) (st : St),
    ((ms.foldl (funMod f) st).found = false ↔ st.found = false ∧ FunOk f ms st) ∧
    ((ms.foldl (funMod f) st).found = false → After f ms st (ms.foldl (funMod f) st))
  | [], st => by
    refine ⟨⟨fun h => ⟨h, by simp [objectsIn], by simp [objectsIn], by simp [objectsIn], by simp, ?_⟩, fun h => h.1⟩, ?_⟩
    · intro a b h; simp at h
    · intro h
      exact ⟨rfl, rfl, rfl, by simp, rfl, rfl, by simp [objectsIn], by simp, by simp⟩
  | m :: ms, st => by
    obtain ⟨h1, h2⟩ := funMods_foldl f ms (funMod f st m)
    obtain ⟨g1, g2⟩ := funMod_found (f := f) (m := m) (st := st)
    rw [List.foldl_cons]
    refine ⟨?_, ?_⟩
    · rw [h1]
      constructor
      · rintro ⟨a, b⟩
        exact ⟨(g1.1 a).1, (funOk_cons (g2 a)).1 ⟨(g1.1 a).2, b⟩⟩
      · rintro ⟨a, b⟩
        have hm : FModOk f m st := by
          obtain ⟨n, fr, o, c, t⟩ := b
          have ho : objectsIn (m :: ms) = objectsOf m ++ objectsIn ms := rfl
          rw [ho, List.map_append, List.nodup_append] at n
          rw [ho] at fr o
          refine ⟨n.1, fun x h => fr x (List.mem_append_left _ h), fun x h => o x (List.mem_append_left _ h),
            fun cs h => c cs (by rw [h]; simp), fun h => ?_⟩
          rcases t [] ms (by rw [h]; rfl) with h | h
          · simp at h
          · exact h
        have hf := g1.2 ⟨a, hm⟩
        exact ⟨hf, ((funOk_cons (g2 hf)).2 b).2⟩
    · intro h
      have hf := (h1.1 h).1
      have n := g2 hf
      have r := h2 h
      refine ⟨r.structs.trans n.structs, r.callStructs.trans n.callStructs, r.functions.trans n.functions, ?_,
        r.name.trans n.name, r.params.trans n.params, ?_, ?_, ?_⟩
      · intro x
        rw [r.tests, n.tests, List.mem_cons, eq_comm (a := FMod.test)]
        tauto
      · rw [r.objects, n.objects]
        simp [objectsIn]
      · rw [r.abi, n.abi]
        simp
      · intro x cs
        rw [r.calls, n.calls]
        cases m with
        | call c2 =>
          simp only [List.cons_append, List.nil_append, List.mem_cons, Prod.mk.injEq, FMod.call.injEq]
          tauto
        | _ => simp

/-- What a function needs in this state: nothing depends on the functions before it but `tests`. -/
structure FunctionOk (valid : FDef → Option PErr) (f : FDef) (st : St) : Prop where
  valid : valid f = none
  attrs : (funMods f.groups).2 = []
  nodup : ((objectsIn (funMods f.groups).1).map (·.2)).Nodup
  object : ∀ o ∈ objectsIn (funMods f.groups).1, checkObject st.structs f o.1 o.2 = []
  call : ∀ cs, .call cs ∈ (funMods f.groups).1 → checkCall st.callStructs f = []
  test : ∀ a b, (funMods f.groups).1 = a ++ .expectedFailure :: b → .test ∈ a ∨ f.name ∈ st.tests.map (·.1)

/-- What is kept of a function. -/
def kept (f : FDef) : Fn :=
  ⟨f.name, f.params, objectsIn (funMods f.groups).1, (funMods f.groups).1.flatMap abiOf⟩

theorem funStep_spec (valid : FDef → Option PErr) (f : FDef) (st : St) :
    ((funStep valid st f).found = false ↔ st.found = false ∧ FunctionOk valid f st) ∧
    ((funStep valid st f).found = false →
      (funStep valid st f).structs = st.structs ∧ (funStep valid st f).callStructs = st.callStructs ∧
      (funStep valid st f).functions = st.functions ++ [kept f] ∧
      (∀ n, n ∈ (funStep valid st f).tests.map (·.1) ↔
        n ∈ st.tests.map (·.1) ∨ (.test ∈ (funMods f.groups).1 ∧ n = f.name)) ∧
      (∀ n cs, (n, cs) ∈ (funStep valid st f).calls ↔
        (n, cs) ∈ st.calls ∨ (n = f.name ∧ .call cs ∈ (funMods f.groups).1))) := by
  generalize hs : ({ st with seen := [], cur := { name := f.name, params := f.params } } : St) = s0
  generalize hs1 : s0.fail (valid f).toList = s1
  have hstep : funStep valid st f = if (f.groups.foldl (funGroup f) s1).found then f.groups.foldl (funGroup f) s1
      else { f.groups.foldl (funGroup f) s1 with
        functions := (f.groups.foldl (funGroup f) s1).functions ++ [(f.groups.foldl (funGroup f) s1).cur] } := by
    rw [← hs1, ← hs]; rfl
  obtain ⟨h1, h2⟩ := groups_foldl f f.groups s1
  obtain ⟨g1, g2⟩ := funMods_foldl f (funMods f.groups).1 s1
  have hfound : (funStep valid st f).found = false ↔ (f.groups.foldl (funGroup f) s1).found = false := by
    rw [hstep]
    by_cases h : (f.groups.foldl (funGroup f) s1).found = true
    · rw [if_pos h]
    · rw [if_neg h]
  have hiff : (funStep valid st f).found = false ↔ st.found = false ∧ FunctionOk valid f st := by
    rw [hfound, h1, g1, ← hs1, fail_found]
    constructor
    · rintro ⟨a, ⟨b, c⟩, d⟩
      rw [c, fail_nil] at d
      have hv : valid f = none := by
        cases hv : valid f with
        | none => rfl
        | some e => rw [hv] at c; cases c
      refine ⟨by rw [← hs] at b; exact b, hv, a, d.nodup, ?_, ?_, ?_⟩
      · have := d.object; rw [← hs] at this; exact this
      · have := d.call; rw [← hs] at this; exact this
      · have := d.test; rw [← hs] at this; exact this
    · rintro ⟨a, b⟩
      have hv : (valid f).toList = [] := by rw [b.valid]; rfl
      rw [hv, fail_nil, ← hs]
      exact ⟨b.attrs, ⟨a, rfl⟩, b.nodup, by simp, b.object, b.call, b.test⟩
  refine ⟨hiff, fun h => ?_⟩
  have hv : (valid f).toList = [] := by rw [(hiff.1 h).2.valid]; rfl
  have hg := hfound.1 h
  have r := g2 (h1.1 hg).2
  rw [← h2 hg] at r
  have e1 : s1 = s0 := by rw [← hs1, hv, fail_nil]
  have hst : funStep valid st f = { f.groups.foldl (funGroup f) s1 with
        functions := (f.groups.foldl (funGroup f) s1).functions ++ [(f.groups.foldl (funGroup f) s1).cur] } := by
    rw [hstep, if_neg (by rw [hg]; simp)]
  have hcur : (f.groups.foldl (funGroup f) s1).cur = kept f := by
    generalize hy : f.groups.foldl (funGroup f) s1 = y at r
    have k1 := r.name
    have k2 := r.params
    have k3 := r.objects
    have k4 := r.abi
    rw [e1, ← hs] at k1 k2 k3 k4
    simp only [List.nil_append] at k1 k2 k3 k4
    cases hc : y.cur
    rw [hc] at k1 k2 k3 k4
    simp only at k1 k2 k3 k4
    rw [kept, k1, k2, k3, k4]
  rw [hst, hcur]
  refine ⟨?_, ?_, ?_, ?_, ?_⟩
  · have := r.structs; rw [this, e1, ← hs]
  · have := r.callStructs; rw [this, e1, ← hs]
  · have := r.functions; simp only; rw [this, e1, ← hs]
  · intro n; have := r.tests n; simp only; rw [this, e1, ← hs]
  · intro n cs; have := r.calls n cs; simp only; rw [this, e1, ← hs]

/-! ### Files -/

/-- What a function needs: `structs` are the structs of the file, `calls` the names of the configurations. -/
structure Sound (valid : FDef → Option PErr) (structs : List (String × Bool)) (calls : List String) (f : FDef) :
    Prop where
  valid : valid f = none
  attrs : (funMods f.groups).2 = []
  nodup : ((objectsIn (funMods f.groups).1).map (·.2)).Nodup
  object : ∀ o ∈ objectsIn (funMods f.groups).1, checkObject structs f o.1 o.2 = []
  call : ∀ cs, .call cs ∈ (funMods f.groups).1 → checkCall calls f = []
  test : ∀ a b, (funMods f.groups).1 = a ++ .expectedFailure :: b → .test ∈ a

theorem sound_iff {valid : FDef → Option PErr} {f : FDef} {st : St} (h : f.name ∉ st.tests.map (·.1)) :
    FunctionOk valid f st ↔ Sound valid st.structs st.callStructs f :=
  ⟨fun x => ⟨x.valid, x.attrs, x.nodup, x.object, x.call, fun a b e => (x.test a b e).resolve_right h⟩,
   fun x => ⟨x.valid, x.attrs, x.nodup, x.object, x.call, fun a b e => .inl (x.test a b e)⟩⟩

theorem functions_foldl (valid : FDef → Option PErr) : ∀ (fs : List FDef) (st : St), (fs.map (·.name)).Nodup →
    (∀ f ∈ fs, f.name ∉ st.tests.map (·.1)) →
    ((fs.foldl (funStep valid) st).found = false ↔
      st.found = false ∧ ∀ f ∈ fs, Sound valid st.structs st.callStructs f) ∧
    ((fs.foldl (funStep valid) st).found = false →
      (fs.foldl (funStep valid) st).structs = st.structs ∧
      (fs.foldl (funStep valid) st).callStructs = st.callStructs ∧
      (fs.foldl (funStep valid) st).functions = st.functions ++ fs.map kept ∧
      ∀ n cs, (n, cs) ∈ (fs.foldl (funStep valid) st).calls ↔
        (n, cs) ∈ st.calls ∨ ∃ f ∈ fs, n = f.name ∧ .call cs ∈ (funMods f.groups).1)
  | [], st, _, _ => by simp
  | f :: fs, st, hn, ht => by
    obtain ⟨g1, g2⟩ := funStep_spec valid f st
    rw [List.map_cons, List.nodup_cons] at hn
    have hf := sound_iff (valid := valid) (ht f (by simp))
    rw [List.foldl_cons]
    by_cases hs : (funStep valid st f).found = false
    · obtain ⟨a, b, c, d, e⟩ := g2 hs
      have ht' : ∀ x ∈ fs, x.name ∉ (funStep valid st f).tests.map (·.1) := by
        intro x hx hm
        rcases (d _).1 hm with h | h
        · exact ht x (by simp [hx]) h
        · exact hn.1 (List.mem_map.2 ⟨x, hx, h.2⟩)
      obtain ⟨h1, h2⟩ := functions_foldl valid fs (funStep valid st f) hn.2 ht'
      have hh := g1.1 hs
      rw [hf] at hh
      refine ⟨?_, ?_⟩
      · rw [h1, a, b, List.forall_mem_cons]
        exact ⟨fun h => ⟨hh.1, hh.2, h.2⟩, fun h => ⟨hs, h.2.2⟩⟩
      · intro h
        obtain ⟨i, j, k, l⟩ := h2 h
        refine ⟨i.trans a, j.trans b, ?_, ?_⟩
        · rw [k, c]; simp
        · intro n cs
          rw [l, e]
          simp only [List.mem_cons, or_and_right, exists_or, exists_eq_left, or_assoc]
    · have hbad : ¬ (fs.foldl (funStep valid) (funStep valid st f)).found = false := fun h =>
        hs (foldl_found (fun st f h => ((funStep_spec valid f st).1.1 h).1) _ _ h)
      refine ⟨⟨fun h => absurd h hbad, ?_⟩, fun h => absurd h hbad⟩
      rintro ⟨h, h'⟩
      exact absurd (g1.2 ⟨h, hf.2 (h' f (by simp))⟩) hs

theorem identStep_told (f : FDef) (k : Sig.Kind) (st : St) (id : String) (h : Told st) :
    Told (identStep f k st id) := by
  unfold identStep
  refine Told.fail ?_ _
  split
  · exact h.fail _
  · exact h

theorem objectsStep_told (f : FDef) (k : Sig.Kind) (st : St) (ids : List String) (h : Told st) :
    Told (objectsStep f k st ids) := by
  have := foldl_told (identStep_told f k) ids st h
  unfold objectsStep
  simp only
  split <;> exact this

theorem funMod_told (f : FDef) (st : St) (m : FMod) (h : Told st) : Told (funMod f st m) := by
  unfold funMod
  split
  · exact objectsStep_told f _ st _ h
  · exact objectsStep_told f _ st _ h
  · exact objectsStep_told f _ st _ h
  · exact h
  · split
    · exact h
    · exact h.fail _
  · split
    · split <;> exact h
    · exact h.fail _
  · split <;> exact h
  · exact h

theorem funGroup_told (f : FDef) (st : St) (g : List Attr) (h : Told st) : Told (funGroup f st g) := by
  unfold funGroup
  split
  · exact h.fail _
  · exact foldl_told (funMod_told f) _ _ h

theorem funStep_told (valid : FDef → Option PErr) (st : St) (f : FDef) (h : Told st) : Told (funStep valid st f) := by
  have h0 : Told ({ st with seen := [], cur := { name := f.name, params := f.params } } : St) := h
  have := foldl_told (funGroup_told f) f.groups _ (h0.fail (valid f).toList)
  unfold funStep
  simp only
  split <;> exact this

/-- A file that is refused has errors. -/
theorem processFile_errors {valid : FDef → Option PErr} {extra : List PErr} {file : List Mod} {es : List PErr}
    (h : processFile valid extra file = .error es) : es ≠ [] := by
  unfold processFile at h
  simp only at h
  have ht := foldl_told (funStep_told valid) (file.flatMap (·.funs)) _
    ((foldl_told structStep_told (file.flatMap (·.structs)) {} rfl).fail extra)
  split at h
  · rename_i hf
    cases h
    unfold Told at ht
    rw [hf] at ht
    intro he
    rw [he] at ht
    simp at ht
  · cases h

/-- The structs of a file, with their ability. -/
def keysOf (file : List Mod) : List (String × Bool) := (file.flatMap (·.structs)).map fun s => (s.name, s.key)

/-- The check of external calls, on the names of all configurations of the file. -/
theorem processFile_iff (valid : FDef → Option PErr) (extra : List PErr) (file : List Mod)
    (hn : ((file.flatMap (·.funs)).map (·.name)).Nodup) :
    ∃ calls : List String, (∀ n, n ∈ calls ↔ ∃ s ∈ file.flatMap (·.structs), Config s ∧ n = s.name) ∧
    ((∃ r, processFile valid extra file = .ok r) ↔ extra = [] ∧ (∀ s ∈ file.flatMap (·.structs), StructOk s) ∧
      ∀ f ∈ file.flatMap (·.funs), Sound valid (keysOf file) calls f) ∧
    (∀ r, processFile valid extra file = .ok r → r.functions = (file.flatMap (·.funs)).map kept ∧
      (∀ n cs, (n, cs) ∈ r.calls ↔ ∃ f ∈ file.flatMap (·.funs), n = f.name ∧ .call cs ∈ (funMods f.groups).1)) := by
  obtain ⟨a, b, c, d, e, g⟩ := structs_foldl (file.flatMap (·.structs)) {}
  generalize hs : (file.flatMap (·.structs)).foldl structStep {} = st at a b c d e g
  obtain ⟨h1, h2⟩ := functions_foldl valid (file.flatMap (·.funs)) (st.fail extra) hn
    (by intro f _; simp [St.fail, d])
  have hp : processFile valid extra file =
      if ((file.flatMap (·.funs)).foldl (funStep valid) (st.fail extra)).found then
        .error ((file.flatMap (·.funs)).foldl (funStep valid) (st.fail extra)).errors
      else .ok ((file.flatMap (·.funs)).foldl (funStep valid) (st.fail extra)) := by
    rw [← hs]; rfl
  have hok : (∃ r, processFile valid extra file = .ok r) ↔
      ((file.flatMap (·.funs)).foldl (funStep valid) (st.fail extra)).found = false := by
    rw [hp]
    cases ((file.flatMap (·.funs)).foldl (funStep valid) (st.fail extra)).found <;> simp
  have ek : (st.fail extra).structs = keysOf file := by
    show st.structs = _
    rw [c]; rfl
  refine ⟨st.callStructs, ?_, ?_, ?_⟩
  · intro n; rw [b]; simp
  · rw [hok, h1, fail_found, a, ek]
    simp only [true_and]
    constructor
    · rintro ⟨⟨x, y⟩, z⟩; exact ⟨y, x, z⟩
    · rintro ⟨y, x, z⟩; exact ⟨⟨x, y⟩, z⟩
  · intro r hr
    have hf := hok.1 ⟨r, hr⟩
    rw [hp, hf] at hr
    cases hr
    obtain ⟨_, _, k, l⟩ := h2 hf
    refine ⟨?_, ?_⟩
    · rw [k]
      show st.functions ++ _ = _
      rw [g]; simp
    · intro n cs
      rw [l]
      show (n, cs) ∈ st.calls ∨ _ ↔ _
      rw [e]; simp

/-! ### C114: external calls are declared properly -/

/-- The type is written with this name, without a path; or is a reference to such a type. -/
inductive Named : STy → String → Prop
  | app (n args) : Named (.app [] n args) n
  | ref (b t n) : Named t n → Named (.ref b t) n

theorem singleName_iff : ∀ {t : STy} {n : String}, singleName t = some n ↔ Named t n
  | .app [] m args, n => by
    simp only [singleName, Option.some.injEq]
    constructor
    · rintro rfl; exact .app _ _
    · intro h; cases h; rfl
  | .app (_ :: _) m args, n => ⟨fun h => by simp [singleName] at h, fun h => by cases h⟩
  | .ref b t, n => by
    rw [singleName, singleName_iff (t := t)]
    exact ⟨fun h => .ref _ _ _ h, fun h => by cases h; assumption⟩
  | .unit, n => ⟨fun h => by simp [singleName] at h, fun h => by cases h⟩
  | .multiple _, n => ⟨fun h => by simp [singleName] at h, fun h => by cases h⟩
  | .func _ _, n => ⟨fun h => by simp [singleName] at h, fun h => by cases h⟩

/-- The struct is marked with `external_call`. -/
def Marked (s : SDef) : Prop := .call ∈ (structMods s.groups).1

/-- The function is marked with `external_call`. -/
def Calls (f : FDef) : Prop := ∃ cs, .call cs ∈ (funMods f.groups).1

/-- A configuration: it can be dropped and has one positional field, a `CrossContractCall`. -/
def GoodConfig (s : SDef) : Prop :=
  s.drop = true ∧ s.positional = true ∧ ∃ t, s.fields = [t] ∧ Named t "CrossContractCall"

/-- The results of external calls. -/
def IsResult (t : STy) : Prop :=
  ∃ args, t = .app [] "ContractCallResult" args ∨ t = .app [] "ContractCallEmptyResult" args

/-- An external call: native, returns a result, and takes a struct that is marked as its first parameter. -/
def GoodCall (file : List Mod) (f : FDef) : Prop :=
  f.native = true ∧ IsResult f.result ∧
    ∃ x t ps, f.params = (x, t) :: ps ∧ ∃ s ∈ file.flatMap (·.structs), Marked s ∧ Named t s.name

theorem checkFields_iff {s : SDef} : checkFields s = [] ↔
    s.positional = true ∧ ∃ t, s.fields = [t] ∧ Named t "CrossContractCall" := by
  unfold checkFields
  cases s.positional with
  | false => simp
  | true =>
    rw [if_pos rfl]
    cases s.fields with
    | nil => simp
    | cons t ts =>
      cases ts with
      | nil =>
        simp only [← singleName_iff]
        by_cases h : singleName t = some "CrossContractCall" <;> simp [h]
      | cons u us => simp

theorem checkCallStruct_iff {s : SDef} : checkCallStruct s = [] ↔ GoodConfig s := by
  unfold checkCallStruct GoodConfig
  rw [List.append_eq_nil_iff, checkFields_iff]
  cases s.drop <;> simp

theorem resultOk_iff : ∀ {t : STy}, resultOk t = true ↔ IsResult t
  | .app [] n args => by
    simp only [resultOk, IsResult, Bool.or_eq_true, beq_iff_eq, STy.app.injEq, true_and]
    constructor
    · rintro (h | h)
      · exact ⟨args, .inr ⟨h, rfl⟩⟩
      · exact ⟨args, .inl ⟨h, rfl⟩⟩
    · rintro ⟨_, h | h⟩
      · exact .inr h.1
      · exact .inl h.1
  | .app (_ :: _) n args => by simp [resultOk, IsResult]
  | .ref _ _ => by simp [resultOk, IsResult]
  | .unit => by simp [resultOk, IsResult]
  | .multiple _ => by simp [resultOk, IsResult]
  | .func _ _ => by simp [resultOk, IsResult]

theorem firstOk_iff {calls : List String} {f : FDef} : firstOk calls f = true ↔
    ∃ x t ps, f.params = (x, t) :: ps ∧ ∃ n ∈ calls, Named t n := by
  unfold firstOk
  cases hp : f.params with
  | nil => simp
  | cons p ps =>
    obtain ⟨x, t⟩ := p
    simp only [List.cons.injEq, Prod.mk.injEq]
    cases ht : singleName t with
    | none =>
      simp only [Bool.false_eq_true, false_iff]
      rintro ⟨_, _, _, ⟨⟨_, rfl⟩, _⟩, n, _, hn⟩
      rw [singleName_iff.2 hn] at ht
      cases ht
    | some n =>
      simp only [decide_eq_true_eq]
      constructor
      · intro h
        exact ⟨x, t, ps, ⟨⟨rfl, rfl⟩, rfl⟩, n, h, singleName_iff.1 ht⟩
      · rintro ⟨_, _, _, ⟨⟨_, rfl⟩, _⟩, m, hm, hn⟩
        rw [singleName_iff.2 hn] at ht
        cases ht
        exact hm

theorem checkCall_iff {calls : List String} {f : FDef} : checkCall calls f = [] ↔
    f.native = true ∧ IsResult f.result ∧ ∃ x t ps, f.params = (x, t) :: ps ∧ ∃ n ∈ calls, Named t n := by
  unfold checkCall
  rw [List.append_eq_nil_iff, List.append_eq_nil_iff, ← resultOk_iff, ← firstOk_iff]
  cases f.native <;> cases resultOk f.result <;> cases firstOk calls f <;> simp

/-- The modifier with a list of objects. -/
def listOf : Sig.Kind → List String → FMod
  | .owned => .owned
  | .shared => .shared
  | .frozen => .frozen

/-- The attributes of the function list this name for this kind. -/
def Lists (f : FDef) (k : Sig.Kind) (id : String) : Prop := ∃ ids, listOf k ids ∈ (funMods f.groups).1 ∧ id ∈ ids

theorem mem_objectsIn {ms : List FMod} {k : Sig.Kind} {id : String} :
    (k, id) ∈ objectsIn ms ↔ ∃ ids, listOf k ids ∈ ms ∧ id ∈ ids := by
  unfold objectsIn
  rw [List.mem_flatMap]
  constructor
  · rintro ⟨m, hm, h⟩
    cases m <;> simp only [objectsOf, List.mem_map, Prod.mk.injEq, List.not_mem_nil] at h <;>
      obtain ⟨i, hi, rfl, rfl⟩ := h <;> exact ⟨_, hm, hi⟩
  · rintro ⟨ids, hm, h⟩
    refine ⟨_, hm, ?_⟩
    cases k <;> simpa [listOf, objectsOf] using h

/-- What is needed besides: the other checks find nothing, attributes can be read, events have no `key`, errors
pass their check, objects are named once and pass their check (`Object`), tests that have to fail are tests. -/
structure Others (valid : FDef → Option PErr) (extra : List PErr) (file : List Mod)
    (Object : FDef → Sig.Kind → String → Prop) : Prop where
  extra : extra = []
  structAttrs : ∀ s ∈ file.flatMap (·.structs), (structMods s.groups).2 = []
  events : ∀ s ∈ file.flatMap (·.structs), ∀ k an, .event k an ∈ (structMods s.groups).1 → s.key = false
  abiErrors : ∀ s ∈ file.flatMap (·.structs), .abiError ∈ (structMods s.groups).1 →
    ∃ b, tryAbi s s.groups.flatten = .ok b
  valid : ∀ f ∈ file.flatMap (·.funs), valid f = none
  funAttrs : ∀ f ∈ file.flatMap (·.funs), (funMods f.groups).2 = []
  repeated : ∀ f ∈ file.flatMap (·.funs), ((objectsIn (funMods f.groups).1).map (·.2)).Nodup
  objects : ∀ f ∈ file.flatMap (·.funs), ∀ k id, Lists f k id → Object f k id
  tests : ∀ f ∈ file.flatMap (·.funs), ∀ a b, (funMods f.groups).1 = a ++ .expectedFailure :: b → .test ∈ a

/-- C114: a file whose functions have different names is accepted if and only if it passes the other checks,
all structs that are marked for external calls are configurations, and all functions that are marked are
external calls; the functions that are called externally are those that are marked; and if it is refused, errors
are reported.

Missing: types are told by name (`C114_false_alias`), without a path (`C114_false_path`), and modules of one
file are taken together (`C114_false_modules`). -/
theorem C114_partial (valid : FDef → Option PErr) (extra : List PErr) (file : List Mod)
    (hn : ((file.flatMap (·.funs)).map (·.name)).Nodup) :
    ((∃ r, processFile valid extra file = .ok r) ↔ Others valid extra file (fun f k id => checkObject (keysOf file) f k id = []) ∧
      (∀ s ∈ file.flatMap (·.structs), Marked s → GoodConfig s) ∧
      (∀ f ∈ file.flatMap (·.funs), Calls f → GoodCall file f)) ∧
    (∀ r, processFile valid extra file = .ok r → ∀ n,
      (∃ cs, (n, cs) ∈ r.calls) ↔ ∃ f ∈ file.flatMap (·.funs), n = f.name ∧ Calls f) ∧
    (∀ es, processFile valid extra file = .error es → es ≠ []) := by
  obtain ⟨calls, hc, hiff, hr⟩ := processFile_iff valid extra file hn
  refine ⟨?_, ?_, fun es => processFile_errors⟩
  · rw [hiff]
    constructor
    · rintro ⟨a, b, c⟩
      refine ⟨⟨a, fun s hs => (b s hs).1, fun s hs k an h => (b s hs).2 _ h, fun s hs h => (b s hs).2 _ h,
        fun f hf => (c f hf).valid, fun f hf => (c f hf).attrs, fun f hf => (c f hf).nodup,
        fun f hf k id h => (c f hf).object _ (mem_objectsIn.2 h), fun f hf => (c f hf).test⟩,
        fun s hs h => checkCallStruct_iff.1 ((b s hs).2 _ h), ?_⟩
      rintro f hf ⟨cs, h⟩
      obtain ⟨i, j, x, t, ps, k, n, l, m⟩ := checkCall_iff.1 ((c f hf).call cs h)
      obtain ⟨s, hs, h3, rfl⟩ := (hc n).1 l
      exact ⟨i, j, x, t, ps, k, s, hs, h3.1, m⟩
    · rintro ⟨o, b, c⟩
      refine ⟨o.extra, ?_, ?_⟩
      · intro s hs
        refine ⟨o.structAttrs s hs, ?_⟩
        intro m hm
        cases m with
        | external a m => trivial
        | call => exact checkCallStruct_iff.2 (b s hs hm)
        | event k an => exact o.events s hs k an hm
        | abiError => exact o.abiErrors s hs hm
      · intro f hf
        refine ⟨o.valid f hf, o.funAttrs f hf, o.repeated f hf, fun x hx => o.objects f hf _ _ (mem_objectsIn.1 hx), ?_,
          o.tests f hf⟩
        intro cs h
        obtain ⟨i, j, x, t, ps, k, s, hs, l, m⟩ := c f hf ⟨cs, h⟩
        refine checkCall_iff.2 ⟨i, j, x, t, ps, k, s.name, (hc _).2 ⟨s, hs, ⟨l, ?_⟩, rfl⟩, m⟩
        exact checkCallStruct_iff.2 (b s hs l)
  · intro r h n
    constructor
    · rintro ⟨cs, h3⟩
      obtain ⟨f, hf, h4, h5⟩ := ((hr r h).2 n cs).1 h3
      exact ⟨f, hf, h4, cs, h5⟩
    · rintro ⟨f, hf, h4, cs, h5⟩
      exact ⟨cs, ((hr r h).2 n cs).2 ⟨f, hf, h4, h5⟩⟩

/-! ### C115: objects are taken as declared -/

/-- The parameter is an object of the file: a struct with `key` or a reference to one; an immutable reference,
if the object is frozen. -/
def GoodObject (file : List Mod) (f : FDef) (k : Sig.Kind) (id : String) : Prop :=
  ∃ t, (id, t) ∈ f.params ∧ (k = .frozen → ∃ u, t = .ref false u) ∧
    ∃ path n args, (t = .app path n args ∨ ∃ b, t = .ref b (.app path n args)) ∧
      ∃ s ∈ file.flatMap (·.structs), s.name = n ∧ s.key = true

theorem parse_user {t : STy} {n : String} {as : List Ty} (h : parse t = some (.user n as)) :
    ∃ path args, t = .app path n args := by
  cases t with
  | app path m args =>
    refine ⟨path, args, ?_⟩
    cases path with
    | nil =>
      rw [parse] at h
      split at h
      · cases h
      · split at h
        · cases hp : parses args with
          | none => rw [hp] at h; cases h
          | some ts =>
            rw [hp] at h
            match ts with
            | [] => cases h
            | [t] => cases h
            | _ :: _ :: _ => cases h
        · cases hp : parses args with
          | none => rw [hp] at h; cases h
          | some ts => rw [hp] at h; cases h; rfl
    | cons x xs =>
      rw [parse] at h
      cases hp : parses args with
      | none => rw [hp] at h; cases h
      | some ts => rw [hp] at h; cases h; rfl
  | ref b t =>
    cases b <;> rw [parse] at h <;> cases hp : parse t <;> rw [hp] at h <;> cases h
  | unit => rw [parse] at h; cases h
  | multiple ts => rw [parse] at h; cases hp : parses ts <;> rw [hp] at h <;> cases h
  | func ts r =>
    rw [parse] at h
    cases hp : parses ts <;> rw [hp] at h
    · cases h
    · cases hq : parse r <;> rw [hq] at h <;> cases h

theorem parse_ref {t : STy} {u : Ty} (h : parse t = some (.ref u)) : ∃ v, t = .ref false v ∧ parse v = some u := by
  cases t with
  | app path m args =>
    cases path with
    | nil =>
      rw [parse] at h
      split at h
      · cases h
      · split at h
        · cases hp : parses args with
          | none => rw [hp] at h; cases h
          | some ts =>
            rw [hp] at h
            match ts with
            | [] => cases h
            | [t] => cases h
            | _ :: _ :: _ => cases h
        · cases hp : parses args with
          | none => rw [hp] at h; cases h
          | some ts => rw [hp] at h; cases h
    | cons x xs =>
      rw [parse] at h
      cases hp : parses args with
      | none => rw [hp] at h; cases h
      | some ts => rw [hp] at h; cases h
  | ref b t =>
    cases b <;> rw [parse] at h <;> cases hp : parse t <;> rw [hp] at h <;> cases h
    exact ⟨t, rfl, hp⟩
  | unit => rw [parse] at h; cases h
  | multiple ts => rw [parse] at h; cases hp : parses ts <;> rw [hp] at h <;> cases h
  | func ts r =>
    rw [parse] at h
    cases hp : parses ts <;> rw [hp] at h
    · cases h
    · cases hq : parse r <;> rw [hq] at h <;> cases h

theorem parse_mutRef {t : STy} {u : Ty} (h : parse t = some (.mutRef u)) :
    ∃ v, t = .ref true v ∧ parse v = some u := by
  cases t with
  | app path m args =>
    cases path with
    | nil =>
      rw [parse] at h
      split at h
      · cases h
      · split at h
        · cases hp : parses args with
          | none => rw [hp] at h; cases h
          | some ts =>
            rw [hp] at h
            match ts with
            | [] => cases h
            | [t] => cases h
            | _ :: _ :: _ => cases h
        · cases hp : parses args with
          | none => rw [hp] at h; cases h
          | some ts => rw [hp] at h; cases h
    | cons x xs =>
      rw [parse] at h
      cases hp : parses args with
      | none => rw [hp] at h; cases h
      | some ts => rw [hp] at h; cases h
  | ref b t =>
    cases b <;> rw [parse] at h <;> cases hp : parse t <;> rw [hp] at h <;> cases h
    exact ⟨t, rfl, hp⟩
  | unit => rw [parse] at h; cases h
  | multiple ts => rw [parse] at h; cases hp : parses ts <;> rw [hp] at h <;> cases h
  | func ts r =>
    rw [parse] at h
    cases hp : parses ts <;> rw [hp] at h
    · cases h
    · cases hq : parse r <;> rw [hq] at h <;> cases h

theorem objectName_named {t : STy} {n : String} (h : objectName (parse t) = some n) :
    ∃ path args, t = .app path n args ∨ ∃ b, t = .ref b (.app path n args) := by
  generalize hp : parse t = x at h
  unfold objectName at h
  split at h
  · cases h
    obtain ⟨p, a, rfl⟩ := parse_user hp
    exact ⟨p, a, .inl rfl⟩
  · cases h
    obtain ⟨v, rfl, hv⟩ := parse_ref hp
    obtain ⟨p, a, rfl⟩ := parse_user hv
    exact ⟨p, a, .inr ⟨_, rfl⟩⟩
  · cases h
    obtain ⟨v, rfl, hv⟩ := parse_mutRef hp
    obtain ⟨p, a, rfl⟩ := parse_user hv
    exact ⟨p, a, .inr ⟨_, rfl⟩⟩
  · cases h

theorem immutable_ref {t : STy} (h : immutable (parse t) = true) : ∃ u, t = .ref false u := by
  generalize hp : parse t = x at h
  unfold immutable at h
  split at h
  · obtain ⟨v, rfl, _⟩ := parse_ref hp
    exact ⟨v, rfl⟩
  · cases h

theorem checkObject_good {file : List Mod} {f : FDef} {k : Sig.Kind} {id : String}
    (h : checkObject (keysOf file) f k id = []) : GoodObject file f k id := by
  unfold checkObject at h
  split at h
  · cases h
  · rename_i p hp
    have hid := List.find?_some hp
    have hm := List.mem_of_find?_eq_some hp
    simp only [decide_eq_true_eq] at hid
    subst hid
    split at h
    · cases h
    · rename_i hk
      split at h
      · cases h
      · rename_i n ho
        split at h
        · cases h
        · rename_i s hs
          have hsn := List.find?_some hs
          have hsm := List.mem_of_find?_eq_some hs
          simp only [decide_eq_true_eq] at hsn
          obtain ⟨d, hd, rfl⟩ := List.mem_map.1 hsm
          obtain ⟨path, args, ht⟩ := objectName_named ho
          refine ⟨p.2, hm, ?_, path, n, args, ht, d, hd, hsn, ?_⟩
          · intro hf
            refine immutable_ref ?_
            cases hi : immutable (parse p.2)
            · exact absurd ⟨hf, hi⟩ hk
            · rfl
          · by_cases hkey : d.key = true
            · exact hkey
            · simp [hkey] at h

theorem find_kept {fs : List FDef} {f : FDef} (hn : (fs.map (·.name)).Nodup) (hf : f ∈ fs) :
    (fs.map kept).find? (·.name = f.name) = some (kept f) := by
  induction fs with
  | nil => cases hf
  | cons g gs ih =>
    rw [List.map_cons, List.nodup_cons] at hn
    rw [List.map_cons, List.find?_cons]
    rcases List.mem_cons.1 hf with rfl | hf
    · simp [kept]
    · have : g.name ≠ f.name := fun e => hn.1 (List.mem_map.2 ⟨f, hf, e.symm⟩)
      have hk : (decide ((kept g).name = f.name)) = false := decide_eq_false this
      rw [hk]
      exact ih hn.2 hf

/-- C115: in a file that is accepted and whose functions have different names, a parameter is looked up as an
object of a kind if and only if its name is listed for this kind by the attributes of its function.  The names
that are listed are those of parameters that are objects of the file, and no name is listed twice.

Missing: types are told by name (`C115_false_path`), objects of other modules are refused (`C115_false_import`),
and modules of one file are taken together (`C115_false_modules`, `C115_false_struct`). -/
theorem C115_partial (valid : FDef → Option PErr) (extra : List PErr) (file : List Mod) (r : St)
    (hn : ((file.flatMap (·.funs)).map (·.name)).Nodup) (h : processFile valid extra file = .ok r) :
    ∀ f ∈ file.flatMap (·.funs),
      (∀ i k, argKind r f.name i = some k ↔ ∃ p, f.params[i]? = some p ∧ Lists f k p.1) ∧
      (∀ k id, Lists f k id → GoodObject file f k id) ∧
      (∀ k k' id, Lists f k id → Lists f k' id → k = k') ∧
      (∀ k ids, listOf k ids ∈ (funMods f.groups).1 → ids.Nodup) := by
  intro f hf
  obtain ⟨calls, hc, hiff, hr⟩ := processFile_iff valid extra file hn
  obtain ⟨_, _, hs⟩ := hiff.1 ⟨r, h⟩
  have s := hs f hf
  have uniq : ∀ k k' id, Lists f k id → Lists f k' id → k = k' := by
    intro k k' id h1 h2
    have m1 := mem_objectsIn.2 h1
    have m2 := mem_objectsIn.2 h2
    have := List.inj_on_of_nodup_map s.nodup m1 m2 rfl
    exact (Prod.mk.inj this).1
  refine ⟨?_, fun k id hl => checkObject_good (s.object _ (mem_objectsIn.2 hl)), uniq, ?_⟩
  · intro i k
    unfold argKind
    rw [(hr r h).1, find_kept hn hf]
    have hmem : ∀ k id, (k, id) ∈ (kept f).objects ↔ Lists f k id := fun k id => mem_objectsIn
    have hpar : (kept f).params = f.params := rfl
    dsimp only
    rw [hpar]
    by_cases h0 : (kept f).objects = []
    · rw [if_pos h0]
      simp only [reduceCtorEq, false_iff]
      rintro ⟨p, _, hl⟩
      have := (hmem k p.1).2 hl
      rw [h0] at this
      cases this
    · rw [if_neg h0]
      cases hp : f.params[i]? with
      | none => simp
      | some p =>
        simp only [Option.some.injEq, exists_eq_left']
        by_cases ho : Lists f .owned p.1
        · rw [if_pos ((hmem _ _).2 ho), Option.some.injEq]
          exact ⟨fun e => e ▸ ho, fun e => uniq _ _ _ ho e⟩
        · rw [if_neg (fun e => ho ((hmem _ _).1 e))]
          by_cases hsh : Lists f .shared p.1
          · rw [if_pos ((hmem _ _).2 hsh), Option.some.injEq]
            exact ⟨fun e => e ▸ hsh, fun e => uniq _ _ _ hsh e⟩
          · rw [if_neg (fun e => hsh ((hmem _ _).1 e))]
            by_cases hfr : Lists f .frozen p.1
            · rw [if_pos ((hmem _ _).2 hfr), Option.some.injEq]
              exact ⟨fun e => e ▸ hfr, fun e => uniq _ _ _ hfr e⟩
            · rw [if_neg (fun e => hfr ((hmem _ _).1 e))]
              simp only [reduceCtorEq, false_iff]
              intro e
              cases k
              · exact ho e
              · exact hsh e
              · exact hfr e
  · intro k ids hm
    have hnd := s.nodup
    have : ∀ (ms : List FMod), listOf k ids ∈ ms → ((objectsIn ms).map (·.2)).Nodup → ids.Nodup := by
      intro ms
      induction ms with
      | nil => intro h; cases h
      | cons m ms ih =>
        intro h hd
        have ho : objectsIn (m :: ms) = objectsOf m ++ objectsIn ms := rfl
        rw [ho, List.map_append, List.nodup_append] at hd
        rcases List.mem_cons.1 h with rfl | h
        · have := hd.1
          cases k <;> simpa [listOf, objectsOf, Function.comp_def] using this
        · exact ih h hd.2.1
    exact this _ hm hnd

theorem parse_struct {path : List String} {n : String} {args : List STy} (hl : n ∉ primNames ∧ n ≠ "vector")
    (hp : parse (.app path n args) ≠ none) : ∃ as, parse (.app path n args) = some (.user n as) := by
  cases path with
  | nil =>
    rw [parse, if_neg hl.1, if_neg hl.2] at hp ⊢
    cases h : parses args with
    | none => rw [h] at hp; exact absurd rfl hp
    | some ts => exact ⟨ts, rfl⟩
  | cons x xs =>
    rw [parse] at hp ⊢
    cases h : parses args with
    | none => rw [h] at hp; exact absurd rfl hp
    | some ts => exact ⟨ts, rfl⟩

theorem find_nodup {α} [DecidableEq α] {β} {l : List (α × β)} (hn : (l.map (·.1)).Nodup) {a : α} {b : β}
    (h : (a, b) ∈ l) : l.find? (·.1 = a) = some (a, b) := by
  induction l with
  | nil => cases h
  | cons x l ih =>
    rw [List.map_cons, List.nodup_cons] at hn
    rw [List.find?_cons]
    rcases List.mem_cons.1 h with rfl | h
    · simp
    · have : x.1 ≠ a := fun e => hn.1 (List.mem_map.2 ⟨(a, b), h, e.symm⟩)
      rw [decide_eq_false this]
      exact ih hn.2 h

/-- A file as the Move compiler accepts it: no name is given twice, structs do not have the names of built-in
types, and types can be read. -/
structure Legal (file : List Mod) : Prop where
  funs : ((file.flatMap (·.funs)).map (·.name)).Nodup
  structs : ((file.flatMap (·.structs)).map (·.name)).Nodup
  names : ∀ s ∈ file.flatMap (·.structs), s.name ∉ primNames ∧ s.name ≠ "vector"
  params : ∀ f ∈ file.flatMap (·.funs), (f.params.map (·.1)).Nodup
  types : ∀ f ∈ file.flatMap (·.funs), ∀ p ∈ f.params, parse p.2 ≠ none

theorem checkObject_iff {file : List Mod} (hl : Legal file) {f : FDef} (hf : f ∈ file.flatMap (·.funs)) {k : Sig.Kind}
    {id : String} : checkObject (keysOf file) f k id = [] ↔ GoodObject file f k id := by
  refine ⟨checkObject_good, ?_⟩
  rintro ⟨t, hp, hk, path, n, args, ht, s, hs, rfl, hkey⟩
  have hty := hl.types f hf _ hp
  have hm : (keysOf file).find? (·.1 = s.name) = some (s.name, s.key) := by
    refine find_nodup ?_ (List.mem_map.2 ⟨s, hs, rfl⟩)
    unfold keysOf
    rw [List.map_map]
    exact hl.structs
  have ho : objectName (parse t) = some s.name := by
    rcases ht with rfl | ⟨b, rfl⟩
    · obtain ⟨as, h⟩ := parse_struct (hl.names s hs) hty
      rw [h]; rfl
    · have hne : parse (.app path s.name args) ≠ none := by
        intro e
        cases b <;> simp [parse, e] at hty
      obtain ⟨as, h⟩ := parse_struct (hl.names s hs) hne
      cases b <;> rw [parse, h] <;> rfl
  have hi : ¬ (k = .frozen ∧ immutable (parse t) = false) := by
    rintro ⟨h, h'⟩
    obtain ⟨u, rfl⟩ := hk h
    rw [parse] at h' hty
    cases hu : parse u with
    | none => rw [hu] at hty; exact hty rfl
    | some x => rw [hu] at h'; cases h'
  unfold checkObject
  rw [find_nodup (hl.params f hf) hp]
  simp only [if_neg hi, ho, hm, hkey, if_true]

/-- A file as the Move compiler accepts it is accepted if and only if external calls are declared properly and
the names that are listed are those of objects, once each (and the other checks find nothing). -/
theorem C115_accepts (valid : FDef → Option PErr) (extra : List PErr) (file : List Mod) (hl : Legal file) :
    (∃ r, processFile valid extra file = .ok r) ↔ Others valid extra file (GoodObject file) ∧
      (∀ s ∈ file.flatMap (·.structs), Marked s → GoodConfig s) ∧
      (∀ f ∈ file.flatMap (·.funs), Calls f → GoodCall file f) := by
  rw [(C114_partial valid extra file hl.funs).1]
  refine and_congr_left fun _ => ?_
  constructor
  · rintro ⟨a, b, c, d, e, f, g, h, i⟩
    exact ⟨a, b, c, d, e, f, g, fun x hx k id hk => (checkObject_iff hl hx).1 (h x hx k id hk), i⟩
  · rintro ⟨a, b, c, d, e, f, g, h, i⟩
    exact ⟨a, b, c, d, e, f, g, fun x hx k id hk => (checkObject_iff hl hx).2 (h x hx k id hk), i⟩

/-! ### The tables of structs -/

/-- What the tables of structs contain. -/
structure Tables where
  events : List (String × Nat × Bool)
  abiErrors : List String
  externals : List (String × Nat × String)

/-- The tables of a state. -/
def tables (st : St) : Tables := ⟨st.events, st.abiErrors, st.externals⟩

theorem foldl_tables {α} {step : St → α → St} (hs : ∀ st a, tables (step st a) = tables st) :
    ∀ (l : List α) (st : St), tables (l.foldl step st) = tables st
  | [], _ => rfl
  | a :: l, st => (foldl_tables hs l _).trans (hs st a)

theorem identStep_tables (f : FDef) (k : Sig.Kind) (st : St) (id : String) :
    tables (identStep f k st id) = tables st := by
  unfold identStep
  split <;> rfl

theorem objectsStep_tables (f : FDef) (k : Sig.Kind) (st : St) (ids : List String) :
    tables (objectsStep f k st ids) = tables st := by
  refine Eq.trans ?_ (foldl_tables (identStep_tables f k) ids st)
  unfold objectsStep
  simp only
  split <;> rfl

theorem funMod_tables (f : FDef) (st : St) (m : FMod) : tables (funMod f st m) = tables st := by
  unfold funMod
  split
  · exact objectsStep_tables f _ st _
  · exact objectsStep_tables f _ st _
  · exact objectsStep_tables f _ st _
  · rfl
  · split <;> rfl
  · split
    · split <;> rfl
    · rfl
  · split <;> rfl
  · rfl

theorem funGroup_tables (f : FDef) (st : St) (g : List Attr) : tables (funGroup f st g) = tables st := by
  unfold funGroup
  split
  · rfl
  · exact foldl_tables (funMod_tables f) _ _

theorem funStep_tables (valid : FDef → Option PErr) (st : St) (f : FDef) :
    tables (funStep valid st f) = tables st := by
  refine Eq.trans ?_ (foldl_tables (funGroup_tables f) f.groups
    (({ st with seen := [], cur := { name := f.name, params := f.params } } : St).fail (valid f).toList))
  unfold funStep
  simp only
  split <;> rfl

/-- What a struct with these modifiers adds to the tables. -/
structure Adds (s : SDef) (ms : List SMod) (st st' : St) : Prop where
  events : ∀ n k an, (n, k, an) ∈ st'.events ↔ (n, k, an) ∈ st.events ∨ (n = s.name ∧ s.key = false ∧ .event k an ∈ ms)
  abiErrors : ∀ n, n ∈ st'.abiErrors ↔ n ∈ st.abiErrors ∨
    (n = s.name ∧ .abiError ∈ ms ∧ tryAbi s s.groups.flatten = .ok true)
  externals : ∀ n a m, (n, a, m) ∈ st'.externals ↔ (n, a, m) ∈ st.externals ∨ (n = s.name ∧ .external a m ∈ ms)

theorem Adds.nil (s : SDef) (st : St) : Adds s [] st st := ⟨by simp, by simp, by simp⟩

theorem Adds.append {s : SDef} {ms ms' : List SMod} {a b c : St} (h : Adds s ms a b) (h' : Adds s ms' b c) :
    Adds s (ms ++ ms') a c := by
  refine ⟨?_, ?_, ?_⟩
  · intro n k an
    rw [h'.events, h.events, List.mem_append]
    tauto
  · intro n
    rw [h'.abiErrors, h.abiErrors, List.mem_append]
    tauto
  · intro n x m
    rw [h'.externals, h.externals, List.mem_append]
    tauto

theorem structMod_adds (s : SDef) (st : St) (m : SMod) : Adds s [m] st (structMod s st m) := by
  cases m with
  | external a m =>
    refine ⟨by simp [structMod], by simp [structMod], ?_⟩
    intro n x y
    simp only [structMod, List.mem_cons, Prod.mk.injEq, SMod.external.injEq, List.not_mem_nil, or_false]
    tauto
  | call =>
    unfold structMod
    cases checkCallStruct s with
    | nil => by_cases hn : s.name ∈ st.callStructs <;> simp only [hn, if_true, if_false] <;> exact ⟨by simp, by simp, by simp⟩
    | cons e es => exact ⟨by simp [St.fail], by simp [St.fail], by simp [St.fail]⟩
  | event k an =>
    unfold structMod
    cases hk : s.key with
    | true => exact ⟨by simp [St.fail, hk], by simp [St.fail], by simp [St.fail]⟩
    | false =>
      refine ⟨?_, by simp, by simp⟩
      intro n x y
      simp only [Bool.false_eq_true, if_false, List.mem_cons, Prod.mk.injEq, hk, SMod.event.injEq, List.not_mem_nil, or_false,
        true_and]
      tauto
  | abiError =>
    unfold structMod
    cases ht : tryAbi s s.groups.flatten with
    | error e => exact ⟨by simp [St.fail], by simp [St.fail, ht], by simp [St.fail]⟩
    | ok b =>
      cases b with
      | true => exact ⟨by simp, by simp [ht, or_comm], by simp⟩
      | false => exact ⟨by simp, by simp [ht], by simp⟩

theorem structMods_adds (s : SDef) : ∀ (ms : List SMod) (st : St), Adds s ms st (ms.foldl (structMod s) st)
  | [], st => .nil s st
  | m :: ms, st => (structMod_adds s st m).append (structMods_adds s ms _)

theorem structGroups_adds (s : SDef) : ∀ (gs : List (List Attr)) (st : St),
    Adds s (structMods gs).1 st (gs.foldl (structGroup s) st)
  | [], st => .nil s st
  | g :: gs, st => by
    rw [structMods_mods, List.flatMap_cons, ← structMods_mods]
    have h := structMods_adds s (structMods [g]).1 (st.fail ((structMods [g]).2.map .attr))
    have h0 : Adds s (structMods [g]).1 st (structGroup s st g) := ⟨h.events, h.abiErrors, h.externals⟩
    exact h0.append (structGroups_adds s gs _)

theorem structs_tables : ∀ (ss : List SDef) (st : St),
    (∀ n k an, (n, k, an) ∈ (ss.foldl structStep st).events ↔ (n, k, an) ∈ st.events ∨
      ∃ s ∈ ss, n = s.name ∧ s.key = false ∧ .event k an ∈ (structMods s.groups).1) ∧
    (∀ n, n ∈ (ss.foldl structStep st).abiErrors ↔ n ∈ st.abiErrors ∨
      ∃ s ∈ ss, n = s.name ∧ .abiError ∈ (structMods s.groups).1 ∧ tryAbi s s.groups.flatten = .ok true) ∧
    (∀ n a m, (n, a, m) ∈ (ss.foldl structStep st).externals ↔ (n, a, m) ∈ st.externals ∨
      ∃ s ∈ ss, n = s.name ∧ .external a m ∈ (structMods s.groups).1)
  | [], st => by simp
  | s :: ss, st => by
    obtain ⟨h1, h2, h3⟩ := structs_tables ss (structStep st s)
    have g := structGroups_adds s s.groups { st with structs := st.structs ++ [(s.name, s.key)] }
    refine ⟨?_, ?_, ?_⟩
    · intro n k an
      rw [List.foldl_cons, h1, structStep, g.events]
      simp only [List.mem_cons, or_and_right, exists_or, exists_eq_left, or_assoc]
    · intro n
      rw [List.foldl_cons, h2, structStep, g.abiErrors]
      simp only [List.mem_cons, or_and_right, exists_or, exists_eq_left, or_assoc]
    · intro n a m
      rw [List.foldl_cons, h3, structStep, g.externals]
      simp only [List.mem_cons, or_and_right, exists_or, exists_eq_left, or_assoc]

/-- The struct has an attribute `ext(abi_error)`, is not called `Error`, is not generic and has no `key`. -/
def GoodError (s : SDef) : Prop :=
  s.name ≠ "Error" ∧ s.generic = false ∧ s.key = false ∧
    ∃ p, attrName p = "abi_error" ∧ .param "ext" [p] ∈ s.groups.flatten

theorem tryAbi_good {s : SDef} : ∀ {as : List Attr}, tryAbi s as = .ok true →
    s.name ≠ "Error" ∧ s.generic = false ∧ s.key = false ∧ ∃ p, attrName p = "abi_error" ∧ .param "ext" [p] ∈ as
  | [], h => by simp [tryAbi] at h
  | .name _ :: as, h => by
    rw [tryAbi] at h
    · obtain ⟨a, b, c, p, d, e⟩ := tryAbi_good h
      exact ⟨a, b, c, p, d, List.mem_cons_of_mem _ e⟩
    · simp
  | .assigned _ _ :: as, h => by
    rw [tryAbi] at h
    · obtain ⟨a, b, c, p, d, e⟩ := tryAbi_good h
      exact ⟨a, b, c, p, d, List.mem_cons_of_mem _ e⟩
    · simp
  | .param _ [] :: as, h => by
    rw [tryAbi] at h
    · obtain ⟨a, b, c, p, d, e⟩ := tryAbi_good h
      exact ⟨a, b, c, p, d, List.mem_cons_of_mem _ e⟩
    · simp
  | .param n (p :: ps) :: as, h => by
    rw [tryAbi] at h
    split at h
    · rename_i hn
      split at h
      · cases h
      · rename_i h1
        split at h
        · cases h
        · rename_i h2
          split at h
          · cases h
          · rename_i h3
            split at h
            · cases h
            · rename_i h4
              simp only [ne_eq, not_not] at h4
              rw [hn.1, h4]
              exact ⟨h1, by simpa using h2, by simpa using h3, p, hn.2, by simp⟩
    · obtain ⟨a, b, c, q, d, e⟩ := tryAbi_good h
      exact ⟨a, b, c, q, d, List.mem_cons_of_mem _ e⟩

theorem tryAbi_false {s : SDef} : ∀ {as : List Attr}, tryAbi s as = .ok false →
    Attr.param "ext" [.name "abi_error"] ∉ as
  | [], _ => by simp
  | .name _ :: as, h => by
    rw [tryAbi] at h
    · simpa using tryAbi_false h
    · simp
  | .assigned _ _ :: as, h => by
    rw [tryAbi] at h
    · simpa using tryAbi_false h
    · simp
  | .param _ [] :: as, h => by
    rw [tryAbi] at h
    · simpa using tryAbi_false h
    · simp
  | .param n (p :: ps) :: as, h => by
    rw [tryAbi] at h
    split at h
    · split at h
      · cases h
      · split at h
        · cases h
        · split at h
          · cases h
          · split at h
            · cases h
            · cases h
    · rename_i hc
      intro hm
      rcases List.mem_cons.1 hm with e | e
      · simp only [Attr.param.injEq, List.cons.injEq] at e
        obtain ⟨rfl, rfl, _⟩ := e
        exact hc ⟨rfl, rfl⟩
      · exact tryAbi_false h e

/-- A struct that is marked with `ext(abi_error)` alone, is not called `Error`, is not generic and has no `key` is
taken as an error. -/
theorem C113_errors {s : SDef} (h1 : s.name ≠ "Error") (h2 : s.generic = false) (h3 : s.key = false) :
    ∀ {as : List Attr} {p : Attr}, (∀ q qs, .param "ext" (q :: qs) ∈ as → attrName q = "abi_error" → qs = []) →
      attrName p = "abi_error" → .param "ext" [p] ∈ as → tryAbi s as = .ok true
  | [], p, _, _, h => by cases h
  | a :: as, p, hu, hp, h => by
    have next : (a ≠ .param "ext" [p]) → .param "ext" [p] ∈ as := fun hne =>
      (List.mem_cons.1 h).resolve_left fun e => hne e.symm
    have ih : (a ≠ .param "ext" [p]) → tryAbi s as = .ok true := fun hne =>
      C113_errors h1 h2 h3 (fun q qs hq => hu q qs (List.mem_cons_of_mem _ hq)) hp (next hne)
    match a, hu, ih with
    | .name _, _, ih =>
      rw [tryAbi]
      · exact ih (by simp)
      · simp
    | .assigned _ _, _, ih =>
      rw [tryAbi]
      · exact ih (by simp)
      · simp
    | .param _ [], _, ih =>
      rw [tryAbi]
      · exact ih (by simp)
      · simp
    | .param n (q :: qs), hu, ih =>
      rw [tryAbi]
      by_cases hc : n = "ext" ∧ attrName q = "abi_error"
      · obtain ⟨rfl, hq⟩ := hc
        have := hu q qs (by simp) hq
        subst this
        simp [hq, h1, h2, h3]
      · rw [if_neg hc]
        refine ih ?_
        intro e
        simp only [Attr.param.injEq, List.cons.injEq] at e
        obtain ⟨rfl, rfl, _⟩ := e
        exact hc ⟨rfl, hp⟩

/-- What the modifiers of structs do: in a file that is accepted the events are the structs marked as events, with
the indexes and the anonymity that are written, and have no `key`; the structs taken from elsewhere are those marked
so; and the errors are the structs marked with `ext(abi_error)`, which are not generic, not called `Error` and have no
`key`. -/
theorem C113_effects (valid : FDef → Option PErr) (extra : List PErr) (file : List Mod) (r : St)
    (hn : ((file.flatMap (·.funs)).map (·.name)).Nodup) (h : processFile valid extra file = .ok r) :
    (∀ n k an, (n, k, an) ∈ r.events ↔
      ∃ s ∈ file.flatMap (·.structs), s.name = n ∧ .event k an ∈ (structMods s.groups).1) ∧
    (∀ s ∈ file.flatMap (·.structs), ∀ k an, .event k an ∈ (structMods s.groups).1 → s.key = false) ∧
    (∀ n a m, (n, a, m) ∈ r.externals ↔
      ∃ s ∈ file.flatMap (·.structs), s.name = n ∧ .external a m ∈ (structMods s.groups).1) ∧
    (∀ n ∈ r.abiErrors, ∃ s ∈ file.flatMap (·.structs), s.name = n ∧ GoodError s) ∧
    (∀ s ∈ file.flatMap (·.structs), .param "ext" [.name "abi_error"] ∈ s.groups.flatten →
      s.name ∈ r.abiErrors) := by
  obtain ⟨ho, -, -⟩ := (C114_partial valid extra file hn).1.1 ⟨r, h⟩
  obtain ⟨h1, h2, h3⟩ := structs_tables (file.flatMap (·.structs)) {}
  have ht : tables r = tables ((file.flatMap (·.structs)).foldl structStep {}) := by
    unfold processFile at h
    simp only at h
    split at h
    · cases h
    · cases h
      rw [foldl_tables (funStep_tables valid)]
      rfl
  have e1 : r.events = ((file.flatMap (·.structs)).foldl structStep {}).events := congrArg Tables.events ht
  have e2 : r.abiErrors = ((file.flatMap (·.structs)).foldl structStep {}).abiErrors := congrArg Tables.abiErrors ht
  have e3 : r.externals = ((file.flatMap (·.structs)).foldl structStep {}).externals := congrArg Tables.externals ht
  refine ⟨?_, ho.events, ?_, ?_, ?_⟩
  · intro n k an
    rw [e1, h1]
    constructor
    · rintro (h | ⟨s, hs, rfl, _, hm⟩)
      · cases h
      · exact ⟨s, hs, rfl, hm⟩
    · rintro ⟨s, hs, rfl, hm⟩
      exact .inr ⟨s, hs, rfl, ho.events s hs k an hm, hm⟩
  · intro n a m
    rw [e3, h3]
    constructor
    · rintro (h | ⟨s, hs, rfl, hm⟩)
      · cases h
      · exact ⟨s, hs, rfl, hm⟩
    · rintro ⟨s, hs, rfl, hm⟩
      exact .inr ⟨s, hs, rfl, hm⟩
  · intro n hm
    rw [e2, h2] at hm
    rcases hm with h | ⟨s, hs, rfl, _, ht⟩
    · cases h
    · exact ⟨s, hs, rfl, tryAbi_good ht⟩
  · intro s hs hm
    have hp : parseStruct (.param "ext" [.name "abi_error"]) = .ok (some .abiError) := by decide +kernel
    have hmod : .abiError ∈ (structMods s.groups).1 := by
      unfold structMods
      simp only [List.mem_filterMap, List.mem_map]
      exact ⟨_, ⟨_, hm, hp⟩, rfl⟩
    rw [e2, h2]
    refine .inr ⟨s, hs, rfl, hmod, ?_⟩
    obtain ⟨b, hb⟩ := ho.abiErrors s hs hmod
    cases b with
    | true => exact hb
    | false => exact absurd hm (tryAbi_false hb)

/-! ### Examples and counterexamples -/

/-- The file is accepted, and the result has this property. -/
def okWith (valid : FDef → Option PErr) (file : List Mod) (p : St → Bool) : Bool :=
  match processFile valid [] file with
  | .ok r => p r
  | .error _ => false

theorem okWith_iff {valid : FDef → Option PErr} {file : List Mod} {p : St → Bool} (h : okWith valid file p = true) :
    ∃ r, processFile valid [] file = .ok r ∧ p r = true := by
  unfold okWith at h
  split at h
  · rename_i r hr
    exact ⟨r, hr, h⟩
  · cases h

/-- `#[ext(external_call)] public struct Cfg(CrossContractCall) has drop`. -/
def cfg : SDef :=
  { name := "Cfg", positional := true, fields := [.app [] "CrossContractCall" []], drop := true,
    groups := [[.param "ext" [.name "external_call"]]] }

/-- `#[ext(external_call)] native fun ping(c: &Cfg): result`. -/
def ping (result : STy) : FDef :=
  { name := "ping", native := true, params := [("c", .ref false (.app [] "Cfg" []))], result,
    groups := [[.param "ext" [.name "external_call"]]] }

/-- `public struct T { id: UID }`, with `key` or not. -/
def structT (key : Bool) : SDef := { name := "T", positional := false, fields := [.app [] "UID" []], key }

/-- `#[ext(list(t))] entry fun take(t: ty)`. -/
def take (list : String) (ty : STy) : FDef :=
  { name := "take", params := [("t", ty)], result := .unit, groups := [[.param "ext" [.param list [.name "t"]]]] }

/-- `ContractCallResult<u64>`. -/
def u64Result : STy := .app [] "ContractCallResult" [.app [] "u64" []]

/-- A module with an external call and an object. -/
def exFile : List Mod :=
  [⟨"a", [cfg, structT true], [ping u64Result, take "shared_objects" (.ref true (.app [] "T" []))]⟩]

example : okWith (fun _ => none) exFile (fun r => argKind r "take" 0 == some .shared && (r.calls.map (·.1)) == ["ping"]) =
    true := by decide +kernel

/-- The hypotheses of the theorems hold for the module. -/
example : Legal exFile ∧ ∃ r, processFile (fun _ => none) [] exFile = .ok r := by
  refine ⟨⟨by decide, by decide, ?_, ?_, ?_⟩, ?_⟩
  · intro s hs
    simp only [exFile, List.flatMap_cons, List.flatMap_nil, List.append_nil, List.mem_cons, List.not_mem_nil,
      or_false] at hs
    rcases hs with rfl | rfl <;> decide
  · intro f hf
    simp only [exFile, List.flatMap_cons, List.flatMap_nil, List.append_nil, List.mem_cons, List.not_mem_nil,
      or_false] at hf
    rcases hf with rfl | rfl <;> decide
  · intro f hf
    simp only [exFile, List.flatMap_cons, List.flatMap_nil, List.append_nil, List.mem_cons, List.not_mem_nil,
      or_false] at hf
    rcases hf with rfl | rfl <;> simp [ping, take, parse, parses, primNames]
  · obtain ⟨r, h, _⟩ := okWith_iff (p := fun _ => true) (file := exFile) (valid := fun _ => none) (by decide +kernel)
    exact ⟨r, h⟩

example : ∃ r, processFile (fun _ => none) [] [⟨"a", [cfg, ⟨"E", false, [], false, false, false, [[.param "ext" [.name "abi_error"]]]⟩], []⟩] =
    .ok r ∧ (r.abiErrors == ["E"]) = true :=
  okWith_iff (by decide +kernel)

/-- C114 is false: a result that is written with its module is refused. -/
theorem C114_false_path : okWith (fun _ => none) [⟨"a", [cfg], [ping u64Result]⟩] (fun _ => true) = true ∧
    processFile (fun _ => none) []
      [⟨"a", [cfg], [ping (.app ["contract_calls"] "ContractCallResult" [.app [] "u64" []])]⟩] = .error [.returnType] := by
  refine ⟨by decide +kernel, ?_⟩
  rfl

/-- `use 0x5::m::Foo as ContractCallResult`. -/
def aliased : Validate.Module where
  id := ⟨0, "a"⟩
  structs := []
  functions := []
  imports := [(⟨5, "m"⟩, "Foo", some "ContractCallResult")]

/-- C114 is false: any type that is imported under the name of a result is accepted as one. -/
theorem C114_false_alias :
    okWith (fun f => match validateFunction aliased ⟨f.name, false, [], f.params, f.result⟩ with
        | some none => none
        | _ => some (.other 0)) [⟨"a", [cfg], [ping (.app [] "ContractCallResult" [])]⟩] (fun r => r.calls.map (·.1) == ["ping"]) =
      true ∧
    ∀ x ∈ aliased.imports, x.2.2 = some "ContractCallResult" → x.1 = ⟨5, "m"⟩ ∧ x.2.1 = "Foo" := by
  refine ⟨by decide +kernel, ?_⟩
  intro x hx _
  simp only [aliased, List.mem_singleton] at hx
  rw [hx]
  exact ⟨rfl, rfl⟩

/-- C114 is false: in a file with two modules a struct that is not marked is accepted as the configuration, if a
struct of the other module has the same name. -/
theorem C114_false_modules : ∃ a b : Mod, okWith (fun _ => none) [a, b] (fun r => r.calls.map (·.1) == ["ping"]) = true ∧
    ping u64Result ∈ b.funs ∧ ∀ s ∈ b.structs, ¬ Marked s ∧ ¬ GoodConfig s := by
  refine ⟨⟨"a", [cfg], []⟩, ⟨"b", [{ name := "Cfg", positional := false, fields := [] }], [ping u64Result]⟩,
    by decide +kernel, by simp, ?_⟩
  intro s hs
  rw [List.mem_singleton] at hs
  rw [hs]
  exact ⟨by simp [Marked, structMods], by simp [GoodConfig]⟩

/-- C115 is false: in a file with two modules the parameters of a function of the second module are taken as the
function with the same name of the first module has declared its own. -/
theorem C115_false_modules : ∃ a b : Mod, ∃ f ∈ b.funs, Lists f .owned "t" ∧ ¬ Lists f .shared "t" ∧ f.params[0]? =
      some ("t", .ref true (.app [] "T2" [])) ∧
    okWith (fun _ => none) [a, b] (fun r => argKind r f.name 0 == some .shared) = true := by
  refine ⟨⟨"a", [structT true], [take "shared_objects" (.ref true (.app [] "T" []))]⟩,
    ⟨"b", [{ structT true with name := "T2" }], [take "owned_objects" (.ref true (.app [] "T2" []))]⟩,
    take "owned_objects" (.ref true (.app [] "T2" [])), by simp, ?_, ?_, rfl, by decide +kernel⟩
  · exact ⟨["t"], by decide +kernel, by simp⟩
  · rintro ⟨ids, h, _⟩
    have : (funMods (take "owned_objects" (.ref true (.app [] "T2" []))).groups).1 = [.owned ["t"]] := by
      decide +kernel
    rw [this] at h
    simp [listOf] at h

/-- C115 is false: in a file with two modules a struct without `key` is accepted as an object, if a struct of the
other module has the same name and has `key`. -/
theorem C115_false_struct : ∃ a b : Mod, take "frozen_objects" (.ref false (.app [] "T" [])) ∈ b.funs ∧
    (∀ s ∈ b.structs, s.key = false) ∧ okWith (fun _ => none) [a, b] (fun r => argKind r "take" 0 == some .frozen) = true :=
  ⟨⟨"a", [structT true], []⟩, ⟨"b", [structT false], [take "frozen_objects" (.ref false (.app [] "T" []))]⟩,
    by simp, by simp [structT], by decide +kernel⟩

/-- C115 is false: a struct of any other module is accepted as an object, if a struct of this module has the same
name and has `key`. -/
theorem C115_false_path (m : String) :
    okWith (fun _ => none) [⟨"a", [structT true], [take "owned_objects" (.app [m] "T" [])]⟩]
      (fun r => argKind r "take" 0 == some .owned) = true := rfl

/-- C115 is false: an object of another module cannot be declared. -/
theorem C115_false_import (ty : String) (h : ty ∉ primNames ∧ ty ≠ "vector" ∧ ty ≠ "T") :
    processFile (fun _ => none) [] [⟨"a", [structT true], [take "owned_objects" (.app [] ty [])]⟩] =
      .error [.structNotFound "t"] := by
  have hp : parse (.app [] ty []) = some (.user ty []) := by
    rw [parse, if_neg h.1, if_neg h.2.1]; rfl
  have hc : checkObject [("T", true)] (take "owned_objects" (.app [] ty [])) .owned "t" = [.structNotFound "t"] := by
    have hd : decide ("T" = ty) = false := decide_eq_false fun e => h.2.2 e.symm
    simp only [checkObject, take, List.find?_cons, decide_true, hp, objectName, hd, List.find?_nil]
    simp
  have hg : parseFuns [.param "ext" [.param "owned_objects" [.name "t"]]] = .ok [.owned ["t"]] := by decide +kernel
  have hi : ∀ st : St, st.structs = [("T", true)] → st.seen = [] → st.found = false → st.errors = [] →
      (funGroup (take "owned_objects" (.app [] ty [])) st [.param "ext" [.param "owned_objects" [.name "t"]]]).found = true ∧
      (funGroup (take "owned_objects" (.app [] ty [])) st [.param "ext" [.param "owned_objects" [.name "t"]]]).errors =
        [.structNotFound "t"] := by
    intro st h1 h2 h3 h4
    simp [funGroup, hg, funMod, objectsStep, identStep, h1, h2, hc, St.fail, h3, h4]
  obtain ⟨i1, i2⟩ := hi { structs := [("T", true)], cur := { name := "take", params := [("t", .app [] ty [])] } } rfl rfl rfl rfl
  simp only [processFile, List.flatMap_cons, List.flatMap_nil, List.append_nil, List.foldl_cons, List.foldl_nil, structStep,
    structT, fail_nil, List.nil_append, funStep, Option.toList_none]
  simp only [take] at i1 i2 ⊢
  simp only [List.foldl_cons, List.foldl_nil, i1, i2, if_true]

/-- A struct with one attribute. -/
def withAttr (a : Attr) : SDef := ⟨"E", false, [], false, false, false, [[a]]⟩

/-- C113 is false also of what is done with the modifiers: `#[abi_error]` is read as a modifier, and has no effect;
`#[event]` has. -/
theorem C113_false_error : structMods [[.name "abi_error"]] = ([.abiError], []) ∧
    okWith (fun _ => none) [⟨"a", [withAttr (.name "abi_error")], []⟩] (fun r => r.abiErrors == []) = true ∧
    okWith (fun _ => none) [⟨"a", [withAttr (.name "event")], []⟩] (fun r => r.events == [("E", 0, false)]) = true ∧
    okWith (fun _ => none) [⟨"a", [withAttr (.param "ext" [.name "abi_error"])], []⟩]
      (fun r => r.abiErrors == ["E"]) = true := by
  refine ⟨rfl, ?_, ?_, ?_⟩ <;> decide +kernel

end Props.Proc
