import Verif.Rt.Validate

/-!
C103-C105: what the checks of the source of a module guarantee about ids, objects that functions return,
events and errors.  The names of types are strings here; what they stand for is given by a function
`den` (what the Move compiler resolves a name behind a path to), so that the properties are about the types
and not about their spelling.
-/

namespace Props
open Validate

/-- A datatype: the module that defines it and its name there. -/
structure Dt where
  mod : ModId
  name : String
  deriving DecidableEq, Repr

/-- `stylus::object::UID` and `stylus::object::NamedId`. -/
def IsIdType (d : Dt) : Prop := d.mod = ⟨2, "object"⟩ ∧ (d.name = "UID" ∨ d.name = "NamedId")

/-- The type is one of these datatypes. -/
def Is (den : List String → String → Option Dt) (D : Dt → Prop) : STy → Prop
  | .app p n _ => ∃ d, den p n = some d ∧ D d
  | _ => False

/-- The type is one of these datatypes, or a vector or tuple of such types. -/
inductive Made (den : List String → String → Option Dt) (D : Dt → Prop) : STy → Prop where
  | is {p n args d} : den p n = some d → D d → Made den D (.app p n args)
  | vector {t} : Made den D t → Made den D (.app [] "vector" [t])
  | tuple {ts t} : t ∈ ts → Made den D t → Made den D (.multiple ts)

/-- One of these datatypes occurs in the type, anywhere. -/
inductive Names (den : List String → String → Option Dt) (D : Dt → Prop) : STy → Prop where
  | is {p n args d} : den p n = some d → D d → Names den D (.app p n args)
  | arg {p n args t} : t ∈ args → Names den D t → Names den D (.app p n args)
  | ref {m t} : Names den D t → Names den D (.ref m t)
  | tuple {ts t} : t ∈ ts → Names den D t → Names den D (.multiple ts)

/-- The names of built in types stand for no datatype. -/
def BuiltIn (den : List String → String → Option Dt) : Prop :=
  ∀ n, n ∈ primNames ∨ n = "vector" → den [] n = none

/-- The ids are spelled `UID` and `NamedId`, behind whatever path: they are not imported under other
names, and other datatypes are not imported under these. -/
def Spelled (den : List String → String → Option Dt) : Prop :=
  ∀ p n d, den p n = some d → (IsIdType d ↔ n = "UID" ∨ n = "NamedId")

/-- All names stand for something (else the Move compiler rejects the module). -/
def Resolved (den : List String → String → Option Dt) : STy → Prop
  | .app p n _ => (p = [] ∧ (n ∈ primNames ∨ n = "vector")) ∨ ∃ d, den p n = some d
  | _ => True

/-! ### Parsing -/

theorem parse_id {den t t'} (hb : BuiltIn den) (hs : Spelled den) (hr : Resolved den t)
    (h : parse t = some t') : t'.isId = true ↔ Is den IsIdType t := by
  cases t with
  | app p n args =>
    cases p with
    | nil =>
      simp only [parse] at h
      simp only [Is]
      split at h
      · rename_i hn
        cases h
        simp [Ty.isId, hb n (.inl hn)]
      · split at h
        · rename_i hn
          subst hn
          rw [hb _ (.inr rfl)]
          revert h
          cases parses args with
          | none => simp
          | some l => rcases l with _ | ⟨a, _ | ⟨b, l⟩⟩ <;> simp <;> (try (rintro rfl; simp [Ty.isId]))
        · rename_i h1 h2
          obtain ⟨l, -, rfl⟩ := Option.map_eq_some_iff.1 h
          rcases hr with ⟨-, hr⟩ | ⟨d, hd⟩
          · exact absurd hr (by simp [h1, h2])
          · simp [Ty.isId, hd, hs _ _ _ hd]
    | cons q qs =>
      simp only [parse] at h
      obtain ⟨l, -, rfl⟩ := Option.map_eq_some_iff.1 h
      rcases hr with ⟨h', -⟩ | ⟨d, hd⟩
      · cases h'
      · simp [Ty.isId, Is, hd, hs _ _ _ hd]
  | ref m t =>
    cases m <;> simp only [parse] at h <;> obtain ⟨l, -, rfl⟩ := Option.map_eq_some_iff.1 h <;>
      simp [Ty.isId, Is]
  | unit => simp only [parse, Option.some.injEq] at h; subst h; simp [Ty.isId, Is]
  | multiple ts =>
    simp only [parse] at h; obtain ⟨l, -, rfl⟩ := Option.map_eq_some_iff.1 h; simp [Ty.isId, Is]
  | func ts r =>
    simp only [parse, Option.bind_eq_bind, Option.bind_eq_some_iff] at h
    obtain ⟨a, -, b, -, h⟩ := h
    cases h; simp [Ty.isId, Is]

theorem parses_mem {ts : List STy} {l t} (h : parses ts = some l) (ht : t ∈ ts) :
    ∃ t', t' ∈ l ∧ parse t = some t' := by
  induction ts generalizing l with
  | nil => simp at ht
  | cons a ts ih =>
    simp only [parses, Option.bind_eq_bind, Option.bind_eq_some_iff] at h
    obtain ⟨x, hx, y, hy, h⟩ := h
    cases h
    rcases List.mem_cons.1 ht with rfl | ht
    · exact ⟨x, List.mem_cons_self, hx⟩
    · obtain ⟨t', h1, h2⟩ := ih hy ht
      exact ⟨t', List.mem_cons_of_mem _ h1, h2⟩

theorem mem_namesAll {l : List Ty} {t n} (ht : t ∈ l) (hn : n ∈ t.names) : n ∈ namesAll l := by
  induction l with
  | nil => simp at ht
  | cons a l ih =>
    simp only [namesAll, List.mem_append]
    rcases List.mem_cons.1 ht with rfl | ht
    · exact .inl hn
    · exact .inr (ih ht)

/-- A type made of one of the datatypes has a name that stands for it among its names. -/
theorem made_names {den D t t'} (hb : BuiltIn den) (h : Made den D t) (hp : parse t = some t') :
    ∃ p n d, den p n = some d ∧ D d ∧ n ∈ t'.names := by
  induction h generalizing t' with
  | @is p n args d hd hD =>
    refine ⟨p, n, d, hd, hD, ?_⟩
    cases p with
    | nil =>
      simp only [parse] at hp
      split at hp
      · rename_i hn; rw [hb n (.inl hn)] at hd; cases hd
      · split at hp
        · rename_i hn; rw [hb n (.inr hn)] at hd; cases hd
        · obtain ⟨l, -, rfl⟩ := Option.map_eq_some_iff.1 hp; simp [Ty.names]
    | cons q qs =>
      simp only [parse] at hp
      obtain ⟨l, -, rfl⟩ := Option.map_eq_some_iff.1 hp; simp [Ty.names]
  | @vector t _ ih =>
    have e : ("vector" : String) ∉ primNames := by decide
    simp only [parse, e, if_false, if_true, parses, Option.bind_eq_bind] at hp
    cases hx : parse t with
    | none => simp [hx] at hp
    | some x =>
      simp only [hx, Option.bind_some, Option.some.injEq] at hp
      subst hp
      simpa [Ty.names] using ih hx
  | @tuple ts t ht _ ih =>
    simp only [parse] at hp
    obtain ⟨l, hl, rfl⟩ := Option.map_eq_some_iff.1 hp
    obtain ⟨x, hx, hx'⟩ := parses_mem hl ht
    obtain ⟨p, n, d, h1, h2, h3⟩ := ih hx'
    exact ⟨p, n, d, h1, h2, by simpa [Ty.names] using mem_namesAll hx h3⟩

theorem parseFields_any {den} {fs : List (String × STy)} {l} (hb : BuiltIn den) (hs : Spelled den)
    (hr : ∀ f ∈ fs, Resolved den f.2) (h : parseFields fs = some l) :
    l.any (·.2.isId) = true ↔ ∃ f ∈ fs, Is den IsIdType f.2 := by
  induction fs generalizing l with
  | nil => simp only [parseFields, Option.some.injEq] at h; subst h; simp
  | cons a fs ih =>
    obtain ⟨n, t⟩ := a
    simp only [parseFields, Option.bind_eq_bind, Option.bind_eq_some_iff] at h
    obtain ⟨x, hx, y, hy, h⟩ := h
    cases h
    simp only [List.any_cons, Bool.or_eq_true]
    rw [parse_id hb hs (hr _ List.mem_cons_self) hx, ih (fun f hf => hr f (List.mem_cons_of_mem _ hf)) hy]
    constructor
    · rintro (h | ⟨f, hf, h⟩)
      · exact ⟨_, List.mem_cons_self, h⟩
      · exact ⟨f, List.mem_cons_of_mem _ hf, h⟩
    · rintro ⟨f, hf, h⟩
      rcases List.mem_cons.1 hf with rfl | hf
      · exact .inl h
      · exact .inr ⟨f, hf, h⟩

theorem accepts_struct {m : Module} {s} (h : accepts m = true) (hs : s ∈ m.structs) :
    ∃ fs, parseFields s.fields = some fs ∧ checkReserved m.id.address s = [] ∧
      checkIds m.id.address s.key fs = [] ∧ ∀ f ∈ fs, nested m.events m.errors f.2 = none := by
  simp only [accepts, Bool.and_eq_true, List.all_eq_true, beq_iff_eq] at h
  have h := h.1 s hs
  simp only [validateStruct, Option.bind_eq_bind, Option.bind_eq_some_iff, Option.some.injEq] at h
  obtain ⟨fs, h1, h2⟩ := h
  simp only [List.append_eq_nil_iff, List.filterMap_eq_nil_iff] at h2
  exact ⟨fs, h1, h2.1.1, h2.1.2, h2.2⟩

theorem accepts_function {m : Module} {f} (h : accepts m = true) (hf : f ∈ m.functions) :
    ∃ ps r, parses (f.params.map (·.2)) = some ps ∧ parse f.result = some r ∧
      uidError m.id.address ps = none ∧ (f.entry = true → f.typeParams = []) ∧
      (f.entry = true → ∀ n ∈ r.names, returnsKey m n = false) ∧
      (∀ p ∈ ps, p.isOneOf m.events = false) ∧ (∀ p ∈ ps, p.isOneOf m.errors = false) := by
  simp only [accepts, Bool.and_eq_true, List.all_eq_true, beq_iff_eq] at h
  have h := h.2 f hf
  simp only [validateFunction, Option.bind_eq_bind, Option.bind_eq_some_iff, Option.some.injEq] at h
  obtain ⟨ps, h1, r, h2, h3⟩ := h
  simp only [Option.or_eq_none_iff] at h3
  obtain ⟨a, b, c, d, e⟩ := h3
  refine ⟨ps, r, h1, h2, a, ?_, ?_, ?_, ?_⟩
  · intro he
    by_cases ht : f.typeParams = []
    · exact ht
    · simp [he, ht] at b
  · intro he n hn
    cases hk : returnsKey m n with
    | false => rfl
    | true =>
      have : r.names.any (returnsKey m) = true := List.any_eq_true.2 ⟨n, hn, hk⟩
      simp [he, this] at c
  · intro p hp
    cases hk : p.isOneOf m.events with
    | false => rfl
    | true =>
      have : ps.any (·.isOneOf m.events) = true := List.any_eq_true.2 ⟨p, hp, hk⟩
      simp [this] at d
  · intro p hp
    cases hk : p.isOneOf m.errors with
    | false => rfl
    | true =>
      have : ps.any (·.isOneOf m.errors) = true := List.any_eq_true.2 ⟨p, hp, hk⟩
      simp [this] at e

/-! ### C103 -/

/-- The rules for the fields of a struct. -/
def IdRules (den : List String → String → Option Dt) (s : Struct) : Prop :=
  if s.key then ∃ t rest, s.fields = ("id", t) :: rest ∧ Is den IsIdType t ∧ ∀ f ∈ rest, ¬ Is den IsIdType f.2
  else ∀ f ∈ s.fields, ¬ Is den IsIdType f.2

/-- **C103**, in part.  In a module that is accepted, each struct with `key` has as its first field an `id`
that is a `UID` or `NamedId`, and no other field is one; no field of other structs is one; and no function
takes one, or a vector or tuple with one. -/
theorem C103_partial (den : List String → String → Option Dt) (m : Module) (hb : BuiltIn den)
    (hs : Spelled den) (hr : ∀ s ∈ m.structs, ∀ f ∈ s.fields, Resolved den f.2)
    (ha : m.id.address ≠ 2) (h : accepts m = true) :
    (∀ s ∈ m.structs, IdRules den s) ∧
    ∀ f ∈ m.functions, ∀ p ∈ f.params, ¬ Made den IsIdType p.2 := by
  constructor
  · intro s hsm
    obtain ⟨fs, h1, -, h3, -⟩ := accepts_struct h hsm
    have hr := hr s hsm
    unfold IdRules
    simp only [checkIds, sfAddress, ha, if_false] at h3
    by_cases hk : s.key = true
    · rw [if_pos hk] at h3 ⊢
      cases hf : s.fields with
      | nil =>
        rw [hf] at h1
        simp only [parseFields, Option.some.injEq] at h1
        subst h1
        simp at h3
      | cons a rest =>
        obtain ⟨n, t⟩ := a
        rw [hf] at h1 hr
        simp only [parseFields, Option.bind_eq_bind, Option.bind_eq_some_iff] at h1
        obtain ⟨x, hx, y, hy, h1⟩ := h1
        cases h1
        simp only [List.append_eq_nil_iff] at h3
        obtain ⟨h3, h4⟩ := h3
        have e := parse_id hb hs (hr _ List.mem_cons_self) hx
        have e2 := parseFields_any hb hs (fun f hf => hr f (List.mem_cons_of_mem _ hf)) hy
        by_cases hx' : x.isId = true
        · by_cases hn : n = "id"
          · subst hn
            refine ⟨t, rest, rfl, e.1 hx', ?_⟩
            intro f hf hid
            rw [if_pos (e2.2 ⟨f, hf, hid⟩)] at h4
            cases h4
          · simp [hx', hn] at h3
        · simp [hx'] at h3
    · rw [if_neg hk] at h3 ⊢
      intro f hf hid
      rw [if_pos ((parseFields_any hb hs hr h1).2 ⟨f, hf, hid⟩)] at h3
      cases h3
  · intro f hf p hp hm
    obtain ⟨ps, r, h1, -, h3, -⟩ := accepts_function h hf
    obtain ⟨t', ht', hpt⟩ := parses_mem h1 (List.mem_map.2 ⟨p, hp, rfl⟩)
    obtain ⟨q, n, d, hd, hD, hn⟩ := made_names hb hm hpt
    simp only [uidError, sfAddress, ha, if_false, List.findSome?_eq_none_iff] at h3
    have h3 := h3 n (mem_namesAll ht' hn)
    rcases (hs q n d hd).1 hD with e | e <;> simp [e] at h3

/-- The check of the ids of a struct is exact: it fails only if the struct breaks the rules. -/
theorem C103_exact (den : List String → String → Option Dt) (m : Module) (s : Struct) (fs : List (String × Ty))
    (hb : BuiltIn den) (hs : Spelled den) (hr : ∀ f ∈ s.fields, Resolved den f.2) (ha : m.id.address ≠ 2)
    (hp : parseFields s.fields = some fs) : checkIds m.id.address s.key fs = [] ↔ IdRules den s := by
  unfold IdRules
  simp only [checkIds, sfAddress, ha, if_false]
  by_cases hk : s.key = true
  · simp only [if_pos hk]
    cases hf : s.fields with
    | nil =>
      rw [hf] at hp
      simp only [parseFields, Option.some.injEq] at hp
      subst hp
      simp
    | cons a rest =>
      obtain ⟨n, t⟩ := a
      rw [hf] at hp hr
      simp only [parseFields, Option.bind_eq_bind, Option.bind_eq_some_iff] at hp
      obtain ⟨x, hx, y, hy, hp⟩ := hp
      cases hp
      have e := parse_id hb hs (hr _ List.mem_cons_self) hx
      have e2 := parseFields_any hb hs (fun f hf => hr f (List.mem_cons_of_mem _ hf)) hy
      have e3 : (¬ y.any (·.2.isId) = true) ↔ ∀ f ∈ rest, ¬ Is den IsIdType f.2 := by
        rw [e2]
        exact ⟨fun h f hf hi => h ⟨f, hf, hi⟩, fun h ⟨f, hf, hi⟩ => h f hf hi⟩
      rw [List.append_eq_nil_iff]
      constructor
      · rintro ⟨h1, h2⟩
        by_cases hx' : x.isId = true
        · by_cases hn : n = "id"
          · subst hn
            refine ⟨t, rest, rfl, e.1 hx', e3.1 fun hy => ?_⟩
            rw [if_pos hy] at h2
            cases h2
          · simp [hx', hn] at h1
        · simp [hx'] at h1
      · rintro ⟨t', rest', heq, h1, h2⟩
        simp only [List.cons.injEq, Prod.mk.injEq] at heq
        obtain ⟨⟨rfl, rfl⟩, rfl⟩ := heq
        rw [if_neg (by simp [e.2 h1]), if_neg (by simp), if_neg (e3.2 h2)]
        exact ⟨rfl, rfl⟩
  · simp only [if_neg hk]
    have e2 := parseFields_any hb hs hr hp
    by_cases ha : fs.any (·.2.isId) = true
    · rw [if_pos ha]
      rw [e2] at ha
      obtain ⟨f, hf, hi⟩ := ha
      simp only [reduceCtorEq, false_iff]
      exact fun h => h f hf hi
    · rw [if_neg ha]
      rw [e2] at ha
      simp only [true_iff]
      exact fun f hf hi => ha ⟨f, hf, hi⟩

/-! Witnesses. -/

/-- What names stand for in a module that has `use stylus::object::UID`, `use stylus::object::UID as U`,
`use std::option::Option` and `use other::m` (all at once); other names are types of the module itself. -/
def denV : List String → String → Option Dt
  | [], "UID" => some ⟨⟨2, "object"⟩, "UID"⟩
  | [], "U" => some ⟨⟨2, "object"⟩, "UID"⟩
  | [], "NamedId" => some ⟨⟨2, "object"⟩, "NamedId"⟩
  | [], "Option" => some ⟨⟨1, "option"⟩, "Option"⟩
  | [], n => if n ∈ primNames ∨ n = "vector" then none else some ⟨⟨9, "mine"⟩, n⟩
  | p, n => if n = "UID" ∨ n = "NamedId" then none else some ⟨⟨7, p.getLastD ""⟩, n⟩

theorem denV_builtIn : BuiltIn denV := by
  intro n hn
  simp only [primNames, List.mem_cons, List.not_mem_nil, or_false] at hn
  rcases hn with (rfl | rfl | rfl | rfl | rfl | rfl | rfl | rfl | rfl) | rfl <;> decide

/-- A module with one struct with `key`, one without, and two functions. -/
def plainMod : Module where
  id := ⟨9, "mine"⟩
  structs := [⟨"Obj", [("id", .app [] "UID" []), ("v", .app [] "vector" [.app [] "u64" []])], true, false, false⟩,
    ⟨"P", [("x", .app [] "u8" [])], false, false, false⟩]
  functions := [⟨"f", true, [], [("o", .ref true (.app [] "Obj" [])), ("p", .app [] "P" [])], .app [] "u8" []⟩]

/-- `denV` without the renamed import. -/
def denS (p : List String) (n : String) : Option Dt := if p = [] ∧ n = "U" then none else denV p n

theorem denS_spelled : Spelled denS := by
  intro p n d h
  unfold denS at h
  split at h
  · cases h
  rename_i hu
  unfold denV at h
  split at h <;> try (cases h; simp [IsIdType]; done)
  · simp at hu
  · split at h
    · cases h
    · cases h
      rename_i h1 _ h2 _ _
      simp [IsIdType]
      exact ⟨fun e => h1 (by simp [e]), fun e => h2 (by simp [e])⟩
  · split at h
    · cases h
    · rename_i hn
      cases h
      simp only [IsIdType, hn, iff_false, not_and]
      intro e
      cases e

theorem denS_builtIn : BuiltIn denS := fun n hn => by
  unfold denS
  split
  · rfl
  · exact denV_builtIn n hn

-- C103_partial, C103_exact: the hypotheses hold of a module with an object
example : BuiltIn denS ∧ Spelled denS ∧ plainMod.id.address ≠ 2 ∧ accepts plainMod = true ∧
    (∀ s ∈ plainMod.structs, ∀ f ∈ s.fields, Resolved denS f.2) ∧ (∀ s ∈ plainMod.structs, IdRules denS s) := by
  have hr : ∀ s ∈ plainMod.structs, ∀ f ∈ s.fields, Resolved denS f.2 := by
    intro s hs f hf
    simp only [plainMod, List.mem_cons, List.not_mem_nil, or_false] at hs
    rcases hs with rfl | rfl <;> simp only [List.mem_cons, List.not_mem_nil, or_false] at hf
    · rcases hf with rfl | rfl
      · exact .inr ⟨_, rfl⟩
      · exact .inl ⟨rfl, .inr rfl⟩
    · subst hf; exact .inl ⟨rfl, .inl (by decide)⟩
  have ha : accepts plainMod = true := by decide +kernel
  exact ⟨denS_builtIn, denS_spelled, by decide, ha, hr,
    (C103_partial denS plainMod denS_builtIn denS_spelled hr (by decide) ha).1⟩

/-- A struct without `key` that has ids in a vector and in an `Option`, and a function that takes a
reference to an id. -/
def bagMod : Module where
  id := ⟨9, "mine"⟩
  structs := [⟨"Bag", [("ids", .app [] "vector" [.app [] "UID" []]), ("one", .app [] "Option" [.app [] "UID" []])],
    false, false, false⟩]
  functions := [⟨"f", false, [], [("id", .ref true (.app [] "UID" []))], .unit⟩]

/-- A struct without `key` that has an id, under another name. -/
def aliasMod : Module where
  id := ⟨9, "mine"⟩
  structs := [⟨"Fake", [("id", .app [] "U" [])], false, false, false⟩]
  functions := [⟨"g", true, [], [("id", .app [] "U" [])], .unit⟩]
  imports := [(⟨2, "object"⟩, "UID", some "U")]

/-- **C103** is false: modules are accepted in which structs without `key` have fields with ids in vectors
and options, and functions that take references to ids; and, if `UID` is imported under another name, structs
without `key` with a field that is an id, and entry functions that take one. -/
theorem C103_false :
    (accepts bagMod = true ∧
      (∃ s ∈ bagMod.structs, s.key = false ∧ ∀ f ∈ s.fields, Names denV IsIdType f.2) ∧
      ∃ f ∈ bagMod.functions, ∃ p ∈ f.params, Names denV IsIdType p.2) ∧
    accepts aliasMod = true ∧
      (∃ s ∈ aliasMod.structs, s.key = false ∧ ∃ f ∈ s.fields, Is denV IsIdType f.2) ∧
      ∃ f ∈ aliasMod.functions, f.entry = true ∧ ∃ p ∈ f.params, Is denV IsIdType p.2 := by
  have hu : ∀ n, n = "UID" ∨ n = "U" → ∃ d, denV [] n = some d ∧ IsIdType d := by
    rintro n (rfl | rfl) <;> exact ⟨⟨⟨2, "object"⟩, "UID"⟩, rfl, rfl, .inl rfl⟩
  have hm : Names denV IsIdType (.app [] "UID" []) := by
    obtain ⟨d, h1, h2⟩ := hu "UID" (.inl rfl)
    exact .is h1 h2
  refine ⟨⟨by decide +kernel, ⟨_, List.mem_cons_self, rfl, ?_⟩, _, List.mem_cons_self, _, List.mem_cons_self, .ref hm⟩,
    by decide +kernel, ⟨_, List.mem_cons_self, rfl, _, List.mem_cons_self, hu "U" (.inr rfl)⟩,
    _, List.mem_cons_self, rfl, _, List.mem_cons_self, hu "U" (.inr rfl)⟩
  intro f hf
  simp only [List.mem_cons, List.not_mem_nil, or_false] at hf
  rcases hf with rfl | rfl
  · exact .arg List.mem_cons_self hm
  · exact .arg List.mem_cons_self hm

/-! ### C104 -/

/-- What the module says about the datatypes with `key`: its own ones are those declared with `key`; those
of other modules are in `deps`; each name that stands for one is the name of a struct of the module or
the name or alias of an imported member, and of this one only. -/
structure Scope (den : List String → String → Option Dt) (K : Dt → Prop) (m : Module) : Prop where
  own : ∀ s ∈ m.structs, K ⟨m.id, s.name⟩ → s.key = true
  deps : ∀ id ss, m.deps id = some ss → ∀ s ∈ ss, K ⟨id, s.1⟩ → s.2 = true
  names : ∀ p n d, den p n = some d → K d →
    (d = ⟨m.id, n⟩ ∧ ∃ s ∈ m.structs, s.name = n) ∨
    ((∀ s ∈ m.structs, s.name ≠ n) ∧ (∃ a, (d.mod, d.name, a) ∈ m.imports ∧ n = a.getD d.name) ∧
      (∃ ss k, m.deps d.mod = some ss ∧ (d.name, k) ∈ ss) ∧
      ∀ id o a, (id, o, a) ∈ m.imports → o = n ∨ a = some n → id = d.mod ∧ o = d.name)

theorem Scope.key {den K m n d p} (h : Scope den K m) (hd : den p n = some d) (hk : K d) :
    returnsKey m n = true := by
  unfold returnsKey
  rcases h.names p n d hd hk with ⟨rfl, s, hs, hn⟩ | ⟨h1, ⟨a, ha, hn⟩, ⟨ss, k, hss, hk'⟩, h4⟩
  · cases hf : m.structs.find? (·.name = n) with
    | none =>
      have := List.find?_eq_none.1 hf s hs
      simp [hn] at this
    | some s' =>
      have h1 := List.find?_some hf
      have h2 := List.mem_of_find?_eq_some hf
      simp only [decide_eq_true_eq] at h1
      exact h.own s' h2 (by rw [h1]; exact hk)
  · have : m.structs.find? (·.name = n) = none := by
      rw [List.find?_eq_none]
      intro s hs
      simp [h1 s hs]
    rw [this]
    have hmem : ∀ x ∈ m.imports, (x.2.1 = n ∨ x.2.2 = some n) →
        ((m.deps x.1).bind fun ss => (ss.find? (·.1 = x.2.1)).map (·.2)) = some true := by
      rintro ⟨id, o, a'⟩ hx hm
      obtain ⟨rfl, rfl⟩ := h4 id o a' hx hm
      simp only [hss, Option.bind_some]
      cases hf : ss.find? (·.1 = d.name) with
      | none =>
        have := List.find?_eq_none.1 hf _ hk'
        simp at this
      | some s' =>
        have e1 := List.find?_some hf
        have e2 := List.mem_of_find?_eq_some hf
        simp only [decide_eq_true_eq] at e1
        simp only [Option.map_some]
        rw [h.deps _ _ hss s' e2 (by rw [e1]; exact hk)]
    have hex : ∃ x ∈ m.imports, x.2.1 = n ∨ x.2.2 = some n := by
      refine ⟨_, ha, ?_⟩
      cases a with
      | none => exact .inl hn.symm
      | some a => exact .inr (by simp at hn; simp [hn])
    have : findImported m n = some true := by
      unfold findImported
      clear h4
      revert hmem hex
      generalize m.imports = l
      intro hmem hex
      induction l with
      | nil => obtain ⟨x, hx, -⟩ := hex; cases hx
      | cons x l ih =>
        obtain ⟨id, o, a'⟩ := x
        rw [List.findSome?_cons]
        by_cases hm : o = n ∨ a' = some n
        · simp only [if_pos hm]
          rw [hmem _ List.mem_cons_self hm]
        · simp only [if_neg hm]
          refine ih (fun y hy => hmem y (List.mem_cons_of_mem _ hy)) ?_
          obtain ⟨y, hy, hym⟩ := hex
          rcases List.mem_cons.1 hy with rfl | hy
          · exact absurd hym hm
          · exact ⟨y, hy, hym⟩
    rw [this]
    rfl

/-- **C104**, in part.  In a module that is accepted the result of an entry function is no struct with
`key`, and no vector or tuple of such structs, if types are named as they are imported. -/
theorem C104_partial (den : List String → String → Option Dt) (K : Dt → Prop) (m : Module) (hb : BuiltIn den)
    (hS : Scope den K m) (h : accepts m = true) (f : Func) (hf : f ∈ m.functions) (he : f.entry = true) :
    ¬ Made den K f.result := by
  intro hm
  obtain ⟨ps, r, -, h2, -, -, h5, -⟩ := accepts_function h hf
  obtain ⟨p, n, d, hd, hD, hn⟩ := made_names hb hm h2
  have := h5 he n hn
  rw [hS.key hd hD] at this
  cases this

/-- The structs with `key`: `mine::Obj` and `m::Obj`. -/
def keyValid (d : Dt) : Prop := d = ⟨⟨9, "mine"⟩, "Obj"⟩ ∨ d = ⟨⟨7, "m"⟩, "Obj"⟩

/-- What names stand for in a module with `use other::m::Obj as Other` and its own `Obj`. -/
def denI : List String → String → Option Dt
  | [], "Other" => some ⟨⟨7, "m"⟩, "Obj"⟩
  | [], "Obj" => some ⟨⟨9, "mine"⟩, "Obj"⟩
  | _, _ => none

/-- An accepted module with an object of its own and an imported one. -/
def importMod : Module where
  id := ⟨9, "mine"⟩
  structs := [⟨"Obj", [("id", .app [] "UID" [])], true, false, false⟩]
  functions := [⟨"f", true, [], [("o", .app [] "Obj" []), ("p", .app [] "Other" [])], .app [] "vector" [.app [] "u8" []]⟩]
  imports := [(⟨7, "m"⟩, "Obj", some "Other")]
  deps := fun id => if id = ⟨7, "m"⟩ then some [("Obj", true)] else none

-- C104_partial: the hypotheses hold of a module with an imported object
example : BuiltIn denI ∧ Scope denI keyValid importMod ∧ accepts importMod = true ∧
    accepts { importMod with functions := [⟨"f", true, [], [], .app [] "vector" [.app [] "Other" []]⟩] } = false := by
  refine ⟨?_, ⟨?_, ?_, ?_⟩, by decide +kernel, by decide +kernel⟩
  · intro n hn
    simp only [primNames, List.mem_cons, List.not_mem_nil, or_false] at hn
    rcases hn with (rfl | rfl | rfl | rfl | rfl | rfl | rfl | rfl | rfl) | rfl <;> decide
  · intro s hs _
    simp only [importMod, List.mem_cons, List.not_mem_nil, or_false] at hs
    subst hs; rfl
  · intro id ss h s hs _
    simp only [importMod] at h
    split at h
    · cases h
      simp only [List.mem_cons, List.not_mem_nil, or_false] at hs
      subst hs; rfl
    · cases h
  · intro p n d h _
    unfold denI at h
    split at h
    · cases h
      refine .inr ⟨?_, ⟨some "Other", List.mem_cons_self, rfl⟩, ⟨_, true, rfl, List.mem_cons_self⟩, ?_⟩
      · intro s hs
        simp only [importMod, List.mem_cons, List.not_mem_nil, or_false] at hs
        subst hs
        decide
      · intro id o a hm _
        simp only [importMod, List.mem_cons, List.not_mem_nil, or_false, Prod.mk.injEq] at hm
        obtain ⟨rfl, rfl, rfl⟩ := hm
        exact ⟨rfl, rfl⟩
    · cases h
      exact .inl ⟨rfl, _, List.mem_cons_self, rfl⟩
    · cases h

/-- A module with `use other::m` whose entry functions return `m::Obj`, an `Option` of an object, and a
reference to an object. -/
def returnMod : Module where
  id := ⟨9, "mine"⟩
  structs := [⟨"P", [("x", .app [] "u8" [])], false, false, false⟩,
    ⟨"Obj", [("id", .app [] "UID" [])], true, false, false⟩]
  functions := [⟨"f", true, [], [("o", .app ["m"] "Thing" [])], .app ["m"] "Thing" []⟩,
    ⟨"g", true, [], [("o", .app [] "Obj" [])], .app [] "Option" [.app [] "Obj" []]⟩,
    ⟨"h", true, [], [("o", .ref false (.app [] "Obj" []))], .ref false (.app [] "Obj" [])⟩]
  deps := fun id => if id = ⟨7, "m"⟩ then some [("Thing", true)] else none

/-- Two members imported: `a::Obj`, which has `key`, as `X`, and `b::Y`, which has not, as `Obj`.  The entry
function returns `b::Y`. -/
def orderMod (l : List (ModId × String × Option String)) : Module where
  id := ⟨9, "mine"⟩
  structs := []
  functions := [⟨"f", true, [], [], .app [] "Obj" []⟩]
  imports := l
  deps := fun id =>
    if id = ⟨7, "a"⟩ then some [("Obj", true)] else if id = ⟨7, "b"⟩ then some [("Y", false)] else none

/-- **C104** is false: an entry function can return an object of another module if its type is written
with the name of the module, an `Option` of an object, and a reference to one.  And whether a module is
accepted can depend on the order of a hash map: the same imports in another order give another result. -/
theorem C104_false :
    (accepts returnMod = true ∧ ∀ f ∈ returnMod.functions, f.entry = true ∧
      Names denV (fun d => d = ⟨⟨7, "m"⟩, "Thing"⟩ ∨ d = ⟨⟨9, "mine"⟩, "Obj"⟩) f.result) ∧
    ∃ l l', l.Perm l' ∧ accepts (orderMod l) = true ∧ accepts (orderMod l') = false := by
  refine ⟨⟨by decide +kernel, ?_⟩, [(⟨7, "b"⟩, "Y", some "Obj"), (⟨7, "a"⟩, "Obj", some "X")],
    [(⟨7, "a"⟩, "Obj", some "X"), (⟨7, "b"⟩, "Y", some "Obj")], List.Perm.swap .., by decide +kernel, by decide +kernel⟩
  have ho : denV [] "Obj" = some ⟨⟨9, "mine"⟩, "Obj"⟩ := by decide
  have ht : denV ["m"] "Thing" = some ⟨⟨7, "m"⟩, "Thing"⟩ := by decide
  intro f hf
  simp only [returnMod, List.mem_cons, List.not_mem_nil, or_false] at hf
  rcases hf with rfl | rfl | rfl
  · exact ⟨rfl, .is ht (.inl rfl)⟩
  · exact ⟨rfl, .arg List.mem_cons_self (.is ho (.inr rfl))⟩
  · exact ⟨rfl, .ref (.is ho (.inr rfl))⟩

/-! ### C105 -/

/-- The events and errors the module declares. -/
def EventOrError (m : Module) (d : Dt) : Prop :=
  d.mod = m.id ∧ ∃ s ∈ m.structs, s.name = d.name ∧ (s.event = true ∨ s.error = true)

theorem mem_events {m : Module} {d} (h : EventOrError m d) : d.name ∈ m.events ∨ d.name ∈ m.errors := by
  obtain ⟨-, s, hs, hn, h | h⟩ := h
  · exact .inl (List.mem_map.2 ⟨s, List.mem_filter.2 ⟨hs, h⟩, hn⟩)
  · exact .inr (List.mem_map.2 ⟨s, List.mem_filter.2 ⟨hs, h⟩, hn⟩)

mutual
theorem nested_names (ev er : List String) : ∀ t : Ty, nested ev er t = none → ∀ n ∈ t.names, n ∉ ev ∧ n ∉ er
  | .user n _, h, k, hk => by
    simp only [Ty.names, List.mem_singleton] at hk
    subst hk
    simp only [nested] at h
    split at h
    · cases h
    · split at h
      · cases h
      · rename_i h1 h2; exact ⟨h1, h2⟩
  | .vector t, h, k, hk => nested_names ev er t (by simpa [nested] using h) k (by simpa [Ty.names] using hk)
  | .tuple ts, h, k, hk => nestedAny_names ev er ts (by simpa [nested] using h) k (by simpa [Ty.names] using hk)
  | .prim _, _, k, hk => by simp [Ty.names] at hk
  | .function _ _, _, k, hk => by simp [Ty.names] at hk
  | .ref _, _, k, hk => by simp [Ty.names] at hk
  | .mutRef _, _, k, hk => by simp [Ty.names] at hk
theorem nestedAny_names (ev er : List String) : ∀ ts : List Ty, nestedAny ev er ts = none →
    ∀ n ∈ namesAll ts, n ∉ ev ∧ n ∉ er
  | [], _, k, hk => by simp [namesAll] at hk
  | t :: ts, h, k, hk => by
    simp only [nestedAny, Option.or_eq_none_iff] at h
    simp only [namesAll, List.mem_append] at hk
    rcases hk with hk | hk
    · exact nested_names ev er t h.1 k hk
    · exact nestedAny_names ev er ts h.2 k hk
end

theorem parseFields_mem {fs : List (String × STy)} {l f} (h : parseFields fs = some l) (hf : f ∈ fs) :
    ∃ t', (f.1, t') ∈ l ∧ parse f.2 = some t' := by
  induction fs generalizing l with
  | nil => simp at hf
  | cons a fs ih =>
    obtain ⟨n, t⟩ := a
    simp only [parseFields, Option.bind_eq_bind, Option.bind_eq_some_iff] at h
    obtain ⟨x, hx, y, hy, h⟩ := h
    cases h
    rcases List.mem_cons.1 hf with rfl | hf
    · exact ⟨x, List.mem_cons_self, hx⟩
    · obtain ⟨t', h1, h2⟩ := ih hy hf
      exact ⟨t', List.mem_cons_of_mem _ h1, h2⟩

/-- **C105**, in part.  In a module that is accepted no field of a struct is an event or error of the module,
or a vector of them, and no function takes one as a parameter. -/
theorem C105_partial (den : List String → String → Option Dt) (m : Module) (hb : BuiltIn den)
    (hn : ∀ p n d, den p n = some d → EventOrError m d → n = d.name) (h : accepts m = true) :
    (∀ s ∈ m.structs, ∀ f ∈ s.fields, ¬ Made den (EventOrError m) f.2) ∧
    ∀ f ∈ m.functions, ∀ p ∈ f.params, ¬ Is den (EventOrError m) p.2 := by
  constructor
  · intro s hs f hf hm
    obtain ⟨fs, h1, -, -, h4⟩ := accepts_struct h hs
    obtain ⟨t', h5, h6⟩ := parseFields_mem h1 hf
    obtain ⟨p, n, d, hd, hD, hmem⟩ := made_names hb hm h6
    have := nested_names _ _ _ (h4 _ h5) n hmem
    rw [hn p n d hd hD] at this
    rcases mem_events hD with e | e
    · exact this.1 e
    · exact this.2 e
  · intro f hf p hp hm
    obtain ⟨ps, r, h1, -, -, -, -, h6, h7⟩ := accepts_function h hf
    obtain ⟨t', ht', hpt⟩ := parses_mem h1 (List.mem_map.2 ⟨p, hp, rfl⟩)
    cases hp2 : p.2 with
    | app q n args =>
      rw [hp2] at hm hpt
      obtain ⟨d, hd, hD⟩ := hm
      have hu : ∃ l, t' = .user n l := by
        cases q with
        | nil =>
          simp only [parse] at hpt
          split at hpt
          · rename_i hx; rw [hb n (.inl hx)] at hd; cases hd
          · split at hpt
            · rename_i hx; rw [hb n (.inr hx)] at hd; cases hd
            · obtain ⟨l, -, rfl⟩ := Option.map_eq_some_iff.1 hpt; exact ⟨l, rfl⟩
        | cons q qs =>
          simp only [parse] at hpt
          obtain ⟨l, -, rfl⟩ := Option.map_eq_some_iff.1 hpt; exact ⟨l, rfl⟩
      obtain ⟨l, rfl⟩ := hu
      have e1 := h6 _ ht'
      have e2 := h7 _ ht'
      simp only [Ty.isOneOf, decide_eq_false_iff_not] at e1 e2
      rw [hn q n d hd hD] at e1 e2
      rcases mem_events hD with e | e
      · exact e1 e
      · exact e2 e
    | ref _ _ => rw [hp2] at hm; exact hm
    | unit => rw [hp2] at hm; exact hm
    | multiple _ => rw [hp2] at hm; exact hm
    | func _ _ => rw [hp2] at hm; exact hm

/-- A module with an event, whose functions take vectors of and references to it, and with a struct that
has an `Option` of it. -/
def eventMod : Module where
  id := ⟨9, "mine"⟩
  structs := [⟨"Ev", [("x", .app [] "u8" [])], false, true, false⟩,
    ⟨"P", [("e", .app [] "Option" [.app [] "Ev" []])], false, false, false⟩]
  functions := [⟨"f", true, [], [("es", .app [] "vector" [.app [] "Ev" []]), ("e", .ref false (.app [] "Ev" []))], .unit⟩]

theorem denV_mine {p n d} (h : denV p n = some d) (hd : d.mod = ⟨9, "mine"⟩) : n = d.name := by
  unfold denV at h
  split at h <;> (try (cases h; simp at hd; done))
  · split at h
    · cases h
    · cases h; rfl
  · split at h
    · cases h
    · cases h; rfl

-- C105_partial: the hypotheses hold of a module with an event
example : accepts { eventMod with structs := eventMod.structs.take 1 } = true ∧
    (∀ p n d, denV p n = some d → EventOrError eventMod d → n = d.name) ∧
    EventOrError eventMod ⟨⟨9, "mine"⟩, "Ev"⟩ :=
  ⟨by decide +kernel, fun _ _ _ h h' => denV_mine h h'.1, rfl, _, List.mem_cons_self, rfl, .inl rfl⟩

/-- **C105** is false: a module is accepted in which functions take vectors of events and references to
events, and a struct has an `Option` of an event. -/
theorem C105_false : accepts eventMod = true ∧
    (∃ s ∈ eventMod.structs, ∃ f ∈ s.fields, Names denV (EventOrError eventMod) f.2) ∧
    ∃ f ∈ eventMod.functions, ∀ p ∈ f.params, Names denV (EventOrError eventMod) p.2 := by
  have he : denV [] "Ev" = some ⟨⟨9, "mine"⟩, "Ev"⟩ := by decide
  have hm : Names denV (EventOrError eventMod) (.app [] "Ev" []) :=
    .is he ⟨rfl, _, List.mem_cons_self, rfl, .inl rfl⟩
  refine ⟨by decide +kernel, ⟨_, List.mem_cons_of_mem _ List.mem_cons_self, _, List.mem_cons_self,
    .arg List.mem_cons_self hm⟩, _, List.mem_cons_self, ?_⟩
  intro p hp
  simp only [List.mem_cons, List.not_mem_nil, or_false] at hp
  rcases hp with rfl | rfl
  · exact .arg List.mem_cons_self hm
  · exact .ref hm

end Props
