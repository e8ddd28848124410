import Verif.Proof.Export

/-!
# Exported signatures: functions, events and errors
-/

namespace Export
open Abi

section
variable {Occ Vis : ITy → Prop} {ss : List AStruct}

theorem processIO_cons {fuel : Nat} {name : String} {a : AT} {ps : List (String × AT)} {js : List J} (ha : a ≠ .none)
    (h : processIO ss fuel ((name, a) :: ps) = some js) :
    ∃ j js', encodeJson ss fuel name a = some j ∧ processIO ss fuel ps = some js' ∧ js = j :: js' := by
  cases a <;> first | exact (ha rfl).elim | skip
  all_goals
    simp only [processIO, Option.bind_eq_some_iff, Option.map_eq_some_iff] at h
    obtain ⟨j, h1, js', h2, rfl⟩ := h
    exact ⟨j, js', h1, h2, rfl⟩

theorem params_names (hd : NamesDiffer Occ) (hn : Nice Occ Vis) (hss : FromTypes Occ ss) {fuel : Nat} :
    ∀ (ps : List (String × ITy)) as ts js rs, (∀ p ∈ ps, Hidden (strip p.2) ∨ Vis (strip p.2)) →
      paramsOf ps = some (some (as, ts)) → processIO ss fuel as = some js → (ps.map (·.2)).mapM solName = some rs →
      rs.filterMap id = canons js := by
  intro ps
  induction ps with
  | nil =>
    intro as ts js rs _ hp hj hr
    simp only [paramsOf, Option.some.injEq, Prod.mk.injEq] at hp
    obtain ⟨rfl, rfl⟩ := hp
    simp only [processIO, Option.some.injEq] at hj
    simp only [List.map_nil, List.mapM_nil, Option.pure_def, Option.some.injEq] at hr
    subst hj hr
    rfl
  | cons p ps ih =>
    intro as ts js rs hv hp hj hr
    obtain ⟨r, rs', hr', hrs, rfl⟩ := mapM_cons' hr
    clear hr
    have hr : solName p.2 = some r := hr'
    have hv' : ∀ q ∈ ps, Hidden (strip q.2) ∨ Vis (strip q.2) := fun q hq => hv q (by simp [hq])
    rw [paramsOf] at hp
    split at hp
    · cases hp
    · simp at hp
    · rename_i as1 ts1 hp1
      simp only [Option.map_eq_some_iff] at hp
      obtain ⟨o, hps, ⟨as2, ts2⟩, rfl, heq⟩ := hp
      simp only [Prod.mk.injEq] at heq
      obtain ⟨rfl, rfl⟩ := heq
      rw [solName_strip] at hr
      by_cases hh : Hidden (strip p.2)
      · obtain rfl := paramOf_hidden hh hp1
        obtain rfl := solName_hidden hh hr
        simpa using ih _ _ _ _ hv' hps hj hrs
      · have hvp := (hv p (by simp)).resolve_left hh
        obtain ⟨a, rfl, hg, ha⟩ := paramOf_shown (hn.plain hvp) hh hp1
        obtain ⟨j, js', hj1, hj2, rfl⟩ := processIO_cons ha hj
        obtain ⟨rfl, _⟩ := (json_name hd hn hss fuel).1 _ _ _ _ _ hvp hg hj1 hr
        simp [canons, ih _ _ _ _ hv' hps hj2 hrs]

theorem fields_names (hd : NamesDiffer Occ) (hn : Nice Occ Vis) (hss : FromTypes Occ ss) {fuel : Nat} :
    ∀ (fields : List ITy) (names : List String) fs js rs, (∀ t ∈ fields, Vis t) → fields.length ≤ names.length →
      (fields.zip names).mapM (fun p => (genTy p.1).map (p.2, ·)) = some fs → processIO ss fuel fs = some js →
      fields.mapM solName = some rs → rs.filterMap id = canons js := by
  intro fields
  induction fields with
  | nil =>
    intro names fs js rs _ _ hf hj hr
    simp only [List.zip_nil_left, List.mapM_nil, Option.pure_def, Option.some.injEq] at hf hr
    subst hf hr
    simp only [processIO, Option.some.injEq] at hj
    subst hj
    rfl
  | cons t ts ih =>
    intro names fs js rs hv hl hf hj hr
    cases names with
    | nil => simp at hl
    | cons nm nms =>
      obtain ⟨r, rs', hr', hrs, rfl⟩ := mapM_cons' hr
      clear hr
      rename solName t = some r => hr
      simp only [List.zip_cons_cons] at hf
      obtain ⟨y, zs, hy, hz, rfl⟩ := mapM_cons' hf
      simp only [Option.map_eq_some_iff] at hy
      obtain ⟨a, hg, rfl⟩ := hy
      have hvt := hv t (by simp)
      have hrest := fun js' h => ih nms zs js' rs' (fun u hu => hv u (by simp [hu])) (by simpa using hl) hz h hrs
      by_cases ha : a = .none
      · subst ha
        simp only [processIO] at hj
        have hr0 : r = none := by
          have hp := hn.plain hvt
          cases t with
          | signer => simpa [solName] using hr.symm
          | param i => simpa [solName] using hr.symm
          | enum m n g simp =>
            cases simp
            · simpa [solName] using hr.symm
            · simp [genTy] at hg
          | ref t => exact hp.elim
          | mutRef t => exact hp.elim
          | struct m n args key fields names =>
            exact absurd hg (genTy_struct_ne)
          | _ => simp [genTy] at hg
        subst hr0
        simpa using hrest js hj
      · obtain ⟨j, js', hj1, hj2, rfl⟩ := processIO_cons ha hj
        obtain ⟨rfl, _⟩ := (json_name hd hn hss fuel).1 _ _ _ _ _ hvt hg hj1 hr
        simp [canons, hrest js' hj2]

/-! ### Names -/

theorem camelRest_eq {b : Bool} {cs : List Char} (h : cs.getLast? ≠ some '_') : camelRest b cs = genCamelRest b cs := by
  induction cs generalizing b with
  | nil => rfl
  | cons c cs ih =>
    rw [camelRest, genCamelRest]
    by_cases hc : c = '_'
    · subst hc
      cases cs with
      | nil => simp at h
      | cons d ds => simpa using ih (by simpa using h)
    · have : cs.getLast? ≠ some '_' := by
        cases cs with
        | nil => simp
        | cons d ds => simpa using h
      simp [hc, ih this]

theorem camel_eq {s : String} (h : s.toList.tail.getLast? ≠ some '_') : camel s = genCamel s := by
  unfold camel genCamel
  split <;> rename_i hs
  · rfl
  · rw [hs, List.tail_cons] at h
    simp [camelRest_eq h]

theorem camelRest_plain {cs : List Char} (h : '_' ∉ cs) : camelRest false cs = cs := by
  induction cs with
  | nil => rfl
  | cons c cs ih =>
    have : c ≠ '_' := by rintro rfl; simp at h
    simp [camelRest, this, ih (by simp_all)]

theorem toUpper_toLower {c : Char} (h : c.isUpper = true) : c.toLower.toUpper = c := by
  have hb : 65 ≤ c.toNat ∧ c.toNat ≤ 90 := by
    simp [Char.isUpper, UInt32.le_iff_toNat_le] at h
    exact h
  have : ∀ n, 65 ≤ n ∧ n ≤ 90 → (Char.ofNat n).toLower.toUpper = Char.ofNat n := by
    intro n hn
    obtain ⟨k, hk⟩ : ∃ k : Fin 26, n = 65 + k.1 := ⟨⟨n - 65, by omega⟩, by simp; omega⟩
    subst hk
    revert k
    decide +kernel
  have := this _ hb
  rwa [Char.ofNat_toNat] at this

theorem upperCamel_plain {s : String} {c : Char} {cs : List Char} (hs : s.toList = c :: cs) (hc : c.isUpper = true)
    (h : '_' ∉ cs) : upperCamel s = s := by
  unfold upperCamel camel
  rw [hs]
  simp only [camelRest_plain h, upperFirst, String.toList_ofList, toUpper_toLower hc]
  rw [← hs, String.ofList_toList]

/-! ### Events -/

/-- Types of fields of a struct in an event for which the topic names the type: no structs other than strings and fixed
bytes. -/
def FlatField : ITy → Prop
  | .vec t => FlatField t
  | .struct _ n args _ _ _ => args = [] ∧ (n = "String" ∨ n ∈ bytesNames)
  | .enum _ _ _ simple => simple = true
  | .ref _ => False
  | .mutRef _ => False
  | _ => True

/-- Types of fields of an event for which the topic names the type. -/
def FlatEvent : ITy → Prop
  | .vec t => FlatEvent t
  | .struct _ n args key fields _ => key = false ∧ ¬ (args = [] ∧ n = "UID") ∧ ∀ f ∈ fields, FlatField f
  | .ref _ => False
  | .mutRef _ => False
  | _ => True

theorem baseName_flat : ∀ {t : ITy}, FlatField t → baseName t = solName t
  | .bool, _ => rfl
  | .u8, _ => rfl
  | .u16, _ => rfl
  | .u32, _ => rfl
  | .u64, _ => rfl
  | .u128, _ => rfl
  | .u256, _ => rfl
  | .address, _ => rfl
  | .signer, _ => rfl
  | .param _, _ => rfl
  | .vec t, h => by simp only [baseName, solName]; rw [baseName_flat (t := t) h]
  | .ref _, h => h.elim
  | .mutRef _, h => h.elim
  | .enum m n g s, h => by
    have : s = true := h
    simp [baseName, solName, this]
  | .struct m n args key fields names, h => by
    obtain ⟨rfl, h⟩ := h
    simp only [baseName, solName, List.isEmpty_nil, if_true, reserved]
    have h1 : isVm "TxContext" [txMod] m n = some false := by
      unfold isVm
      rw [if_neg]
      rcases h with rfl | h
      · decide
      · rintro rfl; revert h; decide
    rw [h1]
    rcases h with rfl | h
    · by_cases hm : m ∈ stringMods <;> simp [isVm, hm]
    · have h2 : n ≠ "String" := by rintro rfl; revert h; decide
      by_cases hm : m = solMod <;> simp [isVm, isBytes, h2, h, hm]

theorem baseNames_flat : ∀ {ts : List ITy}, (∀ t ∈ ts, FlatField t) → baseNames ts = solNames ts := by
  intro ts
  induction ts with
  | nil => intro _; rfl
  | cons t ts ih =>
    intro h
    rw [baseNames, solNames, baseName_flat (h t (by simp)), ih (fun u hu => h u (by simp [hu]))]

theorem evReserved_eq {m : Mod} {n : String} (h : n ≠ "UID") : evReserved m n = reserved m n := by
  simp [evReserved, reserved, isVm, h]

theorem evName_flat : ∀ {t : ITy}, FlatEvent t → evName t = solName t
  | .bool, _ => rfl
  | .u8, _ => rfl
  | .u16, _ => rfl
  | .u32, _ => rfl
  | .u64, _ => rfl
  | .u128, _ => rfl
  | .u256, _ => rfl
  | .address, _ => rfl
  | .signer, _ => rfl
  | .param _, _ => rfl
  | .vec t, h => by simp only [evName, solName]; rw [evName_flat (t := t) h]
  | .ref _, h => h.elim
  | .mutRef _, h => h.elim
  | .enum m n g s, _ => rfl
  | .struct m n args key fields names, h => by
    obtain ⟨rfl, h1, h2⟩ := h
    simp only [evName, solName, baseNames_flat h2]
    cases args with
    | nil => simp [evReserved_eq (m := m) (fun e => h1 ⟨rfl, e⟩)]
    | cons => simp

theorem mapM_evName : ∀ {ts : List ITy}, (∀ t ∈ ts, FlatEvent t) → ts.mapM evName = ts.mapM solName := by
  intro ts
  induction ts with
  | nil => intro _; rfl
  | cons t ts ih =>
    intro h
    rw [List.mapM_cons, List.mapM_cons, evName_flat (h t (by simp)), ih (fun u hu => h u (by simp [hu]))]

end

/-! ### The file -/

/-- The types in the interface of a module. -/
def Source.types (src : Source) : List ITy :=
  src.functions.flatMap (fun f => f.2.map (·.2)) ++ src.results ++ src.events.flatMap Decl.fields ++
    src.errors.flatMap Decl.fields

/-- The types that occur in the interface of a module. -/
def Source.Occ (src : Source) (t : ITy) : Prop := ∃ u ∈ src.types, Occurs u t

theorem mapM_getElem {α β : Type} {f : α → Option β} : ∀ {xs : List α} {ys : List β}, xs.mapM f = some ys → ∀ {i : Nat} {x : α},
    xs[i]? = some x → ∃ y, ys[i]? = some y ∧ f x = some y := by
  intro xs
  induction xs with
  | nil => intro ys _ i x h; simp at h
  | cons a xs ih =>
    intro ys h i x hx
    obtain ⟨y, zs, hy, hz, rfl⟩ := mapM_cons' h
    cases i with
    | zero => simp at hx; subst hx; exact ⟨y, rfl, hy⟩
    | succ i => simpa using ih hz (i := i) (by simpa using hx)

theorem mem_getElem {α β : Type} {f : α → Option β} {xs : List α} {ys : List β} (h : xs.mapM f = some ys) {y : β} (hy : y ∈ ys) :
    ∃ x ∈ xs, f x = some y := by
  induction xs generalizing ys with
  | nil => simp at h; subst h; cases hy
  | cons a xs ih =>
    obtain ⟨z, zs, hz, hzs, rfl⟩ := mapM_cons' h
    rcases List.mem_cons.1 hy with rfl | hy
    · exact ⟨a, by simp, hz⟩
    · obtain ⟨x, hx, hf⟩ := ih hzs hy
      exact ⟨x, by simp [hx], hf⟩

theorem paramOf_structs {name : String} {t u : ITy} {as : List (String × AT)} {ts : List ITy}
    (hp : paramOf name t = some (.params as ts)) (hu : u ∈ ts) : Occurs t u ∧ shouldProcess u = true := by
  have key : u = strip t ∧ shouldProcess u = true := by
    unfold paramOf at hp
    generalize strip t = v at hp
    unfold paramOf1 at hp
    cases v with
    | struct m n args key fields names =>
      simp only at hp
      split at hp
      · simp only [Option.some.injEq, Contribution.params.injEq] at hp; rw [← hp.2] at hu; cases hu
      · split at hp
        · simp only [Option.map_eq_some_iff, Contribution.params.injEq] at hp
          obtain ⟨_, _, _, rfl⟩ := hp
          cases hu
        · simp only [Option.map_eq_some_iff, Contribution.params.injEq] at hp
          obtain ⟨_, _, _, rfl⟩ := hp
          split at hu
          · rename_i hsp
            simp only [List.mem_singleton] at hu
            subst hu
            exact ⟨rfl, hsp⟩
          · cases hu
    | enum m n g simp =>
      simp only at hp
      split at hp
      · simp only [Option.map_eq_some_iff, Contribution.params.injEq] at hp
        obtain ⟨_, _, _, rfl⟩ := hp
        cases hu
      · cases hp
    | signer => simp only [Option.some.injEq, Contribution.params.injEq] at hp; rw [← hp.2] at hu; cases hu
    | param => simp at hp
    | _ =>
      simp only [Option.map_eq_some_iff, Contribution.params.injEq] at hp
      obtain ⟨_, _, _, rfl⟩ := hp
      cases hu
  obtain ⟨rfl, key⟩ := key
  refine ⟨?_, key⟩
  cases t <;> first | exact .refl _ | exact .ref (.refl _) | exact .mutRef (.refl _)

theorem paramsOf_structs : ∀ {ps : List (String × ITy)} {as : List (String × AT)} {ts : List ITy},
    paramsOf ps = some (some (as, ts)) → ∀ u ∈ ts, (∃ p ∈ ps, Occurs p.2 u) ∧ shouldProcess u = true := by
  intro ps
  induction ps with
  | nil => intro as ts h u hu; simp [paramsOf] at h; rw [h.2] at hu; cases hu
  | cons p ps ih =>
    intro as ts h u hu
    rw [paramsOf] at h
    split at h
    · cases h
    · simp at h
    · rename_i as1 ts1 hp1
      simp only [Option.map_eq_some_iff] at h
      obtain ⟨o, hps, ⟨as2, ts2⟩, rfl, heq⟩ := h
      simp only [Prod.mk.injEq] at heq
      obtain ⟨rfl, rfl⟩ := heq
      rcases List.mem_append.1 hu with hu | hu
      · obtain ⟨ho, hs⟩ := paramOf_structs hp1 hu
        exact ⟨⟨p, by simp, ho⟩, hs⟩
      · obtain ⟨⟨q, hq, ho⟩, hs⟩ := ih hps u hu
        exact ⟨⟨q, by simp [hq], ho⟩, hs⟩

theorem returnStructs_occurs : ∀ {t u : ITy}, u ∈ returnStructs t → Occurs t u ∧ shouldProcess u = true
  | .ref t, u, h => (returnStructs_occurs (t := t) (by simpa [returnStructs] using h)).imp .ref id
  | .mutRef t, u, h => (returnStructs_occurs (t := t) (by simpa [returnStructs] using h)).imp .mutRef id
  | .struct .., u, h => by
    simp only [returnStructs] at h
    split at h
    · rename_i hs; simp only [List.mem_singleton] at h; subst h; exact ⟨.refl _, hs⟩
    · cases h
  | .bool, _, h | .u8, _, h | .u16, _, h | .u32, _, h | .u64, _, h | .u128, _, h | .u256, _, h | .address, _, h
  | .signer, _, h | .param _, _, h | .vec _, _, h | .enum .., _, h => by simp [returnStructs, shouldProcess] at h

/-- The processed structs occur in the interface. -/
theorem Source.structs_from {same : ITy → ITy → Bool} {ord : List ITy → List ITy} {fuel : Nat} {src : Source}
    {ps : List (Option (List (String × AT) × List ITy))} {ss : List AStruct} {seen : List ITy} (hord : ∀ ts, ord ts ⊆ ts)
    (hps : src.functions.mapM (fun f => paramsOf f.2) = some ps)
    (hss : processStructs same ord fuel (src.structs ps) [] = some (ss, seen)) : FromTypes src.Occ ss := by
  refine processStructs_from hord (fun {t u} ⟨v, hv, ho⟩ h' => ⟨v, hv, ho.trans h'⟩) fuel _ _ _ _ ?_ hss
  intro t ht
  simp only [Source.structs, List.mem_append] at ht
  have mem : ∀ u, (u ∈ src.functions.flatMap (fun f => f.2.map (·.2)) ∨ u ∈ src.results ∨ u ∈ src.events.flatMap Decl.fields ∨
      u ∈ src.errors.flatMap Decl.fields) → u ∈ src.types := by
    intro u hu
    simp only [Source.types, List.mem_append]
    rcases hu with h | h | h | h <;> simp [h]
  rcases ht with ((ht | ht) | ht) | ht
  · obtain ⟨d, hd, ht⟩ := List.mem_flatMap.1 ht
    exact ⟨⟨t, mem t (.inr (.inr (.inl (List.mem_flatMap.2 ⟨d, hd, (List.mem_filter.1 ht).1⟩)))), .refl _⟩, (List.mem_filter.1 ht).2⟩
  · obtain ⟨d, hd, ht⟩ := List.mem_flatMap.1 ht
    exact ⟨⟨t, mem t (.inr (.inr (.inr (List.mem_flatMap.2 ⟨d, hd, (List.mem_filter.1 ht).1⟩)))), .refl _⟩, (List.mem_filter.1 ht).2⟩
  · obtain ⟨p, hp, ht⟩ := List.mem_flatMap.1 ht
    cases p with
    | none => cases ht
    | some p =>
      obtain ⟨f, hf, hpf⟩ := mem_getElem hps hp
      obtain ⟨⟨q, hq, ho⟩, hs⟩ := paramsOf_structs (as := p.1) (ts := p.2) hpf t ht
      exact ⟨⟨q.2, mem _ (.inl (List.mem_flatMap.2 ⟨f, hf, List.mem_map.2 ⟨q, hq, rfl⟩⟩)), ho⟩, hs⟩
  · obtain ⟨u, hu, ht⟩ := List.mem_flatMap.1 ht
    exact ⟨⟨u, mem u (.inr (.inl hu)), (returnStructs_occurs ht).1⟩, (returnStructs_occurs ht).2⟩

/-- What `Source.export` does. -/
theorem Source.export_parts {same : ITy → ITy → Bool} {ord : List ITy → List ITy} {fuel : Nat} {src : Source} {ex : Exported}
    (h : src.export same ord fuel = some ex) (hord : ∀ ts, ord ts ⊆ ts) : ∃ ss es js rs ks ps fs, FromTypes src.Occ ss ∧
      src.events.mapM fieldsOf = some es ∧ es.mapM (processIO ss fuel) = some js ∧
      src.errors.mapM fieldsOf = some rs ∧ rs.mapM (processIO ss fuel) = some ks ∧
      src.functions.mapM (fun f => paramsOf f.2) = some ps ∧
      ps.mapM (fun | some p => (processIO ss fuel p.1).map some | none => some none) = some fs ∧
      ex.functions = (src.functions.zip fs).map (fun (f, o) => o.map (genCamel f.1, ·)) ∧
      ex.events = (src.events.zip js).map (fun (d, j) => (d.name, j)) ∧
      ex.errors = (src.errors.zip ks).map (fun (d, j) => (d.name, j)) := by
  simp only [Source.export, Option.bind_eq_bind, Option.bind_eq_some_iff, Option.pure_def, Option.some.injEq] at h
  obtain ⟨es, hes, rs, hrs, ps, hps, ⟨ss, seen⟩, hss, js, hjs, ks, hks, fs, hfs, rfl⟩ := h
  exact ⟨ss, es, js, rs, ks, ps, fs, Source.structs_from hord hps hss, hes, hjs, hrs, hks, hps, hfs, rfl, rfl, rfl⟩

/-- What `Source.outputs` does. -/
theorem Source.outputs_parts {same : ITy → ITy → Bool} {ord : List ITy → List ITy} {fuel : Nat} {src : Source} {rs : List ITy}
    {js : List J} (h : src.outputs same ord fuel rs = some js) (hord : ∀ ts, ord ts ⊆ ts) : ∃ ss, FromTypes src.Occ ss ∧
      ∃ as, rs.mapM genTy = some as ∧ processIO ss fuel (as.map ("", ·)) = some js := by
  simp only [Source.outputs, Option.bind_eq_bind, Option.bind_eq_some_iff] at h
  obtain ⟨ps, hps, ⟨ss, seen⟩, hss, as, has, hj⟩ := h
  exact ⟨ss, Source.structs_from hord hps hss, as, has, hj⟩

end Export
