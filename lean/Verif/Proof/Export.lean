import Verif.Rt.Export

/-!
# Exported signatures agree with hashed signatures
-/

namespace Export
open Abi

/-- Types that occur in the description of a type: elements, targets of references, fields of structs. -/
inductive Occurs : ITy → ITy → Prop
  | refl (t) : Occurs t t
  | vec {t u} : Occurs t u → Occurs (.vec t) u
  | ref {t u} : Occurs t u → Occurs (.ref t) u
  | mutRef {t u} : Occurs t u → Occurs (.mutRef t) u
  | field {m n args key fields names f u} : f ∈ fields → Occurs f u → Occurs (.struct m n args key fields names) u

theorem Occurs.trans {t u v : ITy} (h : Occurs t u) (h' : Occurs u v) : Occurs t v := by
  induction h with
  | refl => exact h'
  | vec _ ih => exact .vec (ih h')
  | ref _ ih => exact .ref (ih h')
  | mutRef _ ih => exact .mutRef (ih h')
  | field hf _ ih => exact .field hf (ih h')

/-- The same, except for the fields of objects. -/
inductive Shown : ITy → ITy → Prop
  | refl (t) : Shown t t
  | vec {t u} : Shown t u → Shown (.vec t) u
  | field {m n args fields names f u} : f ∈ fields → Shown f u → Shown (.struct m n args false fields names) u

theorem Shown.trans {t u v : ITy} (h : Shown t u) (h' : Shown u v) : Shown t v := by
  induction h with
  | refl => exact h'
  | vec _ ih => exact .vec (ih h')
  | field hf _ ih => exact .field hf (ih h')

theorem Shown.occurs {t u : ITy} (h : Shown t u) : Occurs t u := by
  induction h with
  | refl => exact .refl _
  | vec _ ih => exact .vec ih
  | field hf _ ih => exact .field hf ih

/-- Whether the struct starts with a `NamedId`. -/
def namedFirst : List ITy → Bool
  | .struct m n (_ :: _) _ _ _ :: _ => m = objectMod ∧ n = "NamedId"
  | _ => false

/-- Types the generator and the compiler treat alike: no instance of a generic enum, no `TxContext`, no `NamedId` or object
with one, no struct with more fields in the bytecode than in the source; and no references, which in Move cannot be part
of other types. -/
def Plain : ITy → Prop
  | .enum _ _ generic _ => generic = false
  | .struct m n args key fields names =>
    ¬ (args = [] ∧ n = "TxContext" ∧ m = txMod) ∧ ¬ (args ≠ [] ∧ m = objectMod ∧ n = "NamedId") ∧
    (if key then namedFirst fields = false else fields.length ≤ names.length)
  | .ref _ => False
  | .mutRef _ => False
  | _ => True

/-- Structs exported as tuples, or as objects. -/
def IsStruct : ITy → Prop
  | .struct m n args key fields names => ∃ n' as m' key', genTy (.struct m n args key fields names) = some (.struct n' as m' key')
  | _ => False

/-- The name under which a struct is exported. -/
def exportName (t : ITy) : Option String := (genTy t).map AT.name

/-- Suffix of a tuple type. -/
def J.Ok : J → Prop
  | .mk _ ty tup _ => tup = true → ∃ s : String, ty = "tuple" ++ s

theorem canon_array {n ty : String} {tup : Bool} {cs : List J} (h : J.Ok (.mk n ty tup cs)) :
    J.canon (.mk n (ty ++ "[]") tup cs) = J.canon (.mk n ty tup cs) ++ "[]" := by
  simp only [J.canon]
  split
  · rename_i ht
    obtain ⟨s, rfl⟩ := h ht
    simp [String.toList_append, String.append_assoc]
  · rfl

theorem lower_bytes {n : String} (h : n ∈ bytesNames) : lower n = "bytes" ++ String.ofList (n.toList.drop 5) := by
  revert n
  decide +kernel

theorem startsWith_bytes {n : String} (h : n ∈ bytesNames) : n.startsWith "Bytes" = true := by
  revert n
  decide +kernel

/-- Structs without arguments: either both name a reserved type, or neither. -/
theorem reserved_gen {m : Mod} {n : String} {r : Option (Option String)} {g : Option AT}
    (hr : reserved m n = some r) (hg : genReserved m n = some g) (ht : ¬ (n = "TxContext" ∧ m = txMod)) :
    (r = none ∧ g = none) ∨ ∃ s, r = some (some s) ∧ g = some (.prim s) := by
  by_cases h1 : n = "TxContext"
  · subst h1
    have : m ≠ txMod := fun h => ht ⟨rfl, h⟩
    simp [reserved, isVm, this] at hr
  by_cases h2 : n = "String"
  · subst h2
    by_cases hm : m ∈ stringMods
    · have ho : m ≠ objectMod := by rintro rfl; revert hm; decide
      simp [reserved, isVm, hm] at hr
      simp [genReserved, hm, ho] at hg
      subst hr hg
      exact .inr ⟨_, rfl, rfl⟩
    · simp [reserved, isVm, hm] at hr
  by_cases h3 : n ∈ bytesNames
  · by_cases hm : m = solMod
    · subst hm
      have h4 : n ≠ "ID" := by rintro rfl; revert h3; decide
      have h5 : n ≠ "UID" := by rintro rfl; revert h3; decide
      simp [reserved, isVm, isBytes, h1, h2, h3] at hr
      have h6 : solMod ≠ objectMod := by decide
      simp [genReserved, h2, h3, h6] at hg
      subst hr hg
      exact .inr ⟨_, rfl, by rw [lower_bytes h3]⟩
    · simp [reserved, isVm, isBytes, h1, h2, h3, hm] at hr
  by_cases h4 : n = "UID"
  · subst h4
    by_cases hm : m = objectMod
    · simp [reserved, isVm, isBytes, h3, hm] at hr
      simp [genReserved, hm] at hg
      subst hr hg
      exact .inr ⟨_, rfl, rfl⟩
    · simp [reserved, isVm, isBytes, h3, hm] at hr
  by_cases h5 : n = "ID"
  · subst h5
    by_cases hm : m = objectMod
    · simp [reserved, isVm, isBytes, h3, hm] at hr
      simp [genReserved, hm] at hg
      subst hr hg
      exact .inr ⟨_, rfl, rfl⟩
    · simp [reserved, isVm, isBytes, h3, hm] at hr
  · simp [reserved, isVm, isBytes, h1, h2, h3, h4, h5] at hr
    simp [genReserved, h2, h3, h4, h5] at hg
    exact .inl ⟨hr.symm, hg.2.symm⟩

/-- Entries of the ABI's structs come from types that occur. -/
def FromTypes (Occ : ITy → Prop) (ss : List AStruct) : Prop := ∀ s ∈ ss, ∃ t, Occ t ∧ IsStruct t ∧ structEntry t = some s

theorem mapM_cons' {α β : Type} {f : α → Option β} {x : α} {xs : List α} {ys : List β}
    (h : (x :: xs).mapM f = some ys) : ∃ y zs, f x = some y ∧ xs.mapM f = some zs ∧ ys = y :: zs := by
  rw [List.mapM_cons] at h
  cases hx : f x with
  | none => simp [hx] at h
  | some y =>
    cases hz : xs.mapM f with
    | none => simp [hx, hz] at h
    | some zs => simp [hx, hz] at h; exact ⟨y, zs, rfl, rfl, h.symm⟩

theorem structEntry_name {t : ITy} {s : AStruct} (h : structEntry t = some s) : exportName t = some s.name := by
  cases t <;> simp only [structEntry, reduceCtorEq] at h
  simp only [Option.bind_eq_bind, Option.bind_eq_some_iff, Option.pure_def, Option.some.injEq] at h
  obtain ⟨fs, _, a, ha, rfl⟩ := h
  simp [exportName, ha]

theorem structEntry_fields {m : Mod} {n : String} {args fields : List ITy} {key : Bool} {names : List String} {s : AStruct}
    (h : structEntry (.struct m n args key fields names) = some s) :
    (fields.zip names).mapM (fun p => (genTy p.1).map (p.2, ·)) = some s.fields := by
  simp only [structEntry, Option.bind_eq_bind, Option.bind_eq_some_iff, Option.pure_def, Option.some.injEq] at h
  obtain ⟨fs, hf, a, ha, rfl⟩ := h
  exact hf

section
variable {Occ Vis : ITy → Prop} {ss : List AStruct}

/-- The structs among the types have different names in the ABI. -/
def NamesDiffer (Occ : ITy → Prop) : Prop :=
  ∀ ⦃t u : ITy⦄ ⦃s : String⦄, Occ t → Occ u → IsStruct t → IsStruct u → exportName t = some s → exportName u = some s → t = u

/-- Types shown in an entry. -/
structure Nice (Occ Vis : ITy → Prop) : Prop where
  closed : ∀ {t u}, Vis t → Shown t u → Vis u
  plain : ∀ {t}, Vis t → Plain t
  occ : ∀ {t}, Vis t → Occ t

theorem json_name (hd : NamesDiffer Occ) (hn : Nice Occ Vis) (hss : FromTypes Occ ss) : ∀ (fuel : Nat),
    (∀ t name a j r, Vis t → genTy t = some a → encodeJson ss fuel name a = some j → solName t = some r →
      r = some j.canon ∧ J.Ok j) ∧
    (∀ (fields : List ITy) (names : List String) fs js r, (∀ t ∈ fields, Vis t) → fields.length ≤ names.length →
      (fields.zip names).mapM (fun p => (genTy p.1).map (p.2, ·)) = some fs → encodeFields ss fuel fs = some js →
      solNames fields = some r → r = some (canons js)) := by
  intro fuel
  induction fuel with
  | zero => exact ⟨fun _ _ _ _ _ _ _ h => by simp [encodeJson] at h, fun _ _ _ _ _ _ _ _ h => by simp [encodeFields] at h⟩
  | succ fuel ih =>
    refine ⟨?_, ?_⟩
    · intro t name a j r ho hg he hs
      have prim : ∀ s, genTy t = some (.prim s) → solName t = some (some s) → r = some j.canon ∧ J.Ok j := by
        intro s h1 h2
        rw [h1] at hg
        rw [h2] at hs
        cases hg
        cases hs
        simp only [encodeJson, Option.some.injEq] at he
        subst he
        exact ⟨by simp [J.canon], by simp [J.Ok]⟩
      cases t with
      | bool => exact prim _ (by rfl) (by rfl)
      | u8 => exact prim _ (by rfl) (by rfl)
      | u16 => exact prim _ (by rfl) (by rfl)
      | u32 => exact prim _ (by rfl) (by rfl)
      | u64 => exact prim _ (by rfl) (by rfl)
      | u128 => exact prim _ (by rfl) (by rfl)
      | u256 => exact prim _ (by rfl) (by rfl)
      | address => exact prim _ (by rfl) (by rfl)
      | signer => simp only [genTy, Option.some.injEq] at hg; subst hg; simp [encodeJson] at he
      | param i => simp only [genTy, Option.some.injEq] at hg; subst hg; simp [encodeJson] at he
      | enum m n g simp =>
        have hp := hn.plain ho
        simp only [Plain] at hp
        subst hp
        cases simp
        · simp only [genTy, Option.some.injEq] at hg; subst hg; simp [encodeJson] at he
        · simp only [genTy, if_true, Option.some.injEq] at hg
          subst hg
          simp only [encodeJson, Option.some.injEq] at he
          simp [solName] at hs
          subst he hs
          exact ⟨by simp [J.canon], by simp [J.Ok]⟩
      | ref t => exact (hn.plain ho).elim
      | mutRef t => exact (hn.plain ho).elim
      | vec t =>
        simp only [genTy, Option.map_eq_some_iff] at hg
        obtain ⟨a', hg, rfl⟩ := hg
        simp only [encodeJson, Option.map_eq_some_iff] at he
        obtain ⟨⟨jn, jt, jb, jc⟩, he, rfl⟩ := he
        simp only [solName, Option.map_eq_some_iff] at hs
        obtain ⟨r', hs, rfl⟩ := hs
        obtain ⟨rfl, hok⟩ := ih.1 t name a' _ r' (hn.closed ho (.vec (.refl _))) hg he hs
        refine ⟨?_, ?_⟩
        · rw [canon_array hok]; rfl
        · intro h
          obtain ⟨s, rfl⟩ := hok h
          exact ⟨s ++ "[]", by rw [String.append_assoc]⟩
      | struct m n args key fields names =>
        obtain ⟨hp1, hp2, hp3⟩ := hn.plain ho
        have main : ∀ as, a = .struct n as m key →
            (if key then storageIds fields
              else (solNames fields).map (Option.map (fun ss => "(" ++ String.intercalate "," ss ++ ")"))) = some r →
            r = some j.canon ∧ J.Ok j := by
          rintro as rfl h
          cases key with
          | true =>
            simp only [encodeJson, if_true, Option.some.injEq] at he
            simp only [if_true] at h hp3
            subst he
            refine ⟨?_, by simp [J.Ok]⟩
            simp only [J.canon, Bool.false_eq_true, if_false]
            unfold storageIds at h
            split at h
            · simp only [Option.bind_eq_some_iff] at h
              obtain ⟨b, _, h⟩ := h
              cases b <;> simp at h
              exact h.symm
            · rename_i m' n' _ _ _ _ _ _
              simp only [Option.bind_eq_some_iff] at h
              obtain ⟨b, hb, h⟩ := h
              cases b
              · simp at h
              · simp only [isVm] at hb
                simp only [namedFirst] at hp3
                split at hb <;> simp_all
            · simp at h
          | false =>
            simp only [Bool.false_eq_true, if_false, Option.map_eq_some_iff] at h hp3
            obtain ⟨r', hr', rfl⟩ := h
            simp only [encodeJson, Bool.false_eq_true, if_false, Option.bind_eq_some_iff, Option.map_eq_some_iff] at he
            obtain ⟨s, hfind, cs, hcs, rfl⟩ := he
            obtain ⟨u, hou, hsu, heu⟩ := hss s (List.mem_of_find?_eq_some hfind)
            have hname : s.name = (AT.struct n as m false).name := by
              have := List.find?_some hfind
              simpa using this
            have hu : u = .struct m n args false fields names := by
              refine hd hou (hn.occ ho) hsu ⟨_, _, _, _, hg⟩ (structEntry_name heu) ?_
              rw [exportName, hg, hname]
              rfl
            subst hu
            have h2 := ih.2 fields names s.fields cs r'
              (fun t ht => hn.closed ho (.field ht (.refl _))) hp3 (structEntry_fields heu) hcs hr'
            subst h2
            refine ⟨?_, fun _ => ⟨"", rfl⟩⟩
            simp [J.canon]
        cases args with
        | nil =>
          simp only [genTy, List.isEmpty_nil, if_true] at hg
          cases hgr : genReserved m n with
          | none => simp [hgr] at hg
          | some g =>
            simp only [solName, List.isEmpty_nil, if_true] at hs
            cases hrr : reserved m n with
            | none => simp [hrr] at hs
            | some q =>
              rcases reserved_gen hrr hgr (fun h => hp1 ⟨rfl, h⟩) with ⟨rfl, rfl⟩ | ⟨s, rfl, rfl⟩
              · simp only [hgr, Option.some.injEq] at hg
                simp only [hrr] at hs
                exact main [] hg.symm hs
              · exact prim s (by simp [genTy, hgr]) (by simp [solName, hrr])
        | cons x xs =>
          simp only [genTy, List.isEmpty_cons, Bool.false_eq_true, if_false, Option.map_eq_some_iff] at hg
          obtain ⟨as, hga, hg⟩ := hg
          have : ¬ (m = objectMod ∧ n = "NamedId") := fun h => hp2 ⟨by simp, h⟩
          simp only [this, if_false] at hg
          simp only [solName, List.isEmpty_cons, Bool.false_eq_true, if_false] at hs
          exact main as hg.symm hs
    · intro fields names fs js r ho hl hg he hs
      cases fields with
      | nil =>
        simp at hg
        subst hg
        simp [encodeFields] at he
        simp [solNames] at hs
        subst he hs
        simp [canons]
      | cons t ts =>
        cases names with
        | nil => simp at hl
        | cons nm nms =>
          simp only [List.zip_cons_cons] at hg
          obtain ⟨y, zs, hy, hz, rfl⟩ := mapM_cons' hg
          simp only [Option.map_eq_some_iff] at hy
          obtain ⟨a, hy, rfl⟩ := hy
          simp only [encodeFields, Option.bind_eq_some_iff, Option.map_eq_some_iff] at he
          obtain ⟨j, he, js', he', rfl⟩ := he
          simp only [solNames] at hs
          cases hst : solName t with
          | none => simp [hst] at hs
          | some r1 =>
            have h1 := (ih.1 t nm a j r1 (ho _ (by simp)) hy he hst).1
            subst h1
            simp only [hst, Option.map_eq_some_iff] at hs
            obtain ⟨r2, hs, rfl⟩ := hs
            have h2 := ih.2 ts nms zs js' r2 (fun u hu => ho _ (by simp [hu])) (by simpa using hl) hz he' hs
            subst h2
            simp [canons]

/-! ### Structs of the ABI -/

theorem structEntry_isStruct {t : ITy} {s : AStruct} (h : structEntry t = some s) (hp : shouldProcess t = true) : IsStruct t := by
  cases t <;> simp only [structEntry, reduceCtorEq] at h
  rename_i m n args key fields names
  simp only [Option.bind_eq_bind, Option.bind_eq_some_iff, Option.pure_def, Option.some.injEq] at h
  obtain ⟨fs, _, a, ha, rfl⟩ := h
  simp only [shouldProcess, Bool.and_eq_true, Bool.not_eq_true', decide_eq_false_iff_not] at hp
  obtain ⟨⟨h1, h2⟩, h3⟩ := hp
  refine ⟨n, ?_⟩
  cases args with
  | nil =>
    simp only [genTy, List.isEmpty_nil, if_true] at ha ⊢
    unfold genReserved at ha ⊢
    have h4 : ¬ (m = objectMod ∧ (n = "ID" ∨ n = "UID")) := by
      rintro ⟨h, h' | h'⟩ <;> exact h1 ⟨h, by simp [h']⟩
    have h5 : ¬ (m ∈ stringMods ∧ n = "String") := fun h => h2 ⟨h.2, h.1⟩
    simp only [h4, h5, if_false] at ha ⊢
    by_cases hm : m = solMod
    · subst hm
      have : n ∉ bytesNames := fun h => h3 ⟨rfl, startsWith_bytes h⟩
      simp [this] at ha
    · simp [hm]
  | cons x xs =>
    simp only [genTy, List.isEmpty_cons, Bool.false_eq_true, if_false, Option.map_eq_some_iff] at ha ⊢
    obtain ⟨as, has, _⟩ := ha
    have : ¬ (m = objectMod ∧ n = "NamedId") := fun h => h1 ⟨h.1, .inl h.2⟩
    simp only [this, if_false]
    exact ⟨as, m, key, as, has, rfl⟩

theorem childStructs_occurs {t u : ITy} (h : u ∈ childStructs t) : Occurs t u ∧ shouldProcess u = true := by
  cases t <;> simp only [childStructs, List.not_mem_nil] at h
  obtain ⟨h, h'⟩ := List.mem_filter.1 h
  obtain ⟨p, hp, rfl⟩ := List.mem_map.1 h
  exact ⟨.field (List.of_mem_zip hp).1 (.refl _), h'⟩

theorem processStructs_from {same : ITy → ITy → Bool} {ord : List ITy → List ITy} (hord : ∀ ts, ord ts ⊆ ts)
    (hc : ∀ {t u}, Occ t → Occurs t u → Occ u) : ∀ (fuel : Nat) (ts seen seen' : List ITy) (es : List AStruct),
    (∀ t ∈ ts, Occ t ∧ shouldProcess t = true) → processStructs same ord fuel ts seen = some (es, seen') → FromTypes Occ es := by
  intro fuel
  induction fuel with
  | zero => intro ts seen seen' es _ h; simp [processStructs] at h
  | succ fuel ih =>
    intro ts seen seen' es ht h
    rw [processStructs] at h
    have ht' : ∀ t ∈ ord ts, Occ t ∧ shouldProcess t = true := fun t h => ht t (hord ts h)
    have hnil : FromTypes Occ (([], seen) : List AStruct × List ITy).1 := by intro s hs; cases hs
    revert h hnil
    generalize (([], seen) : List AStruct × List ITy) = acc
    revert ht' acc
    generalize ord ts = us
    intro ht'
    induction us with
    | nil =>
      intro acc h hacc
      simp only [List.foldlM_nil, Option.pure_def, Option.some.injEq] at h
      subst h
      exact hacc
    | cons u us ihu =>
      intro acc h hacc
      rw [List.foldlM_cons] at h
      simp only [Option.bind_eq_bind, Option.bind_eq_some_iff] at h
      obtain ⟨acc', h1, h2⟩ := h
      refine ihu (fun t h => ht' t (List.mem_cons_of_mem _ h)) acc' h2 ?_
      split at h1
      · cases h1; exact hacc
      · simp only [Option.bind_eq_some_iff, Option.pure_def, Option.some.injEq] at h1
        obtain ⟨e, he, ⟨es', seen''⟩, hp, rfl⟩ := h1
        obtain ⟨hou, hpu⟩ := ht' u (by simp)
        have := ih _ _ _ _ (fun t h => ⟨hc hou (childStructs_occurs h).1, (childStructs_occurs h).2⟩) hp
        intro s hs
        simp only [List.mem_append, List.mem_cons] at hs
        rcases hs with hs | rfl | hs
        · exact hacc s hs
        · exact ⟨u, hou, structEntry_isStruct he hpu, he⟩
        · exact this s hs

/-! ### Parameters -/

theorem solName_strip (t : ITy) : solName t = solName (strip t) := by
  cases t <;> simp [strip, solName]

/-- Parameters that are not part of the interface: signers, the transaction context, and objects with a `NamedId`, which are
found without the caller naming them. -/
def Hidden : ITy → Prop
  | .signer => True
  | .struct m n args key fields _ =>
    (args = [] ∧ n = "TxContext" ∧ m = txMod) ∨
    (key = true ∧ namedFirst fields = true ∧ m.addr ≠ 1 ∧ m.addr ≠ 2)
  | _ => False

theorem isVm_other {id n : String} {m : Mod} {ms : List Mod} {b : Bool} (hm : m ∉ ms) (h : isVm id ms m n = some b) :
    b = false := by
  unfold isVm at h
  split at h
  · simp at h
  · simpa using h.symm

theorem reserved_other {m : Mod} {n : String} {r : Option (Option String)} (h1 : m.addr ≠ 1) (h2 : m.addr ≠ 2)
    (h : reserved m n = some r) : r = none := by
  have ho : m ∉ [objectMod] := by simp; rintro rfl; exact h2 rfl
  have htx : m ∉ [txMod] := by simp; rintro rfl; exact h2 rfl
  have hst : m ∉ stringMods := by simp [stringMods]; exact ⟨by rintro rfl; exact h1 rfl, by rintro rfl; exact h1 rfl⟩
  have hso : m ≠ solMod := by rintro rfl; exact h2 rfl
  simp only [reserved, Option.bind_eq_bind, Option.bind_eq_some_iff] at h
  obtain ⟨b1, hb1, h⟩ := h
  obtain rfl := isVm_other htx hb1
  simp only [Bool.false_eq_true, if_false, Option.bind_eq_some_iff] at h
  obtain ⟨b2, hb2, h⟩ := h
  obtain rfl := isVm_other hst hb2
  simp only [Bool.false_eq_true, if_false, Option.bind_eq_some_iff] at h
  obtain ⟨b3, hb3, h⟩ := h
  have : b3 = false := by
    unfold isBytes at hb3
    split at hb3
    · simp at hb3
    · simpa using hb3.symm
  subst this
  simp only [Bool.false_eq_true, if_false, Option.bind_eq_some_iff] at h
  obtain ⟨b4, hb4, h⟩ := h
  obtain rfl := isVm_other ho hb4
  simp only [Bool.false_eq_true, if_false, Option.bind_eq_some_iff] at h
  obtain ⟨b5, hb5, h⟩ := h
  obtain rfl := isVm_other ho hb5
  simpa using h.symm

theorem solName_hidden {t : ITy} {r : Option String} (h : Hidden t) (hs : solName t = some r) : r = none := by
  cases t <;> simp only [Hidden] at h
  case signer => simpa [solName] using hs.symm
  case struct m n args key fields names =>
    rcases h with ⟨rfl, rfl, rfl⟩ | ⟨rfl, hf, h1, h2⟩
    · simp [solName, reserved, isVm] at hs
      exact hs.symm
    · have key : storageIds fields = some r := by
        cases args with
        | nil =>
          simp only [solName, List.isEmpty_nil, if_true] at hs
          cases hr : reserved m n with
          | none => simp [hr] at hs
          | some q =>
            obtain rfl := reserved_other h1 h2 hr
            simpa [hr] using hs
        | cons => simpa [solName] using hs
      unfold namedFirst at hf
      split at hf
      · simp only [decide_eq_true_eq] at hf
        obtain ⟨rfl, rfl⟩ := hf
        simp [storageIds, isVm] at key
        exact key.symm
      · simp at hf

theorem paramOf_hidden {name : String} {t : ITy} {as : List (String × AT)} {ts : List ITy} (h : Hidden (strip t))
    (hp : paramOf name t = some (.params as ts)) : as = [] := by
  unfold paramOf at hp
  generalize strip t = u at h hp
  cases u <;> simp only [Hidden] at h
  case signer => simp [paramOf1] at hp; exact hp.1
  case struct m n args key fields names =>
    simp only [paramOf1] at hp
    rcases h with ⟨rfl, rfl, rfl⟩ | ⟨rfl, hf, h1, h2⟩
    · simp at hp; exact hp.1
    · split at hp
      · simp at hp; exact hp.1
      · unfold namedFirst at hf
        split at hf
        · simp only [decide_eq_true_eq] at hf
          obtain ⟨rfl, rfl⟩ := hf
          simp [storageParam] at hp
          exact hp.1
        · simp at hf

theorem genTy_struct_ne {m : Mod} {n : String} {args fields : List ITy} {key : Bool} {names : List String} :
    genTy (.struct m n args key fields names) ≠ some .none := by
  intro h
  cases args with
  | nil =>
    simp only [genTy, List.isEmpty_nil, if_true] at h
    split at h
    · cases h
    · rename_i g hg
      cases h
      unfold genReserved at hg
      repeat' split at hg
      all_goals simp at hg
    · simp at h
  | cons =>
    simp only [genTy, List.isEmpty_cons, Bool.false_eq_true, if_false, Option.map_eq_some_iff] at h
    obtain ⟨as, _, h⟩ := h
    split at h <;> cases h

/-- A parameter that is not hidden is listed with its type. -/
theorem paramOf_shown {name : String} {t : ITy} {as : List (String × AT)} {ts : List ITy} (h : Plain (strip t))
    (hh : ¬ Hidden (strip t)) (hp : paramOf name t = some (.params as ts)) :
    ∃ a, as = [(name, a)] ∧ genTy (strip t) = some a ∧ a ≠ .none := by
  have key : ∀ u, Plain u → ¬ Hidden u → paramOf1 name u = some (.params as ts) →
      ∃ a, as = [(name, a)] ∧ genTy u = some a ∧ a ≠ .none := by
    intro u h hh hp
    cases u with
    | signer => exact (hh trivial).elim
    | param i => simp [paramOf1] at hp
    | ref t => exact h.elim
    | mutRef t => exact h.elim
    | enum m n g simp =>
      cases simp
      · simp [paramOf1] at hp
      · simp [paramOf1, genTy] at hp
        exact ⟨_, hp.1.symm, by simp [genTy], by simp⟩
    | vec t =>
      simp only [paramOf1, Option.map_eq_some_iff, Contribution.params.injEq] at hp
      obtain ⟨a, ha, rfl, _⟩ := hp
      refine ⟨a, rfl, ha, ?_⟩
      rintro rfl
      simp [genTy] at ha
    | struct m n args key fields names =>
      have hne : genTy (.struct m n args key fields names) ≠ some .none := genTy_struct_ne
      simp only [paramOf1] at hp
      have h1 : ¬ (args = [] ∧ n = "TxContext" ∧ m = txMod) := h.1
      split at hp
      · rename_i hc
        exact (h1 ⟨by simpa using hc.1, hc.2⟩).elim
      · cases key with
        | true =>
          simp only [if_true, Option.map_eq_some_iff, Contribution.params.injEq] at hp
          obtain ⟨as', hq, rfl, _⟩ := hp
          unfold storageParam at hq
          split at hq
          · split at hq
            · simp only [Option.map_eq_some_iff] at hq
              obtain ⟨a, ha, rfl⟩ := hq
              exact ⟨a, rfl, ha, fun e => hne (e ▸ ha)⟩
            · split at hq
              · rename_i args' _ _ _ _ _ hc
                have := h.2.2
                simp only [if_true, namedFirst] at this
                cases args' <;> simp_all
              · cases hq
          · cases hq
        | false =>
          simp only [Bool.false_eq_true, if_false, Option.map_eq_some_iff, Contribution.params.injEq] at hp
          obtain ⟨a, ha, rfl, _⟩ := hp
          exact ⟨a, rfl, ha, fun e => hne (e ▸ ha)⟩
    | _ =>
      simp only [paramOf1, genTy, Option.map_some, Option.some.injEq, Contribution.params.injEq] at hp
      exact ⟨_, hp.1.symm, by simp only [genTy], by simp⟩
  exact key _ h hh hp

end
end Export
