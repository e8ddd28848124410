import Verif.Rt.Link
import Mathlib.Data.List.Basic
import Mathlib.Data.List.Nodup

/-!
# The function table: invariants of linking
-/

namespace Link
open TyHash (ITy Vm)

/-! ### Types without parameters -/

mutual
theorem subst_closed {us : List ITy} : ∀ {t : ITy}, hasParam t = false → subst us t = some t
  | .bool, _ | .u8, _ | .u16, _ | .u32, _ | .u64, _ | .u128, _ | .u256, _ | .address, _ | .signer, _
  | .struct _ _ _, _ | .enum _ _, _ => rfl
  | .vec t, h => by rw [subst, subst_closed (t := t) h]; rfl
  | .ref t, h => by rw [subst, subst_closed (t := t) h]; rfl
  | .mref t, h => by rw [subst, subst_closed (t := t) h]; rfl
  | .param i, h => by cases h
  | .gstruct m i ts vm, h => by rw [subst, substs_closed (ts := ts) h]; rfl
  | .genum m i ts, h => by rw [subst, substs_closed (ts := ts) h]; rfl
theorem substs_closed {us : List ITy} : ∀ {ts : List ITy}, hasParams ts = false → substs us ts = some ts
  | [], _ => rfl
  | t :: ts, h => by
    simp only [hasParams, Bool.or_eq_false_iff] at h
    rw [substs, subst_closed h.1, substs_closed h.2]
end

/-! ### What calls refer to -/

/-- The function that a call in the body of `caller` calls: that with the name given, with the types given, in which the
type parameters are those of the caller. -/
def Target (caller : Fid) (c : Site) (t : Fid) : Prop :=
  t.fn = c.fn ∧
  match c.tys with
  | none => t.tys = none
  | some ts => ∃ vs, substs (caller.tys.getD []) ts = some vs ∧ t.tys = some vs

/-- `s` is the WebAssembly type of the function `id`. -/
def SigOf (P : Prog) (id : Fid) (s : Sig) : Prop :=
  ∃ I, P[id.fn]? = some I ∧
    match id.tys with
    | none => I.sig = some s
    | some us => ∃ J, I.inst us = some J ∧ J.sig = some s

/-- The calls of functions that are not native. -/
def userSites (P : Prog) (cs : List Site) : List Site :=
  cs.filter fun c => !((P[c.fn]?.map (·.native)).getD false)

theorem inst_native {I J : Info} {us : List ITy} (h : I.inst us = some J) : J.native = I.native ∧ J.calls = I.calls ∧ J.nty = I.nty := by
  unfold Info.inst at h
  split at h
  · cases h; exact ⟨rfl, rfl, rfl⟩
  · cases h

theorem resolve_spec {P : Prog} {cl : Fid} {c : Site} {t : Fid} {J : Info} (h : resolve P cl c = some (t, J)) :
    Target cl c t ∧ (∀ s, J.sig = some s → SigOf P t s) ∧ (t.tys = none ↔ c.tys = none) ∧
      ∃ I, P[c.fn]? = some I ∧ I.native = J.native := by
  unfold resolve at h
  split at h
  · cases h
  · rename_i I hI
    split at h
    · rename_i h0
      cases h
      exact ⟨⟨rfl, by rw [h0]⟩, fun s hs => ⟨J, hI, hs⟩, by simp [h0], J, hI, rfl⟩
    · rename_i ts h0
      split at h
      · split at h
        · cases h
        · rename_i us hu
          split at h
          · cases h
          · rename_i vs hv
            obtain ⟨J', h1, h2⟩ := Option.map_eq_some_iff.mp h
            cases h2
            exact ⟨⟨rfl, by rw [h0]; exact ⟨vs, by rw [hu]; exact hv, rfl⟩⟩, fun s hs => ⟨I, hI, J, h1, hs⟩, by simp [h0], I, hI,
              (inst_native h1).1.symm⟩
      · rename_i hp
        obtain ⟨J', h1, h2⟩ := Option.map_eq_some_iff.mp h
        cases h2
        exact ⟨⟨rfl, by rw [h0]; exact ⟨ts, substs_closed (by simpa using hp), rfl⟩⟩, fun s hs => ⟨I, hI, J, h1, hs⟩, by simp [h0], I, hI,
          (inst_native h1).1.symm⟩

/-! ### Entries -/

abbrev ids (es : List Entry) : List Fid := es.map (·.id)

theorem find_some {es : List Entry} {id : Fid} {e : Entry} (h : find es id = some e) :
    ∃ i : Nat, es[i]? = some e ∧ e.id = id ∧ ∀ (j : Nat) e', j < i → es[j]? = some e' → e'.id ≠ id := by
  obtain ⟨h1, i, hi, h2, h3⟩ := List.find?_eq_some_iff_getElem.mp h
  refine ⟨i, by rw [List.getElem?_eq_getElem hi, h2], of_decide_eq_true h1, fun j e' hj he hid => ?_⟩
  have := h3 j hj
  rw [List.getElem?_eq_getElem (by omega)] at he
  cases he
  simp [hid] at this

theorem find_none {es : List Entry} {id : Fid} (h : find es id = none) : id ∉ ids es := by
  intro hm
  obtain ⟨e, he, hid⟩ := List.mem_map.mp hm
  simpa [hid] using List.find?_eq_none.mp h e he

theorem fill_first {id : Fid} {c : Code} : ∀ {es : List Entry} {i : Nat} {e : Entry}, es[i]? = some e → e.id = id →
    (∀ (j : Nat) e', j < i → es[j]? = some e' → e'.id ≠ id) → fill es id c = es.set i { e with code := some c }
  | [], _, _, h, _, _ => by simp at h
  | e :: es, 0, _, h, hid, _ => by
    cases h
    rw [fill, if_pos hid]; rfl
  | e :: es, i + 1, _, h, hid, hf => by
    rw [fill, if_neg (hf 0 e (by omega) rfl), fill_first (i := i) (by simpa using h) hid fun j e' hj he => hf (j + 1) e' (by omega) (by simpa using he)]
    rfl

theorem ids_set {es : List Entry} {i : Nat} {e e' : Entry} (h : es[i]? = some e) (hid : e'.id = e.id) :
    ids (es.set i e') = ids es := by
  rw [ids, List.map_set, hid]
  refine List.ext_getElem? fun j => ?_
  rw [List.getElem?_set]
  split_ifs with h1 h2
  · subst h1; simp [h]
  · subst h1; rw [List.getElem?_eq_none (Nat.le_of_not_lt h2)]
  · rfl

/-- Only the first entry of a function has code. -/
def First (es : List Entry) : Prop :=
  ∀ (i j : Nat) (ei ej : Entry), i < j → es[i]? = some ei → es[j]? = some ej → ei.id = ej.id → ej.code = none

theorem first_append {es new : List Entry} (h : First es) (hn : ∀ e ∈ new, e.code = none) : First (es ++ new) := by
  intro i j ei ej hij hi hj hid
  by_cases hl : j < es.length
  · rw [List.getElem?_append_left hl] at hj
    rw [List.getElem?_append_left (by omega)] at hi
    exact h i j ei ej hij hi hj hid
  · rw [List.getElem?_append_right (by omega)] at hj
    exact hn _ (List.mem_of_getElem? hj)

theorem first_set {es : List Entry} {id : Fid} {c : Code} {e : Entry} {i : Nat} (h : First es) (he : es[i]? = some e) (hid : e.id = id)
    (hf : ∀ (j : Nat) e', j < i → es[j]? = some e' → e'.id ≠ id) : First (es.set i { e with code := some c }) := by
  intro a b ea eb hab ha hb heq
  rw [List.getElem?_set] at ha hb
  split_ifs at hb with h1 h2
  · cases hb
    subst h1
    rw [if_neg (by omega)] at ha
    exact absurd (heq.trans hid) (hf a ea hab ha)
  · split_ifs at ha with h3 h4
    · cases ha
      subst h3
      exact h i b e eb hab he hb heq
    · exact h a b ea eb hab ha hb heq

/-! ### Calls -/

/-- The entries `k` refers to is that of the function called. -/
def CallOk (es : List Entry) (cl : Fid) (c : Site) (k : Nat × Sig) : Prop :=
  ∃ t e, Target cl c t ∧ es[k.1]? = some e ∧ e.id = t ∧ e.ty = k.2

/-- Entries keep their place, function and type. -/
def Ext (es es' : List Entry) : Prop :=
  ∀ (i : Nat) e, es[i]? = some e → ∃ e', es'[i]? = some e' ∧ e'.id = e.id ∧ e'.ty = e.ty

theorem Ext.refl (es : List Entry) : Ext es es := fun _ e h => ⟨e, h, rfl, rfl⟩

theorem Ext.trans {a b c : List Entry} (h : Ext a b) (g : Ext b c) : Ext a c := fun i e he =>
  let ⟨_, h1, h2, h3⟩ := h i e he
  let ⟨e'', g1, g2, g3⟩ := g i _ h1
  ⟨e'', g1, g2.trans h2, g3.trans h3⟩

theorem Ext.append (es new : List Entry) : Ext es (es ++ new) := fun i e h =>
  ⟨e, by rw [List.getElem?_append_left (List.getElem?_eq_some_iff.mp h).1]; exact h, rfl, rfl⟩

theorem Ext.set {es : List Entry} {i : Nat} {e e' : Entry} (h : es[i]? = some e) (h1 : e'.id = e.id) (h2 : e'.ty = e.ty) :
    Ext es (es.set i e') := by
  intro j a ha
  rw [List.getElem?_set]
  split_ifs with h3 h4
  · subst h3
    rw [h] at ha; cases ha
    exact ⟨e', rfl, h1, h2⟩
  · subst h3
    exact absurd (List.getElem?_eq_some_iff.mp h).1 h4
  · exact ⟨a, ha, rfl, rfl⟩

theorem CallOk.mono {es es' : List Entry} {cl : Fid} {c : Site} {k : Nat × Sig} (h : CallOk es cl c k) (hx : Ext es es') : CallOk es' cl c k :=
  let ⟨t, e, h1, h2, h3, h4⟩ := h
  let ⟨e', g1, g2, g3⟩ := hx _ e h2
  ⟨t, e', h1, g1, g2.trans h3, g3.trans h4⟩

/-- What `callSites` adds. -/
theorem callSites_grow {P : Prog} {cl : Fid} : ∀ {cs : List Site} {es es' : List Entry} {k : List (Nat × Sig)} {l : List Fid},
    callSites P cl cs es = some (k, es', l) →
    ∃ new, es' = es ++ new ∧ (∀ e ∈ new, e.code = none) ∧ l = ids new ∧ (ids new).Nodup ∧ ∀ x ∈ ids new, x ∉ ids es
  | [], es, es', k, l, h => by cases h; exact ⟨[], by simp⟩
  | c :: cs, es, es', k, l, h => by
    rw [callSites] at h
    split at h
    · cases h
    · rename_i t J hr
      split_ifs at h with hn
      · exact callSites_grow h
      · split at h
        · split at h
          · cases h
          · rename_i k' es'' l' h'
            cases h
            exact callSites_grow h'
        · rename_i hf
          split at h
          · cases h
          · rename_i s hs
            split at h
            · cases h
            · rename_i k' es'' l' h'
              cases h
              obtain ⟨new, h1, h2, h3, h4, h5⟩ := callSites_grow h'
              refine ⟨⟨es.length, t, s, none⟩ :: new, by rw [h1]; simp, ?_, by rw [h3]; rfl, ?_, ?_⟩
              · intro e he
                rcases List.mem_cons.mp he with rfl | he
                · rfl
                · exact h2 e he
              · refine List.nodup_cons.mpr ⟨fun hm => h5 t hm (by simp [ids]), h4⟩
              · intro x hx
                rcases List.mem_cons.mp hx with rfl | hx
                · exact find_none hf
                · exact fun hm => h5 x hx (by simp only [ids, List.map_append, List.mem_append]; exact .inl hm)

/-- All calls refer to the functions called. -/
theorem callSites_ok {P : Prog} {cl : Fid} : ∀ {cs : List Site} {es es' : List Entry} {k : List (Nat × Sig)} {l : List Fid},
    callSites P cl cs es = some (k, es', l) → (∀ (i : Nat) e, es[i]? = some e → e.idx = i) →
    List.Forall₂ (CallOk es' cl) (userSites P cs) k ∧ (∀ (i : Nat) e, es'[i]? = some e → e.idx = i) ∧
    (∀ e ∈ es', e ∈ es ∨ (SigOf P e.id e.ty ∧ ∃ c ∈ cs, c.fn = e.id.fn ∧ (e.id.tys = none ↔ c.tys = none) ∧
      ∃ I, P[c.fn]? = some I ∧ I.native = false))
  | [], es, es', k, l, h, hi => by cases h; exact ⟨.nil, hi, fun e he => .inl he⟩
  | c :: cs, es, es', k, l, h, hi => by
    rw [callSites] at h
    split at h
    · cases h
    · rename_i t J hr
      obtain ⟨h1, h2, h3, I, hI, hIJ⟩ := resolve_spec hr
      have lift : ∀ {es0 : List Entry}, (∀ e ∈ es', e ∈ es0 ∨ (SigOf P e.id e.ty ∧ ∃ c ∈ cs, c.fn = e.id.fn ∧ (e.id.tys = none ↔ c.tys = none) ∧
          ∃ I, P[c.fn]? = some I ∧ I.native = false)) → ∀ e ∈ es', e ∈ es0 ∨ (SigOf P e.id e.ty ∧ ∃ c' ∈ c :: cs, c'.fn = e.id.fn ∧
          (e.id.tys = none ↔ c'.tys = none) ∧ ∃ I, P[c'.fn]? = some I ∧ I.native = false) := by
        intro es0 hx e he
        rcases hx e he with h | ⟨h, d, hd, hr⟩
        · exact .inl h
        · exact .inr ⟨h, d, List.mem_cons_of_mem _ hd, hr⟩
      split_ifs at h with hn
      · have : userSites P (c :: cs) = userSites P cs := by
          rw [userSites, List.filter_cons_of_neg (by simp [hI, hIJ, hn])]; rfl
        rw [this]
        obtain ⟨g1, g2, g3⟩ := callSites_ok h hi
        exact ⟨g1, g2, lift g3⟩
      · have hu : userSites P (c :: cs) = c :: userSites P cs := by
          rw [userSites, List.filter_cons_of_pos (by simp [hI, hIJ, hn])]; rfl
        rw [hu]
        split at h
        · rename_i e he
          split at h
          · cases h
          · rename_i k' es'' l' h'
            cases h
            obtain ⟨g1, g2, g3⟩ := callSites_ok h' hi
            obtain ⟨new, rfl, -⟩ := callSites_grow h'
            obtain ⟨i, hi1, hi2, -⟩ := find_some he
            refine ⟨.cons ?_ g1, g2, lift g3⟩
            obtain ⟨e', q1, q2, q3⟩ := Ext.append es new i e hi1
            exact ⟨t, e', h1, by rw [hi i e hi1]; exact q1, q2.trans hi2, q3⟩
        · rename_i hf
          split at h
          · cases h
          · rename_i s hs
            split at h
            · cases h
            · rename_i k' es'' l' h'
              cases h
              obtain ⟨g1, g2, g3⟩ := callSites_ok h' (by
                intro i e he
                by_cases hl : i < es.length
                · rw [List.getElem?_append_left hl] at he
                  exact hi i e he
                · rw [List.getElem?_append_right (by omega)] at he
                  match hd : i - es.length, he with
                  | 0, he => cases he; dsimp only; omega
                  | n + 1, he => simp at he)
              obtain ⟨new, rfl, -⟩ := callSites_grow h'
              refine ⟨.cons ?_ g1, g2, ?_⟩
              · obtain ⟨e', q1, q2, q3⟩ := Ext.append (es ++ [⟨es.length, t, s, none⟩]) new es.length ⟨es.length, t, s, none⟩ (by simp)
                exact ⟨t, e', h1, q1, q2, q3⟩
              · intro e he
                rcases lift g3 e he with h | h
                · rcases List.mem_append.mp h with h | h
                  · exact .inl h
                  · cases List.mem_singleton.mp h
                    exact .inr ⟨h2 s hs, c, List.mem_cons_self, h1.1.symm, h3, I, hI, by simpa [hIJ] using hn⟩
                · exact .inr h

/-! ### The table of the module -/

theorem table_append (segs : List (Nat × Code)) (i : Nat) (c : Code) :
    table (segs ++ [(i, c)]) = Function.update (table segs) i (some c) := by
  rw [table, List.foldl_append]; rfl

/-! ### Growth -/

theorem addToTable_spec {st st' : St} {id : Fid} {c : Code} (h : addToTable st id c = some st') :
    ∃ (i : Nat) (e : Entry), st.entries[i]? = some e ∧ e.id = id ∧ (∀ (j : Nat) e', j < i → st.entries[j]? = some e' → e'.id ≠ id) ∧
      st' = ⟨st.entries.set i { e with code := some c }, st.segs ++ [(e.idx, c)]⟩ := by
  unfold addToTable at h
  split at h
  · cases h
  · rename_i e he
    cases h
    obtain ⟨i, h1, h2, h3⟩ := find_some he
    exact ⟨i, e, h1, h2, h3, by rw [fill_first h1 h2 h3]⟩

theorem translate_spec {P : Prog} {st st' : St} {id own : Fid} {J : Info} {l : List Fid} (h : translate P st id own J = some (st', l)) :
    ∃ s k es, J.sig = some s ∧ callSites P own J.calls st.entries = some (k, es, l) ∧
      addToTable { st with entries := es } id ⟨own, s, k⟩ = some st' := by
  unfold translate at h
  split at h
  · rename_i s k es l' hs hc
    obtain ⟨st'', h1, h2⟩ := Option.map_eq_some_iff.mp h
    cases h2
    exact ⟨s, k, es, hs, hc, h1⟩
  · cases h

/-- Entries are only added, and only first entries get code. -/
def Grow (st st' : St) : Prop := ids st.entries <+: ids st'.entries ∧ (First st.entries → First st'.entries)

theorem Grow.refl (st : St) : Grow st st := ⟨List.prefix_refl _, id⟩
theorem Grow.trans {a b c : St} (h : Grow a b) (g : Grow b c) : Grow a c := ⟨h.1.trans g.1, g.2 ∘ h.2⟩

theorem enter_grow {st st' : St} {id own : Fid} {J : Info} (h : enter st id own J = some (some st')) : Grow st st' := by
  unfold enter at h
  split at h
  · split_ifs at h
    · cases h
    · cases h; exact .refl _
  · obtain ⟨s, -, h2⟩ := Option.map_eq_some_iff.mp h
    cases h2
    exact ⟨by simp [ids], fun hf => first_append hf (by simp)⟩

theorem translate_grow {P : Prog} {st st' : St} {id own : Fid} {J : Info} {l : List Fid} (h : translate P st id own J = some (st', l)) :
    Grow st st' ∧ ∀ x ∈ l, x ∈ ids st'.entries := by
  obtain ⟨s, k, es, -, h2, h3⟩ := translate_spec h
  obtain ⟨new, rfl, g2, g3, -, -⟩ := callSites_grow h2
  obtain ⟨i, e, h4, h5, h6, rfl⟩ := addToTable_spec h3
  have hids := ids_set (e' := { e with code := some ⟨own, s, k⟩ }) h4 rfl
  refine ⟨⟨?_, fun hf => first_set (first_append hf g2) h4 h5 h6⟩, ?_⟩
  · dsimp only at hids ⊢
    rw [hids]; simp [ids]
  · intro x hx
    dsimp only at hids ⊢
    rw [hids, ids, List.map_append]
    exact List.mem_append_right _ (by rw [g3] at hx; exact hx)

theorem foldlM_cons {α β : Type} {f : β → α → Option β} {b b' : β} {a : α} {as : List α} (h : (a :: as).foldlM f b = some b') :
    ∃ c, f b a = some c ∧ as.foldlM f c = some b' := by
  rw [List.foldlM_cons] at h
  exact Option.bind_eq_some_iff.mp h

theorem fold_grow {f : St → Fid → Option St} (hf : ∀ st id st', f st id = some st' → Grow st st') :
    ∀ {l : List Fid} {st st' : St}, l.foldlM f st = some st' → Grow st st'
  | [], _, _, h => by cases h; exact .refl _
  | _ :: _, _, _, h => by
    obtain ⟨c, h1, h2⟩ := foldlM_cons h
    exact (hf _ _ _ h1).trans (fold_grow hf h2)

theorem link_spec {P : Prog} {ord : List Fid → List Fid} {n : Nat} {st st' : St} {id : Fid} (h : link P ord (n + 1) st id = some st') :
    ∃ own J, instance? P id = some (own, J) ∧ ((enter st id own J = some none ∧ st' = st) ∨
      ∃ st1, enter st id own J = some (some st1) ∧ ((J.native = true ∧ st' = st1) ∨
        (J.native = false ∧ ∃ st2 l, translate P st1 id own J = some (st2, l) ∧ (ord l).foldlM (link P ord n) st2 = some st'))) := by
  rw [link] at h
  split at h
  · cases h
  · rename_i own J hi
    refine ⟨own, J, hi, ?_⟩
    split at h
    · cases h
    · cases h; exact .inl ⟨by assumption, rfl⟩
    · rename_i st1 he
      refine .inr ⟨st1, he, ?_⟩
      split_ifs at h with hn
      · cases h; exact .inl ⟨hn, rfl⟩
      · split at h
        · cases h
        · rename_i st2 l ht
          exact .inr ⟨by simpa using hn, st2, l, ht, h⟩

theorem link_grow {P : Prog} {ord : List Fid → List Fid} : ∀ {n : Nat} {st st' : St} {id : Fid}, link P ord n st id = some st' → Grow st st'
  | 0, _, _, _, h => by cases h
  | n + 1, st, st', id, h => by
    obtain ⟨own, J, -, ⟨-, rfl⟩ | ⟨st1, h1, ⟨-, rfl⟩ | ⟨-, st2, l, h2, h3⟩⟩⟩ := link_spec h
    · exact .refl _
    · exact enter_grow h1
    · exact (enter_grow h1).trans ((translate_grow h2).1.trans (fold_grow (fun _ _ _ => link_grow) h3))

/-! ### The invariant -/

/-- The calls of the functions have as many types as Move's verifier asks for. -/
def WF (P : Prog) : Prop := ∀ I ∈ P, ∀ c ∈ I.calls, ∀ J, P[c.fn]? = some J → (c.tys = none ↔ J.nty = 0)

structure Good (P : Prog) (X : Fid → Prop) (st : St) : Prop where
  idx : ∀ (i : Nat) e, st.entries[i]? = some e → e.idx = i
  sig : ∀ e ∈ st.entries, SigOf P e.id e.ty
  user : ∀ e ∈ st.entries, ∀ I, P[e.id.fn]? = some I → I.native = false
  bare : ∀ e ∈ st.entries, e.code = none → ¬ X e.id → e.id.tys = none → ∀ I, P[e.id.fn]? = some I → I.nty = 0
  inst : ∀ e ∈ st.entries, e.id.tys ≠ none → ∀ I, P[e.id.fn]? = some I → I.nty ≠ 0
  code : ∀ (i : Nat) e c, st.entries[i]? = some e → e.code = some c → c.id = e.id ∧ c.ty = e.ty ∧ table st.segs i = some c ∧
    ∀ I, P[c.id.fn]? = some I → List.Forall₂ (CallOk st.entries c.id) (userSites P I.calls) c.calls
  seg : ∀ i c, (i, c) ∈ st.segs → ∃ e, st.entries[i]? = some e ∧ e.code = some c
  once : (st.segs.map (·.1)).Nodup

theorem Good.mono {P : Prog} {X Y : Fid → Prop} {st : St} (h : Good P X st) (hXY : ∀ x, X x → Y x) : Good P Y st :=
  { h with bare := fun e he hc hx => h.bare e he hc fun hX => hx (hXY _ hX) }

/-- Entries without code are added. -/
theorem Good.append {P : Prog} {X : Fid → Prop} {st : St} {new : List Entry} (h : Good P X st)
    (h1 : ∀ (i : Nat) e, (st.entries ++ new)[i]? = some e → e.idx = i) (h2 : ∀ e ∈ new, e.code = none)
    (h3 : ∀ e ∈ new, SigOf P e.id e.ty ∧ ∀ I, P[e.id.fn]? = some I → I.native = false ∧
      (e.id.tys = none → ¬ X e.id → I.nty = 0) ∧ (e.id.tys ≠ none → I.nty ≠ 0)) :
    Good P X { st with entries := st.entries ++ new } := by
  refine ⟨h1, ?_, ?_, ?_, ?_, ?_, ?_, h.once⟩
  · intro e he
    rcases List.mem_append.mp he with he | he
    · exact h.sig e he
    · exact (h3 e he).1
  · intro e he I hI
    rcases List.mem_append.mp he with he | he
    · exact h.user e he I hI
    · exact ((h3 e he).2 I hI).1
  · intro e he hc hx ht I hI
    rcases List.mem_append.mp he with he | he
    · exact h.bare e he hc hx ht I hI
    · exact ((h3 e he).2 I hI).2.1 ht hx
  · intro e he ht I hI
    rcases List.mem_append.mp he with he | he
    · exact h.inst e he ht I hI
    · exact ((h3 e he).2 I hI).2.2 ht
  · intro i e c he hc
    by_cases hl : i < st.entries.length
    · rw [List.getElem?_append_left hl] at he
      obtain ⟨q1, q2, q3, q4⟩ := h.code i e c he hc
      exact ⟨q1, q2, q3, fun I hI => (q4 I hI).imp fun _ _ hk => hk.mono (Ext.append _ _)⟩
    · rw [List.getElem?_append_right (by omega)] at he
      rw [h2 e (List.mem_of_getElem? he)] at hc
      cases hc
  · intro i c hm
    obtain ⟨e, he, hc⟩ := h.seg i c hm
    exact ⟨e, by dsimp only; rw [List.getElem?_append_left (List.getElem?_eq_some_iff.mp he).1]; exact he, hc⟩

/-- An entry gets its code. -/
theorem Good.fill {P : Prog} {st : St} {i : Nat} {e : Entry} {c : Code} (h : Good P (· = e.id) st) (he : st.entries[i]? = some e)
    (h0 : e.code = none) (hu : (ids st.entries).Nodup) (h1 : c.id = e.id) (h2 : c.ty = e.ty)
    (h3 : ∀ I, P[c.id.fn]? = some I → List.Forall₂ (CallOk st.entries c.id) (userSites P I.calls) c.calls) :
    Good P (fun _ => False) ⟨st.entries.set i { e with code := some c }, st.segs ++ [(i, c)]⟩ := by
  have hx : Ext st.entries (st.entries.set i { e with code := some c }) := Ext.set he rfl rfl
  have hm : ∀ {a : Entry}, a ∈ st.entries.set i { e with code := some c } →
      a = { e with code := some c } ∨ (a ∈ st.entries ∧ a.id ≠ e.id) := by
    intro a ha
    obtain ⟨j, hj⟩ := List.mem_iff_getElem?.mp ha
    rw [List.getElem?_set] at hj
    split_ifs at hj with q1 q2
    · cases hj; exact .inl rfl
    · refine .inr ⟨List.mem_of_getElem? hj, fun hid => q1 ?_⟩
      have ha1 : (ids st.entries)[i]? = some e.id := by simp [ids, he]
      have ha2 : (ids st.entries)[j]? = some e.id := by simp [ids, hj, hid]
      exact (List.getElem?_inj (List.getElem?_eq_some_iff.mp ha1).1 hu).mp (ha1.trans ha2.symm)
  have hmem := List.mem_of_getElem? he
  have hns : i ∉ st.segs.map (·.1) := by
    intro hi
    obtain ⟨⟨_, c'⟩, hs, rfl⟩ := List.mem_map.mp hi
    obtain ⟨e', q1, q2⟩ := h.seg _ _ hs
    rw [he] at q1; cases q1
    rw [h0] at q2; cases q2
  refine ⟨?_, ?_, ?_, ?_, ?_, ?_, ?_, ?_⟩
  · intro j a ha
    rw [List.getElem?_set] at ha
    split_ifs at ha with q1 q2
    · cases ha; subst q1; exact h.idx i e he
    · exact h.idx j a ha
  · intro a ha
    rcases hm ha with rfl | ⟨ha, -⟩
    · exact h.sig e hmem
    · exact h.sig a ha
  · intro a ha
    rcases hm ha with rfl | ⟨ha, -⟩
    · exact h.user e hmem
    · exact h.user a ha
  · intro a ha hc _
    rcases hm ha with rfl | ⟨ha, hn⟩
    · cases hc
    · exact h.bare a ha hc hn
  · intro a ha
    rcases hm ha with rfl | ⟨ha, -⟩
    · exact h.inst e hmem
    · exact h.inst a ha
  · intro j a d ha hd
    rw [List.getElem?_set] at ha
    dsimp only
    rw [table_append]
    split_ifs at ha with q1 q2
    · cases ha; subst q1
      cases hd
      exact ⟨h1, h2, by simp, fun I hI => (h3 I hI).imp fun _ _ hk => hk.mono hx⟩
    · obtain ⟨p1, p2, p3, p4⟩ := h.code j a d ha hd
      exact ⟨p1, p2, by rw [Function.update_of_ne (fun hh => q1 hh.symm)]; exact p3, fun I hI => (p4 I hI).imp fun _ _ hk => hk.mono hx⟩
  · intro j d hd
    rcases List.mem_append.mp hd with hd | hd
    · obtain ⟨a, ha, hc⟩ := h.seg j d hd
      refine ⟨a, ?_, hc⟩
      rw [List.getElem?_set, if_neg (fun hh => hns (List.mem_map.mpr ⟨(j, d), hd, hh.symm⟩))]
      exact ha
    · cases List.mem_singleton.mp hd
      exact ⟨_, List.getElem?_set_self (List.getElem?_eq_some_iff.mp he).1, rfl⟩
  · dsimp only
    rw [List.map_append]
    exact List.nodup_append.mpr ⟨h.once, by simp, fun a ha b hb => by
      rintro rfl
      simp at hb
      subst hb
      exact hns ha⟩

theorem instance_spec {P : Prog} {id own : Fid} {J : Info} (h : instance? P id = some (own, J)) :
    ∃ I, P[id.fn]? = some I ∧ J.calls = I.calls ∧ J.native = I.native ∧
      ((own = id ∧ ∀ s, J.sig = some s → SigOf P id s) ∨ (own = ⟨id.fn, none⟩ ∧ id.tys ≠ none ∧ I.generic = false)) := by
  obtain ⟨fn, tys⟩ := id
  unfold instance? at h
  split at h
  · cases h
  · rename_i I hI
    dsimp only at hI
    split_ifs at h with hg
    · split at h
      · cases h
      · rename_i us hu
        obtain ⟨J', h1, h2⟩ := Option.map_eq_some_iff.mp h
        cases h2
        dsimp only at hu
        subst hu
        exact ⟨I, hI, (inst_native h1).2.1, (inst_native h1).1, .inl ⟨rfl, fun s hs => ⟨I, hI, J, h1, hs⟩⟩⟩
    · cases h
      refine ⟨J, hI, rfl, rfl, ?_⟩
      cases tys with
      | none => exact .inl ⟨rfl, fun s hs => ⟨J, hI, hs⟩⟩
      | some us => exact .inr ⟨rfl, by simp, by simpa using hg⟩

theorem sigOf_unique {P : Prog} {id : Fid} {s t : Sig} (h : SigOf P id s) (g : SigOf P id t) : s = t := by
  obtain ⟨I, h1, h2⟩ := h
  obtain ⟨I', g1, g2⟩ := g
  rw [h1] at g1; cases g1
  split at h2
  · rename_i h0
    rw [h0] at g2
    exact Option.some.inj (h2.symm.trans g2)
  · rename_i us h0
    rw [h0] at g2
    obtain ⟨J, q1, q2⟩ := h2
    obtain ⟨J', r1, r2⟩ := g2
    rw [q1] at r1; cases r1
    exact Option.some.inj (q2.symm.trans r2)

theorem not_nodup_of_prefix {a b : List Fid} {x : Fid} (h : a ++ [x] <+: b) (hx : x ∈ a) : ¬ b.Nodup := by
  intro hb
  have := List.Nodup.sublist h.sublist hb
  rw [List.nodup_append] at this
  exact this.2.2 x hx x (by simp) rfl

/-- A function is entered and translated. -/
theorem step_good {P : Prog} {st st1 st2 : St} {id own : Fid} {J : Info} {l : List Fid} (hw : WF P)
    (hi : instance? P id = some (own, J)) (he : enter st id own J = some (some st1)) (hn : J.native = false)
    (ht : translate P st1 id own J = some (st2, l)) (hu : (ids st2.entries).Nodup) (h : Good P (fun _ => False) st)
    (hid : id ∈ ids st.entries ∨ id.tys = none) : Good P (fun _ => False) st2 := by
  obtain ⟨I, hI, hc, hnat, hown⟩ := instance_spec hi
  obtain ⟨s, k, es, hs, hcs, hadd⟩ := translate_spec ht
  obtain ⟨new, rfl, n1, n2, n3, n4⟩ := callSites_grow hcs
  have hg := (translate_grow ht).1.1
  -- the function is translated under its own name
  have hown : own = id ∧ SigOf P id s := by
    rcases hown with ⟨h1, h2⟩ | ⟨rfl, h2, -⟩
    · exact ⟨h1, h2 s hs⟩
    · exfalso
      obtain ⟨e0, he0, rfl⟩ := List.mem_map.mp (hid.resolve_right h2)
      have hnty := h.inst e0 he0 h2 I hI
      unfold enter at he
      split at he
      · rename_i e hf
        split_ifs at he with hcode
        · cases he
        · obtain ⟨i, hi1, hi2, -⟩ := find_some hf
          refine hnty (h.bare e (List.mem_of_getElem? hi1) (by simpa using hcode) id (by rw [hi2]) I (by rw [hi2]; exact hI))
      · obtain ⟨s', -, h3⟩ := Option.map_eq_some_iff.mp he
        cases h3
        refine not_nodup_of_prefix (a := ids st.entries) (x := e0.id) ?_ (List.mem_map_of_mem he0) hu
        simpa [ids] using hg
  obtain ⟨rfl, hsig⟩ := hown
  -- its entry
  have h1 : Good P (· = own) st1 ∧ ∃ e ∈ st1.entries, e.id = own ∧ e.code = none ∧ e.ty = s := by
    unfold enter at he
    split at he
    · rename_i e hf
      split_ifs at he with hcode
      · cases he
      · cases he
        obtain ⟨i, hi1, hi2, -⟩ := find_some hf
        have hm := List.mem_of_getElem? hi1
        exact ⟨h.mono fun _ hF => hF.elim, e, hm, hi2, by simpa using hcode, sigOf_unique (h.sig e hm) (hi2 ▸ hsig)⟩
    · rename_i hf
      obtain ⟨s', h2, h3⟩ := Option.map_eq_some_iff.mp he
      cases h3
      rw [hs] at h2; cases h2
      refine ⟨(h.mono fun _ hF => hF.elim).append ?_ (by simp) ?_, ⟨st.entries.length, own, s, none⟩, by simp, rfl, rfl, rfl⟩
      · intro i e hi
        by_cases hl : i < st.entries.length
        · rw [List.getElem?_append_left hl] at hi
          exact h.idx i e hi
        · rw [List.getElem?_append_right (by omega)] at hi
          match hd : i - st.entries.length, hi with
          | 0, hi => cases hi; dsimp only; omega
          | n + 1, hi => simp at hi
      · intro e hm
        cases List.mem_singleton.mp hm
        refine ⟨hsig, fun I' hI' => ?_⟩
        rw [show I' = I from Option.some.inj (hI'.symm.trans hI)]
        exact ⟨hnat.symm.trans hn, fun _ hx => (hx rfl).elim, fun ht => (ht (hid.resolve_left (find_none hf))).elim⟩
  obtain ⟨h1, e, em, eid, ecode, ety⟩ := h1
  -- the calls
  obtain ⟨c1, c2, c3⟩ := callSites_ok hcs h1.idx
  have hb : (ids (st1.entries ++ new)).Nodup := by
    obtain ⟨i, e', a1, a2, a3, rfl⟩ := addToTable_spec hadd
    have hids := ids_set (e' := { e' with code := some (⟨own, s, k⟩ : Code) }) a1 rfl
    dsimp only at hids hu
    rw [hids] at hu
    exact hu
  have h2 : Good P (· = own) { st1 with entries := st1.entries ++ new } := by
    refine h1.append c2 n1 fun a ha => ?_
    have : a ∉ st1.entries := fun hin => n4 a.id (List.mem_map_of_mem ha) (List.mem_map_of_mem hin)
    obtain ⟨q1, c, q2, q3, q4, I', q5, q6⟩ := (c3 a (List.mem_append_right _ ha)).resolve_left this
    refine ⟨q1, fun I'' hI'' => ?_⟩
    rw [← q3, q5] at hI''
    cases hI''
    have hwf := hw I (List.mem_of_getElem? hI) c (hc ▸ q2) I' q5
    exact ⟨q6, fun ht _ => hwf.mp (q4.mp ht), fun ht h0 => ht (q4.mpr (hwf.mpr h0))⟩
  obtain ⟨i, e', a1, a2, a3, rfl⟩ := addToTable_spec hadd
  dsimp only at a1
  have hee : e' = e := by
    obtain ⟨j, hj⟩ := List.mem_iff_getElem?.mp (List.mem_append_left new em)
    have ha1 : (ids (st1.entries ++ new))[i]? = some own := by simp only [ids, List.getElem?_map, a1, Option.map_some, a2]
    have ha2 : (ids (st1.entries ++ new))[j]? = some own := by simp only [ids, List.getElem?_map, hj, Option.map_some, eid]
    have := (List.getElem?_inj (List.getElem?_eq_some_iff.mp ha1).1 hb).mp (ha1.trans ha2.symm)
    subst this
    exact Option.some.inj (a1.symm.trans hj)
  subst hee
  have := Good.fill (c := ⟨own, s, k⟩) (e := e') (by rw [eid]; exact h2) a1 ecode hb eid.symm ety.symm (by
    intro I' hI'
    rw [show I' = I from Option.some.inj (hI'.symm.trans hI), ← hc]
    exact c1)
  have hi' : e'.idx = i := c2 i e' a1
  simpa only [hi'] using this

theorem link_good {P : Prog} {ord : List Fid → List Fid} (hw : WF P) (hord : ∀ l, ord l ⊆ l) : ∀ {n : Nat} {st st' : St} {id : Fid},
    link P ord n st id = some st' → (ids st'.entries).Nodup → Good P (fun _ => False) st →
    (∀ I, P[id.fn]? = some I → I.native = false) → (id ∈ ids st.entries ∨ id.tys = none) → Good P (fun _ => False) st'
  | 0, _, _, _, h, _, _, _, _ => by cases h
  | n + 1, st, st', id, h, hu, hg, hnat, hid => by
    obtain ⟨own, J, hi, ⟨-, rfl⟩ | ⟨st1, h1, ⟨hn, rfl⟩ | ⟨hn, st2, l, h2, h3⟩⟩⟩ := link_spec h
    · exact hg
    · obtain ⟨I, hI, -, h4, -⟩ := instance_spec hi
      rw [hn, hnat I hI] at h4
      cases h4
    · have hgr : Grow st2 st' := fold_grow (fun _ _ _ => link_grow) h3
      have hg2 := step_good hw hi h1 hn h2 (hu.sublist hgr.1.sublist) hg hid
      have hl : ∀ x ∈ ord l, x ∈ ids st2.entries := fun x hx => (translate_grow h2).2 x (hord l hx)
      clear h2 h1 hgr
      generalize ord l = l at h3 hl
      induction l generalizing st2 with
      | nil => cases h3; exact hg2
      | cons x xs ih =>
        obtain ⟨st3, h4, h5⟩ := foldlM_cons h3
        have hgr : Grow st3 st' := fold_grow (fun _ _ _ => link_grow) h5
        obtain ⟨e, he, hx⟩ := List.mem_map.mp (hl x List.mem_cons_self)
        have hg3 := link_good hw hord h4 (hu.sublist hgr.1.sublist) hg2 (hx ▸ hg2.user e he) (.inl (hl x List.mem_cons_self))
        exact ih st3 hg3 h5 fun y hy => (link_grow h4).1.subset (hl y (List.mem_cons_of_mem _ hy))

theorem good_nil (P : Prog) (X : Fid → Prop) : Good P X ⟨[], []⟩ :=
  ⟨fun i e h => by simp at h, fun e h => by simp at h, fun e h => by simp at h, fun e h => by simp at h, fun e h => by simp at h,
    fun i e c h => by simp at h, fun i c h => by simp at h, List.nodup_nil⟩

theorem nodup_of_first {es : List Entry} (h : First es) (hc : ∀ e ∈ es, e.code.isSome) : (ids es).Nodup := by
  rw [List.nodup_iff_getElem?_ne_getElem?]
  intro i j hij hj heq
  rw [ids, List.length_map] at hj
  simp only [ids, List.getElem?_map, List.getElem?_eq_getElem hj, List.getElem?_eq_getElem (Nat.lt_trans hij hj), Option.map_some,
    Option.some.injEq] at heq
  have := h i j _ _ hij (List.getElem?_eq_getElem (Nat.lt_trans hij hj)) (List.getElem?_eq_getElem hj) heq
  have h2 := hc _ (List.getElem_mem hj)
  rw [this] at h2
  cases h2

/-- What holds when linking succeeds. -/
theorem linkAll_good {P : Prog} {ord : List Fid → List Fid} (hw : WF P) (hord : ∀ l, ord l ⊆ l) {n : Nat} {roots : List Nat}
    (hr : ∀ f ∈ roots, ∀ I, P[f]? = some I → I.native = false) {st : St} (h : linkAll P ord n roots = some st) :
    Good P (fun _ => False) st ∧ (ids st.entries).Nodup ∧ ∀ e ∈ st.entries, e.code.isSome := by
  unfold linkAll at h
  split at h
  · cases h
  · rename_i st' hf
    split_ifs at h with hc
    cases h
    have hc : ∀ e ∈ st.entries, e.code.isSome := by simpa using hc
    have hgr : Grow ⟨[], []⟩ st := fold_grow (fun _ _ _ => link_grow) hf
    have hu := nodup_of_first (hgr.2 fun i j ei ej _ h => by simp at h) hc
    refine ⟨?_, hu, hc⟩
    have : ∀ {l : List Nat} {a : St}, (l.map (Fid.mk · none)).foldlM (link P ord n) a = some st → (∀ f ∈ l, ∀ I, P[f]? = some I → I.native = false) →
        Good P (fun _ => False) a → Good P (fun _ => False) st := by
      intro l
      induction l with
      | nil => intro a ha _ hg; cases ha; exact hg
      | cons x xs ih =>
        intro a ha hx hg
        obtain ⟨b, h4, h5⟩ := foldlM_cons ha
        have hgr : Grow b st := fold_grow (fun _ _ _ => link_grow) h5
        exact ih h5 (fun f hf => hx f (List.mem_cons_of_mem _ hf))
          (link_good hw hord h4 (hu.sublist hgr.1.sublist) hg (hx x List.mem_cons_self) (.inr rfl))
    exact this hf hr (good_nil P _)

theorem find_mem {es : List Entry} {id : Fid} {e : Entry} (h : find es id = some e) : id ∈ ids es := by
  obtain ⟨i, h1, h2, -⟩ := find_some h
  exact List.mem_map.mpr ⟨_, List.mem_of_getElem? h1, h2⟩

theorem enter_mem {st : St} {id : Fid} {J : Info} {r : Option St} (h : enter st id id J = some r) : id ∈ ids (r.getD st).entries := by
  unfold enter at h
  split at h
  · split_ifs at h <;> cases h <;> exact find_mem (by assumption)
  · obtain ⟨s, -, h2⟩ := Option.map_eq_some_iff.mp h
    cases h2
    simp [ids]

theorem link_mem {P : Prog} {ord : List Fid → List Fid} : ∀ {n : Nat} {st st' : St} {id : Fid}, link P ord n st id = some st' → id.tys = none →
    id ∈ ids st'.entries
  | 0, _, _, _, h, _ => by cases h
  | n + 1, st, st', id, h, h0 => by
    obtain ⟨own, J, hi, hr⟩ := link_spec h
    obtain ⟨I, -, -, -, ⟨rfl, -⟩ | ⟨-, h1, -⟩⟩ := instance_spec hi
    · rcases hr with ⟨h1, rfl⟩ | ⟨st1, h1, ⟨-, rfl⟩ | ⟨-, st2, l, h2, h3⟩⟩
      · exact enter_mem h1
      · exact enter_mem h1
      · exact ((translate_grow h2).1.trans (fold_grow (fun _ _ _ => link_grow) h3)).1.subset (enter_mem h1)
    · exact absurd h0 h1

theorem linkAll_mem {P : Prog} {ord : List Fid → List Fid} {n : Nat} {roots : List Nat} {st : St} (h : linkAll P ord n roots = some st)
    {f : Nat} (hf : f ∈ roots) : ⟨f, none⟩ ∈ ids st.entries := by
  unfold linkAll at h
  split at h
  · cases h
  · rename_i st' hfold
    split_ifs at h with hc
    cases h
    have : ∀ {l : List Nat} {a : St}, (l.map (Fid.mk · none)).foldlM (link P ord n) a = some st → f ∈ l → ⟨f, none⟩ ∈ ids st.entries := by
      intro l
      induction l with
      | nil => intro a _ h; cases h
      | cons x xs ih =>
        intro a ha hx
        obtain ⟨b, h4, h5⟩ := foldlM_cons ha
        rcases List.mem_cons.mp hx with rfl | hx
        · exact (fold_grow (fun _ _ _ => link_grow) h5).1.subset (link_mem h4 rfl)
        · exact ih h5 hx
    exact this hfold hf

/-! ### Linking succeeds -/

mutual
theorem subst_nil : ∀ {t t' : ITy}, subst [] t = some t' → hasParam t = false
  | .bool, _, _ | .u8, _, _ | .u16, _, _ | .u32, _, _ | .u64, _, _ | .u128, _, _ | .u256, _, _ | .address, _, _ | .signer, _, _
  | .struct _ _ _, _, _ | .enum _ _, _, _ => rfl
  | .vec t, _, h => by obtain ⟨_, h, -⟩ := Option.map_eq_some_iff.mp h; exact subst_nil (t := t) h
  | .ref t, _, h => by obtain ⟨_, h, -⟩ := Option.map_eq_some_iff.mp h; exact subst_nil (t := t) h
  | .mref t, _, h => by obtain ⟨_, h, -⟩ := Option.map_eq_some_iff.mp h; exact subst_nil (t := t) h
  | .param i, _, h => by simp [subst] at h
  | .gstruct m i ts vm, _, h => by obtain ⟨_, h, -⟩ := Option.map_eq_some_iff.mp h; exact substs_nil (ts := ts) h
  | .genum m i ts, _, h => by obtain ⟨_, h, -⟩ := Option.map_eq_some_iff.mp h; exact substs_nil (ts := ts) h
theorem substs_nil : ∀ {ts ts' : List ITy}, substs [] ts = some ts' → hasParams ts = false
  | [], _, _ => rfl
  | t :: ts, _, h => by
    rw [substs] at h
    split at h
    · rename_i h1 h2
      rw [hasParams, subst_nil h1, substs_nil h2]; rfl
    · cases h
end

theorem resolve_total {P : Prog} {cl : Fid} {c : Site} {t : Fid} {I : Info} (h : Target cl c t) (hI : P[c.fn]? = some I)
    (hi : ∀ ts, t.tys = some ts → ∃ J, I.inst ts = some J) :
    ∃ J, resolve P cl c = some (t, J) ∧ J.native = I.native ∧ ∀ s, SigOf P t s → J.sig = some s := by
  obtain ⟨fn, tys⟩ := t
  obtain ⟨rfl, h⟩ := h
  have hsig : ∀ {vs J}, tys = some vs → I.inst vs = some J → ∀ s, SigOf P ⟨c.fn, tys⟩ s → J.sig = some s := by
    rintro vs J rfl hJ s ⟨I', h1, J', h2, h3⟩
    dsimp only at h1
    rw [hI] at h1; cases h1
    rw [hJ] at h2; cases h2
    exact h3
  unfold resolve
  rw [hI]
  dsimp only
  cases hc : c.tys with
  | none =>
    rw [hc] at h
    dsimp only at h
    subst h
    refine ⟨I, rfl, rfl, ?_⟩
    rintro s ⟨I', h1, h2⟩
    dsimp only at h1
    rw [hI] at h1; cases h1
    exact h2
  | some ts =>
    rw [hc] at h
    obtain ⟨vs, h1, h2⟩ := h
    obtain ⟨J, hJ⟩ := hi vs h2
    dsimp only at h2 ⊢
    by_cases hp : hasParams ts = true
    · rw [if_pos hp]
      cases hu : cl.tys with
      | none =>
        rw [hu] at h1
        rw [substs_nil h1] at hp
        cases hp
      | some us =>
        rw [hu] at h1
        dsimp only
        rw [show substs us ts = some vs from h1, h2]
        dsimp only
        rw [hJ]
        exact ⟨J, rfl, (inst_native hJ).1, h2 ▸ hsig h2 hJ⟩
    · rw [substs_closed (by simpa using hp)] at h1
      cases h1
      rw [if_neg hp, hJ, h2]
      exact ⟨J, rfl, (inst_native hJ).1, h2 ▸ hsig h2 hJ⟩

/-- `S` contains all functions called from the functions in `S`, with all their types. -/
structure Closed (P : Prog) (S : List Fid) : Prop where
  sig : ∀ id ∈ S, ∃ s, SigOf P id s
  user : ∀ id ∈ S, ∃ I, P[id.fn]? = some I ∧ I.native = false ∧ (id.tys = none ↔ I.nty = 0)
  calls : ∀ id ∈ S, ∀ I, P[id.fn]? = some I → ∀ c ∈ I.calls, ∃ t I', Target id c t ∧ P[c.fn]? = some I' ∧
    (∀ ts, t.tys = some ts → ∃ J, I'.inst ts = some J) ∧ (I'.native = false → t ∈ S)

theorem callSites_total {P : Prog} {S : List Fid} (hS : Closed P S) {cl : Fid} : ∀ {cs : List Site} (es : List Entry),
    (∀ c ∈ cs, ∃ t I', Target cl c t ∧ P[c.fn]? = some I' ∧ (∀ ts, t.tys = some ts → ∃ J, I'.inst ts = some J) ∧ (I'.native = false → t ∈ S)) →
    ∃ k es' l, callSites P cl cs es = some (k, es', l) ∧ ∀ x ∈ l, x ∈ S
  | [], es, _ => ⟨[], es, [], rfl, by simp⟩
  | c :: cs, es, h => by
    obtain ⟨t, I', h1, h2, h3, h4⟩ := h c List.mem_cons_self
    obtain ⟨J, h5, h6, h7⟩ := resolve_total h1 h2 h3
    have ih := fun es => callSites_total hS (cl := cl) (cs := cs) es fun c hc => h c (List.mem_cons_of_mem _ hc)
    simp only [callSites, h5]
    by_cases hn : J.native = true
    · rw [if_pos hn]; exact ih es
    · rw [if_neg hn]
      have ht : t ∈ S := h4 (by rw [← h6]; simpa using hn)
      split
      · obtain ⟨k, es', l, g1, g2⟩ := ih es
        rw [g1]
        exact ⟨_, _, _, rfl, g2⟩
      · obtain ⟨s, hs⟩ := hS.sig t ht
        rw [h7 s hs]
        dsimp only
        obtain ⟨k, es', l, g1, g2⟩ := ih (es ++ [⟨es.length, t, s, none⟩])
        rw [g1]
        exact ⟨_, _, _, rfl, fun x hx => (List.mem_cons.mp hx).elim (· ▸ ht) (g2 x)⟩

theorem instance_total {P : Prog} {S : List Fid} (hS : Closed P S) (hg : ∀ I ∈ P, I.generic = true ↔ I.nty ≠ 0) {id : Fid} (hid : id ∈ S) :
    ∃ I J s, P[id.fn]? = some I ∧ instance? P id = some (id, J) ∧ J.sig = some s ∧ J.native = false ∧ J.calls = I.calls := by
  obtain ⟨I, hI, hn, ht⟩ := hS.user id hid
  obtain ⟨s, I', hI', hs⟩ := hS.sig id hid
  rw [hI] at hI'; cases hI'
  have hgen := hg I (List.mem_of_getElem? hI)
  obtain ⟨fn, tys⟩ := id
  dsimp only at hI ht hs
  simp only [instance?, hI]
  cases tys with
  | none =>
    rw [if_neg (fun h => hgen.mp h (ht.mp rfl))]
    exact ⟨I, I, s, rfl, rfl, hs, hn, rfl⟩
  | some us =>
    rw [if_pos (hgen.mpr fun h => by cases ht.mpr h)]
    obtain ⟨J, h1, h2⟩ := hs
    simp only [h1]
    exact ⟨I, J, s, rfl, rfl, h2, by rw [(inst_native h1).1, hn], (inst_native h1).2.1⟩

/-- The function has been translated. -/
def coded (st : St) (x : Fid) : Bool := st.entries.any fun e => decide (e.id = x) && e.code.isSome

theorem coded_iff {st : St} {x : Fid} : coded st x = true ↔ ∃ e ∈ st.entries, e.id = x ∧ e.code.isSome = true := by
  simp [coded]

theorem countP_lt {α : Type} {p q : α → Bool} : ∀ {l : List α} {x : α}, (∀ y, p y = true → q y = true) → x ∈ l → p x = false → q x = true →
    l.countP p < l.countP q
  | [], _, _, hx, _, _ => by cases hx
  | y :: ys, x, hpq, hx, h1, h2 => by
    have hle : ys.countP p ≤ ys.countP q := List.countP_mono_left fun a _ => hpq a
    rcases List.mem_cons.mp hx with rfl | hx
    · rw [List.countP_cons, List.countP_cons, h1, h2]; simp; omega
    · have := countP_lt hpq hx h1 h2
      rw [List.countP_cons, List.countP_cons]
      have := hpq y
      split_ifs <;> simp_all <;> omega

/-- How many functions are left to translate. -/
def left (S : List Fid) (st : St) : Nat := S.countP fun x => !coded st x

structure Fine (S : List Fid) (st : St) : Prop where
  nodup : (ids st.entries).Nodup
  sub : ∀ x ∈ ids st.entries, x ∈ S

/-- Translation of some functions: what is new has been translated. -/
structure Done (st st' : St) : Prop where
  mono : ∀ x, coded st x = true → coded st' x = true
  sub : ∀ x ∈ ids st.entries, x ∈ ids st'.entries
  new : ∀ x ∈ ids st'.entries, coded st' x = true ∨ (x ∈ ids st.entries ∧ coded st x = false)

theorem Done.refl (st : St) : Done st st :=
  ⟨fun _ h => h, fun _ h => h, fun x hx => by cases h : coded st x <;> simp [hx]⟩

theorem Done.trans {a b c : St} (h : Done a b) (g : Done b c) : Done a c :=
  ⟨fun x hx => g.mono x (h.mono x hx), fun x hx => g.sub x (h.sub x hx), fun x hx => by
    rcases g.new x hx with h1 | ⟨h1, h2⟩
    · exact .inl h1
    · rcases h.new x h1 with h3 | h3
      · rw [h2] at h3; cases h3
      · exact .inr h3⟩

theorem Done.left {S : List Fid} {a b : St} (h : Done a b) : left S b ≤ left S a :=
  List.countP_mono_left fun x _ hx => by
    have := h.mono x
    cases hc : coded a x <;> simp_all

theorem fold_total {S : List Fid} {f : St → Fid → Option St} {m : Nat}
    (hf : ∀ st id, Fine S st → id ∈ S → left S st ≤ m → ∃ st', f st id = some st' ∧ Fine S st' ∧ Done st st' ∧ coded st' id = true) :
    ∀ {l : List Fid} {st : St}, Fine S st → (∀ x ∈ l, x ∈ S) → left S st ≤ m →
      ∃ st', l.foldlM f st = some st' ∧ Fine S st' ∧ Done st st' ∧ ∀ x ∈ l, coded st' x = true
  | [], st, h, _, _ => ⟨st, rfl, h, .refl _, by simp⟩
  | x :: l, st, h, hl, hm => by
    obtain ⟨st1, h1, h2, h3, h4⟩ := hf st x h (hl x List.mem_cons_self) hm
    obtain ⟨st2, g1, g2, g3, g4⟩ := fold_total hf (l := l) h2 (fun y hy => hl y (List.mem_cons_of_mem _ hy)) (Nat.le_trans h3.left hm)
    refine ⟨st2, by rw [List.foldlM_cons, h1]; exact g1, g2, h3.trans g3, fun y hy => ?_⟩
    rcases List.mem_cons.mp hy with rfl | hy
    · exact g3.mono _ h4
    · exact g4 y hy

theorem coded_mem {st : St} {x : Fid} (h : coded st x = true) : x ∈ ids st.entries := by
  obtain ⟨e, h1, h2, -⟩ := coded_iff.mp h
  exact List.mem_map.mpr ⟨e, h1, h2⟩

theorem coded_append {st : St} {new : List Entry} (hn : ∀ e ∈ new, e.code = none) (x : Fid) :
    coded { st with entries := st.entries ++ new } x = coded st x := by
  rw [coded, List.any_append]
  have : (new.any fun e => decide (e.id = x) && e.code.isSome) = false := by
    rw [List.any_eq_false]
    intro e he
    simp [hn e he]
  rw [this, Bool.or_false]; rfl

theorem coded_set {st : St} {i : Nat} {e : Entry} {c : Code} {segs : List (Nat × Code)} (he : st.entries[i]? = some e) (x : Fid) :
    coded ⟨st.entries.set i { e with code := some c }, segs⟩ x = true ↔ x = e.id ∨ coded st x = true := by
  rw [coded_iff, coded_iff]
  constructor
  · rintro ⟨a, h1, h2, h3⟩
    rcases List.mem_or_eq_of_mem_set h1 with h1 | rfl
    · exact .inr ⟨a, h1, h2, h3⟩
    · exact .inl h2.symm
  · rintro (rfl | ⟨a, h1, h2, h3⟩)
    · exact ⟨_, List.mem_set (List.getElem?_eq_some_iff.mp he).1 _, rfl, rfl⟩
    · obtain ⟨j, hj⟩ := List.mem_iff_getElem?.mp h1
      by_cases hij : i = j
      · subst hij
        rw [he] at hj; cases hj
        exact ⟨_, List.mem_set (List.getElem?_eq_some_iff.mp he).1 _, h2, rfl⟩
      · exact ⟨a, List.mem_iff_getElem?.mpr ⟨j, by rw [List.getElem?_set, if_neg hij]; exact hj⟩, h2, h3⟩

theorem link_total {P : Prog} {S : List Fid} (hS : Closed P S) (hg : ∀ I ∈ P, I.generic = true ↔ I.nty ≠ 0) {ord : List Fid → List Fid}
    (hord : ∀ l, (ord l).Perm l) : ∀ (n : Nat) {st : St} {id : Fid}, Fine S st → id ∈ S → left S st < n →
    ∃ st', link P ord n st id = some st' ∧ Fine S st' ∧ Done st st' ∧ coded st' id = true
  | 0, _, _, _, _, h => by omega
  | n + 1, st, id, hf, hid, hlt => by
    obtain ⟨I, J, s, hI, hinst, hs, hnat, hcalls⟩ := instance_total hS hg hid
    by_cases hc : coded st id = true
    · -- it has been translated already
      have : enter st id id J = some none := by
        unfold enter
        obtain ⟨e, h1, h2, h3⟩ := coded_iff.mp hc
        cases hfind : find st.entries id with
        | none => exact absurd (coded_mem hc) (find_none hfind)
        | some e' =>
          have : e' = e := by
            obtain ⟨i, h4, h5, -⟩ := find_some hfind
            exact (List.inj_on_of_nodup_map hf.nodup) (List.mem_of_getElem? h4) h1 (h5.trans h2.symm)
          rw [this]
          simp [h3]
      refine ⟨st, by simp only [link, hinst, this], hf, .refl _, hc⟩
    · have hc : coded st id = false := by simpa using hc
      -- its entry
      obtain ⟨st1, h1, hf1, hm1, hc1, hi1⟩ : ∃ st1, enter st id id J = some (some st1) ∧ Fine S st1 ∧ id ∈ ids st1.entries ∧ (∀ x, coded st1 x = coded st x) ∧
          ∀ x, x ∈ ids st1.entries ↔ x ∈ ids st.entries ∨ x = id := by
        unfold enter
        cases hfind : find st.entries id with
        | some e =>
          have : e.code.isSome = false := by
            obtain ⟨i, h4, h5, -⟩ := find_some hfind
            cases h : e.code.isSome
            · rfl
            · rw [coded_iff.mpr ⟨e, List.mem_of_getElem? h4, h5, h⟩] at hc; cases hc
          simp only [this, Bool.false_eq_true, if_false]
          refine ⟨st, rfl, hf, find_mem hfind, fun _ => rfl, fun x => ⟨.inl, ?_⟩⟩
          rintro (h | rfl)
          · exact h
          · exact find_mem hfind
        | none =>
          simp only [hs, Option.map_some]
          refine ⟨_, rfl, ⟨?_, ?_⟩, by simp [ids], coded_append (by simp), by simp [ids]⟩
          · have := find_none hfind
            simp only [ids, List.map_append, List.map_cons, List.map_nil]
            refine List.nodup_append.mpr ⟨hf.nodup, by simp, fun a ha b hb => ?_⟩
            simp at hb
            subst hb
            rintro rfl
            exact this ha
          · intro x hx
            simp only [ids, List.map_append, List.map_cons, List.map_nil, List.mem_append, List.mem_singleton] at hx
            rcases hx with hx | rfl
            · exact hf.sub x hx
            · exact hid
      -- its body
      obtain ⟨k, es, l, hcs, hl⟩ := callSites_total hS (cl := id) (cs := J.calls) st1.entries (by rw [hcalls]; exact hS.calls id hid I hI)
      obtain ⟨new, rfl, n1, n2, n3, n4⟩ := callSites_grow hcs
      have hmem : id ∈ ids (st1.entries ++ new) := by
        simp only [ids, List.map_append, List.mem_append]; exact .inl hm1
      obtain ⟨st2, hadd⟩ : ∃ st2, addToTable { st1 with entries := st1.entries ++ new } id ⟨id, s, k⟩ = some st2 := by
        unfold addToTable
        cases hfind : find (st1.entries ++ new) id with
        | none => exact absurd hmem (find_none hfind)
        | some e => exact ⟨_, rfl⟩
      have htr : translate P st1 id id J = some (st2, l) := by
        unfold translate
        rw [hs, hcs]
        simp only [hadd, Option.map_some]
      obtain ⟨i, e, a1, a2, -, rfl⟩ := addToTable_spec hadd
      have hids := ids_set (e' := { e with code := some (⟨id, s, k⟩ : Code) }) a1 rfl
      dsimp only at hids a1
      have hc2 : ∀ x, coded ⟨(st1.entries ++ new).set i { e with code := some (⟨id, s, k⟩ : Code) }, st1.segs ++ [(e.idx, ⟨id, s, k⟩)]⟩ x = true ↔
          x = id ∨ coded st x = true := by
        intro x
        rw [coded_set (st := { st1 with entries := st1.entries ++ new }) a1, a2, coded_append n1, hc1]
      have hf2 : Fine S ⟨(st1.entries ++ new).set i { e with code := some (⟨id, s, k⟩ : Code) }, st1.segs ++ [(e.idx, ⟨id, s, k⟩)]⟩ := by
        refine ⟨?_, ?_⟩
        · dsimp only
          rw [hids]
          simp only [ids, List.map_append]
          exact List.nodup_append.mpr ⟨hf1.nodup, n3, fun a ha b hb hab => n4 b hb (hab ▸ ha)⟩
        · dsimp only
          rw [hids]
          simp only [ids, List.map_append, List.mem_append]
          rintro x (hx | hx)
          · exact hf1.sub x hx
          · exact hl x (by rw [n2]; exact hx)
      have hlt2 : left S ⟨(st1.entries ++ new).set i { e with code := some (⟨id, s, k⟩ : Code) }, st1.segs ++ [(e.idx, ⟨id, s, k⟩)]⟩ < left S st := by
        refine countP_lt (x := id) (fun y hy => ?_) hid ?_ (by simp [hc])
        · have := (hc2 y).mpr ∘ .inr
          cases h : coded st y
          · rfl
          · rw [this h] at hy; cases hy
        · rw [(hc2 id).mpr (.inl rfl)]; rfl
      obtain ⟨st3, g1, g2, g3, g4⟩ := fold_total (S := S) (f := link P ord n) (m := n - 1)
        (fun st id q1 q2 q3 => link_total hS hg hord n q1 q2 (by omega)) (l := ord l) hf2 (fun x hx => hl x ((hord l).subset hx)) (by omega)
      refine ⟨st3, ?_, g2, ?_, g3.mono _ ((hc2 id).mpr (.inl rfl))⟩
      · simp only [link, hinst, h1, hnat, Bool.false_eq_true, if_false, htr]
        exact g1
      · refine ⟨fun x hx => g3.mono x ((hc2 x).mpr (.inr hx)), fun x hx => g3.sub x ?_, fun x hx => ?_⟩
        · dsimp only
          rw [hids]
          simp only [ids, List.map_append, List.mem_append]
          exact .inl ((hi1 x).mpr (.inl hx))
        · rcases g3.new x hx with h | ⟨h, h'⟩
          · exact .inl h
          · dsimp only at h
            rw [hids] at h
            simp only [ids, List.map_append, List.mem_append] at h
            have h' : ¬ (x = id ∨ coded st x = true) := fun hh => by rw [(hc2 x).mpr hh] at h'; cases h'
            rcases h with h | h
            · rcases (hi1 x).mp h with h | rfl
              · exact .inr ⟨h, by simpa using fun hh => h' (.inr hh)⟩
              · exact absurd (.inl rfl) h'
            · exact .inl (g4 x ((hord l).symm.subset (by rw [n2]; exact h)))

theorem linkAll_total {P : Prog} {S : List Fid} (hS : Closed P S) (hg : ∀ I ∈ P, I.generic = true ↔ I.nty ≠ 0) {ord : List Fid → List Fid}
    (hord : ∀ l, (ord l).Perm l) {roots : List Nat} (hr : ∀ f ∈ roots, ⟨f, none⟩ ∈ S) {n : Nat} (hn : S.length < n) :
    ∃ st, linkAll P ord n roots = some st := by
  have h0 : left S ⟨[], []⟩ ≤ n - 1 := Nat.le_trans List.countP_le_length (by omega)
  obtain ⟨st, h1, h2, h3, h4⟩ := fold_total (S := S) (f := link P ord n) (m := n - 1)
    (fun st id q1 q2 q3 => link_total hS hg hord n q1 q2 (by omega)) (l := roots.map (Fid.mk · none)) (st := ⟨[], []⟩)
    ⟨List.nodup_nil, by simp [ids]⟩ (fun x hx => by obtain ⟨f, hf, rfl⟩ := List.mem_map.mp hx; exact hr f hf) h0
  refine ⟨st, ?_⟩
  unfold linkAll
  rw [h1]
  dsimp only
  rw [if_pos]
  rw [List.all_eq_true]
  intro e he
  rcases h3.new e.id (List.mem_map_of_mem he) with h | ⟨h, -⟩
  · obtain ⟨e', g1, g2, g3⟩ := coded_iff.mp h
    rw [← (List.inj_on_of_nodup_map h2.nodup) g1 he g2]
    exact g3
  · simp [ids] at h

end Link
