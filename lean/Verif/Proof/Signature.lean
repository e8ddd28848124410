import Verif.Rt.Signature
import Mathlib.Data.List.Basic
import Mathlib.Tactic.Tauto

/-! Checks on public functions. -/

namespace Sig

/-- A signer occurs in the type, possibly inside vectors and behind references. -/
def mentionsSigner : Ty → Bool
  | .signer => true
  | .vector t => mentionsSigner t
  | .ref t => mentionsSigner t
  | .mutRef t => mentionsSigner t
  | _ => false

/-- A signer occurs behind a reference. -/
def signerBehindRef : Ty → Bool
  | .vector t => signerBehindRef t
  | .ref t => mentionsSigner t
  | .mutRef t => mentionsSigner t
  | _ => false

theorem find_of_mentions : ∀ t, mentionsSigner t = true → signerBehindRef t = false → findSignatureType t = true
  | .signer, _, _ => rfl
  | .vector t, h, h' => by
    simp only [mentionsSigner, signerBehindRef, findSignatureType] at *
    exact find_of_mentions t h h'
  | .ref t, h, h' => by simp only [mentionsSigner, signerBehindRef] at *; rw [h] at h'; cases h'
  | .mutRef t, h, h' => by simp only [mentionsSigner, signerBehindRef] at *; rw [h] at h'; cases h'
  | .bool, h, _ => by simp [mentionsSigner] at h
  | .u8, h, _ => by simp [mentionsSigner] at h
  | .u16, h, _ => by simp [mentionsSigner] at h
  | .u32, h, _ => by simp [mentionsSigner] at h
  | .u64, h, _ => by simp [mentionsSigner] at h
  | .u128, h, _ => by simp [mentionsSigner] at h
  | .u256, h, _ => by simp [mentionsSigner] at h
  | .address, h, _ => by simp [mentionsSigner] at h
  | .struct _ _, h, _ => by simp [mentionsSigner] at h
  | .enum _, h, _ => by simp [mentionsSigner] at h
  | .param _, h, _ => by simp [mentionsSigner] at h

/-- What is acceptable at position `i`. -/
def OkAt (i : Nat) (t : Ty) : Prop := (t = .signer → i = 0) ∧ ∀ u, t = .vector u → findSignatureType u = false

theorem checkFrom_iff : ∀ ts i, checkFrom i ts = .ok () ↔ ∀ j t, ts[j]? = some t → OkAt (i + j) t
  | [], i => by simp [checkFrom]
  | t :: ts, i => by
    have ih := checkFrom_iff ts (i + 1)
    have step : checkFrom i (t :: ts) = .ok () ↔ OkAt i t ∧ checkFrom (i + 1) ts = .ok () := by
      cases t <;> simp [checkFrom, OkAt]
      · by_cases h : i = 0 <;> simp [h]
      · rename_i u; cases h : findSignatureType u <;> simp
    rw [step, ih]
    constructor
    · rintro ⟨h0, h⟩ j t' hj
      cases j with
      | zero => simp at hj; subst hj; exact h0
      | succ j => have := h j t' (by simpa using hj); rwa [show i + 1 + j = i + (j + 1) by omega] at this
    · intro h
      refine ⟨h 0 t rfl, fun j t' hj => ?_⟩
      have := h (j + 1) t' (by simpa using hj)
      rwa [show i + 1 + j = i + (j + 1) by omega]

/-! ### Modifiers -/

variable {structs : List (String × Bool)} {ps : List Param}

theorem foldIdent {k : Kind} : ∀ (ids : List String) (s : ModState),
    (ids.foldl (ModState.ident structs ps k) s).bad = false →
    s.bad = false ∧ (∀ id ∈ ids, checkParam structs ps id k = true) ∧ (∀ id ∈ ids, id ∉ s.seen) ∧
      ids.foldl (ModState.ident structs ps k) s = { s with seen := ids.reverse ++ s.seen }
  | [], s, h => ⟨h, by simp, by simp, by simp⟩
  | id :: ids, s, h => by
    rw [List.foldl_cons] at h
    obtain ⟨h1, h2, h3, h4⟩ := foldIdent ids _ h
    have hi : checkParam structs ps id k = true ∧ id ∉ s.seen ∧ s.bad = false := by
      unfold ModState.ident at h1
      by_cases hm : id ∈ s.seen <;> by_cases hc : checkParam structs ps id k = true <;> simp [hm, hc] at h1 ⊢
      exact h1
    obtain ⟨hc, hm, hb⟩ := hi
    have e : ModState.ident structs ps k s id = { s with seen := id :: s.seen } := by
      unfold ModState.ident
      simp [hm, hc]
    rw [e] at h3 h4
    refine ⟨hb, ?_, ?_, ?_⟩
    · intro x hx
      rcases List.mem_cons.mp hx with rfl | hx
      · exact hc
      · exact h2 x hx
    · intro x hx
      rcases List.mem_cons.mp hx with rfl | hx
      · exact hm
      · intro hs; exact h3 x hx (List.mem_cons_of_mem _ hs)
    · rw [List.foldl_cons, e, h4]
      simp

/-- The list of names of a kind. -/
def ModState.list (s : ModState) : Kind → List String
  | .owned => s.owned
  | .shared => s.shared
  | .frozen => s.frozen

theorem foldMod : ∀ (ms : List Modifier) (s : ModState),
    (ms.foldl (ModState.modifier structs ps) s).bad = false →
    s.bad = false ∧ (∀ m ∈ ms, ∀ id ∈ m.ids, checkParam structs ps id m.kind = true ∧ id ∉ s.seen) ∧
      (∀ m ∈ ms, ∀ m' ∈ ms, ∀ id, id ∈ m.ids → id ∈ m'.ids → m.kind = m'.kind) ∧
      (∀ k id, id ∈ (ms.foldl (ModState.modifier structs ps) s).list k ↔ id ∈ s.list k ∨ ∃ m ∈ ms, m.kind = k ∧ id ∈ m.ids)
  | [], s, h => ⟨h, by simp, by simp, by simp⟩
  | m :: ms, s, h => by
    rw [List.foldl_cons] at h
    obtain ⟨h1, h2, h3, h4⟩ := foldMod ms _ h
    have hb : (m.ids.foldl (ModState.ident structs ps m.kind) s).bad = false := by
      unfold ModState.modifier at h1
      by_cases hb : (m.ids.foldl (ModState.ident structs ps m.kind) s).bad = true
      · simp [hb] at h1
      · simpa using hb
    obtain ⟨i1, i2, i3, i4⟩ := foldIdent m.ids s hb
    have seen : (ModState.modifier structs ps s m).seen = m.ids.reverse ++ s.seen := by
      unfold ModState.modifier
      rw [i4] at hb ⊢
      rw [if_neg (by simpa using i1)]
      cases m.kind <;> rfl
    have lists : ∀ k id, id ∈ (ModState.modifier structs ps s m).list k ↔ id ∈ s.list k ∨ (m.kind = k ∧ id ∈ m.ids) := by
      intro k id
      unfold ModState.modifier
      rw [i4] at hb ⊢
      rw [if_neg (by simpa using i1)]
      cases hk : m.kind <;> cases k <;> simp [ModState.list]
    rw [seen] at h2
    have hdisj : ∀ m' ∈ ms, ∀ id, id ∈ m.ids → id ∈ m'.ids → False := by
      intro m' hm' id hi hi'
      exact (h2 m' hm' id hi').2 (List.mem_append_left _ (List.mem_reverse.mpr hi))
    refine ⟨i1, ?_, ?_, ?_⟩
    · intro m' hm' id hid
      rcases List.mem_cons.mp hm' with rfl | hm'
      · exact ⟨i2 id hid, i3 id hid⟩
      · exact ⟨(h2 m' hm' id hid).1, fun hs => (h2 m' hm' id hid).2 (List.mem_append_right _ hs)⟩
    · intro a ha b hb' id hia hib
      rcases List.mem_cons.mp ha with ea | ha' <;> rcases List.mem_cons.mp hb' with eb | hb''
      · rw [ea, eb]
      · exact (hdisj b hb'' id (ea ▸ hia) hib).elim
      · exact (hdisj a ha' id (eb ▸ hib) hia).elim
      · exact h3 a ha' b hb'' id hia hib
    · intro k id
      rw [List.foldl_cons, h4, lists]
      constructor
      · rintro ((h | ⟨h, h'⟩) | ⟨m', hm', h, h'⟩)
        · exact .inl h
        · exact .inr ⟨m, List.mem_cons_self, h, h'⟩
        · exact .inr ⟨m', List.mem_cons_of_mem _ hm', h, h'⟩
      · rintro (h | ⟨m', hm', hk, hi⟩)
        · exact .inl (.inl h)
        · rcases List.mem_cons.mp hm' with e | hm''
          · subst e; exact .inl (.inr ⟨hk, hi⟩)
          · exact .inr ⟨m', hm'', hk, hi⟩

theorem process_spec {ms : List Modifier} {s : ModState} (h : process structs ps ms = some s) :
    (∀ m ∈ ms, ∀ id ∈ m.ids, checkParam structs ps id m.kind = true) ∧
    (∀ m ∈ ms, ∀ m' ∈ ms, ∀ id, id ∈ m.ids → id ∈ m'.ids → m.kind = m'.kind) ∧
    (∀ k id, id ∈ s.list k ↔ ∃ m ∈ ms, m.kind = k ∧ id ∈ m.ids) := by
  unfold process at h
  by_cases hb : (ms.foldl (ModState.modifier structs ps) ⟨false, [], [], [], []⟩).bad = true
  · simp [hb] at h
  · have hb' : (ms.foldl (ModState.modifier structs ps) ⟨false, [], [], [], []⟩).bad = false := by simpa using hb
    simp only [hb', Bool.false_eq_true, if_false, Option.some.injEq] at h
    obtain ⟨_, h2, h3, h4⟩ := foldMod ms _ hb'
    rw [h] at h4
    refine ⟨fun m hm id hid => (h2 m hm id hid).1, h3, fun k id => ?_⟩
    rw [h4 k id]
    cases k <;> simp [ModState.list]

theorem argumentKind_iff {ms : List Modifier} {s : ModState} (h : process structs ps ms = some s) (i : Nat) (k : Kind) :
    argumentKind s ps i = some k ↔ ∃ p, ps[i]? = some p ∧ ∃ m ∈ ms, m.kind = k ∧ p.name ∈ m.ids := by
  obtain ⟨_, h2, h3⟩ := process_spec h
  unfold argumentKind
  by_cases he : s.owned = [] ∧ s.shared = [] ∧ s.frozen = []
  · rw [if_pos he]
    constructor
    · intro h; cases h
    rintro ⟨p, -, m, hm, hk, hid⟩
    have := (h3 k p.name).mpr ⟨m, hm, hk, hid⟩
    cases k <;> simp [ModState.list, he.1, he.2.1, he.2.2] at this
  · rw [if_neg he]
    cases hp : ps[i]? with
    | none => simp
    | some p =>
      have disj : ∀ k k', p.name ∈ s.list k → p.name ∈ s.list k' → k = k' := by
        intro k k' a b
        obtain ⟨m, hm, rfl, hid⟩ := (h3 _ _).mp a
        obtain ⟨m', hm', rfl, hid'⟩ := (h3 _ _).mp b
        exact h2 m hm m' hm' _ hid hid'
      have key : ∀ k, (∃ q, some p = some q ∧ ∃ m ∈ ms, m.kind = k ∧ q.name ∈ m.ids) ↔ p.name ∈ s.list k := by
        intro k
        rw [h3]
        constructor
        · rintro ⟨q, hq, h⟩; cases hq; exact h
        · intro h; exact ⟨p, rfl, h⟩
      rw [key]
      have ho : p.name ∈ s.owned ↔ p.name ∈ s.list .owned := Iff.rfl
      have hs : p.name ∈ s.shared ↔ p.name ∈ s.list .shared := Iff.rfl
      have hf : p.name ∈ s.frozen ↔ p.name ∈ s.list .frozen := Iff.rfl
      simp only [ho, hs, hf]
      split_ifs with c1 c2 c3
      · constructor
        · intro e; cases e; exact c1
        · intro e; rw [disj _ _ c1 e]
      · constructor
        · intro e; cases e; exact c2
        · intro e; rw [disj _ _ c2 e]
      · constructor
        · intro e; cases e; exact c3
        · intro e; rw [disj _ _ c3 e]
      · constructor
        · intro e; cases e
        · intro e; cases k <;> contradiction

theorem checkParam_frozen {id : String} (h : checkParam structs ps id .frozen = true) :
    ∃ p, ps.find? (fun p => p.name == id) = some p ∧ ∃ t, p.ty = .ref t := by
  unfold checkParam at h
  cases hp : ps.find? (fun p => p.name == id) with
  | none => simp [hp] at h
  | some p =>
    refine ⟨p, rfl, ?_⟩
    rw [hp] at h
    cases ht : p.ty <;> simp [ht] at h
    exact ⟨_, rfl⟩

theorem find_of_nodup : ∀ {ps : List Param} {i : Nat} {p : Param}, (ps.map Param.name).Nodup → ps[i]? = some p →
    ps.find? (fun q => q.name == p.name) = some p
  | [], i, p, _, h => by simp at h
  | q :: ps, 0, p, _, h => by simp at h; subst h; simp
  | q :: ps, i + 1, p, hn, h => by
    simp only [List.getElem?_cons_succ] at h
    simp only [List.map_cons, List.nodup_cons] at hn
    have : q.name ≠ p.name := by
      intro e
      exact hn.1 (by rw [e]; exact List.mem_map_of_mem (List.mem_of_getElem? h))
    rw [List.find?_cons_of_neg (by simpa using this)]
    exact find_of_nodup hn.2 h

end Sig
