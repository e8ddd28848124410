import Verif.Rt.Generic
import Verif.Proof.Link

namespace Link
open TyHash (ITy Vm)

mutual
/-- Type parameter `i` occurs in the type. -/
def hasP (i : Nat) : ITy → Bool
  | .ref t => hasP i t
  | .mref t => hasP i t
  | .vec t => hasP i t
  | .param j => i == j
  | .gstruct _ _ ts _ => hasPs i ts
  | .genum _ _ ts => hasPs i ts
  | _ => false
def hasPs (i : Nat) : List ITy → Bool
  | [] => false
  | t :: ts => hasP i t || hasPs i ts
end

mutual
theorem subst_congr {us vs : List ITy} : ∀ {t : ITy}, (∀ i, hasP i t = true → us[i]? = vs[i]?) → subst us t = subst vs t
  | .bool, _ | .u8, _ | .u16, _ | .u32, _ | .u64, _ | .u128, _ | .u256, _ | .address, _ | .signer, _
  | .struct _ _ _, _ | .enum _ _, _ => rfl
  | .vec t, h => by rw [subst, subst, subst_congr (t := t) h]
  | .ref t, h => by rw [subst, subst, subst_congr (t := t) h]
  | .mref t, h => by rw [subst, subst, subst_congr (t := t) h]
  | .param i, h => h i (by simp [hasP])
  | .gstruct _ _ ts _, h => by rw [subst, subst, substs_congr (ts := ts) h]
  | .genum _ _ ts, h => by rw [subst, subst, substs_congr (ts := ts) h]
theorem substs_congr {us vs : List ITy} : ∀ {ts : List ITy}, (∀ i, hasPs i ts = true → us[i]? = vs[i]?) → substs us ts = substs vs ts
  | [], _ => rfl
  | t :: ts, h => by
    rw [substs, substs, subst_congr fun i hi => h i (by simp [hasPs, hi]), substs_congr fun i hi => h i (by simp [hasPs, hi])]
end

mutual
theorem subst_agree {us vs : List ITy} : ∀ {t t' : ITy}, subst us t = some t' → subst vs t = some t' → ∀ i, hasP i t = true → us[i]? = vs[i]?
  | .bool, _, _, _, _, h | .u8, _, _, _, _, h | .u16, _, _, _, _, h | .u32, _, _, _, _, h | .u64, _, _, _, _, h | .u128, _, _, _, _, h
  | .u256, _, _, _, _, h | .address, _, _, _, _, h | .signer, _, _, _, _, h | .struct _ _ _, _, _, _, _, h | .enum _ _, _, _, _, _, h => by
    simp [hasP] at h
  | .vec t, _, h1, h2, i, h => by
    rw [subst, Option.map_eq_some_iff] at h1 h2
    obtain ⟨a, h1, rfl⟩ := h1
    obtain ⟨b, h2, e⟩ := h2
    cases e
    exact subst_agree h1 h2 i h
  | .ref t, _, h1, h2, i, h => by
    rw [subst, Option.map_eq_some_iff] at h1 h2
    obtain ⟨a, h1, rfl⟩ := h1
    obtain ⟨b, h2, e⟩ := h2
    cases e
    exact subst_agree h1 h2 i h
  | .mref t, _, h1, h2, i, h => by
    rw [subst, Option.map_eq_some_iff] at h1 h2
    obtain ⟨a, h1, rfl⟩ := h1
    obtain ⟨b, h2, e⟩ := h2
    cases e
    exact subst_agree h1 h2 i h
  | .param j, _, h1, h2, i, h => by
    simp only [hasP, beq_iff_eq] at h
    subst h
    rw [subst] at h1 h2
    rw [h1, h2]
  | .gstruct _ _ ts _, _, h1, h2, i, h => by
    rw [subst, Option.map_eq_some_iff] at h1 h2
    obtain ⟨a, h1, rfl⟩ := h1
    obtain ⟨b, h2, e⟩ := h2
    cases e
    exact substs_agree h1 h2 i h
  | .genum _ _ ts, _, h1, h2, i, h => by
    rw [subst, Option.map_eq_some_iff] at h1 h2
    obtain ⟨a, h1, rfl⟩ := h1
    obtain ⟨b, h2, e⟩ := h2
    cases e
    exact substs_agree h1 h2 i h
theorem substs_agree {us vs : List ITy} : ∀ {ts ts' : List ITy}, substs us ts = some ts' → substs vs ts = some ts' →
    ∀ i, hasPs i ts = true → us[i]? = vs[i]?
  | [], _, _, _, i, h => by simp [hasPs] at h
  | t :: ts, ts', h1, h2, i, h => by
    rw [substs] at h1 h2
    split at h1 <;> try (cases h1; done)
    rename_i a as e1 e2
    cases h1
    split at h2 <;> try (cases h2; done)
    rename_i b bs e3 e4
    cases h2
    simp only [hasPs, Bool.or_eq_true] at h
    rcases h with h | h
    · exact subst_agree e1 e3 i h
    · exact substs_agree e2 e4 i h
end

theorem substs_get {us : List ITy} : ∀ {ts vs : List ITy}, substs us ts = some vs → ∀ i : Nat, (ts[i]?).bind (subst us) = vs[i]?
  | [], _, h, i => by cases h; simp
  | t :: ts, vs, h, i => by
    rw [substs] at h
    split at h <;> try (cases h; done)
    rename_i a as e1 e2
    cases h
    cases i with
    | zero => simpa using e1
    | succ i => simpa using substs_get e2 i

mutual
/-- Putting `us` in the type arguments, or in the result of putting the arguments in: the same. -/
theorem subst_comp {us ts vs : List ITy} (hv : substs us ts = some vs) : ∀ {f g : ITy}, subst ts f = some g → subst us g = subst vs f
  | .bool, _, h | .u8, _, h | .u16, _, h | .u32, _, h | .u64, _, h | .u128, _, h | .u256, _, h | .address, _, h | .signer, _, h
  | .struct _ _ _, _, h | .enum _ _, _, h => by cases h; rfl
  | .vec t, _, h => by
    rw [subst, Option.map_eq_some_iff] at h
    obtain ⟨a, h, rfl⟩ := h
    rw [subst, subst, subst_comp hv h]
  | .ref t, _, h => by
    rw [subst, Option.map_eq_some_iff] at h
    obtain ⟨a, h, rfl⟩ := h
    rw [subst, subst, subst_comp hv h]
  | .mref t, _, h => by
    rw [subst, Option.map_eq_some_iff] at h
    obtain ⟨a, h, rfl⟩ := h
    rw [subst, subst, subst_comp hv h]
  | .param i, g, h => by
    rw [subst] at h
    rw [subst, ← substs_get hv i, h]
    rfl
  | .gstruct _ _ ts' _, _, h => by
    rw [subst, Option.map_eq_some_iff] at h
    obtain ⟨a, h, rfl⟩ := h
    rw [subst, subst, substs_comp hv h]
  | .genum _ _ ts', _, h => by
    rw [subst, Option.map_eq_some_iff] at h
    obtain ⟨a, h, rfl⟩ := h
    rw [subst, subst, substs_comp hv h]
theorem substs_comp {us ts vs : List ITy} (hv : substs us ts = some vs) : ∀ {fs gs : List ITy}, substs ts fs = some gs →
    substs us gs = substs vs fs
  | [], _, h => by cases h; rfl
  | f :: fs, gs, h => by
    rw [substs] at h
    split at h <;> try (cases h; done)
    rename_i a as e1 e2
    cases h
    rw [substs, substs, subst_comp hv e1, substs_comp hv e2]
end

mutual
theorem subst_total {us : List ITy} : ∀ {t : ITy}, (∀ i, hasP i t = true → i < us.length) → ∃ t', subst us t = some t'
  | .bool, _ | .u8, _ | .u16, _ | .u32, _ | .u64, _ | .u128, _ | .u256, _ | .address, _ | .signer, _
  | .struct _ _ _, _ | .enum _ _, _ => ⟨_, rfl⟩
  | .vec t, h => by
    obtain ⟨a, e⟩ := subst_total (t := t) h
    exact ⟨_, by rw [subst, e]; rfl⟩
  | .ref t, h => by
    obtain ⟨a, e⟩ := subst_total (t := t) h
    exact ⟨_, by rw [subst, e]; rfl⟩
  | .mref t, h => by
    obtain ⟨a, e⟩ := subst_total (t := t) h
    exact ⟨_, by rw [subst, e]; rfl⟩
  | .param i, h => ⟨_, List.getElem?_eq_getElem (h i (by simp [hasP]))⟩
  | .gstruct _ _ ts _, h => by
    obtain ⟨a, e⟩ := substs_total (ts := ts) h
    exact ⟨_, by rw [subst, e]; rfl⟩
  | .genum _ _ ts, h => by
    obtain ⟨a, e⟩ := substs_total (ts := ts) h
    exact ⟨_, by rw [subst, e]; rfl⟩
theorem substs_total {us : List ITy} : ∀ {ts : List ITy}, (∀ i, hasPs i ts = true → i < us.length) → ∃ ts', substs us ts = some ts'
  | [], _ => ⟨[], rfl⟩
  | t :: ts, h => by
    obtain ⟨a, e1⟩ := subst_total (t := t) fun i hi => h i (by simp [hasPs, hi])
    obtain ⟨as, e2⟩ := substs_total (ts := ts) fun i hi => h i (by simp [hasPs, hi])
    exact ⟨a :: as, by rw [substs, e1, e2]⟩
end

mutual
theorem hasParam_hasP : ∀ {t : ITy} {i : Nat}, hasP i t = true → hasParam t = true
  | .bool, _, h | .u8, _, h | .u16, _, h | .u32, _, h | .u64, _, h | .u128, _, h
  | .u256, _, h | .address, _, h | .signer, _, h | .struct _ _ _, _, h | .enum _ _, _, h => by simp [hasP] at h
  | .vec t, _, h | .ref t, _, h | .mref t, _, h => hasParam_hasP (t := t) h
  | .param _, _, _ => rfl
  | .gstruct _ _ ts _, _, h | .genum _ _ ts, _, h => hasParams_hasPs (ts := ts) h
theorem hasParams_hasPs : ∀ {ts : List ITy} {i : Nat}, hasPs i ts = true → hasParams ts = true
  | [], _, h => by simp [hasPs] at h
  | t :: ts, _, h => by
    simp only [hasPs, Bool.or_eq_true] at h
    rw [hasParams]
    rcases h with h | h
    · rw [hasParam_hasP h]; rfl
    · rw [hasParams_hasPs h, Bool.or_true]
end

mutual
/-- Parameters after putting `ts` in are those of `ts`. -/
theorem hasP_subst {ts : List ITy} {i : Nat} : ∀ {f g : ITy}, subst ts f = some g → hasP i g = true → hasPs i ts = true
  | .bool, _, h, h' | .u8, _, h, h' | .u16, _, h, h' | .u32, _, h, h' | .u64, _, h, h' | .u128, _, h, h'
  | .u256, _, h, h' | .address, _, h, h' | .signer, _, h, h' | .struct _ _ _, _, h, h' | .enum _ _, _, h, h' => by
    cases h
    simp [hasP] at h'
  | .vec t, _, h, h' => by
    rw [subst, Option.map_eq_some_iff] at h
    obtain ⟨a, h, rfl⟩ := h
    exact hasP_subst h h'
  | .ref t, _, h, h' => by
    rw [subst, Option.map_eq_some_iff] at h
    obtain ⟨a, h, rfl⟩ := h
    exact hasP_subst h h'
  | .mref t, _, h, h' => by
    rw [subst, Option.map_eq_some_iff] at h
    obtain ⟨a, h, rfl⟩ := h
    exact hasP_subst h h'
  | .param j, g, h, h' => by
    rw [subst] at h
    obtain ⟨hj, e⟩ := List.getElem?_eq_some_iff.1 h
    have hm : g ∈ ts := e ▸ List.getElem_mem hj
    clear h e hj
    induction ts with
    | nil => cases hm
    | cons t ts ih =>
      simp only [hasPs, Bool.or_eq_true]
      rcases List.mem_cons.1 hm with rfl | hm
      · exact .inl h'
      · exact .inr (ih hm)
  | .gstruct _ _ ts' _, _, h, h' => by
    rw [subst, Option.map_eq_some_iff] at h
    obtain ⟨a, h, rfl⟩ := h
    exact hasPs_substs h h'
  | .genum _ _ ts', _, h, h' => by
    rw [subst, Option.map_eq_some_iff] at h
    obtain ⟨a, h, rfl⟩ := h
    exact hasPs_substs h h'
theorem hasPs_substs {ts : List ITy} {i : Nat} : ∀ {fs gs : List ITy}, substs ts fs = some gs → hasPs i gs = true → hasPs i ts = true
  | [], _, h, h' => by
    cases h
    simp [hasPs] at h'
  | f :: fs, gs, h, h' => by
    rw [substs] at h
    split at h <;> try (cases h; done)
    rename_i a as e1 e2
    cases h
    simp only [hasPs, Bool.or_eq_true] at h'
    rcases h' with h' | h'
    · exact hasP_subst e1 h'
    · exact hasPs_substs e2 h'
end

theorem bareArgs_own {us : List ITy} : ∀ (n k : Nat) {vs : List ITy}, substs us ((List.range' k n).map ITy.param) = some vs →
    bareArgs ((List.range' k n).map ITy.param) vs = vs
  | 0, _, vs, h => by
    cases h
    rfl
  | n + 1, k, vs, h => by
    rw [List.range'_succ, List.map_cons, substs] at h
    split at h <;> try (cases h; done)
    rename_i a as e1 e2
    cases h
    rw [List.range'_succ, List.map_cons, bareArgs, bareArgs_own n (k + 1) e2]

theorem own_get {us : List ITy} {n : Nat} {vs : List ITy} (h : substs us ((List.range n).map ITy.param) = some vs) {i : Nat} (hi : i < n) :
    vs[i]? = us[i]? := by
  rw [← substs_get h i]
  simp [hi, subst]

theorem hasPs_own {n i : Nat} (h : hasPs i ((List.range n).map ITy.param) = true) : i < n := by
  have gen : ∀ l : List Nat, hasPs i (l.map ITy.param) = true → i ∈ l := by
    intro l
    induction l with
    | nil => simp [hasPs]
    | cons a l ih =>
      simp only [List.map_cons, hasPs, Bool.or_eq_true, hasP, beq_iff_eq, List.mem_cons]
      exact fun h => h.imp id ih
  simpa using gen _ h

mutual
theorem hasP_of_hasParam : ∀ {t : ITy}, hasParam t = true → ∃ i, hasP i t = true
  | .bool, h | .u8, h | .u16, h | .u32, h | .u64, h | .u128, h
  | .u256, h | .address, h | .signer, h | .struct _ _ _, h | .enum _ _, h => by simp [hasParam] at h
  | .vec t, h | .ref t, h | .mref t, h => hasP_of_hasParam (t := t) h
  | .param i, _ => ⟨i, by simp [hasP]⟩
  | .gstruct _ _ ts _, h | .genum _ _ ts, h => hasPs_of_hasParams (ts := ts) h
theorem hasPs_of_hasParams : ∀ {ts : List ITy}, hasParams ts = true → ∃ i, hasPs i ts = true
  | [], h => by simp [hasParams] at h
  | t :: ts, h => by
    simp only [hasParams, Bool.or_eq_true] at h
    rcases h with h | h
    · obtain ⟨i, hi⟩ := hasP_of_hasParam h
      exact ⟨i, by simp [hasPs, hi]⟩
    · obtain ⟨i, hi⟩ := hasPs_of_hasParams h
      exact ⟨i, by simp [hasPs, hi]⟩
end

/-- Types without parameters put in leave none. -/
theorem substs_closes {us ts vs : List ITy} (hu : hasParams us = false) (h : substs us ts = some vs) : hasParams vs = false := by
  by_contra hn
  rw [Bool.not_eq_false] at hn
  obtain ⟨i, hi⟩ := hasPs_of_hasParams hn
  rw [hasParams_hasPs (hasPs_substs h hi)] at hu
  cases hu

theorem substs_length {us : List ITy} : ∀ {ts vs : List ITy}, substs us ts = some vs → vs.length = ts.length
  | [], _, h => by cases h; rfl
  | t :: ts, vs, h => by
    rw [substs] at h
    split at h <;> try (cases h; done)
    rename_i a as e1 e2
    cases h
    simp [substs_length e2]

theorem substs_at {us gs hs : List ITy} (h : substs us gs = some hs) (k : Nat) (h1 : k < gs.length) (h2 : k < hs.length) :
    subst us gs[k] = some hs[k] := by
  have := substs_get h k
  rw [List.getElem?_eq_getElem h1, List.getElem?_eq_getElem h2] at this
  exact this

/-- All instructions yield the right types. -/
theorem generic_right {fs ts us inst vs right : List ITy} (hu : hasParams us = false) (hi : substs ts fs = some inst) (hv : substs us ts = some vs)
    (hr : substs vs fs = some right) (hsame : hasParams ts = true → substs vs inst = some right)
    (hbare : hasParams ts = true → bareArgs ts vs = vs) :
    packTys fs ts us = some (right, vs) ∧ unpackTys fs ts us = some (right, vs) ∧
      ∀ k (hk : k < fs.length) (hk' : k < right.length), ∀ known, borrowTy fs[k] ts vs known = some right[k] := by
  have hcl : substs vs right = some right := substs_closed (substs_closes (substs_closes hu hv) hr)
  by_cases hp : hasParams ts = true
  · have hsame := hsame hp
    refine ⟨?_, ?_, fun k hk hk' known => ?_⟩
    · simp only [packTys, hi, hp, if_true, hv, hbare hp, hsame, Option.map_some]
    · simp only [unpackTys, hi, hp, if_true, hv, hsame, Option.map_some]
    · simp only [borrowTy, hp, if_true]
      cases known with
      | true =>
        have hki : k < inst.length := by rw [substs_length hi]; exact hk
        simp only [if_true]
        rw [substs_at hi k hk hki]
        exact substs_at hsame k hki hk'
      | false =>
        simp only [Bool.false_eq_true, if_false]
        rw [substs_at hr k hk hk']
        exact substs_at hcl k hk' hk'
  · rw [Bool.not_eq_true] at hp
    have hv' := substs_closed (us := us) hp
    rw [hv] at hv'
    cases hv'
    rw [hi] at hr
    cases hr
    refine ⟨?_, ?_, fun k hk hk' known => ?_⟩
    · simp only [packTys, hi, hp, Bool.false_eq_true, if_false]
    · simp only [unpackTys, hi, hp, Bool.false_eq_true, if_false]
    · simp only [borrowTy, hp, Bool.false_eq_true, if_false, ite_self]
      rw [substs_at hi k hk hk']
      exact substs_at hcl k hk' hk'

/-- What the list put in the second time has to be. -/
theorem second_iff {us ts vs fs inst right l : List ITy} (hv : substs us ts = some vs) (hi : substs ts fs = some inst)
    (hr : substs vs fs = some right) : substs l inst = some right ↔ ∀ i, hasPs i inst = true → l[i]? = us[i]? := by
  have hc := substs_comp hv hi
  rw [hr] at hc
  constructor
  · exact fun h => substs_agree h hc
  · intro h
    rw [substs_congr h, hc]

end Link
