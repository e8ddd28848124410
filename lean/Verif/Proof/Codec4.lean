import Verif.Proof.Codec3

/-! The encoder succeeds, unless a stored vector gets shorter. -/

namespace Layout
open Mv Rt

variable {K : List UInt8 → Nat} {T : Ty → Nat} {S : Nat → Nat} {o : Nat}

/-- An enum that ends at the beginning of a slot leaves nothing in it. -/
def Clean (st : St) : Prop := st.off = 0 → st.stor st.slot = 0 ∧ st.buf = 0

def EncClean (K : List UInt8 → Nat) (T : Ty → Nat) (t : Ty) : Prop :=
  ∀ (o : Nat) (v : Val) (st st' : St), st.off ≤ 32 → Storable t → encF K T o t v st = some st' →
    st'.pos = next t st.pos ∧ Clean st'

def EncsClean (K : List UInt8 → Nat) (T : Ty → Nat) (ts : List Ty) : Prop :=
  ∀ (o : Nat) (vs : List Val) (st st' : St), st.off ≤ 32 → StorableFs ts → encs K T o ts vs st = some st' →
    st'.pos = nexts ts st.pos ∧ (ts = [] ∧ st' = st ∨ Clean st')

theorem enc_cons {t : Ty} {ts : List Ty} {o : Nat} {v : Val} {vs : List Val} {st : St} :
    encs K T o (t :: ts) (v :: vs) st = (encF K T o t v st).bind (encs K T o ts vs) := by
  rw [encs, encF, Option.bind_assoc]

theorem clean_of_off {st : St} (h : 0 < st.off) : Clean st := fun h0 => by omega

theorem acc_pos {st s1 : St} {n : Nat} (h : st.acc n = some s1) (hn : n ≤ 32) : s1.pos = place st.pos n :=
  (acc_wrote h hn).pos

theorem cleanAtom {t : Ty} (ht : atom t = true) : EncClean K T t := by
  intro o v st st' hst _ h
  unfold encF at h
  obtain ⟨s1, h1, h2⟩ := Option.bind_eq_some_iff.mp h
  obtain ⟨n, rfl, rfl⟩ := enc_atom ht h2
  have hp := acc_pos h1 (width_le t)
  rw [next_placed (atom_placed ht)]
  refine ⟨hp, clean_of_off ?_⟩
  have h3 : s1.off = (place st.pos (width t)).2 := congrArg Prod.snd hp
  have h4 := @place_snd st.pos (width t)
  have h5 : 0 < width t := atom_placed ht
  show 0 < s1.off
  omega

theorem cleanFs_nil : EncsClean K T [] := by
  intro o vs st st' hst _ h
  match vs with
  | [] => simp [encs] at h; subst h; rw [nexts]; exact ⟨rfl, .inl ⟨rfl, rfl⟩⟩
  | _ :: _ => simp [encs] at h

theorem cleanFs_cons {t : Ty} {ts : List Ty} (h1 : EncClean K T t) (h2 : EncsClean K T ts) : EncsClean K T (t :: ts) := by
  intro o vs st st' hst hs h
  match vs with
  | [] => simp [encs] at h
  | v :: vs =>
    rw [StorableFs] at hs
    rw [enc_cons] at h
    obtain ⟨s1, g1, g2⟩ := Option.bind_eq_some_iff.mp h
    obtain ⟨p1, c1⟩ := h1 o v st s1 hst hs.1 g1
    have hp : st.pos.2 ≤ 32 := hst
    have l1 := next_Le t hp
    have hoff : s1.off ≤ 32 := by have := l1.off; rw [← p1] at this; exact this
    obtain ⟨p2, c2⟩ := h2 o vs s1 st' hoff hs.2 g2
    refine ⟨by rw [p2, p1, nexts], .inr ?_⟩
    rcases c2 with ⟨_, rfl⟩ | c2
    · exact c1
    · exact c2

theorem cleanStruct {fs : List Ty} (h : EncsClean K T fs) : EncClean K T (.struct fs) := by
  intro o v st st' hst hs he
  rw [Storable] at hs
  rw [encF, show width (.struct fs) = 0 from rfl, acc_zero hst, Option.bind_some] at he
  match v with
  | .struct vs =>
    rw [enc] at he
    obtain ⟨s1, g1, rfl⟩ := Option.map_eq_some_iff.mp he
    obtain ⟨p, c⟩ := h o vs st s1 hst hs.2 g1
    rw [next]
    refine ⟨p, ?_⟩
    rcases c with ⟨c, _⟩ | c
    · exact absurd c hs.1
    · intro h0
      have := c h0
      exact ⟨by show s1.view s1.slot = 0; rw [view_slot, this.2], this.2⟩
  | .num _ | .vec _ | .object _ _ | .variant _ _ => simp [enc, atom] at he

theorem cleanEnum {vss : List (List Ty)} (h : ∀ fs ∈ vss, EncsClean K T fs) : EncClean K T (.enum vss) := by
  intro o v st st' hst hs he
  rw [Storable] at hs
  rw [encF, show width (.enum vss) = 0 from rfl, acc_zero hst, Option.bind_some] at he
  match v with
  | .variant i vs =>
    rw [enc] at he
    split at he
    swap
    · exact absurd he (by simp)
    obtain ⟨s1, g1, he⟩ := Option.bind_eq_some_iff.mp he
    obtain ⟨s2, g2, g3⟩ := Option.bind_eq_some_iff.mp he
    obtain ⟨fs, hfs, g2⟩ := encVar_get g2
    have hp : st.pos.2 ≤ 32 := hst
    have p1 := acc_pos g1 (by omega)
    have l1 := @place_Le st.pos 1 hp (by omega)
    have e1 : (s1.put 1 i).off = (place st.pos 1).2 := congrArg Prod.snd p1
    have e2 : (s1.put 1 i).pos = place st.pos 1 := p1
    have h1 := @place_snd st.pos 1
    have hm := List.mem_of_getElem? hfs
    have hsf : ∀ (vss : List (List Ty)), StorableVs vss → fs ∈ vss → StorableFs fs := by
      intro vss
      induction vss with
      | nil => simp
      | cons gs vss ih =>
        intro h1 h2
        rw [StorableVs] at h1
        rcases List.mem_cons.mp h2 with rfl | h2
        · exact h1.1
        · exact ih h1.2 h2
    obtain ⟨p2, c2⟩ := h fs hm o vs _ s2 (by rw [e1]; exact l1.off) (hsf vss hs.2.2 hm) g2
    rw [e2] at p2
    have lv := variant_Le hfs st.pos
    unfold St.fill at g3
    split at g3
    · rename_i e
      injection g3 with g3; subst g3
      refine ⟨Prod.ext e rfl, fun h0 => ?_⟩
      simp only at h0
      have : s2.off = 0 := by
        have h3 := lv.lin
        rw [← p2] at h3
        unfold lin at h3
        have : s2.pos.1 = s2.slot := rfl
        have : s2.pos.2 = s2.off := rfl
        omega
      rcases c2 with ⟨_, rfl⟩ | c2
      · omega
      · exact c2 this
    · split at g3
      · injection g3 with g3; subst g3
        exact ⟨rfl, fun _ => ⟨if_pos ⟨by assumption, Nat.le_refl _⟩, rfl⟩⟩
      · exact absurd g3 (by simp)
  | .num _ | .vec _ | .object _ _ | .struct _ => simp [enc, atom] at he

theorem cleanVec {t : Ty} : EncClean K T (.vec t) := by
  intro o v st st' hst hs he
  rw [encF, show width (.vec t) = 32 from rfl] at he
  obtain ⟨s1, g1, he⟩ := Option.bind_eq_some_iff.mp he
  have p1 := acc_pos g1 (by omega)
  have e1 : s1.slot = (place st.pos 32).1 := congrArg Prod.fst p1
  rw [next_placed (by simp [Placed, width]), show width (.vec t) = 32 from rfl, place32_eq, ← e1]
  match v with
  | .vec vs =>
    rw [enc] at he
    split at he
    swap
    · exact absurd he (by simp)
    split at he
    · injection he with he; subst he; exact ⟨rfl, clean_of_off (by simp)⟩
    · obtain ⟨s2, _, rfl⟩ := Option.map_eq_some_iff.mp he
      exact ⟨rfl, clean_of_off (by simp)⟩
  | .num _ | .struct _ | .object _ _ | .variant _ _ => simp [enc, atom] at he

theorem cleanObject {fs : List Ty} : EncClean K T (.object fs) := by
  intro o v st st' hst hs he
  rw [encF, show width (.object fs) = 32 from rfl] at he
  obtain ⟨s1, g1, he⟩ := Option.bind_eq_some_iff.mp he
  have p1 := acc_pos g1 (by omega)
  have e1 : s1.slot = (place st.pos 32).1 := congrArg Prod.fst p1
  rw [next_placed (by simp [Placed, width]), show width (.object fs) = 32 from rfl, place32_eq, ← e1]
  match fs, v with
  | u :: fs, .object _ (uid :: vs) =>
    rw [enc] at he
    obtain ⟨s2, _, rfl⟩ := Option.map_eq_some_iff.mp he
    exact ⟨rfl, clean_of_off (by simp)⟩
  | [], v => cases v <;> simp [enc, atom] at he
  | _ :: _, .object _ [] => simp [enc] at he
  | _ :: _, .num _ | _ :: _, .struct _ | _ :: _, .vec _ | _ :: _, .variant _ _ => simp [enc, atom] at he

mutual
theorem enc_clean (t : Ty) : EncClean K T t := by
  match t with
  | .bool | .u8 | .u16 | .u32 | .u64 | .u128 | .u256 | .address => exact cleanAtom rfl
  | .struct fs => exact cleanStruct (encs_clean fs)
  | .enum vss => exact cleanEnum (encss_clean vss)
  | .vec t => exact cleanVec
  | .object _ => exact cleanObject
theorem encs_clean (ts : List Ty) : EncsClean K T ts := by
  match ts with
  | [] => exact cleanFs_nil
  | t :: ts => exact cleanFs_cons (enc_clean t) (encs_clean ts)
theorem encss_clean (vss : List (List Ty)) : ∀ fs ∈ vss, EncsClean K T fs := by
  match vss with
  | [] => simp
  | fs :: vss =>
    intro gs hgs
    rcases List.mem_cons.mp hgs with e | hgs
    · rw [e]; exact encs_clean fs
    · exact encss_clean vss gs hgs
end

/-! ### Success -/

/-- The encoder has not written yet, except zeros, where it will look. -/
structure Old (S : Nat → Nat) (st : St) (gs : List (Nat × Nat)) (b : Nat) : Prop where
  ahead : ∀ x, st.slot < x → x ≤ b → st.stor x = S x ∨ st.stor x = 0
  far : ∀ g ∈ gs, ∀ x, g.1 ≤ x → x ≤ g.2 → st.stor x = S x ∨ st.stor x = 0
  here : st.off = 0 → st.stor st.slot = S st.slot ∨ st.stor st.slot = 0

theorem Old.step {gs hs : List (Nat × Nat)} {q : Pos} {b : Nat} {st s1 : St} (h : Old S st (gs ++ hs) b)
    (hw : Wrote gs q st s1) (hq : Le st.pos q) (hb : q.1 ≤ b) (hsep : Sep st.slot b (gs ++ hs)) (hc : Clean s1) :
    Old S s1 hs b := by
  have e1 : s1.slot = q.1 := congrArg Prod.fst hw.pos
  have hqs : st.slot ≤ q.1 := hq.slot
  refine ⟨fun x h1 h2 => ?_, fun g hg x h1 h2 => ?_, fun h0 => .inr (hc h0).1⟩
  · have := hw.frame x (.inr h1) (hsep.left.off (by omega) h2)
    rw [view_ne _ (by omega), view_ne _ (by omega)] at this
    rw [this]; exact h.ahead x (by omega) h2
  · have ha := hsep.here g (List.mem_append_right _ hg)
    unfold Apart at ha
    simp only at ha
    have := hw.frame x (by omega) ?_
    · rw [view_ne _ (by omega), view_ne _ (by omega)] at this
      rw [this]; exact h.far g (List.mem_append_right _ hg) x h1 h2
    · intro g' hg' hx
      have := (List.pairwise_append.mp hsep.each).2.2 g' hg' g hg
      unfold Apart at this
      omega

def EncTot (K : List UInt8 → Nat) (T : Ty → Nat) (S : Nat → Nat) (t : Ty) : Prop :=
  ∀ (o : Nat) (v : Val) (st : St), st.off ≤ 32 → Storable t → Small t v →
    Sep st.slot (next t st.pos).1 (segs K o t v st.pos) → (next t st.pos).1 < 2 ^ 256 →
    (∀ g ∈ segs K o t v st.pos, g.2 < 2 ^ 256) → Old S st (segs K o t v st.pos) (next t st.pos).1 →
    Heads Grows K S o t v st.pos → ∃ st', encF K T o t v st = some st'

def EncsTot (K : List UInt8 → Nat) (T : Ty → Nat) (S : Nat → Nat) (ts : List Ty) : Prop :=
  ∀ (o : Nat) (vs : List Val) (st : St), st.off ≤ 32 → StorableFs ts → SmallFs ts vs →
    Sep st.slot (nexts ts st.pos).1 (segsFs K o ts vs st.pos) → (nexts ts st.pos).1 < 2 ^ 256 →
    (∀ g ∈ segsFs K o ts vs st.pos, g.2 < 2 ^ 256) → Old S st (segsFs K o ts vs st.pos) (nexts ts st.pos).1 →
    HeadsFs Grows K S o ts vs st.pos → ∃ st', encs K T o ts vs st = some st'

theorem acc_tot {st : St} {n : Nat} (h : (place st.pos n).1 < 2 ^ 256) : ∃ s1, st.acc n = some s1 := by
  unfold place St.pos at h
  unfold St.acc
  split
  · exact ⟨_, rfl⟩
  · rename_i h1
    rw [if_neg h1] at h
    rw [if_pos h]; exact ⟨_, rfl⟩

theorem totAtom {t : Ty} (ht : atom t = true) : EncTot K T S t := by
  intro o v st hst _ hv _ hn _ _ _
  rw [next_placed (atom_placed ht)] at hn
  obtain ⟨s1, h1⟩ := acc_tot hn
  unfold encF
  rw [h1, Option.bind_some]
  cases t <;> simp only [atom, Bool.false_eq_true] at ht <;> cases v <;> simp [Small] at hv <;> simp [enc, atom]

theorem totFs_nil : EncsTot K T S [] := by
  intro o vs st hst _ hv _ _ _ _ _
  match vs with
  | [] => exact ⟨st, by rw [encs]⟩
  | _ :: _ => simp [SmallFs] at hv

theorem totFs_cons {t : Ty} {ts : List Ty} (hT : ∀ t, T t < 2 ^ 64) (h1 : EncTot K T S t) (h2 : EncsTot K T S ts) :
    EncsTot K T S (t :: ts) := by
  intro o vs st hst hs hv hsep hn hg hold hgr
  match vs with
  | [] => simp [SmallFs] at hv
  | v :: vs =>
    rw [SmallFs] at hv
    rw [StorableFs] at hs
    rw [segsFs] at hsep hg hold
    rw [nexts] at hsep hn hold
    rw [HeadsFs] at hgr
    have hp : st.pos.2 ≤ 32 := hst
    have l1 := next_Le t hp
    have l2 := nexts_Le ts l1.off
    have sep1 := hsep.left.mono (Nat.le_refl _) l2.slot
    obtain ⟨s1, g1⟩ := h1 o v st hst hs.1 hv.1 sep1 (Nat.lt_of_le_of_lt l2.slot hn)
      (fun g hgm => hg g (List.mem_append_left _ hgm))
      ⟨fun x a b => hold.ahead x a (by have := l2.slot; omega), fun g hgm => hold.far g (List.mem_append_left _ hgm), hold.here⟩ hgr.1
    obtain ⟨w1, _⟩ := enc_ok hT t o v st s1 hst hv.1 sep1 g1
    obtain ⟨ep, c1⟩ := enc_clean t o v st s1 hst hs.1 g1
    have hoff : s1.off ≤ 32 := by have := l1.off; rw [← ep] at this; exact this
    have hslot : st.slot ≤ s1.slot := by rw [show s1.slot = _ from congrArg Prod.fst ep]; exact l1.slot
    have hold2 := hold.step w1 l1 l2.slot hsep c1
    rw [← ep] at hsep hn hg hold2 hgr
    obtain ⟨s2, g2⟩ := h2 o vs s1 hoff hs.2 hv.2 (hsep.right.mono hslot (Nat.le_refl _)) hn
      (fun g hgm => hg g (List.mem_append_right _ hgm)) hold2 hgr.2
    exact ⟨s2, by rw [enc_cons, g1, Option.bind_some, g2]⟩

theorem totStruct {fs : List Ty} (h : EncsTot K T S fs) : EncTot K T S (.struct fs) := by
  intro o v st hst hs hv hsep hn hg hold hgr
  match v with
  | .struct vs =>
    rw [Small] at hv
    rw [Storable] at hs
    rw [segs] at hsep hg hold
    rw [next] at hsep hn hold
    rw [Heads] at hgr
    obtain ⟨s1, g1⟩ := h o vs st hst hs.2 hv hsep hn hg hold hgr
    exact ⟨s1.flush, by rw [encF, show width (.struct fs) = 0 from rfl, acc_zero hst, Option.bind_some, enc, g1, Option.map_some]⟩
  | .num _ | .vec _ | .object _ _ | .variant _ _ => simp [Small, atom] at hv

theorem headsVar_get {P : Nat → Nat → Prop} {vss : List (List Ty)} {o i : Nat} {vs : List Val} {fs : List Ty} {p : Pos} (hi : vss[i]? = some fs) :
    HeadsVar P K S o vss i vs p = HeadsFs P K S o fs vs p := by
  induction vss generalizing i with
  | nil => simp at hi
  | cons gs vss ih =>
    cases i with
    | zero => simp at hi; subst hi; rw [HeadsVar]
    | succ i => rw [HeadsVar]; exact ih (by simpa using hi)

theorem encVar_eq {vss : List (List Ty)} {o i : Nat} {vs : List Val} {fs : List Ty} {st : St} (hi : vss[i]? = some fs) :
    encVar K T o vss i vs st = encs K T o fs vs st := by
  induction vss generalizing i with
  | nil => simp at hi
  | cons gs vss ih =>
    cases i with
    | zero => simp at hi; subst hi; rw [encVar]
    | succ i => rw [encVar]; exact ih (by simpa using hi)

theorem smallVar_lt {vss : List (List Ty)} {i : Nat} {vs : List Val} (h : SmallVar vss i vs) : ∃ fs, vss[i]? = some fs := by
  induction vss generalizing i with
  | nil => simp [SmallVar] at h
  | cons gs vss ih =>
    cases i with
    | zero => exact ⟨gs, rfl⟩
    | succ i => rw [SmallVar] at h; obtain ⟨fs, h⟩ := ih h; exact ⟨fs, by simpa using h⟩

theorem storableVs_get {vss : List (List Ty)} {fs : List Ty} (h : StorableVs vss) (hm : fs ∈ vss) : StorableFs fs := by
  induction vss with
  | nil => simp at hm
  | cons gs vss ih =>
    rw [StorableVs] at h
    rcases List.mem_cons.mp hm with rfl | hm
    · exact h.1
    · exact ih h.2 hm

theorem totEnum {vss : List (List Ty)} (hT : ∀ t, T t < 2 ^ 64) (h : ∀ fs ∈ vss, EncsTot K T S fs) :
    EncTot K T S (.enum vss) := by
  intro o v st hst hs hv hsep hn hg hold hgr
  match v with
  | .variant i vs =>
    rw [Small] at hv
    rw [Storable] at hs
    obtain ⟨fs, hfs⟩ := smallVar_lt hv
    have hm := List.mem_of_getElem? hfs
    rw [segs, segsVar_get hfs] at hsep hg hold
    rw [Heads, headsVar_get hfs] at hgr
    have hp : st.pos.2 ≤ 32 := hst
    have lt := tag_Le vss hp
    have lv := variant_Le hfs st.pos
    obtain ⟨s1, g1⟩ := acc_tot (st := st) (n := 1) (Nat.lt_of_le_of_lt lt.slot hn)
    have w0 := acc_wrote g1 (by omega)
    have w1 : Wrote [] (place st.pos 1) st (s1.put 1 i) :=
      put_wrote st.pos _ w0.pos.symm (place_Le hp (by omega)) (place_room hp) w0 rfl
    have l1 := @place_Le st.pos 1 hp (by omega)
    have e1 := w1.pos
    have eo : (s1.put 1 i).off = (place st.pos 1).2 := congrArg Prod.snd e1
    have es : (s1.put 1 i).slot = (place st.pos 1).1 := congrArg Prod.fst e1
    have h1 := @place_snd st.pos 1
    have l2 := nexts_Le fs l1.off
    have hslot : st.slot ≤ (s1.put 1 i).slot := by rw [es]; exact l1.slot
    have hold1 := Old.step (gs := []) (by rw [List.nil_append]; exact hold) w1 l1 lt.slot (by rw [List.nil_append]; exact hsep)
      (clean_of_off (by omega))
    rw [← e1] at hsep hg hold1 hgr l2 lv
    have hn2 := Nat.lt_of_le_of_lt lv.slot hn
    obtain ⟨s2, g2⟩ := h fs hm o vs (s1.put 1 i) (by rw [eo]; exact l1.off) (storableVs_get hs.2.2 hm) (smallVar_get hfs hv)
      (hsep.mono hslot lv.slot) hn2 hg
      ⟨fun x a b => hold1.ahead x a (by have := lv.slot; omega), hold1.far, hold1.here⟩ hgr
    have p2 := (encs_clean fs o vs _ s2 (by rw [eo]; exact l1.off) (storableVs_get hs.2.2 hm) g2).1
    have e2 : s2.slot = (nexts fs (s1.put 1 i).pos).1 := congrArg Prod.fst p2
    have hi : i < 256 := by
      have := (List.getElem?_eq_some_iff.mp hfs).1
      omega
    rw [encF, show width (.enum vss) = 0 from rfl, acc_zero hst, Option.bind_some, enc]
    rw [if_pos ⟨hn, hi⟩, g1, Option.bind_some, encVar_eq hfs, g2, Option.bind_some]
    unfold St.fill
    have := lv.slot
    split
    · exact ⟨_, rfl⟩
    · rw [if_pos (by omega)]; exact ⟨_, rfl⟩
  | .num _ | .vec _ | .object _ _ | .struct _ => simp [Small, atom] at hv

theorem totEls {t : Ty} (hT : ∀ t, T t < 2 ^ 64) (h : EncTot K T S t) {o : Nat} {vs : List Val} {st : St} (hst : st.off ≤ 32)
    (hs : Storable t) (hv : ∀ v ∈ vs, Small t v)
    (hsep : Sep st.slot (iter (next t) vs.length st.pos).1 ((walk (next t) vs st.pos).flatMap fun e => segs K o t e.1 e.2))
    (hn : (iter (next t) vs.length st.pos).1 < 2 ^ 256)
    (hg : ∀ g ∈ (walk (next t) vs st.pos).flatMap fun e => segs K o t e.1 e.2, g.2 < 2 ^ 256)
    (hold : Old S st ((walk (next t) vs st.pos).flatMap fun e => segs K o t e.1 e.2) (iter (next t) vs.length st.pos).1)
    (hgr : ∀ e ∈ walk (next t) vs st.pos, Heads Grows K S o t e.1 e.2) :
    ∃ st', encEls (width t) (fun v s => enc K T o t v s) vs st = some st' := by
  induction vs generalizing st with
  | nil => exact ⟨st, by rw [encEls]⟩
  | cons v vs ih =>
    simp only [walk, List.flatMap_cons, List.length_cons, iter] at hsep hn hg hold hgr
    have hp : st.pos.2 ≤ 32 := hst
    have l1 := next_Le t hp
    have l2 := iter_Le (fun p hp => next_Le t hp) vs.length l1.off
    have sep1 := hsep.left.mono (Nat.le_refl _) l2.slot
    have hv1 := hv v List.mem_cons_self
    obtain ⟨s1, g1⟩ := h o v st hst hs hv1 sep1 (Nat.lt_of_le_of_lt l2.slot hn)
      (fun g hgm => hg g (List.mem_append_left _ hgm))
      ⟨fun x a b => hold.ahead x a (by have := l2.slot; omega), fun g hgm => hold.far g (List.mem_append_left _ hgm), hold.here⟩
      (hgr _ List.mem_cons_self)
    obtain ⟨w1, _⟩ := enc_ok hT t o v st s1 hst hv1 sep1 g1
    obtain ⟨ep, c1⟩ := enc_clean t o v st s1 hst hs g1
    have hoff : s1.off ≤ 32 := by have := l1.off; rw [← ep] at this; exact this
    have hslot : st.slot ≤ s1.slot := by rw [show s1.slot = _ from congrArg Prod.fst ep]; exact l1.slot
    have hold2 := hold.step w1 l1 l2.slot hsep c1
    rw [← ep] at hsep hn hg hold2 hgr
    obtain ⟨s2, g2⟩ := ih hoff (fun v hv' => hv v (List.mem_cons_of_mem _ hv')) (hsep.right.mono hslot (Nat.le_refl _)) hn
      (fun g hgm => hg g (List.mem_append_right _ hgm)) hold2 (fun e he => hgr e (List.mem_cons_of_mem _ he))
    refine ⟨s2, ?_⟩
    have e : encEls (width t) (fun v s => enc K T o t v s) (v :: vs) st =
        (encF K T o t v st).bind (encEls (width t) (fun v s => enc K T o t v s) vs) := by
      rw [encEls, encF, Option.bind_assoc]
    rw [e, g1, Option.bind_some, g2]

theorem acc32 {st s1 : St} (h : st.acc 32 = some s1) (hst : st.off ≤ 32) :
    (st.off = 0 ∧ s1 = { st with off := 32 }) ∨ s1.stor = st.view ∧ s1.slot = st.slot + 1 := by
  unfold St.acc at h
  split at h
  · left
    have : st.off = 0 := by omega
    injection h with h
    refine ⟨this, ?_⟩
    rw [← h, this]
  · split at h
    · injection h with h; subst h; exact .inr ⟨rfl, rfl⟩
    · exact absurd h (by simp)

/-- The word in the slot of a vector. -/
theorem Old.head {gs : List (Nat × Nat)} {b : Nat} {st s1 : St} (hold : Old S st gs b) (g1 : st.acc 32 = some s1) (hst : st.off ≤ 32)
    (hb : s1.slot ≤ b) : s1.stor s1.slot = S s1.slot ∨ s1.stor s1.slot = 0 := by
  rcases acc32 g1 hst with ⟨h0, rfl⟩ | ⟨h1, h2⟩
  · exact hold.here h0
  · rw [h1, view_ne _ (by omega)]
    exact hold.ahead s1.slot (by omega) hb

theorem grows_of {x y n : Nat} (h : x = y ∨ x = 0) (hg : Grows y n) : x % 2 ^ 32 ≤ n := by
  rcases h with rfl | rfl
  · exact hg
  · simp

theorem totVec {t : Ty} (hT : ∀ t, T t < 2 ^ 64) (h : EncTot K T S t) : EncTot K T S (.vec t) := by
  intro o v st hst hs hv hsep hn hg hold hgr
  match v with
  | .vec vs =>
    rw [Small] at hv
    rw [Storable] at hs
    rw [Heads] at hgr
    rw [next_placed (by simp [Placed, width]), show width (.vec t) = 32 from rfl] at hsep hn hold
    obtain ⟨s1, g1⟩ := acc_tot hn
    have p1 := acc_pos g1 (by omega)
    have e1 : s1.slot = (place st.pos 32).1 := congrArg Prod.fst p1
    simp only [← e1] at hgr hsep hn hold
    have hstor := hold.head g1 hst (Nat.le_refl _)
    rw [encF, show width (.vec t) = 32 from rfl, g1, Option.bind_some, enc, if_pos (grows_of hstor hgr.1)]
    by_cases hne : vs = []
    · subst hne; exact ⟨_, rfl⟩
    · have hne' : vs.isEmpty = false := by simpa using hne
      rw [hne']
      simp only [Bool.false_eq_true, if_false]
      rw [segs_vec_ne _ hne, ← e1] at hsep hg hold
      have hb0 := (iter_Le (fun p hp => next_Le t hp) vs.length (p := (elems K s1.slot, 0)) (by simp)).slot
      have h1 := hold.far _ List.mem_cons_self
      have hap := hsep.here _ List.mem_cons_self
      simp only [Apart] at hap h1
      have hsame : ∀ x, x < st.slot ∨ s1.slot < x → s1.stor x = st.stor x := by
        intro x hx
        rcases acc32 g1 hst with ⟨h0, rfl⟩ | ⟨h1, h2⟩
        · rfl
        · rw [h1, view_ne _ (by omega)]
      have hslot : st.slot ≤ s1.slot := by
        rcases acc32 g1 hst with ⟨h0, rfl⟩ | ⟨h1, h2⟩
        · exact Nat.le_refl _
        · omega
      obtain ⟨s2, g2⟩ := totEls hT h (st := ⟨s1.stor, s1.stor s1.slot % 2 ^ 256, elems K s1.slot, 0⟩) (by simp) hs hv.2
        hsep.tail (hg _ List.mem_cons_self) (fun g hgm => hg g (List.mem_cons_of_mem _ hgm))
        ⟨fun x a b => by
            simp only at a b ⊢
            have b' : x ≤ (iter (next t) vs.length (elems K s1.slot, 0)).1 := b
            rw [hsame x (by omega)]; exact h1 x (by omega) b',
          fun g hgm x a b => by
            have := hsep.here g (List.mem_cons_of_mem _ hgm)
            simp only [Apart] at this ⊢
            rw [hsame x (by omega)]; exact hold.far g (List.mem_cons_of_mem _ hgm) x a b,
          fun _ => by
            simp only at hb0 ⊢
            rw [hsame _ (by omega)]; exact h1 _ (Nat.le_refl _) hb0⟩ hgr.2
      exact ⟨_, by rw [g2, Option.map_some]⟩
  | .num _ | .struct _ | .object _ _ | .variant _ _ => simp [Small, atom] at hv

theorem totObject {u : Ty} {fs : List Ty} (h : EncsTot K T S fs) : EncTot K T S (.object (u :: fs)) := by
  intro o v st hst hs hv hsep hn hg hold hgr
  match v with
  | .object w (uid :: vs) =>
    rw [Small] at hv
    rw [Storable] at hs
    rw [Heads] at hgr
    rw [next_placed (by simp [Placed, width]), show width (.object (u :: fs)) = 32 from rfl] at hsep hn hold
    obtain ⟨s1, g1⟩ := acc_tot hn
    have p1 := acc_pos g1 (by omega)
    have e1 : s1.slot = (place st.pos 32).1 := congrArg Prod.fst p1
    rw [← e1] at hsep hn hold
    rw [segs] at hsep hg hold
    rw [encF, show width (.object (u :: fs)) = 32 from rfl, g1, Option.bind_some, enc]
    have hb0 := (nexts_Le fs (p := (Slots.objectSlot K o (idOf uid), 8)) (by simp)).slot
    have h1 := hold.far _ List.mem_cons_self
    have hap := hsep.here _ List.mem_cons_self
    simp only [Apart] at hap h1
    have hsame : ∀ x, x < st.slot ∨ s1.slot < x → s1.stor x = st.stor x := by
      intro x hx
      rcases acc32 g1 hst with ⟨h0, rfl⟩ | ⟨h1, h2⟩
      · rfl
      · rw [h1, view_ne _ (by omega)]
    have hslot : st.slot ≤ s1.slot := by
      rcases acc32 g1 hst with ⟨h0, rfl⟩ | ⟨h1, h2⟩
      · exact Nat.le_refl _
      · omega
    obtain ⟨s2, g2⟩ := h (idOf uid) vs ⟨s1.stor, T (.object (u :: fs)), Slots.objectSlot K o (idOf uid), 8⟩ (by simp) hs.2 hv.2
      hsep.tail (hg _ List.mem_cons_self) (fun g hgm => hg g (List.mem_cons_of_mem _ hgm))
      ⟨fun x a b => by
          simp only at a ⊢
          have b' : x ≤ (nexts fs (Slots.objectSlot K o (idOf uid), 8)).1 := b
          rw [hsame x (by omega)]; exact h1 x (by omega) b',
        fun g hgm x a b => by
          have := hsep.here g (List.mem_cons_of_mem _ hgm)
          simp only [Apart] at this ⊢
          rw [hsame x (by omega)]; exact hold.far g (List.mem_cons_of_mem _ hgm) x a b,
        fun h0 => by simp at h0⟩ hgr
    exact ⟨_, by rw [g2, Option.map_some]⟩
  | .object w [] => simp [Small, atom] at hv
  | .num _ | .struct _ | .vec _ | .variant _ _ => simp [Small, atom] at hv

mutual
theorem enc_tot (hT : ∀ t, T t < 2 ^ 64) (t : Ty) : EncTot K T S t := by
  match t with
  | .bool | .u8 | .u16 | .u32 | .u64 | .u128 | .u256 | .address => exact totAtom rfl
  | .struct fs => exact totStruct (encs_tot hT fs)
  | .enum vss => exact totEnum hT (encss_tot hT vss)
  | .vec t => exact totVec hT (enc_tot hT t)
  | .object [] => intro o v st _ hs; rw [Storable] at hs; exact hs.elim
  | .object (u :: fs) => exact totObject (encs_tot hT fs)
theorem encs_tot (hT : ∀ t, T t < 2 ^ 64) (ts : List Ty) : EncsTot K T S ts := by
  match ts with
  | [] => exact totFs_nil
  | t :: ts => exact totFs_cons hT (enc_tot hT t) (encs_tot hT ts)
theorem encss_tot (hT : ∀ t, T t < 2 ^ 64) (vss : List (List Ty)) : ∀ fs ∈ vss, EncsTot K T S fs := by
  match vss with
  | [] => simp
  | fs :: vss =>
    intro gs hgs
    rcases List.mem_cons.mp hgs with e | hgs
    · rw [e]; exact encs_tot hT fs
    · exact encss_tot hT vss gs hgs
end

end Layout
