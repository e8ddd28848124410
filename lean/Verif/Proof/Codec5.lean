import Verif.Proof.Codec4

/-! What the encoder writes does not depend on what was stored, unless vectors were. -/

namespace Layout
open Mv Rt

variable {K : List UInt8 → Nat} {T : Ty → Nat} {S S' : Nat → Nat} {o : Nat}

/-- Two states that differ in storage only. -/
structure Twin (a b : St) : Prop where
  buf : a.buf = b.buf
  pos : a.pos = b.pos

theorem Twin.slot {a b : St} (h : Twin a b) : a.slot = b.slot := congrArg Prod.fst h.pos
theorem Twin.off {a b : St} (h : Twin a b) : a.off = b.off := congrArg Prod.snd h.pos

/-- Storage agrees where it has been written: from slot `lo` on and in the ranges. -/
structure Agree (gs : List (Nat × Nat)) (lo : Nat) (a b : St) : Prop where
  twin : Twin a b
  slots : ∀ x, lo ≤ x → x ≤ a.slot → a.view x = b.view x
  far : ∀ g ∈ gs, ∀ x, g.1 ≤ x → x ≤ g.2 → a.view x = b.view x

def EncSame (K : List UInt8 → Nat) (T : Ty → Nat) (t : Ty) : Prop :=
  ∀ (S S' : Nat → Nat) (o : Nat) (v : Val) (a b a' b' : St), Twin a b → a.off ≤ 32 → Storable t → Small t v →
    Sep a.slot (next t a.pos).1 (segs K o t v a.pos) → Old S a (segs K o t v a.pos) (next t a.pos).1 →
    Old S' b (segs K o t v a.pos) (next t a.pos).1 → Heads Blank K S o t v a.pos → Heads Blank K S' o t v a.pos →
    encF K T o t v a = some a' → encF K T o t v b = some b' → Agree (segs K o t v a.pos) a.slot a' b'

def EncsSame (K : List UInt8 → Nat) (T : Ty → Nat) (ts : List Ty) : Prop :=
  ∀ (S S' : Nat → Nat) (o : Nat) (vs : List Val) (a b a' b' : St), Twin a b → a.off ≤ 32 → StorableFs ts → SmallFs ts vs →
    Sep a.slot (nexts ts a.pos).1 (segsFs K o ts vs a.pos) → Old S a (segsFs K o ts vs a.pos) (nexts ts a.pos).1 →
    Old S' b (segsFs K o ts vs a.pos) (nexts ts a.pos).1 → HeadsFs Blank K S o ts vs a.pos → HeadsFs Blank K S' o ts vs a.pos →
    encs K T o ts vs a = some a' → encs K T o ts vs b = some b' → Agree (segsFs K o ts vs a.pos) a.slot a' b'

theorem twin_agree {a b : St} (h : Twin a b) : Agree [] a.slot a b := by
  refine ⟨h, fun x h1 h2 => ?_, fun g hg => absurd hg (by simp)⟩
  have : x = a.slot := by omega
  subst this
  rw [view_slot, h.slot, view_slot, h.buf]

/-- One more part. -/
theorem Agree.trans {gs hs : List (Nat × Nat)} {q r : Pos} {a a1 b1 a' b' : St} (h1 : Agree gs a.slot a1 b1)
    (h2 : Agree hs a1.slot a' b') (hq : a1.pos = q) (wa : Wrote hs r a1 a') (wb : Wrote hs r b1 b')
    (hl : Le a.pos q) (hr : Le q r) (hsep : Sep a.slot r.1 (gs ++ hs)) : Agree (gs ++ hs) a.slot a' b' := by
  have e1 : a1.slot = q.1 := congrArg Prod.fst hq
  have hls : a.slot ≤ q.1 := hl.slot
  have hrs := hr.slot
  refine ⟨h2.twin, fun x g1 g2 => ?_, fun g hg x g1 g2 => ?_⟩
  · by_cases hx : a1.slot ≤ x
    · exact h2.slots x hx g2
    · have ho := hsep.right.off g1 (by omega)
      rw [wa.frame x (.inl (by omega)) ho, wb.frame x (.inl (by rw [← h1.twin.slot]; omega)) ho, h1.slots x g1 (by omega)]
  · rcases List.mem_append.mp hg with hg | hg
    · rw [wa.sameOn hsep (by omega) g hg x g1 g2, wb.sameOn hsep (by rw [← h1.twin.slot]; omega) g hg x g1 g2]
      exact h1.far g hg x g1 g2
    · exact h2.far g hg x g1 g2

/-- The slot is advanced. -/
theorem acc_agree {a b a' b' : St} {n : Nat} (h : Twin a b) (ha : a.acc n = some a') (hb : b.acc n = some b') :
    Agree [] a.slot a' b' := by
  have es := h.slot; have eo := h.off
  unfold St.acc at ha hb
  rw [← es, ← eo] at hb
  split at ha
  · rename_i h1
    rw [if_pos h1] at hb
    injection ha with ha; injection hb with hb; subst ha; subst hb
    exact twin_agree (a := { a with off := a.off + n }) ⟨h.buf, rfl⟩
  · rename_i h1
    rw [if_neg h1] at hb
    split at ha
    · rename_i h2
      rw [if_pos h2] at hb
      injection ha with ha; injection hb with hb; subst ha; subst hb
      refine ⟨⟨rfl, rfl⟩, fun x h1 h2 => ?_, fun g hg => absurd hg (by simp)⟩
      simp only at h2
      by_cases hx : x = a.slot + 1
      · subst hx; rw [show (⟨a.view, 0, a.slot + 1, n⟩ : St).view (a.slot + 1) = 0 from upd_same ..,
          show (⟨b.view, 0, a.slot + 1, n⟩ : St).view (a.slot + 1) = 0 from upd_same ..]
      · rw [view_ne _ (by simpa using hx), view_ne _ (by simpa using hx)]
        have : x = a.slot := by omega
        subst this
        show a.view a.slot = b.view a.slot
        rw [view_slot, es, view_slot, h.buf]
    · exact absurd ha (by simp)

theorem put_agree {lo : Nat} {a b : St} {n x : Nat} (h : Agree [] lo a b) : Agree [] lo (a.put n x) (b.put n x) := by
  have es := h.twin.slot; have eo := h.twin.off
  refine ⟨⟨by show setDig _ _ _ _ = setDig _ _ _ _; rw [h.twin.buf, eo], h.twin.pos⟩, fun y h1 h2 => ?_, fun g hg => absurd hg (by simp)⟩
  by_cases hy : y = a.slot
  · subst hy
    rw [show (a.put n x).view a.slot = setDig a.buf (a.off - n) n x from view_slot _]
    rw [es, show (b.put n x).view b.slot = setDig b.buf (b.off - n) n x from view_slot _, h.twin.buf, eo]
  · have := h.slots y h1 h2
    rw [view_ne _ hy, view_ne _ (by omega)] at this
    rw [view_ne _ (show y ≠ (a.put n x).slot from hy), view_ne _ (show y ≠ (b.put n x).slot by show y ≠ b.slot; omega)]
    exact this

theorem sameAtom {t : Ty} (ht : atom t = true) : EncSame K T t := by
  intro S S' o v a b a' b' htw hst _ _ _ _ _ _ _ ha hb
  unfold encF at ha hb
  obtain ⟨a1, ha1, ha⟩ := Option.bind_eq_some_iff.mp ha
  obtain ⟨b1, hb1, hb⟩ := Option.bind_eq_some_iff.mp hb
  obtain ⟨n, rfl, rfl⟩ := enc_atom ht ha
  obtain ⟨m, hm, rfl⟩ := enc_atom ht hb
  injection hm with hm
  subst hm
  rw [segs_atom ht]
  exact put_agree (acc_agree htw ha1 hb1)

theorem sameFs_nil : EncsSame K T [] := by
  intro S S' o vs a b a' b' htw hst _ _ _ _ _ _ _ ha hb
  match vs with
  | [] =>
    simp [encs] at ha hb; subst ha; subst hb
    rw [segsFs]
    · exact twin_agree htw
    · simp
  | _ :: _ => simp [encs] at ha

theorem sameFs_cons (hT : ∀ t, T t < 2 ^ 64) {t : Ty} {ts : List Ty} (h1 : EncSame K T t) (h2 : EncsSame K T ts) :
    EncsSame K T (t :: ts) := by
  intro S S' o vs a b a' b' htw hst hs hv hsep oa ob da db ha hb
  match vs with
  | [] => simp [SmallFs] at hv
  | v :: vs =>
    rw [SmallFs] at hv
    rw [StorableFs] at hs
    rw [segsFs] at hsep oa ob ⊢
    rw [nexts] at hsep oa ob
    rw [HeadsFs] at da db
    rw [enc_cons] at ha hb
    obtain ⟨a1, ga, ha⟩ := Option.bind_eq_some_iff.mp ha
    obtain ⟨b1, gb, hb⟩ := Option.bind_eq_some_iff.mp hb
    have hp : a.pos.2 ≤ 32 := hst
    have l1 := next_Le t hp
    have l2 := nexts_Le ts l1.off
    have sep1 := hsep.left.mono (Nat.le_refl _) l2.slot
    have ag1 := h1 S S' o v a b a1 b1 htw hst hs.1 hv.1 sep1
      ⟨fun x u v => oa.ahead x u (by have := l2.slot; omega), fun g hgm => oa.far g (List.mem_append_left _ hgm), oa.here⟩
      ⟨fun x u v => ob.ahead x u (by have := l2.slot; omega), fun g hgm => ob.far g (List.mem_append_left _ hgm), ob.here⟩
      da.1 db.1 ga gb
    have hst' : b.off ≤ 32 := by rw [← htw.off]; exact hst
    obtain ⟨wa, _⟩ := enc_ok hT t o v a a1 hst hv.1 sep1 ga
    obtain ⟨wb, _⟩ := enc_ok hT t o v b b1 hst' hv.1 (by rw [← htw.pos, ← htw.slot]; exact sep1) gb
    rw [← htw.pos] at wb
    have ca := (enc_clean t o v a a1 hst hs.1 ga).2
    have cb := (enc_clean t o v b b1 hst' hs.1 gb).2
    have ep := wa.pos
    have hoff : a1.off ≤ 32 := by have := l1.off; rw [← ep] at this; exact this
    have hslot : a.slot ≤ a1.slot := by rw [show a1.slot = _ from congrArg Prod.fst ep]; exact l1.slot
    have oa2 := oa.step wa l1 l2.slot hsep ca
    have ob2 := ob.step wb (by rw [← htw.pos]; exact l1) l2.slot (by rw [← htw.slot]; exact hsep) cb
    rw [← ep] at oa2 ob2 da db l1 l2 hsep ⊢
    have sep2 := hsep.right.mono hslot (Nat.le_refl _)
    have ag2 := h2 S S' o vs a1 b1 a' b' ag1.twin hoff hs.2 hv.2 sep2 oa2 ob2 da.2 db.2 ha hb
    have wa2 := (encs_ok hT ts o vs a1 a' hoff hv.2 sep2 ha).1
    have wb2 := (encs_ok hT ts o vs b1 b' (by rw [← ag1.twin.off]; exact hoff) hv.2
      (by rw [← ag1.twin.pos, ← ag1.twin.slot]; exact sep2) hb).1
    rw [← ag1.twin.pos] at wb2
    exact ag1.trans ag2 rfl wa2 wb2 l1 l2 hsep

theorem sameStruct {fs : List Ty} (h : EncsSame K T fs) : EncSame K T (.struct fs) := by
  intro S S' o v a b a' b' htw hst hs hv hsep oa ob da db ha hb
  match v with
  | .struct vs =>
    rw [Small] at hv
    rw [Storable] at hs
    rw [segs] at hsep oa ob ⊢
    rw [next] at hsep oa ob
    rw [Heads] at da db
    rw [encF, show width (.struct fs) = 0 from rfl, acc_zero hst, Option.bind_some, enc] at ha
    rw [encF, show width (.struct fs) = 0 from rfl, acc_zero (by rw [← htw.off]; exact hst), Option.bind_some, enc] at hb
    obtain ⟨a1, ga, rfl⟩ := Option.map_eq_some_iff.mp ha
    obtain ⟨b1, gb, rfl⟩ := Option.map_eq_some_iff.mp hb
    have ag := h S S' o vs a b a1 b1 htw hst hs.2 hv hsep oa ob da db ga gb
    exact ⟨⟨ag.twin.buf, ag.twin.pos⟩, by rw [flush_view, flush_view]; exact ag.slots,
      by rw [flush_view, flush_view]; exact ag.far⟩
  | .num _ | .vec _ | .object _ _ | .variant _ _ => simp [Small, atom] at hv

theorem fill_agree {gs : List (Nat × Nat)} {lo : Nat} {q : Pos} {a b a' b' : St} (h : Agree gs lo a b) (hlo : lo ≤ a.slot)
    (hsep : Sep lo q.1 gs) (ha : a.fill q = some a') (hb : b.fill q = some b') : Agree gs lo a' b' := by
  have es := h.twin.slot
  unfold St.fill at ha hb
  rw [← es] at hb
  split at ha
  · rename_i h1
    rw [if_pos h1] at hb
    injection ha with ha; injection hb with hb; subst ha; subst hb
    have e : ∀ x, (⟨b.stor, b.buf, a.slot, q.2⟩ : St).view x = b.view x := by
      intro x; show upd b.stor a.slot b.buf x = upd b.stor b.slot b.buf x; rw [es]
    exact ⟨⟨h.twin.buf, rfl⟩, fun x g1 g2 => (h.slots x g1 g2).trans (e x).symm, fun g hg x g1 g2 => (h.far g hg x g1 g2).trans (e x).symm⟩
  · rename_i h1
    rw [if_neg h1] at hb
    split at ha
    · rename_i h2
      rw [if_pos h2] at hb
      injection ha with ha; injection hb with hb; subst ha; subst hb
      refine ⟨⟨rfl, rfl⟩, fun x g1 g2 => ?_, fun g hg x g1 g2 => ?_⟩
      · simp only at g2
        unfold St.view upd
        simp only
        split
        · rfl
        · split
          · rfl
          · exact h.slots x g1 (by omega)
      · have := hsep.here g hg
        unfold Apart at this
        simp only at this
        rw [view_ne _ (by simp only; omega), view_ne _ (by simp only; omega)]
        simp only
        rw [if_neg (by omega), if_neg (by omega)]
        exact h.far g hg x g1 g2
    · exact absurd ha (by simp)

theorem sameEnum (hT : ∀ t, T t < 2 ^ 64) {vss : List (List Ty)} (h : ∀ fs ∈ vss, EncsSame K T fs) :
    EncSame K T (.enum vss) := by
  intro S S' o v a b a' b' htw hst hs hv hsep oa ob da db ha hb
  match v with
  | .variant i vs =>
    rw [Small] at hv
    rw [Storable] at hs
    obtain ⟨fs, hfs⟩ := smallVar_lt hv
    have hm := List.mem_of_getElem? hfs
    rw [segs, segsVar_get hfs] at hsep oa ob ⊢
    rw [Heads, headsVar_get hfs] at da db
    have hst' : b.off ≤ 32 := by rw [← htw.off]; exact hst
    rw [encF, show width (.enum vss) = 0 from rfl, acc_zero hst, Option.bind_some, enc] at ha
    rw [encF, show width (.enum vss) = 0 from rfl, acc_zero hst', Option.bind_some, enc, ← htw.pos] at hb
    split at ha
    swap
    · exact absurd ha (by simp)
    rename_i hb'
    rw [if_pos hb'] at hb
    obtain ⟨a1, ga1, ha⟩ := Option.bind_eq_some_iff.mp ha
    obtain ⟨a2, ga2, ga3⟩ := Option.bind_eq_some_iff.mp ha
    obtain ⟨b1, gb1, hb⟩ := Option.bind_eq_some_iff.mp hb
    obtain ⟨b2, gb2, gb3⟩ := Option.bind_eq_some_iff.mp hb
    rw [encVar_eq hfs] at ga2 gb2
    have hp : a.pos.2 ≤ 32 := hst
    have ltag := tag_Le vss hp
    have lv := variant_Le hfs a.pos
    have ag1 : Agree [] a.slot (a1.put 1 i) (b1.put 1 i) := put_agree (acc_agree htw ga1 gb1)
    have w0 := acc_wrote ga1 (by omega)
    have wa : Wrote [] (place a.pos 1) a (a1.put 1 i) :=
      put_wrote a.pos _ w0.pos.symm (place_Le hp (by omega)) (place_room hp) w0 rfl
    have w0' := acc_wrote gb1 (by omega)
    have wb : Wrote [] (place b.pos 1) b (b1.put 1 i) :=
      put_wrote b.pos _ w0'.pos.symm (place_Le hst' (by omega)) (place_room hst') w0' rfl
    have l1 := @place_Le a.pos 1 hp (by omega)
    have e1 := wa.pos
    have eo : (a1.put 1 i).off = (place a.pos 1).2 := congrArg Prod.snd e1
    have es : (a1.put 1 i).slot = (place a.pos 1).1 := congrArg Prod.fst e1
    have h1 := @place_snd a.pos 1
    have l2 := nexts_Le fs l1.off
    have hslot : a.slot ≤ (a1.put 1 i).slot := by rw [es]; exact l1.slot
    have oa1 := Old.step (gs := []) (by rw [List.nil_append]; exact oa) wa l1 ltag.slot (by rw [List.nil_append]; exact hsep)
      (clean_of_off (by omega))
    have ob1 := Old.step (gs := []) (by rw [List.nil_append]; exact ob) wb (by rw [← htw.pos]; exact l1)
      (by rw [← htw.pos]; exact ltag.slot)
      (by rw [List.nil_append, ← htw.slot]; exact hsep) (clean_of_off (by rw [← ag1.twin.off]; omega))
    rw [← e1] at hsep oa1 ob1 da db l1 l2 lv ⊢
    have hoff1 : (a1.put 1 i).off ≤ 32 := by rw [eo]; exact place_le (by omega)
    have sep1 := hsep.mono (Nat.le_refl _) lv.slot
    have sep2 := sep1.mono hslot (Nat.le_refl _)
    have ag2 := h fs hm S S' o vs (a1.put 1 i) (b1.put 1 i) a2 b2 ag1.twin hoff1 (storableVs_get hs.2.2 hm) (smallVar_get hfs hv)
      sep2 ⟨fun x a b => oa1.ahead x a (by have := lv.slot; omega), oa1.far, oa1.here⟩
      ⟨fun x a b => ob1.ahead x a (by have := lv.slot; omega), ob1.far, ob1.here⟩ da db ga2 gb2
    have wa2 := (encs_ok hT fs o vs _ a2 hoff1 (smallVar_get hfs hv) sep2 ga2).1
    have wb2 := (encs_ok hT fs o vs _ b2 (by rw [← ag1.twin.off]; exact hoff1) (smallVar_get hfs hv)
      (by rw [← ag1.twin.pos, ← ag1.twin.slot]; exact sep2) gb2).1
    rw [← ag1.twin.pos] at wb2
    have ag3 := ag1.trans ag2 rfl wa2 wb2 l1 l2 (by rw [List.nil_append]; exact sep1)
    rw [List.nil_append] at ag3
    have hsl : a.slot ≤ a2.slot := by
      rw [show a2.slot = _ from congrArg Prod.fst wa2.pos]; exact (l1.trans l2).slot
    exact fill_agree ag3 hsl hsep ga3 gb3
  | .num _ | .vec _ | .object _ _ | .struct _ => simp [Small, atom] at hv

/-- Parts that are not stored in place. -/
theorem far_agree {hs : List (Nat × Nat)} {r : Pos} {lo c o n X Y : Nat} {a1 b1 a2 b2 : St} (h1 : Agree [] lo a1 b1)
    (h2 : Agree hs c a2 b2) (wa : Wrote hs r ⟨a1.stor, X, c, o⟩ a2) (wb : Wrote hs r ⟨b1.stor, Y, c, o⟩ b2)
    (hlo : lo ≤ a1.slot) (hc : c ≤ r.1) (hsep : Sep lo a1.slot ((c, r.1) :: hs)) :
    Agree ((c, r.1) :: hs) lo ⟨a2.view, n, a1.slot, 32⟩ ⟨b2.view, n, b1.slot, 32⟩ := by
  have es := h1.twin.slot
  have er : a2.slot = r.1 := congrArg Prod.fst wa.pos
  have er' : b2.slot = r.1 := congrArg Prod.fst wb.pos
  have ha := hsep.here _ List.mem_cons_self
  simp only [Apart] at ha
  have hne : ∀ x, x ≠ a1.slot → (⟨a2.view, n, a1.slot, 32⟩ : St).view x = a2.view x ∧
      (⟨b2.view, n, b1.slot, 32⟩ : St).view x = b2.view x :=
    fun x hx => ⟨view_ne _ hx, view_ne _ (by simp only; omega)⟩
  refine ⟨⟨rfl, Prod.ext es rfl⟩, fun x g1 g2 => ?_, fun g hg x g1 g2 => ?_⟩
  · simp only at g2
    by_cases hx : x = a1.slot
    · subst hx
      rw [show (⟨a2.view, n, a1.slot, 32⟩ : St).view a1.slot = n from upd_same .., es,
        show (⟨b2.view, n, b1.slot, 32⟩ : St).view b1.slot = n from upd_same ..]
    · have ho := hsep.rest.off g1 g2
      rw [(hne x hx).1, (hne x hx).2]
      rw [wa.frame x (by simp only; omega) ho, wb.frame x (by simp only; omega) ho, view_ne _ (by simp only; omega),
        view_ne _ (by simp only; omega)]
      have := h1.slots x g1 g2
      rw [view_ne _ hx, view_ne _ (by omega)] at this
      exact this
  · have hap := hsep.here g hg
    simp only [Apart] at hap
    rw [(hne x (by omega)).1, (hne x (by omega)).2]
    rcases List.mem_cons.mp hg with rfl | hg
    · exact h2.slots x g1 (by rw [er]; exact g2)
    · exact h2.far g hg x g1 g2

theorem sameEls (hT : ∀ t, T t < 2 ^ 64) {t : Ty} (h : EncSame K T t) {o : Nat} {vs : List Val} {a b a' b' : St} (htw : Twin a b)
    (hst : a.off ≤ 32) (hs : Storable t) (hv : ∀ v ∈ vs, Small t v)
    (hsep : Sep a.slot (iter (next t) vs.length a.pos).1 ((walk (next t) vs a.pos).flatMap fun e => segs K o t e.1 e.2))
    (oa : Old S a ((walk (next t) vs a.pos).flatMap fun e => segs K o t e.1 e.2) (iter (next t) vs.length a.pos).1)
    (ob : Old S' b ((walk (next t) vs a.pos).flatMap fun e => segs K o t e.1 e.2) (iter (next t) vs.length a.pos).1)
    (da : ∀ e ∈ walk (next t) vs a.pos, Heads Blank K S o t e.1 e.2)
    (db : ∀ e ∈ walk (next t) vs a.pos, Heads Blank K S' o t e.1 e.2)
    (ha : encEls (width t) (fun v s => enc K T o t v s) vs a = some a')
    (hb : encEls (width t) (fun v s => enc K T o t v s) vs b = some b') :
    Agree ((walk (next t) vs a.pos).flatMap fun e => segs K o t e.1 e.2) a.slot a' b' := by
  induction vs generalizing a b with
  | nil =>
    simp [encEls] at ha hb; subst ha; subst hb
    simp only [walk, List.flatMap_nil]
    exact twin_agree htw
  | cons v vs ih =>
    have e : ∀ st, encEls (width t) (fun v s => enc K T o t v s) (v :: vs) st =
        (encF K T o t v st).bind (encEls (width t) (fun v s => enc K T o t v s) vs) := by
      intro st; rw [encEls, encF, Option.bind_assoc]
    rw [e] at ha hb
    obtain ⟨a1, ga, ha⟩ := Option.bind_eq_some_iff.mp ha
    obtain ⟨b1, gb, hb⟩ := Option.bind_eq_some_iff.mp hb
    simp only [walk, List.flatMap_cons, List.length_cons, iter] at hsep oa ob da db ⊢
    have hp : a.pos.2 ≤ 32 := hst
    have l1 := next_Le t hp
    have l2 := iter_Le (fun p hp => next_Le t hp) vs.length l1.off
    have sep1 := hsep.left.mono (Nat.le_refl _) l2.slot
    have hv1 := hv v List.mem_cons_self
    have ag1 := h S S' o v a b a1 b1 htw hst hs hv1 sep1
      ⟨fun x u v => oa.ahead x u (by have := l2.slot; omega), fun g hgm => oa.far g (List.mem_append_left _ hgm), oa.here⟩
      ⟨fun x u v => ob.ahead x u (by have := l2.slot; omega), fun g hgm => ob.far g (List.mem_append_left _ hgm), ob.here⟩
      (da _ List.mem_cons_self) (db _ List.mem_cons_self) ga gb
    have hst' : b.off ≤ 32 := by rw [← htw.off]; exact hst
    obtain ⟨wa, _⟩ := enc_ok hT t o v a a1 hst hv1 sep1 ga
    obtain ⟨wb, _⟩ := enc_ok hT t o v b b1 hst' hv1 (by rw [← htw.pos, ← htw.slot]; exact sep1) gb
    rw [← htw.pos] at wb
    have ca := (enc_clean t o v a a1 hst hs ga).2
    have cb := (enc_clean t o v b b1 hst' hs gb).2
    have ep := wa.pos
    have hoff : a1.off ≤ 32 := by have := l1.off; rw [← ep] at this; exact this
    have hslot : a.slot ≤ a1.slot := by rw [show a1.slot = _ from congrArg Prod.fst ep]; exact l1.slot
    have oa2 := oa.step wa l1 l2.slot hsep ca
    have ob2 := ob.step wb (by rw [← htw.pos]; exact l1) l2.slot (by rw [← htw.slot]; exact hsep) cb
    rw [← ep] at oa2 ob2 da db l1 l2 hsep ⊢
    have sep2 := hsep.right.mono hslot (Nat.le_refl _)
    have hvs : ∀ v ∈ vs, Small t v := fun v hv' => hv v (List.mem_cons_of_mem _ hv')
    have ag2 := ih ag1.twin hoff hvs sep2 oa2 ob2
      (fun e he => da e (List.mem_cons_of_mem _ he)) (fun e he => db e (List.mem_cons_of_mem _ he)) ha hb
    have wa2 := (encEls_ok (enc_ok hT t) hoff hvs sep2 ha).1
    have wb2 := (encEls_ok (enc_ok hT t) (by rw [← ag1.twin.off]; exact hoff) hvs
      (by rw [← ag1.twin.pos, ← ag1.twin.slot]; exact sep2) hb).1
    rw [← ag1.twin.pos] at wb2
    exact ag1.trans ag2 rfl wa2 wb2 l1 l2 hsep

theorem acc32_same {st s1 : St} (h : st.acc 32 = some s1) (hst : st.off ≤ 32) :
    st.slot ≤ s1.slot ∧ ∀ x, x < st.slot ∨ s1.slot < x → s1.stor x = st.stor x := by
  rcases acc32 h hst with ⟨h0, rfl⟩ | ⟨h1, h2⟩
  · exact ⟨Nat.le_refl _, fun _ _ => rfl⟩
  · exact ⟨by omega, fun x hx => by rw [h1, view_ne _ (by omega)]⟩

/-- The parts elsewhere have not been written when the slot is advanced. -/
theorem Old.there {gs : List (Nat × Nat)} {c r : Nat} {st s1 : St} (hold : Old S st ((c, r) :: gs) s1.slot)
    (g1 : st.acc 32 = some s1) (hst : st.off ≤ 32) (hsep : Sep st.slot s1.slot ((c, r) :: gs)) (hc : c ≤ r) (X o : Nat) :
    Old S ⟨s1.stor, X, c, o⟩ gs r := by
  obtain ⟨_, hsame⟩ := acc32_same g1 hst
  have h1 := hold.far _ List.mem_cons_self
  have hap := hsep.here _ List.mem_cons_self
  simp only [Apart] at hap h1
  refine ⟨fun x a b => ?_, fun g hgm x a b => ?_, fun _ => ?_⟩
  · simp only at a ⊢
    rw [hsame x (by omega)]; exact h1 x (by omega) b
  · have := hsep.here g (List.mem_cons_of_mem _ hgm)
    simp only [Apart] at this ⊢
    rw [hsame x (by omega)]; exact hold.far g (List.mem_cons_of_mem _ hgm) x a b
  · simp only
    rw [hsame _ (by omega)]; exact h1 _ (Nat.le_refl _) hc

theorem blank_of {x y n : Nat} (h : x = y ∨ x = 0) (hg : Blank y n) : x % 2 ^ 256 = 0 := by
  rcases h with rfl | rfl
  · exact hg
  · simp

theorem sameVec (hT : ∀ t, T t < 2 ^ 64) {t : Ty} (h : EncSame K T t) : EncSame K T (.vec t) := by
  intro S S' o v a b a' b' htw hst hs hv hsep oa ob da db ha hb
  match v with
  | .vec vs =>
    rw [Small] at hv
    rw [Storable] at hs
    rw [Heads] at da db
    rw [encF, show width (.vec t) = 32 from rfl] at ha hb
    obtain ⟨a1, ga1, ha⟩ := Option.bind_eq_some_iff.mp ha
    obtain ⟨b1, gb1, hb⟩ := Option.bind_eq_some_iff.mp hb
    have hst' : b.off ≤ 32 := by rw [← htw.off]; exact hst
    rw [next_placed (by simp [Placed, width]), show width (.vec t) = 32 from rfl] at hsep oa ob
    have e1 : a1.slot = (place a.pos 32).1 := congrArg Prod.fst (acc_pos ga1 (by omega))
    have ag1 := acc_agree htw ga1 gb1
    have es := ag1.twin.slot
    simp only [← e1] at da db hsep oa ob
    have ha0 := blank_of (oa.head ga1 hst (Nat.le_refl _)) da.1
    have hb0 := blank_of (ob.head gb1 hst' (by rw [es])) (by rw [← es]; exact db.1)
    rw [enc] at ha hb
    split at ha
    swap
    · exact absurd ha (by simp)
    split at hb
    swap
    · exact absurd hb (by simp)
    by_cases hne : vs = []
    · subst hne
      simp only [List.isEmpty_nil, if_true, Option.some.injEq] at ha hb
      subst ha; subst hb
      rw [segs_vec_nil]
      refine ⟨⟨rfl, Prod.ext es rfl⟩, fun x g1 g2 => ?_, fun g hg => absurd hg (by simp)⟩
      simp only at g2
      by_cases hx : x = a1.slot
      · subst hx
        rw [show (⟨a1.stor, 0, a1.slot, 32⟩ : St).view a1.slot = 0 from upd_same .., es,
          show (⟨b1.stor, 0, b1.slot, 32⟩ : St).view b1.slot = 0 from upd_same ..]
      · have := ag1.slots x g1 g2
        rw [view_ne _ hx, view_ne _ (by omega)] at this
        rw [view_ne _ (by simp only; omega), view_ne _ (by simp only; omega)]
        exact this
    · have hne' : vs.isEmpty = false := by simpa using hne
      rw [hne'] at ha hb
      simp only [Bool.false_eq_true, if_false] at ha hb
      rw [ha0] at ha
      rw [hb0] at hb
      obtain ⟨a2, ga2, rfl⟩ := Option.map_eq_some_iff.mp ha
      obtain ⟨b2, gb2, rfl⟩ := Option.map_eq_some_iff.mp hb
      rw [segs_vec_ne _ hne, ← e1] at hsep oa ob ⊢
      have hc := (iter_Le (fun p hp => next_Le t hp) vs.length (p := (elems K a1.slot, 0)) (by simp)).slot
      have oa2 := oa.there ga1 hst hsep hc 0 0
      have ob2 := Old.there (s1 := b1) (by rw [← es]; exact ob) gb1 hst' (by rw [← es, ← htw.slot]; exact hsep) hc 0 0
      rw [← es] at gb2
      have ag2 := sameEls hT h (a := ⟨a1.stor, 0, elems K a1.slot, 0⟩) (b := ⟨b1.stor, 0, elems K a1.slot, 0⟩) ⟨rfl, rfl⟩ (by simp) hs hv.2
        hsep.tail oa2 ob2 da.2 db.2 ga2 gb2
      have wa2 := (encEls_ok (enc_ok hT t) (st := ⟨a1.stor, 0, elems K a1.slot, 0⟩) (by simp) hv.2 hsep.tail ga2).1
      have wb2 := (encEls_ok (enc_ok hT t) (st := ⟨b1.stor, 0, elems K a1.slot, 0⟩) (by simp) hv.2 hsep.tail gb2).1
      exact far_agree ag1 ag2 wa2 wb2 (acc32_same ga1 hst).1 hc hsep
  | .num _ | .struct _ | .object _ _ | .variant _ _ => simp [Small, atom] at hv

theorem sameObject (hT : ∀ t, T t < 2 ^ 64) {u : Ty} {fs : List Ty} (h : EncsSame K T fs) : EncSame K T (.object (u :: fs)) := by
  intro S S' o v a b a' b' htw hst hs hv hsep oa ob da db ha hb
  match v with
  | .object w (uid :: vs) =>
    rw [Small] at hv
    rw [Storable] at hs
    rw [Heads] at da db
    rw [encF, show width (.object (u :: fs)) = 32 from rfl] at ha hb
    obtain ⟨a1, ga1, ha⟩ := Option.bind_eq_some_iff.mp ha
    obtain ⟨b1, gb1, hb⟩ := Option.bind_eq_some_iff.mp hb
    have hst' : b.off ≤ 32 := by rw [← htw.off]; exact hst
    rw [next_placed (by simp [Placed, width]), show width (.object (u :: fs)) = 32 from rfl] at hsep oa ob
    have e1 : a1.slot = (place a.pos 32).1 := congrArg Prod.fst (acc_pos ga1 (by omega))
    have ag1 := acc_agree htw ga1 gb1
    have es := ag1.twin.slot
    rw [← e1] at hsep oa ob
    rw [segs] at hsep oa ob ⊢
    rw [enc] at ha hb
    obtain ⟨a2, ga2, rfl⟩ := Option.map_eq_some_iff.mp ha
    obtain ⟨b2, gb2, rfl⟩ := Option.map_eq_some_iff.mp hb
    have hc := (nexts_Le fs (p := (Slots.objectSlot K o (idOf uid), 8)) (by simp)).slot
    have oa2 := oa.there ga1 hst hsep hc (T (.object (u :: fs))) 8
    have ob2 := Old.there (s1 := b1) (by rw [← es]; exact ob) gb1 hst' (by rw [← es, ← htw.slot]; exact hsep) hc (T (.object (u :: fs))) 8
    have ag2 := h S S' (idOf uid) vs ⟨a1.stor, T (.object (u :: fs)), Slots.objectSlot K o (idOf uid), 8⟩ ⟨b1.stor, T (.object (u :: fs)), Slots.objectSlot K o (idOf uid), 8⟩ a2 b2 ⟨rfl, rfl⟩ (by simp) hs.2 hv.2 hsep.tail oa2 ob2 da db ga2 gb2
    have wa2 := (encs_ok hT fs (idOf uid) vs _ a2 (by simp) hv.2 hsep.tail ga2).1
    have wb2 := (encs_ok hT fs (idOf uid) vs _ b2 (by simp) hv.2 hsep.tail gb2).1
    exact far_agree ag1 ag2 wa2 wb2 (acc32_same ga1 hst).1 hc hsep
  | .object w [] => simp [Small, atom] at hv
  | .num _ | .struct _ | .vec _ | .variant _ _ => simp [Small, atom] at hv

mutual
theorem enc_same (hT : ∀ t, T t < 2 ^ 64) (t : Ty) : EncSame K T t := by
  match t with
  | .bool | .u8 | .u16 | .u32 | .u64 | .u128 | .u256 | .address => exact sameAtom rfl
  | .struct fs => exact sameStruct (encs_same hT fs)
  | .enum vss => exact sameEnum hT (encss_same hT vss)
  | .vec t => exact sameVec hT (enc_same hT t)
  | .object [] => intro S S' o v a b _ _ _ _ hs; rw [Storable] at hs; exact hs.elim
  | .object (u :: fs) => exact sameObject hT (encs_same hT fs)
theorem encs_same (hT : ∀ t, T t < 2 ^ 64) (ts : List Ty) : EncsSame K T ts := by
  match ts with
  | [] => exact sameFs_nil
  | t :: ts => exact sameFs_cons hT (enc_same hT t) (encs_same hT ts)
theorem encss_same (hT : ∀ t, T t < 2 ^ 64) (vss : List (List Ty)) : ∀ fs ∈ vss, EncsSame K T fs := by
  match vss with
  | [] => simp
  | fs :: vss =>
    intro gs hgs
    rcases List.mem_cons.mp hgs with e | hgs
    · rw [e]; exact encs_same hT fs
    · exact encss_same hT vss gs hgs
end

end Layout
