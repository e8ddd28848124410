import Verif.Proof.Codec2

/-! The encoder lays values out as `Holds` says: induction over types. -/

namespace Layout
open Mv Rt

variable {K : List UInt8 → Nat} {T : Ty → Nat} {o : Nat}

theorem Wrote.cons {gs hs : List (Nat × Nat)} {q : Pos} {st st' : St} (h : Wrote gs q st st') (hs' : ∀ g ∈ gs, g ∈ hs) :
    Wrote hs q st st' :=
  ⟨h.pos, h.low, fun x hx ho => h.frame x hx fun g hg => ho g (hs' g hg)⟩

theorem enc_atom {t : Ty} (ht : atom t = true) {v : Val} {st : St} {st' : St} (h : enc K T o t v st = some st') :
    ∃ n, v = .num n ∧ st' = st.put (width t) n := by
  cases t <;> simp only [atom, Bool.false_eq_true] at ht <;> cases v <;> simp [enc, atom] at h <;> exact ⟨_, rfl, h.symm⟩

theorem place_room {p : Pos} {n : Nat} (hp : p.2 ≤ 32) :
    lin p + n ≤ lin (place p n) ∧ (p.1 = (place p n).1 → p.2 + n ≤ (place p n).2) := by
  refine ⟨place_lin hp, ?_⟩
  unfold place; split <;> simp

theorem place32 {p : Pos} : (place p 32).2 = 32 := by
  have := @place_snd p 32; have := @place_le p 32 (by omega); omega

theorem encAtom_ok {t : Ty} (ht : atom t = true) {v : Val} {st st' : St} (hst : st.off ≤ 32) (hv : Small t v)
    (h : encF K T o t v st = some st') :
    Wrote (segs K o t v st.pos) (next t st.pos) st st' ∧ Holds K T st'.view o t v st.pos := by
  unfold encF at h
  obtain ⟨s1, h1, h2⟩ := Option.bind_eq_some_iff.mp h
  obtain ⟨n, rfl, rfl⟩ := enc_atom ht h2
  have hw := acc_wrote h1 (width_le t)
  rw [segs_atom ht, next_placed (atom_placed ht), holds_atom ht]
  have hp : st.pos.2 ≤ 32 := hst
  refine ⟨put_wrote st.pos _ hw.pos.symm (place_Le hp (width_le t)) (place_room hp) hw rfl, n, rfl, ?_⟩
  have e1 : s1.slot = (place st.pos (width t)).1 := congrArg Prod.fst hw.pos
  have e2 : s1.off = (place st.pos (width t)).2 := congrArg Prod.snd hw.pos
  rw [← e1, ← e2]
  have : (s1.put (width t) n).view s1.slot = setDig s1.buf (s1.off - width t) (width t) n := view_slot _
  rw [this, dig_setDig_same]
  refine Nat.mod_eq_of_lt ?_
  have : Small t (.num n) ↔ atom t = true ∧ n < 256 ^ width t := by
    cases t <;> simp only [atom, Bool.false_eq_true] at ht <;> simp [Small]
  exact (this.mp hv).2

theorem place32_eq {p : Pos} : place p 32 = ((place p 32).1, 32) :=
  Prod.ext rfl place32

/-- The statement proved for every type. -/
def EncOk (K : List UInt8 → Nat) (T : Ty → Nat) (t : Ty) : Prop :=
  ∀ (o : Nat) (v : Val) (st st' : St), st.off ≤ 32 → Small t v →
    Sep st.slot (next t st.pos).1 (segs K o t v st.pos) → encF K T o t v st = some st' →
    Wrote (segs K o t v st.pos) (next t st.pos) st st' ∧ Holds K T st'.view o t v st.pos

def EncsOk (K : List UInt8 → Nat) (T : Ty → Nat) (ts : List Ty) : Prop :=
  ∀ (o : Nat) (vs : List Val) (st st' : St), st.off ≤ 32 → SmallFs ts vs →
    Sep st.slot (nexts ts st.pos).1 (segsFs K o ts vs st.pos) → encs K T o ts vs st = some st' →
    Wrote (segsFs K o ts vs st.pos) (nexts ts st.pos) st st' ∧ HoldsFs K T st'.view o ts vs st.pos

theorem wrote_refl {st : St} : Wrote [] st.pos st st :=
  ⟨rfl, fun j _ => by rw [view_slot], fun _ _ _ => rfl⟩

theorem encs_cons {t : Ty} {ts : List Ty} (h1 : EncOk K T t) (h2 : EncsOk K T ts) : EncsOk K T (t :: ts) := by
  intro o vs st st' hst hv hsep h
  match vs with
  | [] => simp [encs] at h
  | v :: vs =>
    rw [SmallFs] at hv
    rw [segsFs] at hsep ⊢
    rw [nexts] at hsep ⊢
    have e : encs K T o (t :: ts) (v :: vs) st = (encF K T o t v st).bind (encs K T o ts vs) := by
      rw [encs, encF, Option.bind_assoc]
    rw [e] at h
    obtain ⟨s1, g1, g2⟩ := Option.bind_eq_some_iff.mp h
    have hp : st.pos.2 ≤ 32 := hst
    have l1 := next_Le t hp
    have l2 := nexts_Le ts l1.off
    obtain ⟨w1, r1⟩ := h1 o v st s1 hst hv.1 (hsep.left.mono (Nat.le_refl _) l2.slot) g1
    have ep := w1.pos
    have hoff : s1.off ≤ 32 := by have := l1.off; rw [← ep] at this; exact this
    have es : s1.slot = (next t st.pos).1 := congrArg Prod.fst ep
    have hslot : st.slot ≤ s1.slot := by rw [es]; exact l1.slot
    rw [← ep] at hsep l2 ⊢
    obtain ⟨w2, r2⟩ := h2 o vs s1 st' hoff hv.2 (hsep.right.mono hslot (Nat.le_refl _)) g2
    have l1' : Le st.pos s1.pos := by rw [ep]; exact l1
    refine ⟨Wrote.trans (by rw [ep]; exact w1) w2 l1' l2 hsep, ?_⟩
    rw [HoldsFs, ← ep]
    refine ⟨Holds.congr t hp r1 ?_ ?_, r2⟩
    · rw [← ep]; exact w2.same l2 hsep.right hslot
    · exact w2.sameOn hsep hslot

theorem encs_nil : EncsOk K T [] := by
  intro o vs st st' hst hv hsep h
  match vs with
  | [] =>
    simp [encs] at h; subst h
    rw [segsFs, nexts, HoldsFs]
    · exact ⟨wrote_refl, trivial⟩
    · simp
  | _ :: _ => simp [encs] at h

theorem acc_zero {st : St} (h : st.off ≤ 32) : st.acc 0 = some st := by
  unfold St.acc; rw [if_pos (by omega)]; rfl

theorem encStruct_ok {fs : List Ty} (h : EncsOk K T fs) : EncOk K T (.struct fs) := by
  intro o v st st' hst hv hsep he
  match v with
  | .struct vs =>
    rw [Small] at hv
    rw [segs, next] at hsep ⊢
    rw [encF, show width (.struct fs) = 0 from rfl, acc_zero hst, Option.bind_some, enc] at he
    obtain ⟨s1, g1, rfl⟩ := Option.map_eq_some_iff.mp he
    obtain ⟨w, r⟩ := h o vs st s1 hst hv hsep g1
    refine ⟨⟨w.pos, ?_, ?_⟩, ?_⟩
    · rw [flush_view]; exact w.low
    · rw [flush_view]; exact w.frame
    · rw [flush_view, Holds]; exact r
  | .num _ | .vec _ | .object _ _ | .variant _ _ => simp [Small, atom] at hv

/-- Moving on to the end of an enum keeps what has been written. -/
theorem fill_ok {gs : List (Nat × Nat)} {q r : Pos} {s0 st st' : St} (hw : Wrote gs q s0 st) (h : st.fill r = some st')
    (h0 : Le s0.pos q) (hr : Le q r) (hsep : Sep s0.slot r.1 gs) :
    Wrote gs r s0 st' ∧ Same st.view st'.view s0.pos q ∧ SameOn st.view st'.view gs ∧ ∀ x, x ≤ q.1 → st'.view x = st.view x := by
  have eq1 : st.slot = q.1 := congrArg Prod.fst hw.pos
  have key : (∀ x, x ≤ st.slot ∨ r.1 < x → st'.view x = st.view x) ∧ st'.pos = r := by
    unfold St.fill at h
    split at h
    · rename_i e
      injection h with h; subst h
      exact ⟨fun x _ => rfl, by unfold St.pos; simp only [e]⟩
    · split at h
      · rename_i e1 e2
        injection h with h; subst h
        refine ⟨fun x hx => ?_, rfl⟩
        rw [view_ne _ (by simp only; omega)]
        simp only
        rw [if_neg (by omega)]
      · exact absurd h (by simp)
  have er : st'.slot = r.1 := congrArg Prod.fst key.2
  have hs0 : s0.slot ≤ q.1 := h0.slot
  have hqr := hr.slot
  refine ⟨⟨key.2, fun j hj => ?_, fun x hx ho => ?_⟩, ⟨fun x h1 h2 => key.1 x (by omega), fun j _ => by
    rw [key.1 q.1 (by omega)]⟩, fun g hg x h1 h2 => ?_, fun x hx => key.1 x (by omega)⟩
  · rw [key.1 _ (by omega), hw.low j hj]
  · rw [key.1 x (by omega), hw.frame x (by omega) ho]
  · have := hsep.here g hg
    unfold Apart at this
    simp only at this
    exact key.1 x (by omega)

theorem encVar_get {vss : List (List Ty)} {o i : Nat} {vs : List Val} {st st' : St}
    (h : encVar K T o vss i vs st = some st') : ∃ fs, vss[i]? = some fs ∧ encs K T o fs vs st = some st' := by
  induction vss generalizing i with
  | nil => simp [encVar] at h
  | cons fs vss ih =>
    cases i with
    | zero => rw [encVar] at h; exact ⟨fs, rfl, h⟩
    | succ i => rw [encVar] at h; obtain ⟨gs, h1, h2⟩ := ih h; exact ⟨gs, by simpa using h1, h2⟩

theorem smallVar_get {vss : List (List Ty)} {i : Nat} {vs : List Val} {fs : List Ty} (hi : vss[i]? = some fs)
    (h : SmallVar vss i vs) : SmallFs fs vs := by
  induction vss generalizing i with
  | nil => simp at hi
  | cons gs vss ih =>
    cases i with
    | zero => rw [SmallVar] at h; simp at hi; subst hi; exact h
    | succ i => rw [SmallVar] at h; exact ih (by simpa using hi) h

theorem segsVar_get {vss : List (List Ty)} {o i : Nat} {vs : List Val} {fs : List Ty} {p : Pos} (hi : vss[i]? = some fs) :
    segsVar K o vss i vs p = segsFs K o fs vs p := by
  induction vss generalizing i with
  | nil => simp at hi
  | cons gs vss ih =>
    cases i with
    | zero => simp at hi; subst hi; rw [segsVar]
    | succ i => rw [segsVar]; exact ih (by simpa using hi)

theorem holdsVar_iff {S : Nat → Nat} {vss : List (List Ty)} {o i : Nat} {vs : List Val} {fs : List Ty} {p : Pos} (hi : vss[i]? = some fs) :
    HoldsVar K T S o vss i vs p ↔ HoldsFs K T S o fs vs p := by
  induction vss generalizing i with
  | nil => simp at hi
  | cons gs vss ih =>
    cases i with
    | zero => simp at hi; subst hi; rw [HoldsVar]
    | succ i => rw [HoldsVar]; exact ih (by simpa using hi)

theorem encEnum_ok {vss : List (List Ty)} (h : ∀ fs ∈ vss, EncsOk K T fs) : EncOk K T (.enum vss) := by
  intro o v st st' hst hv hsep he
  match v with
  | .variant i vs =>
    rw [Small] at hv
    rw [encF, show width (.enum vss) = 0 from rfl, acc_zero hst, Option.bind_some, enc] at he
    split at he
    swap
    · exact absurd he (by simp)
    rename_i hb
    obtain ⟨s1, g1, he⟩ := Option.bind_eq_some_iff.mp he
    obtain ⟨s2, g2, g3⟩ := Option.bind_eq_some_iff.mp he
    obtain ⟨fs, hfs, g2⟩ := encVar_get g2
    rw [segs, segsVar_get hfs] at hsep ⊢
    have hp : st.pos.2 ≤ 32 := hst
    have w0 := acc_wrote g1 (by omega)
    have w1 : Wrote [] (place st.pos 1) st (s1.put 1 i) :=
      put_wrote st.pos _ w0.pos.symm (place_Le hp (by omega)) (place_room hp) w0 rfl
    have l1 := @place_Le st.pos 1 hp (by omega)
    have lv := variant_Le hfs st.pos
    have e1 := w1.pos
    have es : (s1.put 1 i).slot = (place st.pos 1).1 := congrArg Prod.fst e1
    have eo : (s1.put 1 i).off = (place st.pos 1).2 := congrArg Prod.snd e1
    have hslot : st.slot ≤ (s1.put 1 i).slot := by rw [es]; exact l1.slot
    have l2 := nexts_Le fs l1.off
    have hsep1 : Sep st.slot (nexts fs (place st.pos 1)).1 (segsFs K o fs vs (place st.pos 1)) :=
      hsep.mono (Nat.le_refl _) lv.slot
    rw [← e1] at hsep hsep1 l1 l2 lv ⊢
    obtain ⟨w2, r2⟩ := h fs (List.mem_of_getElem? hfs) o vs _ s2 (by rw [eo]; exact place_le (by omega))
      (smallVar_get hfs hv) (hsep1.mono hslot (Nat.le_refl _)) g2
    have w12 := Wrote.trans (by rw [e1]; exact w1) w2 l1 l2 (by rw [List.nil_append]; exact hsep1)
    rw [List.nil_append] at w12
    obtain ⟨w3, f1, f2, f3⟩ := fill_ok w12 g3 (l1.trans l2) lv hsep
    refine ⟨w3, ?_⟩
    rw [Holds]
    rw [holdsVar_iff hfs, ← e1]
    refine ⟨?_, HoldsFs.congr fs (by rw [e1]; exact place_le (by omega)) r2 (f1.from l1) f2⟩
    have hsl : (s1.put 1 i).pos.1 ≤ (nexts fs (s1.put 1 i).pos).1 := l2.slot
    rw [f3 _ hsl]
    have hsame : dig (s2.view (s1.put 1 i).pos.1) ((s1.put 1 i).pos.2 - 1) 1 =
        dig ((s1.put 1 i).view (s1.put 1 i).pos.1) ((s1.put 1 i).pos.2 - 1) 1 := by
      have hs := w2.same l2 (hsep1.mono hslot (Nat.le_refl _) : Sep (s1.put 1 i).pos.1 _ _) (Nat.le_refl _)
      exact dig_congr fun j _ hj => hs.last j (by
        have : 1 ≤ (s1.put 1 i).pos.2 := by rw [e1]; exact place_snd
        omega)
    rw [hsame]
    have : (s1.put 1 i).view (s1.put 1 i).pos.1 = setDig s1.buf (s1.off - 1) 1 i := view_slot _
    rw [this]
    show dig _ (s1.off - 1) 1 = i
    rw [dig_setDig_same]; simp only [Nat.pow_one]; omega
  | .num _ | .vec _ | .object _ _ | .struct _ => simp [Small, atom] at hv

/-- The elements of a vector. -/
theorem encEls_ok {t : Ty} (h : EncOk K T t) {o : Nat} {vs : List Val} {st st' : St} (hst : st.off ≤ 32)
    (hv : ∀ v ∈ vs, Small t v)
    (hsep : Sep st.slot (iter (next t) vs.length st.pos).1 ((walk (next t) vs st.pos).flatMap fun e => segs K o t e.1 e.2))
    (he : encEls (width t) (fun v s => enc K T o t v s) vs st = some st') :
    Wrote ((walk (next t) vs st.pos).flatMap fun e => segs K o t e.1 e.2) (iter (next t) vs.length st.pos) st st' ∧
      ∀ e ∈ walk (next t) vs st.pos, Holds K T st'.view o t e.1 e.2 := by
  induction vs generalizing st with
  | nil =>
    simp [encEls] at he; subst he
    simp only [walk, List.flatMap_nil, List.length_nil, iter]
    exact ⟨wrote_refl, fun e he => absurd he (by simp)⟩
  | cons v vs ih =>
    have e : encEls (width t) (fun v s => enc K T o t v s) (v :: vs) st =
        (encF K T o t v st).bind (encEls (width t) (fun v s => enc K T o t v s) vs) := by
      rw [encEls, encF, Option.bind_assoc]
    rw [e] at he
    obtain ⟨s1, g1, g2⟩ := Option.bind_eq_some_iff.mp he
    have hp : st.pos.2 ≤ 32 := hst
    have l1 := next_Le t hp
    have l2 := iter_Le (fun p hp => next_Le t hp) vs.length l1.off
    simp only [walk, List.flatMap_cons, List.length_cons, iter] at hsep ⊢
    obtain ⟨w1, r1⟩ := h o v st s1 hst (hv v List.mem_cons_self) (hsep.left.mono (Nat.le_refl _) l2.slot) g1
    have ep := w1.pos
    have hoff : s1.off ≤ 32 := by have := l1.off; rw [← ep] at this; exact this
    have es : s1.slot = (next t st.pos).1 := congrArg Prod.fst ep
    have hslot : st.slot ≤ s1.slot := by rw [es]; exact l1.slot
    rw [← ep] at hsep l2 ⊢
    obtain ⟨w2, r2⟩ := ih hoff (fun v hv' => hv v (List.mem_cons_of_mem _ hv')) (hsep.right.mono hslot (Nat.le_refl _)) g2
    have l1' : Le st.pos s1.pos := by rw [ep]; exact l1
    refine ⟨Wrote.trans (by rw [ep]; exact w1) w2 l1' l2 hsep, fun e he => ?_⟩
    rcases List.mem_cons.mp he with rfl | he
    · refine Holds.congr t hp r1 ?_ ?_
      · rw [← ep]; exact w2.same l2 hsep.right hslot
      · exact w2.sameOn hsep hslot
    · exact r2 e he

theorem encVec_ok {t : Ty} (h : EncOk K T t) : EncOk K T (.vec t) := by
  intro o v st st' hst hv hsep he
  match v with
  | .vec vs =>
    rw [Small] at hv
    rw [encF, show width (.vec t) = 32 from rfl] at he
    obtain ⟨s1, g1, he⟩ := Option.bind_eq_some_iff.mp he
    have w1 := acc_wrote g1 (by omega)
    rw [next_placed (by simp [Placed, width]), show width (.vec t) = 32 from rfl] at hsep ⊢
    have hp : st.pos.2 ≤ 32 := hst
    have l1 := @place_Le st.pos 32 hp (by omega)
    have es : s1.slot = (place st.pos 32).1 := congrArg Prod.fst w1.pos
    have eo : s1.off = 32 := (congrArg Prod.snd w1.pos).trans place32
    have hslot : st.slot ≤ s1.slot := by rw [es]; exact l1.slot
    have hlen : (vs.length : Nat) < 256 ^ 32 := Nat.lt_of_lt_of_le hv.1 (by norm_num)
    rw [enc] at he
    split at he
    swap
    · exact absurd he (by simp)
    by_cases hne : vs = []
    · subst hne
      simp only [List.isEmpty_nil, if_true, Option.some.injEq] at he
      subst he
      rw [segs_vec_nil]
      refine ⟨⟨?_, fun j hj => ?_, fun x hx ho => ?_⟩, ?_⟩
      · show (s1.slot, 32) = _
        rw [es]; exact place32_eq.symm
      · by_cases e : st.slot = s1.slot
        · exfalso
          have hp1 : (place st.pos 32) = (s1.slot, 32) := by rw [es]; exact place32_eq
          have := (@place_room st.pos 32 hp).2 (by rw [← es]; exact e)
          rw [hp1] at this
          have : st.off + 32 ≤ 32 := this
          omega
        · rw [← w1.low j hj, view_ne s1 e]
          exact congrArg (digit · j) (view_ne _ e)
      · have hx' : x ≠ s1.slot := by
          rcases hx with hx | hx
          · omega
          · have : s1.slot < x := hx
            omega
        rw [← w1.frame x (by rcases hx with hx | hx; exact Or.inl hx; exact Or.inr hx) ho, view_ne s1 hx']
        exact view_ne _ hx'
      · rw [Holds]
        rw [← es, show (⟨s1.stor, 0, s1.slot, 32⟩ : St).view s1.slot = 0 from upd_same ..]
        exact ⟨dig_self hlen, fun e he => absurd he (by simp [walk])⟩
    · have hne' : vs.isEmpty = false := by simpa using hne
      rw [hne'] at he
      simp only [Bool.false_eq_true, if_false] at he
      obtain ⟨s2, g2, rfl⟩ := Option.map_eq_some_iff.mp he
      rw [segs_vec_ne _ hne] at hsep ⊢
      rw [← es] at hsep ⊢
      obtain ⟨w2, r2⟩ := encEls_ok h (st := ⟨s1.stor, s1.stor s1.slot % 2 ^ 256, elems K s1.slot, 0⟩) (by simp) hv.2
        hsep.tail g2
      have e2 : s2.slot = (iter (next t) vs.length (elems K s1.slot, 0)).1 := congrArg Prod.fst w2.pos
      have ha := hsep.here _ List.mem_cons_self
      unfold Apart at ha
      simp only at ha
      have hb0 := (iter_Le (fun p hp => next_Le t hp) vs.length (p := (elems K s1.slot, 0)) (by simp)).slot
      simp only at hb0
      -- slots outside the elements
      have hout : ∀ x, x < elems K s1.slot ∨ s2.slot < x → x ≠ s1.slot →
          Off ((walk (next t) vs (elems K s1.slot, 0)).flatMap fun e => segs K o t e.1 e.2) x →
          s2.view x = s1.view x := by
        intro x hx hne ho
        rw [w2.frame x hx ho, view_ne _ (by simp only; omega), view_ne _ hne]
      refine ⟨⟨?_, fun j hj => ?_, fun x hx ho => ?_⟩, ?_⟩
      · show (s1.slot, 32) = _
        rw [es]; exact place32_eq.symm
      · by_cases e : st.slot = s1.slot
        · exfalso
          have hp1 : (place st.pos 32) = (s1.slot, 32) := by rw [es]; exact place32_eq
          have := (@place_room st.pos 32 hp).2 (by rw [← es]; exact e)
          rw [hp1] at this
          have : st.off + 32 ≤ 32 := this
          omega
        · rw [← w1.low j hj]
          refine (congrArg (digit · j) (view_ne (st := ⟨s2.view, vs.length, s1.slot, 32⟩) e)).trans ?_
          show digit (s2.view st.slot) j = _
          rw [hout st.slot (by omega) e (hsep.rest.off (Nat.le_refl _) hslot)]
      · have hx' : x ≠ s1.slot := by
          rcases hx with hx | hx
          · omega
          · have : s1.slot < x := hx
            omega
        refine (view_ne (st := ⟨s2.view, vs.length, s1.slot, 32⟩) hx').trans ?_
        show s2.view x = _
        have h0 := ho _ List.mem_cons_self
        simp only at h0
        rw [hout x (by omega) hx' fun g hg => ho g (List.mem_cons_of_mem _ hg)]
        exact w1.frame x (by rcases hx with hx | hx; exact Or.inl hx; exact Or.inr hx) (fun g hg => absurd hg (by simp))
      · rw [Holds]
        rw [← es, show (⟨s2.view, vs.length, s1.slot, 32⟩ : St).view s1.slot = vs.length from upd_same ..]
        refine ⟨dig_self hlen, fun e he => ?_⟩
        have hw := walk_pos (fun p hp => next_Le t hp) (b := (elems K s1.slot, 0)) (by simp) he
        have hw1 := hw.1.slot
        have hw2 := hw.2.slot
        simp only at hw1 hw2
        have hsl : ∀ x, elems K s1.slot ≤ x → x ≤ s2.slot → (⟨s2.view, vs.length, s1.slot, 32⟩ : St).view x = s2.view x := by
          intro x h1 h2
          exact view_ne _ (by simp only; omega)
        have hnx := (next_Le t hw.1.off).slot
        refine Holds.congr t hw.1.off (r2 e he) ⟨fun x h1 h2 => hsl x (by omega) (by omega), fun j hj => by
          rw [hsl _ (by omega) (by omega)]⟩ fun g hg x h1 h2 => ?_
        refine view_ne _ ?_
        have := hsep.rest.here g (List.mem_flatMap.mpr ⟨e, he, hg⟩)
        unfold Apart at this
        simp only at this ⊢
        omega
  | .num _ | .struct _ | .object _ _ | .variant _ _ => simp [Small, atom] at hv

theorem encObject_ok {u : Ty} {fs : List Ty} (hT : T (.object (u :: fs)) < 2 ^ 64) (h : EncsOk K T fs) :
    EncOk K T (.object (u :: fs)) := by
  intro o v st st' hst hv hsep he
  match v with
  | .object w (uid :: vs) =>
    rw [Small] at hv
    rw [encF, show width (.object (u :: fs)) = 32 from rfl] at he
    obtain ⟨s1, g1, he⟩ := Option.bind_eq_some_iff.mp he
    have w1 := acc_wrote g1 (by omega)
    rw [next_placed (by simp [Placed, width]), show width (.object (u :: fs)) = 32 from rfl] at hsep ⊢
    have hp : st.pos.2 ≤ 32 := hst
    have l1 := @place_Le st.pos 32 hp (by omega)
    have es : s1.slot = (place st.pos 32).1 := congrArg Prod.fst w1.pos
    have eo : s1.off = 32 := (congrArg Prod.snd w1.pos).trans place32
    have hslot : st.slot ≤ s1.slot := by rw [es]; exact l1.slot
    rw [enc] at he
    obtain ⟨s2, g2, rfl⟩ := Option.map_eq_some_iff.mp he
    rw [segs] at hsep ⊢
    rw [← es] at hsep
    obtain ⟨w2, r2⟩ := h (idOf uid) vs ⟨s1.stor, T (.object (u :: fs)), Slots.objectSlot K o (idOf uid), 8⟩ s2 (by simp) hv.2
      hsep.tail g2
    have e2 : s2.slot = (nexts fs (Slots.objectSlot K o (idOf uid), 8)).1 := congrArg Prod.fst w2.pos
    have ha := hsep.here _ List.mem_cons_self
    unfold Apart at ha
    simp only at ha
    have hb0 := (nexts_Le fs (p := (Slots.objectSlot K o (idOf uid), 8)) (by simp)).slot
    simp only at hb0
    have hout : ∀ x, x < Slots.objectSlot K o (idOf uid) ∨ s2.slot < x → x ≠ s1.slot →
        Off (segsFs K (idOf uid) fs vs (Slots.objectSlot K o (idOf uid), 8)) x → s2.view x = s1.view x := by
      intro x hx hne ho
      rw [w2.frame x hx ho, view_ne _ (by simp only; omega), view_ne _ hne]
    refine ⟨⟨?_, fun j hj => ?_, fun x hx ho => ?_⟩, ?_⟩
    · show (s1.slot, 32) = _
      rw [es]; exact place32_eq.symm
    · by_cases e : st.slot = s1.slot
      · exfalso
        have hp1 : (place st.pos 32) = (s1.slot, 32) := by rw [es]; exact place32_eq
        have := (@place_room st.pos 32 hp).2 (by rw [← es]; exact e)
        rw [hp1] at this
        have : st.off + 32 ≤ 32 := this
        omega
      · rw [← w1.low j hj]
        refine (congrArg (digit · j) (view_ne (st := ⟨s2.view, idOf uid, s1.slot, 32⟩) e)).trans ?_
        show digit (s2.view st.slot) j = _
        rw [hout st.slot (by omega) e (hsep.rest.off (Nat.le_refl _) hslot)]
    · have hx' : x ≠ s1.slot := by
        rcases hx with hx | hx
        · omega
        · have : s1.slot < x := hx
          omega
      refine (view_ne (st := ⟨s2.view, idOf uid, s1.slot, 32⟩) hx').trans ?_
      show s2.view x = _
      have h0 := ho _ List.mem_cons_self
      simp only at h0
      rw [hout x (by omega) hx' fun g hg => ho g (List.mem_cons_of_mem _ hg)]
      exact w1.frame x (by rcases hx with hx | hx; exact Or.inl hx; exact Or.inr hx) (fun g hg => absurd hg (by simp))
    · rw [Holds]
      rw [← es, show (⟨s2.view, idOf uid, s1.slot, 32⟩ : St).view s1.slot = idOf uid from upd_same ..]
      have hsl : ∀ x, x ≠ s1.slot → (⟨s2.view, idOf uid, s1.slot, 32⟩ : St).view x = s2.view x :=
        fun x hx => view_ne _ hx
      refine ⟨dig_self (Nat.lt_of_lt_of_le hv.1 (by norm_num)), ?_, ?_⟩
      · rw [hsl _ (by omega)]
        have hl := w2.low
        simp only at hl
        have : dig (s2.view (Slots.objectSlot K o (idOf uid))) 0 8 = dig (T (.object (u :: fs))) 0 8 :=
          dig_congr fun j _ hj => hl j (by omega)
        rw [this]
        exact dig_self (Nat.lt_of_lt_of_le hT (by norm_num))
      · refine HoldsFs.congr fs (by simp) r2 ⟨fun x h1 h2 => hsl x ?_, fun j hj => ?_⟩ fun g hg x h1 h2 => ?_
        · simp only [St.pos] at h1 h2; omega
        · rw [hsl]
          have : (nexts fs (St.pos ⟨s1.stor, T (.object (u :: fs)), Slots.objectSlot K o (idOf uid), 8⟩)).1 =
            (nexts fs (Slots.objectSlot K o (idOf uid), 8)).1 := rfl
          omega
        · refine view_ne _ ?_
          have := hsep.rest.here g hg
          unfold Apart at this
          simp only at this ⊢
          omega
  | .object w [] => simp [Small, atom] at hv
  | .num _ | .struct _ | .vec _ | .variant _ _ => simp [Small, atom] at hv

mutual
theorem enc_ok (hT : ∀ t, T t < 2 ^ 64) (t : Ty) : EncOk K T t := by
  match t with
  | .bool | .u8 | .u16 | .u32 | .u64 | .u128 | .u256 | .address =>
    exact fun o v st st' hst hv _ h => encAtom_ok rfl hst hv h
  | .struct fs => exact encStruct_ok (encs_ok hT fs)
  | .enum vss => exact encEnum_ok (encss_ok hT vss)
  | .vec t => exact encVec_ok (enc_ok hT t)
  | .object [] => intro o v st st' hst hv; cases v <;> simp [Small, atom] at hv
  | .object (u :: fs) => exact encObject_ok (hT _) (encs_ok hT fs)
theorem encs_ok (hT : ∀ t, T t < 2 ^ 64) (ts : List Ty) : EncsOk K T ts := by
  match ts with
  | [] => exact encs_nil
  | t :: ts => exact encs_cons (enc_ok hT t) (encs_ok hT ts)
theorem encss_ok (hT : ∀ t, T t < 2 ^ 64) (vss : List (List Ty)) : ∀ fs ∈ vss, EncsOk K T fs := by
  match vss with
  | [] => simp
  | fs :: vss =>
    intro gs hgs
    rcases List.mem_cons.mp hgs with e | hgs
    · rw [e]; exact encs_ok hT fs
    · exact encss_ok hT vss gs hgs
end

end Layout
