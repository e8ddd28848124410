import Verif.Own
import Verif.Proof.Delete
import Verif.Proof.Codec3

/-! `del` zeroes the slots a value owns, and no others. -/

namespace Layout
open Mv Rt

variable {K : List UInt8 → Nat} {T : Ty → Nat} {S S' : Nat → Nat}

mutual
/-- The headers of the vectors in a value contain their lengths. -/
def Lens (K : List UInt8 → Nat) (S : Nat → Nat) : Ty → Val → Pos → Prop
  | .struct fs, .struct vs, p => LensFs K S fs vs p
  | .vec t, .vec vs, p =>
      S (place p 32).1 % 2 ^ 32 = vs.length ∧ ∀ e ∈ walk (next t) vs (elems K (place p 32).1, 0), Lens K S t e.1 e.2
  | .struct _, _, _ => False
  | .vec _, _, _ => False
  | _, _, _ => True
def LensFs (K : List UInt8 → Nat) (S : Nat → Nat) : List Ty → List Val → Pos → Prop
  | [], [], _ => True
  | t :: ts, v :: vs, p => Lens K S t v p ∧ LensFs K S ts vs (next t p)
  | _, _, _ => False
end

/-- The storages agree on the slots that begin at position `p` or later, up to slot `b`. -/
def Beyond (S S' : Nat → Nat) (p : Pos) (b : Nat) : Prop := ∀ x, p.1 ≤ x → x ≤ b → (x = p.1 → p.2 = 0) → S' x = S x

theorem Beyond.from {p q : Pos} {b : Nat} (h : Beyond S S' p b) (hpq : Le p q) : Beyond S S' q b := by
  intro x h1 h2 h3
  have e1 := hpq.slot
  refine h x (by omega) h2 fun e => ?_
  have e2 := h3 (by omega)
  have e3 := hpq.lin
  unfold lin at e3
  omega

theorem Beyond.upto {p : Pos} {b c : Nat} (h : Beyond S S' p b) (hc : c ≤ b) : Beyond S S' p c :=
  fun x h1 h2 h3 => h x h1 (by omega) h3

theorem own_vec_ne {t : Ty} {vs : List Val} (p : Pos) (h : vs ≠ []) :
    own K (.vec t) (.vec vs) p =
      (elems K (place p 32).1, (iter (next t) vs.length (elems K (place p 32).1, 0)).1) ::
        (walk (next t) vs (elems K (place p 32).1, 0)).flatMap fun e => own K t e.1 e.2 := by
  rw [own]
  simp only [List.isEmpty_iff, h, if_false]

theorem place32_fresh {p : Pos} (hp : p.2 ≤ 32) : p.1 ≤ (place p 32).1 ∧ ((place p 32).1 = p.1 → p.2 = 0) := by
  unfold place; split <;> simp <;> omega

mutual
theorem Lens.congr (t : Ty) {v : Val} {p : Pos} (hp : p.2 ≤ 32) (h : Lens K S t v p) (hs : Beyond S S' p (next t p).1)
    (hg : SameOn S S' (own K t v p)) : Lens K S' t v p := by
  match t, v with
  | .struct fs, .struct vs =>
    rw [Lens] at h ⊢
    rw [own] at hg
    rw [next] at hs
    exact LensFs.congr fs hp h hs hg
  | .vec t, .vec vs =>
    rw [Lens] at h ⊢
    have e : next (.vec t) p = place p 32 := next_placed (t := .vec t) (by simp [Placed, width]) p
    rw [e] at hs
    refine ⟨by rw [hs _ (place32_fresh hp).1 (Nat.le_refl _) (place32_fresh hp).2]; exact h.1, fun e he => ?_⟩
    have hne : vs ≠ [] := by rintro rfl; simp [walk] at he
    rw [own_vec_ne _ hne] at hg
    have hw := walk_pos (fun p hp => next_Le t hp) (b := (elems K (place p 32).1, 0)) (by simp) he
    refine Lens.congr t hw.1.off (h.2 e he) (fun x h1 h2 _ => hg _ List.mem_cons_self x ?_ ?_) fun g hg' =>
      hg g (List.mem_cons_of_mem _ (List.mem_flatMap.mpr ⟨e, he, hg'⟩))
    · exact Nat.le_trans hw.1.slot h1
    · exact Nat.le_trans h2 hw.2.slot
  | .struct _, .num _ | .struct _, .vec _ | .struct _, .object _ _ | .struct _, .variant _ _ => simp [Lens] at h
  | .vec _, .num _ | .vec _, .struct _ | .vec _, .object _ _ | .vec _, .variant _ _ => simp [Lens] at h
  | .bool, _ | .u8, _ | .u16, _ | .u32, _ | .u64, _ | .u128, _ | .u256, _ | .address, _ | .object _, _ | .enum _, _ => simp [Lens]
theorem LensFs.congr (ts : List Ty) {vs : List Val} {p : Pos} (hp : p.2 ≤ 32) (h : LensFs K S ts vs p)
    (hs : Beyond S S' p (nexts ts p).1) (hg : SameOn S S' (ownFs K ts vs p)) : LensFs K S' ts vs p := by
  match ts, vs with
  | [], [] => rw [LensFs]; trivial
  | t :: ts, v :: vs =>
    rw [LensFs] at h ⊢
    rw [nexts] at hs
    rw [ownFs] at hg
    have l1 := next_Le t hp
    have l2 := nexts_Le ts l1.off
    exact ⟨Lens.congr t hp h.1 (hs.upto l2.slot) hg.left, LensFs.congr ts l1.off h.2 (hs.from l1) hg.right⟩
  | [], _ :: _ | _ :: _, [] => simp [LensFs] at h
end

mutual
theorem Lens.of_holds (t : Ty) {o : Nat} {v : Val} {p : Pos} (h : Holds K T S o t v p) (hv : Small t v) : Lens K S t v p := by
  match t, v with
  | .struct fs, .struct vs => rw [Holds] at h; rw [Small] at hv; rw [Lens]; exact LensFs.of_holds fs h hv
  | .vec t, .vec vs =>
    rw [Holds] at h
    rw [Small] at hv
    rw [Lens]
    refine ⟨?_, fun e he => ?_⟩
    · have h1 := h.1
      have h2 := hv.1
      unfold dig at h1
      rw [Nat.pow_zero, Nat.div_one] at h1
      rw [← Nat.mod_mod_of_dvd (S (place p 32).1) (show 2 ^ 32 ∣ 256 ^ 32 by exact ⟨2 ^ 224, by norm_num⟩), h1]
      exact Nat.mod_eq_of_lt h2
    · exact Lens.of_holds t (h.2 e he) (hv.2 _ (by
        clear h hv
        revert he
        generalize (elems K (place p 32).1, 0) = b
        intro he
        induction vs generalizing b with
        | nil => simp [walk] at he
        | cons v vs ih =>
          rw [walk] at he
          rcases List.mem_cons.mp he with rfl | he
          · exact List.mem_cons_self
          · exact List.mem_cons_of_mem _ (ih _ he)))
  | .struct _, .num _ | .struct _, .vec _ | .struct _, .object _ _ | .struct _, .variant _ _ => simp [Holds] at h
  | .vec _, .num _ | .vec _, .struct _ | .vec _, .object _ _ | .vec _, .variant _ _ => simp [Holds] at h
  | .bool, _ | .u8, _ | .u16, _ | .u32, _ | .u64, _ | .u128, _ | .u256, _ | .address, _ | .object _, _ | .enum _, _ => simp [Lens]
theorem LensFs.of_holds (ts : List Ty) {o : Nat} {vs : List Val} {p : Pos} (h : HoldsFs K T S o ts vs p) (hv : SmallFs ts vs) :
    LensFs K S ts vs p := by
  match ts, vs with
  | [], [] => rw [LensFs]; trivial
  | t :: ts, v :: vs =>
    rw [HoldsFs] at h
    rw [SmallFs] at hv
    rw [LensFs]
    exact ⟨Lens.of_holds t h.1 hv.1, LensFs.of_holds ts h.2 hv.2⟩
  | [], _ :: _ | _ :: _, [] => simp [HoldsFs] at h
end

mutual
theorem flat_own (t : Ty) (h : flat t = true) (v : Val) (p : Pos) : own K t v p = [] := by
  match t, v with
  | .struct fs, .struct vs => rw [flat] at h; rw [own]; exact flatFs_own fs h vs p
  | .enum vss, .variant i vs => rw [flat] at h; rw [own]; exact flatVs_own vss h i vs _
  | .vec _, _ => simp [flat] at h
  | .struct _, .num _ | .struct _, .vec _ | .struct _, .object _ _ | .struct _, .variant _ _ => simp [own]
  | .enum _, .num _ | .enum _, .vec _ | .enum _, .object _ _ | .enum _, .struct _ => simp [own]
  | .bool, _ | .u8, _ | .u16, _ | .u32, _ | .u64, _ | .u128, _ | .u256, _ | .address, _ | .object _, _ => simp [own]
theorem flatFs_own (ts : List Ty) (h : flatFs ts = true) (vs : List Val) (p : Pos) : ownFs K ts vs p = [] := by
  match ts, vs with
  | [], _ => simp [ownFs]
  | _ :: _, [] => simp [ownFs]
  | t :: ts, v :: vs =>
    rw [flatFs, Bool.and_eq_true] at h
    rw [ownFs, flat_own t h.1, flatFs_own ts h.2]; rfl
theorem flatVs_own (vss : List (List Ty)) (h : flatVs vss = true) (i : Nat) (vs : List Val) (p : Pos) : ownVar K vss i vs p = [] := by
  match vss, i with
  | [], _ => simp [ownVar]
  | fs :: _, 0 => rw [flatVs, Bool.and_eq_true] at h; rw [ownVar, flatFs_own fs h.1]
  | _ :: vss, i + 1 => rw [flatVs, Bool.and_eq_true] at h; rw [ownVar]; exact flatVs_own vss h.2 i vs p
end

theorem place_pos {p : Pos} {n : Nat} (hn : 0 < n) : 0 < (place p n).2 := by unfold place; split <;> simp <;> omega

mutual
/-- Behind a value that is not an enum there is no slot boundary. -/
theorem solid_next (t : Ty) (h : tidy t = true) (he : ∀ vss, t ≠ .enum vss) (p : Pos) : 0 < (next t p).2 := by
  match t with
  | .struct fs => rw [tidy, Bool.and_eq_true] at h; rw [next]; exact solid_nexts fs h.1 h.2 p
  | .enum vss => exact absurd rfl (he vss)
  | .bool | .u8 | .u16 | .u32 | .u64 | .u128 | .u256 | .address | .vec _ | .object _ =>
    rw [next_placed (by simp [Placed, width])]; exact place_pos (by simp [width])
theorem solid_nexts (ts : List Ty) (h : solid ts = true) (ht : tidyFs ts = true) (p : Pos) : 0 < (nexts ts p).2 := by
  match ts with
  | [] => simp [solid] at h
  | [t] =>
    rw [tidyFs, Bool.and_eq_true] at ht
    rw [nexts, nexts]
    refine solid_next t ht.1 (fun vss e => ?_) p
    rw [e] at h; simp [solid] at h
  | t :: u :: ts =>
    rw [tidyFs, Bool.and_eq_true] at ht
    have h' : solid (u :: ts) = true := by cases t <;> exact h
    rw [nexts]
    exact solid_nexts (u :: ts) h' ht.2 _
end

namespace DSt
def pos (st : DSt) : Pos := (st.slot, st.off)
end DSt

/-- From `st` to `st'`: the slots before the one of `q` and those in `gs` are zero, others are kept. -/
structure Wiped (gs : List (Nat × Nat)) (q : Pos) (n : Nat) (st st' : DSt) : Prop where
  pos : st'.pos = q
  zero : ∀ x, st.slot ≤ x → x < q.1 → st'.stor x = 0
  segs : ∀ g ∈ gs, ∀ x, g.1 ≤ x → x ≤ g.2 → st'.stor x = 0
  frame : ∀ x, x < st.slot ∨ q.1 < x → Off gs x → st'.stor x = st.stor x
  here : q.2 = 0 → st'.stor q.1 = st.stor q.1
  used : st'.used = st.used + n

theorem Wiped.refl {st : DSt} : Wiped [] st.pos 0 st st :=
  ⟨rfl, fun x h1 h2 => by unfold DSt.pos at h2; simp only at h2; omega, by simp, fun _ _ _ => rfl, fun _ => rfl, rfl⟩

theorem Wiped.trans {gs hs : List (Nat × Nat)} {q r : Pos} {m n : Nat} {st s1 st' : DSt} (h1 : Wiped gs q m st s1) (h2 : Wiped hs r n s1 st')
    (hq : Le st.pos q) (hr : Le q r) (hsep : Sep st.slot r.1 (gs ++ hs)) : Wiped (gs ++ hs) r (m + n) st st' := by
  have e1 : s1.slot = q.1 := congrArg Prod.fst h1.pos
  have hqs : st.slot ≤ q.1 := hq.slot
  have hrs := hr.slot
  refine ⟨h2.pos, fun x g1 g2 => ?_, fun g hg x g1 g2 => ?_, fun x hx ho => ?_, fun h0 => ?_, by rw [h2.used, h1.used]; omega⟩
  · by_cases hc : x < q.1
    · rw [h2.frame x (by omega) (hsep.right.off g1 (by omega)), h1.zero x g1 hc]
    · exact h2.zero x (by omega) g2
  · rcases List.mem_append.mp hg with hg | hg
    · have ha := hsep.here g (List.mem_append_left _ hg)
      unfold Apart at ha
      simp only at ha
      rw [h2.frame x (by omega) (hsep.cross hg g1 g2), h1.segs g hg x g1 g2]
    · exact h2.segs g hg x g1 g2
  · rw [h2.frame x (by omega) ho.right, h1.frame x (by omega) ho.left]
  · rw [h2.here h0]
    by_cases hc : q.1 = r.1
    · have := hr.lin
      unfold lin at this
      rw [← hc]
      exact h1.here (by omega)
    · exact h1.frame _ (by omega) (hsep.left.off (by omega) (Nat.le_refl _))

/-- Vector headers further on are kept. -/
theorem Wiped.lens {gs : List (Nat × Nat)} {q : Pos} {b n : Nat} {st s1 : DSt} (h : Wiped gs q n st s1) (hq : Le st.pos q)
    (hb : q.1 ≤ b) (hsep : Sep st.slot b gs) : Beyond st.stor s1.stor q b := by
  intro x h1 h2 h3
  have hqs : st.slot ≤ q.1 := hq.slot
  by_cases hc : x = q.1
  · rw [hc]; exact h.here (h3 hc)
  · exact h.frame x (by omega) (hsep.off (by omega) h2)

theorem Wiped.sameOn {gs hs : List (Nat × Nat)} {q : Pos} {b n : Nat} {st s1 : DSt} (h : Wiped gs q n st s1) (hq : Le st.pos q) (hb : q.1 ≤ b)
    (hsep : Sep st.slot b (gs ++ hs)) : SameOn st.stor s1.stor hs := by
  intro g hg x h1 h2
  have hqs : st.slot ≤ q.1 := hq.slot
  have ha := hsep.here g (List.mem_append_right _ hg)
  unfold Apart at ha
  simp only at ha
  refine h.frame x (by omega) fun g' hg' hx => ?_
  have := (List.pairwise_append.mp hsep.each).2.2 g' hg' g hg
  unfold Apart at this
  omega

theorem accD_ok {st : DSt} {n : Nat} (hst : st.off ≤ 32) (hlt : (place st.pos n).1 < 2 ^ 256) :
    ∃ s1, st.acc n = some s1 ∧ Wiped [] (place st.pos n) 0 st s1 ∧ s1.stor s1.slot = st.stor s1.slot := by
  unfold place DSt.pos at *
  unfold DSt.acc
  simp only at hlt ⊢
  by_cases hc : st.off + n ≤ 32
  · rw [if_pos hc, if_pos hc]
    exact ⟨_, rfl, ⟨rfl, fun x h1 h2 => by simp only at h2; omega, by simp, fun _ _ _ => rfl, fun _ => rfl, rfl⟩, rfl⟩
  · rw [if_neg hc] at hlt ⊢
    rw [if_neg hc, if_pos hlt]
    refine ⟨_, rfl, ⟨rfl, fun x h1 h2 => ?_, by simp, fun x hx _ => upd_ne _ _ ?_, fun _ => upd_ne _ _ ?_, rfl⟩, upd_ne _ _ ?_⟩
    · simp only at h2
      obtain rfl : x = st.slot := by omega
      exact upd_same ..
    all_goals simp only at *; omega

/-- A field: the slot is advanced first. -/
def delF (K : List UInt8 → Nat) (t : Ty) (st : DSt) : Option DSt := (st.acc (width t)).bind (del K t)

/-- The statement proved for every type. -/
def DelOk (K : List UInt8 → Nat) (t : Ty) : Prop :=
  ∀ (v : Val) (st : DSt), st.off ≤ 32 → tidy t = true → Lens K st.stor t v st.pos →
    Sep st.slot (next t st.pos).1 (own K t v st.pos) → (next t st.pos).1 < 2 ^ 256 →
    (∀ g ∈ own K t v st.pos, g.2 < 2 ^ 256) →
    ∃ st', delF K t st = some st' ∧ Wiped (own K t v st.pos) (next t st.pos) (xcost t v) st st'

def DelsOk (K : List UInt8 → Nat) (ts : List Ty) : Prop :=
  ∀ (vs : List Val) (st : DSt), st.off ≤ 32 → tidyFs ts = true → LensFs K st.stor ts vs st.pos →
    Sep st.slot (nexts ts st.pos).1 (ownFs K ts vs st.pos) → (nexts ts st.pos).1 < 2 ^ 256 →
    (∀ g ∈ ownFs K ts vs st.pos, g.2 < 2 ^ 256) →
    ∃ st', dels K ts st = some st' ∧ Wiped (ownFs K ts vs st.pos) (nexts ts st.pos) (xcostFs ts vs) st st'

theorem dels_nil : DelsOk K [] := by
  intro vs st hst ht hl hsep hlt hg
  refine ⟨st, by rw [dels], ?_⟩
  have e : ownFs K [] vs st.pos = [] := by simp [ownFs]
  have e' : xcostFs [] vs = 0 := by simp [xcostFs]
  rw [e, e', nexts]
  exact Wiped.refl

theorem dels_cons {t : Ty} {ts : List Ty} (h1 : DelOk K t) (h2 : DelsOk K ts) : DelsOk K (t :: ts) := by
  intro vs st hst ht hl hsep hlt hg
  match vs with
  | [] => simp [LensFs] at hl
  | v :: vs =>
    rw [LensFs] at hl
    rw [tidyFs, Bool.and_eq_true] at ht
    rw [ownFs] at hsep hg ⊢
    rw [nexts] at hsep hlt ⊢
    have e : dels K (t :: ts) st = (delF K t st).bind (dels K ts) := by
      rw [dels, delF, Option.bind_assoc]
    have hp : st.pos.2 ≤ 32 := hst
    have l1 := next_Le t hp
    have l2 := nexts_Le ts l1.off
    obtain ⟨s1, g1, w1⟩ := h1 v st hst ht.1 hl.1 (hsep.left.mono (Nat.le_refl _) l2.slot)
      (Nat.lt_of_le_of_lt l2.slot hlt) fun g hg' => hg g (List.mem_append_left _ hg')
    have ep := w1.pos
    have hoff : s1.off ≤ 32 := by have := l1.off; rw [← ep] at this; exact this
    have es : s1.slot = (next t st.pos).1 := congrArg Prod.fst ep
    have hslot : st.slot ≤ s1.slot := by rw [es]; exact l1.slot
    have hl2 := LensFs.congr ts l1.off hl.2 (w1.lens l1 l2.slot hsep.left) (w1.sameOn l1 l2.slot hsep)
    rw [← ep] at hsep l2 hl2 hg hlt ⊢
    obtain ⟨s2, g2, w2⟩ := h2 vs s1 hoff ht.2 hl2 (hsep.right.mono hslot (Nat.le_refl _)) hlt
      fun g hg' => hg g (List.mem_append_right _ hg')
    have l1' : Le st.pos s1.pos := by rw [ep]; exact l1
    refine ⟨s2, by rw [e, g1]; exact g2, ?_⟩
    rw [xcostFs]
    exact Wiped.trans (by rw [ep]; exact w1) w2 l1' l2 hsep

theorem accD_zero {st : DSt} (h : st.off ≤ 32) : st.acc 0 = some st := by
  unfold DSt.acc; rw [if_pos (by omega)]; rfl

theorem delStruct_ok {fs : List Ty} (h : DelsOk K fs) : DelOk K (.struct fs) := by
  intro v st hst ht hl hsep hlt hg
  match v with
  | .struct vs =>
    rw [Lens] at hl
    rw [tidy, Bool.and_eq_true] at ht
    have hq := solid_nexts fs ht.1 ht.2 st.pos
    rw [own] at hsep hg ⊢
    rw [next] at hsep hlt ⊢
    obtain ⟨s1, g1, w⟩ := h vs st hst ht.2 hl hsep hlt hg
    have es : s1.slot = (nexts fs st.pos).1 := congrArg Prod.fst w.pos
    rw [delF, show width (.struct fs) = 0 from rfl, accD_zero hst, Option.bind_some, del, g1]
    refine ⟨s1.wipe, rfl, ⟨w.pos, fun x h1 h2 => ?_, fun g hg' x h1 h2 => ?_, fun x hx ho => ?_, fun h0 => by omega, ?_⟩⟩
    · show upd s1.stor s1.slot 0 x = 0
      rw [upd_ne _ _ (by omega)]; exact w.zero x h1 h2
    · show upd s1.stor s1.slot 0 x = 0
      unfold upd
      split
      · rfl
      · exact w.segs g hg' x h1 h2
    · show upd s1.stor s1.slot 0 x = _
      have hs : st.slot ≤ (nexts fs st.pos).1 := (nexts_Le fs (p := st.pos) hst).slot
      rw [upd_ne _ _ (by omega)]; exact w.frame x hx ho
    · rw [xcost]; exact w.used
  | .num _ | .vec _ | .object _ _ | .variant _ _ => simp [Lens] at hl

theorem delEnum_ok {vss : List (List Ty)} : DelOk K (.enum vss) := by
  intro v st hst ht hl hsep hlt hg
  have e : own K (.enum vss) v st.pos = [] := flat_own (.enum vss) (by rw [flat]; rw [tidy] at ht; exact ht) v _
  have hs := (next_Le (.enum vss) (p := st.pos) hst).slot
  have hs' : st.slot ≤ (next (.enum vss) st.pos).1 := hs
  have e2 : xcost (.enum vss) v = 68 := by simp [xcost]
  rw [e, e2, delF, show width (.enum vss) = 0 from rfl, accD_zero hst, Option.bind_some, del]
  have hlt' : (next (.enum vss) (st.slot, st.off)).1 < 2 ^ 256 := hlt
  rw [if_pos hlt']
  refine ⟨_, rfl, ⟨rfl, fun x h1 h2 => if_pos ⟨h1, h2⟩, by simp, fun x hx _ => if_neg ?_, fun _ => if_neg ?_, rfl⟩⟩
  · intro h; have := h.2; have h2 : x < (next (.enum vss) st.pos).1 := this; omega
  · intro h; exact Nat.lt_irrefl _ h.2

theorem delEls_ok {t : Ty} (h : DelOk K t) (ht : tidy t = true) {vs : List Val} {st : DSt} (hst : st.off ≤ 32)
    (hl : ∀ e ∈ walk (next t) vs st.pos, Lens K st.stor t e.1 e.2)
    (hsep : Sep st.slot (iter (next t) vs.length st.pos).1 ((walk (next t) vs st.pos).flatMap fun e => own K t e.1 e.2))
    (hlt : (iter (next t) vs.length st.pos).1 < 2 ^ 256)
    (hg : ∀ g ∈ (walk (next t) vs st.pos).flatMap fun e => own K t e.1 e.2, g.2 < 2 ^ 256) :
    ∃ st', delEls (width t) (fun s => del K t s) vs.length st = some st' ∧
      Wiped ((walk (next t) vs st.pos).flatMap fun e => own K t e.1 e.2) (iter (next t) vs.length st.pos)
        (vs.map fun v => xcost t v).sum st st' := by
  induction vs generalizing st with
  | nil =>
    refine ⟨st, by simp [delEls], ?_⟩
    simp only [walk, List.flatMap_nil, List.length_nil, iter, List.map_nil, List.sum_nil]
    exact Wiped.refl
  | cons v vs ih =>
    have e : delEls (width t) (fun s => del K t s) (v :: vs).length st =
        (delF K t st).bind (delEls (width t) (fun s => del K t s) vs.length) := by
      rw [List.length_cons, delEls, delF, Option.bind_assoc]
    have hp : st.pos.2 ≤ 32 := hst
    have l1 := next_Le t hp
    have l2 := iter_Le (fun p hp => next_Le t hp) vs.length l1.off
    simp only [walk, List.flatMap_cons, List.length_cons, iter, List.mem_cons, forall_eq_or_imp] at hl hsep hlt hg ⊢
    obtain ⟨s1, g1, w1⟩ := h v st hst ht hl.1 (hsep.left.mono (Nat.le_refl _) l2.slot) (Nat.lt_of_le_of_lt l2.slot hlt)
      fun g hg' => hg g (List.mem_append_left _ hg')
    have ep := w1.pos
    have hoff : s1.off ≤ 32 := by have := l1.off; rw [← ep] at this; exact this
    have es : s1.slot = (next t st.pos).1 := congrArg Prod.fst ep
    have hslot : st.slot ≤ s1.slot := by rw [es]; exact l1.slot
    have hl2 : ∀ e ∈ walk (next t) vs (next t st.pos), Lens K s1.stor t e.1 e.2 := by
      intro e he
      have hw := walk_pos (fun p hp => next_Le t hp) l1.off he
      have hn := next_Le t hw.1.off
      refine Lens.congr t hw.1.off (hl.2 e he)
        (((w1.lens l1 l2.slot hsep.left).from hw.1).upto hw.2.slot) ?_
      exact fun g hg' => w1.sameOn l1 l2.slot hsep g (List.mem_flatMap.mpr ⟨e, he, hg'⟩)
    rw [← ep] at hsep l2 hl2 hg hlt ⊢
    obtain ⟨s2, g2, w2⟩ := ih hoff hl2 (hsep.right.mono hslot (Nat.le_refl _)) hlt fun g hg' => hg g (List.mem_append_right _ hg')
    have l1' : Le st.pos s1.pos := by rw [ep]; exact l1
    refine ⟨s2, by rw [List.length_cons] at e; rw [e, g1]; exact g2, ?_⟩
    rw [List.map_cons, List.sum_cons]
    exact Wiped.trans (by rw [ep]; exact w1) w2 l1' l2 hsep

theorem delVec_ok {t : Ty} (h : DelOk K t) : DelOk K (.vec t) := by
  intro v st hst ht hl hsep hlt hg
  match v with
  | .vec vs =>
    rw [tidy] at ht
    rw [Lens] at hl
    have en : next (.vec t) st.pos = place st.pos 32 := next_placed (t := .vec t) (by simp [Placed, width]) _
    rw [en] at hsep hlt ⊢
    have hp : st.pos.2 ≤ 32 := hst
    have l1 := @place_Le st.pos 32 hp (by omega)
    obtain ⟨s1, g1, w1, hk⟩ := accD_ok (n := 32) hst hlt
    have es : s1.slot = (place st.pos 32).1 := congrArg Prod.fst w1.pos
    have eo : s1.off = 32 := (congrArg Prod.snd w1.pos).trans place32
    have hslot : st.slot ≤ s1.slot := by rw [es]; exact l1.slot
    have hlen : s1.stor s1.slot % 2 ^ 32 = vs.length := by rw [hk, es]; exact hl.1
    have hpos : place st.pos 32 = (s1.slot, 32) := by rw [es]; exact place32_eq
    rw [delF, show width (.vec t) = 32 from rfl, g1, Option.bind_some, del, hlen, xcost]
    -- the header is zeroed
    have hz : ∀ x, st.slot ≤ x → x ≤ s1.slot → upd s1.stor s1.slot 0 x = 0 := by
      intro x h1 h2
      by_cases hx : x = s1.slot
      · rw [hx]; exact upd_same ..
      · rw [upd_ne _ _ hx]; exact w1.zero x h1 (by omega)
    have hf : ∀ x, x < st.slot ∨ s1.slot < x → upd s1.stor s1.slot 0 x = st.stor x := by
      intro x hx
      rw [upd_ne _ _ (by omega)]
      exact w1.frame x (by omega) fun g hg => absurd hg (by simp)
    by_cases hne : vs = []
    · subst hne
      rw [List.length_nil, if_pos rfl]
      have e : own K (.vec t) (.vec []) st.pos = [] := by rw [own]; rfl
      rw [e, hpos]
      refine ⟨_, rfl, ⟨by unfold DSt.pos; simp only [eo], fun x h1 h2 => hz x h1 (by simp only at h2; omega), by simp,
        fun x hx _ => hf x hx, fun h0 => absurd h0 (by simp), ?_⟩⟩
      simp only [w1.used, List.map_nil, List.sum_nil]; omega
    · have hl0 : vs.length ≠ 0 := by simpa using hne
      rw [if_neg hl0]
      rw [own_vec_ne _ hne] at hsep hg ⊢
      rw [hpos] at hl hsep ⊢
      rw [hpos] at hg
      simp only at hl hsep hg ⊢
      have ha := hsep.here _ List.mem_cons_self
      unfold Apart at ha
      simp only at ha
      have hb0 := (iter_Le (fun p hp => next_Le t hp) vs.length (p := (elems K s1.slot, 0)) (by simp)).slot
      simp only at hb0
      have hels : ∀ e ∈ walk (next t) vs (elems K s1.slot, 0), Lens K (upd s1.stor s1.slot 0) t e.1 e.2 := by
        intro e he
        have hw := walk_pos (fun p hp => next_Le t hp) (b := (elems K s1.slot, 0)) (by simp) he
        have hw1 := hw.1.slot
        have hw2 := hw.2.slot
        have hn := (next_Le t hw.1.off).slot
        simp only at hw1 hw2
        refine Lens.congr t hw.1.off (hl.2 e he) (fun x h1 h2 _ => hf x (by omega)) fun g hg' x h1 h2 => hf x ?_
        have := hsep.here g (List.mem_cons_of_mem _ (List.mem_flatMap.mpr ⟨e, he, hg'⟩))
        unfold Apart at this
        simp only at this
        omega
      obtain ⟨s2, g2, w2⟩ := delEls_ok h ht (vs := vs) (st := ⟨upd s1.stor s1.slot 0, elems K s1.slot, 0, s1.used + 32⟩) (by simp)
        hels hsep.tail (hg _ List.mem_cons_self) fun g hg' => hg g (List.mem_cons_of_mem _ hg')
      have e2 : s2.slot = (iter (next t) vs.length (elems K s1.slot, 0)).1 := congrArg Prod.fst w2.pos
      have hu := w2.used
      simp only [DSt.pos] at w2 hu
      -- slots outside the elements
      have hout : ∀ x, x < elems K s1.slot ∨ s2.slot < x →
          Off ((walk (next t) vs (elems K s1.slot, 0)).flatMap fun e => own K t e.1 e.2) x →
          s2.wipe.stor x = upd s1.stor s1.slot 0 x := by
        intro x hx ho
        show upd s2.stor s2.slot 0 x = _
        rw [upd_ne _ _ (by omega)]
        exact w2.frame x (by simp only; omega) ho
      rw [g2]
      refine ⟨_, rfl, ⟨by unfold DSt.pos; simp only [eo], fun x h1 h2 => ?_, fun g hg' x h1 h2 => ?_, fun x hx ho => ?_,
        fun h0 => absurd h0 (by simp), by simp only [hu, w1.used]; omega⟩⟩
      · simp only at h2 ⊢
        rw [hout x (by omega) (hsep.rest.off h1 (by omega)), hz x h1 (by omega)]
      · simp only
        rcases List.mem_cons.mp hg' with rfl | hg'
        · simp only at h1 h2
          show upd s2.stor s2.slot 0 x = 0
          by_cases hx : x = s2.slot
          · rw [hx]; exact upd_same ..
          · rw [upd_ne _ _ hx]; exact w2.zero x h1 (by omega)
        · show upd s2.stor s2.slot 0 x = 0
          unfold upd
          split
          · rfl
          · exact w2.segs g hg' x h1 h2
      · simp only at hx ⊢
        have h0 := ho _ List.mem_cons_self
        simp only at h0
        rw [hout x (by omega) fun g hg => ho g (List.mem_cons_of_mem _ hg), hf x hx]
  | .num _ | .struct _ | .object _ _ | .variant _ _ => simp [Lens] at hl

theorem delAtom_ok {t : Ty} (hd : ∀ st, del K t st = some st) (ho : ∀ v p, own K t v p = []) (hx : ∀ v, xcost t v = 0) (hw : 0 < width t) :
    DelOk K t := by
  intro v st hst ht hl hsep hlt hg
  rw [ho, hx, next_placed hw] at *
  obtain ⟨s1, g1, w1, -⟩ := accD_ok (n := width t) hst hlt
  exact ⟨s1, by rw [delF, g1, Option.bind_some, hd], w1⟩

mutual
theorem del_ok (t : Ty) : DelOk K t := by
  match t with
  | .bool | .u8 | .u16 | .u32 | .u64 | .u128 | .u256 | .address | .object _ =>
    exact delAtom_ok (by simp [del]) (by simp [own]) (by simp [xcost]) (by simp [width])
  | .struct fs => exact delStruct_ok (dels_ok fs)
  | .enum vss => exact delEnum_ok
  | .vec t => exact delVec_ok (del_ok t)
theorem dels_ok (ts : List Ty) : DelsOk K ts := by
  match ts with
  | [] => exact dels_nil
  | t :: ts => exact dels_cons (del_ok t) (dels_ok ts)
end

end Layout
