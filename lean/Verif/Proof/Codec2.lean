import Verif.Proof.Codec

/-! The encoder lays values out as `Holds` says. -/

namespace Layout
open Mv Rt

variable {K : List UInt8 → Nat} {T : Ty → Nat} {S S' : Nat → Nat} {o : Nat}

theorem Off.left {gs hs : List (Nat × Nat)} {x : Nat} (h : Off (gs ++ hs) x) : Off gs x :=
  fun g hg => h g (List.mem_append_left _ hg)
theorem Off.right {gs hs : List (Nat × Nat)} {x : Nat} (h : Off (gs ++ hs) x) : Off hs x :=
  fun g hg => h g (List.mem_append_right _ hg)

/-- The two storages agree from the slot of `p` up to position `q`. -/
structure Same (S S' : Nat → Nat) (p q : Pos) : Prop where
  slots : ∀ x, p.1 ≤ x → x < q.1 → S' x = S x
  last : ∀ j, j < q.2 → digit (S' q.1) j = digit (S q.1) j

/-- The two storages agree on the given ranges. -/
def SameOn (S S' : Nat → Nat) (gs : List (Nat × Nat)) : Prop :=
  ∀ g ∈ gs, ∀ x, g.1 ≤ x → x ≤ g.2 → S' x = S x

theorem SameOn.left {gs hs : List (Nat × Nat)} (h : SameOn S S' (gs ++ hs)) : SameOn S S' gs :=
  fun g hg => h g (List.mem_append_left _ hg)
theorem SameOn.right {gs hs : List (Nat × Nat)} (h : SameOn S S' (gs ++ hs)) : SameOn S S' hs :=
  fun g hg => h g (List.mem_append_right _ hg)

/-- Agreement up to a position implies agreement up to an earlier one. -/
theorem Same.upto {p q r : Pos} (h : Same S S' p r) (hpq : Le p q) (hqr : Le q r) : Same S S' p q := by
  refine ⟨fun x h1 h2 => h.slots x h1 (by have := hqr.slot; omega), fun j hj => ?_⟩
  by_cases e : q.1 = r.1
  · have := hqr.lin
    unfold lin at this
    rw [e]; exact h.last j (by omega)
  · rw [h.slots q.1 hpq.slot (by have := hqr.slot; omega)]

theorem Same.from {p q r : Pos} (h : Same S S' p r) (hpq : Le p q) : Same S S' q r :=
  ⟨fun x h1 h2 => h.slots x (by have := hpq.slot; omega) h2, h.last⟩

/-- The digits of the last thing placed. -/
theorem Same.dig {p q : Pos} {n : Nat} (h : Same S S' p q) (hn : n ≤ q.2) :
    Layout.dig (S' q.1) (q.2 - n) n = Layout.dig (S q.1) (q.2 - n) n :=
  dig_congr fun j _ h2 => h.last j (by omega)

theorem walk_congr {f : Pos → Pos} {vs : List Val} {b : Pos} {P Q : Val × Pos → Prop}
    (h : ∀ e ∈ walk f vs b, P e → Q e) (hp : ∀ e ∈ walk f vs b, P e) : ∀ e ∈ walk f vs b, Q e :=
  fun e he => h e he (hp e he)

/-- The positions of the elements of a list. -/
theorem walk_pos {f : Pos → Pos} (hf : ∀ p, p.2 ≤ 32 → Le p (f p)) {vs : List Val} {b : Pos} (hb : b.2 ≤ 32)
    {e : Val × Pos} (he : e ∈ walk f vs b) : Le b e.2 ∧ Le (f e.2) (iter f vs.length b) := by
  induction vs generalizing b with
  | nil => simp [walk] at he
  | cons v vs ih =>
    rw [walk] at he
    rcases List.mem_cons.mp he with rfl | he
    · exact ⟨Le.refl hb, iter_Le hf _ (hf b hb).off⟩
    · have := ih (hf b hb).off he
      exact ⟨(hf b hb).trans this.1, this.2⟩

theorem segs_vec_ne {t : Ty} {vs : List Val} (p : Pos) (h : vs ≠ []) :
    segs K o (.vec t) (.vec vs) p =
      (elems K (place p 32).1, (iter (next t) vs.length (elems K (place p 32).1, 0)).1) ::
        (walk (next t) vs (elems K (place p 32).1, 0)).flatMap fun e => segs K o t e.1 e.2 := by
  rw [segs]
  simp only [List.isEmpty_iff, h, if_false]

theorem segs_vec_nil {t : Ty} (p : Pos) : segs K o (.vec t) (.vec []) p = [] := by
  rw [segs]; rfl

/-- A value that has a place of its own and is stored as a number. -/
theorem holds_atom {t : Ty} (ht : atom t = true) {v : Val} {p : Pos} :
    Holds K T S o t v p ↔ ∃ n, v = .num n ∧
      dig (S (place p (width t)).1) ((place p (width t)).2 - width t) (width t) = n := by
  cases t <;> simp only [atom, Bool.false_eq_true] at ht <;> cases v <;> simp [Holds, width] <;>
    exact eq_comm

theorem segs_atom {t : Ty} (ht : atom t = true) {v : Val} {p : Pos} : segs K o t v p = [] := by
  cases t <;> simp only [atom, Bool.false_eq_true] at ht <;> simp [segs]

theorem atom_placed {t : Ty} (ht : atom t = true) : Placed t := by
  unfold Placed
  cases t <;> simp only [atom, Bool.false_eq_true] at ht <;> simp [width]

mutual
theorem Holds.congr (t : Ty) {o : Nat} {v : Val} {p : Pos} (hp : p.2 ≤ 32) (h : Holds K T S o t v p)
    (hs : Same S S' p (next t p)) (hg : SameOn S S' (segs K o t v p)) : Holds K T S' o t v p := by
  match t with
  | .bool | .u8 | .u16 | .u32 | .u64 | .u128 | .u256 | .address =>
    rw [holds_atom rfl] at h ⊢
    obtain ⟨n, rfl, h⟩ := h
    rw [next_placed (atom_placed rfl)] at hs
    exact ⟨n, rfl, by rw [hs.dig place_snd]; exact h⟩
  | .struct fs =>
    match v with
    | .struct vs =>
      rw [Holds] at h ⊢
      rw [next] at hs
      rw [segs] at hg
      exact HoldsFs.congr fs hp h hs hg
    | .num _ | .vec _ | .object _ _ | .variant _ _ => simp [Holds] at h
  | .enum vss =>
    match v with
    | .variant i vs =>
      rw [Holds] at h ⊢
      rw [segs] at hg
      have h1 := @place_Le p 1 hp (by omega)
      refine ⟨?_, HoldsVar.congr vss (place_le (by omega)) h.2 (fun fs hfs => ?_) hg⟩
      · rw [(hs.upto h1 (tag_Le vss hp)).dig place_snd]; exact h.1
      · exact (hs.from h1).upto (nexts_Le fs (place_le (by omega))) (variant_Le hfs p)
    | .num _ | .vec _ | .object _ _ | .struct _ => simp [Holds] at h
  | .vec t =>
    match v with
    | .vec vs =>
      rw [Holds] at h ⊢
      rw [next_placed (by simp [Placed, width])] at hs
      simp only [width] at hs
      refine ⟨?_, ?_⟩
      · have e := hs.dig (n := 32) place_snd
        have : (place p 32).2 = 32 := by have := @place_snd p 32; have := @place_le p 32 (by omega); omega
        rw [this, Nat.sub_self] at e
        rw [e]; exact h.1
      · intro e he
        have hne : vs ≠ [] := by rintro rfl; simp [walk] at he
        rw [segs_vec_ne p hne] at hg
        have hb : ((elems K (place p 32).1, 0) : Pos).2 ≤ 32 := by simp
        have hw := walk_pos (fun p hp => next_Le t hp) hb he
        refine Holds.congr t hw.1.off (h.2 e he) ⟨fun x h1 h2 => ?_, fun j hj => ?_⟩ fun g hg' => ?_
        · exact hg _ List.mem_cons_self x (by have := hw.1.slot; simp only at this ⊢; omega)
            (by have := hw.2.slot; simp only at this ⊢; omega)
        · rw [hg _ List.mem_cons_self _ (by have := hw.1.slot; have := (next_Le t hw.1.off).slot; simp only at *; omega)
            hw.2.slot]
        · exact hg g (List.mem_cons_of_mem _ (List.mem_flatMap.mpr ⟨e, he, hg'⟩))
    | .num _ | .struct _ | .object _ _ | .variant _ _ => simp [Holds] at h
  | .object [] => simp [Holds] at h
  | .object (u :: fs) =>
    match v with
    | .object w (uid :: vs) =>
      rw [Holds] at h ⊢
      rw [next_placed (by simp [Placed, width])] at hs
      simp only [width] at hs
      rw [segs] at hg
      have hc : ((Slots.objectSlot K o (idOf uid), 8) : Pos).2 ≤ 32 := by simp
      have hl := nexts_Le fs hc
      refine ⟨?_, ?_, HoldsFs.congr fs hc h.2.2 ⟨fun x h1 h2 => ?_, fun j hj => ?_⟩ fun g hg' => ?_⟩
      · have e := hs.dig (n := 32) place_snd
        have : (place p 32).2 = 32 := by have := @place_snd p 32; have := @place_le p 32 (by omega); omega
        rw [this, Nat.sub_self] at e
        rw [e]; exact h.1
      · rw [hg _ List.mem_cons_self _ (Nat.le_refl _) hl.slot]; exact h.2.1
      · exact hg _ List.mem_cons_self x h1 (by simp only; omega)
      · rw [hg _ List.mem_cons_self _ hl.slot (Nat.le_refl _)]
      · exact hg g (List.mem_cons_of_mem _ hg')
    | .object w [] => simp [Holds] at h
    | .num _ | .struct _ | .vec _ | .variant _ _ => simp [Holds] at h
theorem HoldsFs.congr (ts : List Ty) {o : Nat} {vs : List Val} {p : Pos} (hp : p.2 ≤ 32) (h : HoldsFs K T S o ts vs p)
    (hs : Same S S' p (nexts ts p)) (hg : SameOn S S' (segsFs K o ts vs p)) : HoldsFs K T S' o ts vs p := by
  match ts, vs with
  | [], [] => rw [HoldsFs]; trivial
  | t :: ts, v :: vs =>
    rw [HoldsFs] at h ⊢
    rw [nexts] at hs
    rw [segsFs] at hg
    have h1 := next_Le t hp
    have h2 := nexts_Le ts h1.off
    exact ⟨Holds.congr t hp h.1 (hs.upto h1 h2) hg.left, HoldsFs.congr ts h1.off h.2 (hs.from h1) hg.right⟩
  | [], _ :: _ => simp [HoldsFs] at h
  | _ :: _, [] => simp [HoldsFs] at h
theorem HoldsVar.congr (vss : List (List Ty)) {o i : Nat} {vs : List Val} {p : Pos} (hp : p.2 ≤ 32)
    (h : HoldsVar K T S o vss i vs p) (hs : ∀ fs, vss[i]? = some fs → Same S S' p (nexts fs p))
    (hg : SameOn S S' (segsVar K o vss i vs p)) : HoldsVar K T S' o vss i vs p := by
  match vss, i with
  | [], _ => simp [HoldsVar] at h
  | fs :: vss, 0 =>
    rw [HoldsVar] at h ⊢
    rw [segsVar] at hg
    exact HoldsFs.congr fs hp h (hs fs rfl) hg
  | fs :: vss, i + 1 =>
    rw [HoldsVar] at h ⊢
    rw [segsVar] at hg
    exact HoldsVar.congr vss hp h (fun fs hfs => hs fs (by simpa using hfs)) hg
end

/-! ### The encoder -/

/-- What the encoder achieves between two states, for a value or values at the position of the first
one with the given ranges elsewhere, ending at `q`. -/
structure Wrote (gs : List (Nat × Nat)) (q : Pos) (st st' : St) : Prop where
  pos : st'.pos = q
  low : ∀ j, j < st.off → digit (st'.view st.slot) j = digit st.buf j
  frame : ∀ x, x < st.slot ∨ st'.slot < x → Off gs x → st'.view x = st.view x

theorem view_slot (st : St) : st.view st.slot = st.buf := upd_same ..
theorem view_ne (st : St) {x : Nat} (h : x ≠ st.slot) : st.view x = st.stor x := upd_ne _ _ h
theorem flush_view (st : St) : st.flush.view = st.view := by
  funext x; unfold St.view St.flush upd; simp only [St.view, upd]; split <;> rfl

/-- The ranges lie apart from each other and from the slots `a` to `b`. -/
structure Sep (a b : Nat) (gs : List (Nat × Nat)) : Prop where
  each : gs.Pairwise Apart
  here : ∀ g ∈ gs, Apart (a, b) g

theorem Sep.off {a b : Nat} {gs : List (Nat × Nat)} (h : Sep a b gs) {x : Nat} (h1 : a ≤ x) (h2 : x ≤ b) : Off gs x := by
  intro g hg hx
  have := h.here g hg
  unfold Apart at this
  simp only at this; omega

theorem Sep.mono {a b a' b' : Nat} {gs : List (Nat × Nat)} (h : Sep a b gs) (h1 : a ≤ a') (h2 : b' ≤ b) : Sep a' b' gs :=
  ⟨h.each, fun g hg => by have := h.here g hg; unfold Apart at this ⊢; simp only at this ⊢; omega⟩

theorem Sep.left {a b : Nat} {gs hs : List (Nat × Nat)} (h : Sep a b (gs ++ hs)) : Sep a b gs :=
  ⟨(List.pairwise_append.mp h.each).1, fun g hg => h.here g (List.mem_append_left _ hg)⟩
theorem Sep.right {a b : Nat} {gs hs : List (Nat × Nat)} (h : Sep a b (gs ++ hs)) : Sep a b hs :=
  ⟨(List.pairwise_append.mp h.each).2.1, fun g hg => h.here g (List.mem_append_right _ hg)⟩
theorem Sep.cross {a b : Nat} {gs hs : List (Nat × Nat)} (h : Sep a b (gs ++ hs)) {g : Nat × Nat} (hg : g ∈ gs)
    {x : Nat} (h1 : g.1 ≤ x) (h2 : x ≤ g.2) : Off hs x := by
  intro g' hg' hx
  have := (List.pairwise_append.mp h.each).2.2 g hg g' hg'
  unfold Apart at this
  omega
/-- The first range and those inside it. -/
theorem Sep.tail {a b : Nat} {g : Nat × Nat} {gs : List (Nat × Nat)} (h : Sep a b (g :: gs)) : Sep g.1 g.2 gs :=
  ⟨(List.pairwise_cons.mp h.each).2, (List.pairwise_cons.mp h.each).1⟩
theorem Sep.rest {a b : Nat} {g : Nat × Nat} {gs : List (Nat × Nat)} (h : Sep a b (g :: gs)) : Sep a b gs :=
  ⟨(List.pairwise_cons.mp h.each).2, fun g' hg' => h.here g' (List.mem_cons_of_mem _ hg')⟩

theorem Wrote.trans {gs hs : List (Nat × Nat)} {q r : Pos} {st s1 st' : St} (h1 : Wrote gs q st s1)
    (h2 : Wrote hs r s1 st') (hq : Le st.pos q) (hr : Le q r) (hsep : Sep st.slot r.1 (gs ++ hs)) :
    Wrote (gs ++ hs) r st st' := by
  have e1 : s1.slot = q.1 := congrArg Prod.fst h1.pos
  have e1' : s1.off = q.2 := congrArg Prod.snd h1.pos
  have e2 : st'.slot = r.1 := congrArg Prod.fst h2.pos
  have hqs : st.slot ≤ q.1 := hq.slot
  have hrs := hr.slot
  refine ⟨h2.pos, fun j hj => ?_, fun x hx ho => ?_⟩
  · by_cases e : st.slot = s1.slot
    · rw [e, h2.low j ?_, ← view_slot s1, ← e, h1.low j hj]
      have := hq.lin
      unfold lin St.pos at this
      simp only at this; omega
    · rw [h2.frame st.slot (by omega) (hsep.right.off (Nat.le_refl _) (by omega)), h1.low j hj]
  · rw [h2.frame x (by omega) ho.right, h1.frame x (by omega) ho.left]

/-- What was written before stays readable. -/
theorem Wrote.same {hs : List (Nat × Nat)} {p r : Pos} {s1 st' : St} (h2 : Wrote hs r s1 st') (hr : Le s1.pos r)
    (hsep : Sep p.1 r.1 hs) (hp : p.1 ≤ s1.slot) : Same s1.view st'.view p s1.pos := by
  have hrs : s1.slot ≤ r.1 := hr.slot
  refine ⟨fun x h1 h2' => h2.frame x (Or.inl h2') (hsep.off h1 ?_), fun j hj => ?_⟩
  · have : x < s1.slot := h2'
    omega
  · show digit (st'.view s1.slot) j = digit (s1.view s1.slot) j
    rw [h2.low j hj, view_slot]

theorem Wrote.sameOn {gs hs : List (Nat × Nat)} {a : Nat} {r : Pos} {s1 st' : St} (h2 : Wrote hs r s1 st')
    (hsep : Sep a r.1 (gs ++ hs)) (ha : a ≤ s1.slot) : SameOn s1.view st'.view gs := by
  intro g hg x h1 h2'
  have e2 : st'.slot = r.1 := congrArg Prod.fst h2.pos
  have := hsep.here g (List.mem_append_left _ hg)
  unfold Apart at this
  simp only at this
  exact h2.frame x (by omega) (hsep.cross hg h1 h2')

theorem acc_wrote {st s1 : St} {n : Nat} (h : st.acc n = some s1) (hn : n ≤ 32) :
    Wrote [] (place st.pos n) st s1 := by
  unfold St.acc at h
  unfold place St.pos
  split at h
  · rename_i h1
    injection h with h; subst h
    rw [if_pos h1]
    exact ⟨rfl, fun j hj => by unfold St.view; rw [upd_same], fun x _ _ => rfl⟩
  · rename_i h1
    rw [if_neg h1]
    split at h
    · injection h with h; subst h
      refine ⟨rfl, fun j hj => ?_, fun x hx _ => ?_⟩
      · rw [view_ne _ (by simp)]
        show digit (st.view st.slot) j = _
        rw [view_slot]
      · rw [view_ne _ (by simp only at hx ⊢; omega)]
    · exact absurd h (by simp)

theorem put_wrote {st : St} {n x : Nat} (p : Pos) (q : Pos) (hq : q = st.pos) (hp : Le p q)
    (hn : lin p + n ≤ lin q ∧ (p.1 = q.1 → p.2 + n ≤ q.2)) {s0 : St} (h : Wrote [] q s0 st) (h0 : s0.pos = p) :
    Wrote [] q s0 (st.put n x) := by
  subst hq
  have e : s0.slot = p.1 := congrArg Prod.fst h0
  have e' : s0.off = p.2 := congrArg Prod.snd h0
  refine ⟨rfl, fun j hj => ?_, fun y hy ho => ?_⟩
  · rw [← h.low j hj]
    by_cases e2 : s0.slot = st.slot
    · have : (st.put n x).view s0.slot = setDig st.buf (st.off - n) n x := by rw [e2]; exact view_slot _
      rw [this, digit_setDig, if_neg, e2, view_slot]
      have := hn.2 (by rw [← e, e2]; rfl)
      unfold St.pos at this
      simp only at this; omega
    · rw [view_ne _ (show s0.slot ≠ (st.put n x).slot from e2), view_ne _ e2]; rfl
  · rw [← h.frame y hy ho, view_ne _ (show y ≠ (st.put n x).slot from ?_), view_ne _ (show y ≠ st.slot from ?_)]
    · rfl
    · have := hp.slot; unfold St.pos at this; simp only at this; have h3 : (st.put n x).slot = st.slot := rfl; omega
    · have := hp.slot; unfold St.pos at this; simp only at this; have h3 : (st.put n x).slot = st.slot := rfl; omega

end Layout
