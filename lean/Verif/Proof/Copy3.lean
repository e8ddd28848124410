import Verif.Proof.Copy2

/-! Copies of structs, objects and enums. -/

namespace Rt
open Wasm Mv

variable {σ σ' σ'' : Store} {E : ErrPtrs}

/-- The cells of `n` field pointers. -/
def cells (a n : Nat) : Nat → Prop := Between a (a + 4 * n)

/-- The fields `vs` have been copied, the pointers to the copies are in the cells at `a`. -/
structure FieldsCopied (σ σ' : Store) (ts : List Ty) (vs : List Val) (a : Nat) : Prop where
  alters : Alters (cells a ts.length) σ σ'
  nextFree : σ'.nextFree = σ.nextFree + costFs ts vs
  rep : Mv.RepFs σ'.mem (fun x => cells a ts.length x ∨ Between σ.nextFree σ'.nextFree x) ts vs a

/-- One field has been copied. -/
structure FieldCopied (σ σ' : Store) (t : Ty) (v : Val) (a : Nat) : Prop where
  alters : Alters (cells a 1) σ σ'
  nextFree : σ'.nextFree = σ.nextFree + (if t.scalar then t.size else cost t v)
  cell : t.scalar = true → Within (Between σ.nextFree σ'.nextFree) (leNat σ'.mem a 4) t.size
  rep : Mv.Rep σ'.mem (Between σ.nextFree σ'.nextFree) t v
    (if t.scalar then leNat σ'.mem (leNat σ'.mem a 4) t.size else leNat σ'.mem a 4)

theorem FieldCopied.cons {t : Ty} {ts : List Ty} {v : Val} {vs : List Val} {a : Nat}
    (ha : a + 4 * (ts.length + 1) ≤ σ.nextFree)
    (h : FieldCopied σ σ' t v a) (h' : FieldsCopied σ' σ'' ts vs (a + 4)) :
    FieldsCopied σ σ'' (t :: ts) (v :: vs) a := by
  have n1 := h.nextFree
  have n2 := h'.nextFree
  have m1 := h.alters.nextFree
  have hm : ∀ x, Between σ.nextFree σ'.nextFree x → ¬ cells (a + 4) ts.length x → σ''.mem x = σ'.mem x :=
    fun x hx hc => h'.alters.mem x hx.2 hc
  refine ⟨?_, ?_, ?_⟩
  · refine (h.alters.mono fun x _ hx => ?_).trans (h'.alters.mono fun x _ hx => ?_)
    · exact ⟨hx.1, by have := hx.2; simp only [List.length_cons]; omega⟩
    · exact ⟨by have := hx.1; omega, by have := hx.2; simp only [List.length_cons]; omega⟩
  · simp only [costFs]; omega
  · have hn : σ'.nextFree ≤ σ''.nextFree := h'.alters.nextFree
    have hm' : ∀ x, Between σ.nextFree σ'.nextFree x → σ''.mem x = σ'.mem x :=
      fun x hx => hm x hx fun hc => by have := hx.1; have := hc.2; omega
    have hcell : leNat σ''.mem a 4 = leNat σ'.mem a 4 :=
      h'.alters.leNat (by omega) fun x h1 h2 h3 => by have := h3.1; omega
    have hsub : ∀ x, Between σ.nextFree σ'.nextFree x →
        cells a (t :: ts).length x ∨ Between σ.nextFree σ''.nextFree x :=
      fun x hx => .inr ⟨hx.1, by have := hx.2; omega⟩
    simp only [Mv.RepFs]
    refine ⟨v, vs, rfl, fun x h1 h2 => .inl ⟨h1, ?_⟩, ?_, ?_, ?_⟩
    · simp only [List.length_cons]; omega
    · rw [hcell]; exact fun hs => (h.cell hs).mono hsub
    · rw [hcell]
      have hr := h.rep
      by_cases hs : t.scalar = true
      · rw [if_pos hs] at hr ⊢
        rw [(h.cell hs).leNat hm']
        exact Rep.change hm' hsub t hr
      · rw [if_neg hs] at hr ⊢
        exact Rep.change hm' hsub t hr
    · refine RepFs.change (fun _ _ => rfl) (fun x hx => ?_) ts h'.rep
      rcases hx with hx | hx
      · exact .inl ⟨by have := hx.1; omega, by have := hx.2; simp only [List.length_cons]; omega⟩
      · exact .inr ⟨by have := hx.1; omega, hx.2⟩

/-- The store of a pointer to a copy into its cell. -/
theorem CopyOf.field {t : Ty} {v : Val} {w' a : Nat} (hs : t.scalar = false) (h : CopyOf σ σ' t v w')
    (ha : a + 4 ≤ σ.nextFree) : FieldCopied σ (σ'.setMem (putLe σ'.mem a 4 w')) t v a := by
  have h4 := Ty.size_ptr hs
  have hlt := h.lt
  rw [h4] at hlt
  have hn := h.ext.nextFree
  have hc : leNat (putLe σ'.mem a 4 w') a 4 = w' := by rw [leNat_putLe_same, Nat.mod_eq_of_lt hlt]
  refine ⟨?_, ?_, ?_, ?_⟩
  · refine h.ext.alters.write (fun x hx hr => putLe_out ?_) (fun x hx => ?_)
    · by_cases h1 : a ≤ x
      · exact .inr (Nat.le_of_not_lt fun h2 => hr ⟨h1, by omega⟩)
      · omega
    · rw [putLe_out (by omega), h.ext.fresh x hx]
  · rw [hs]; exact h.nextFree
  · rw [hs]; intro h; exact absurd h (by simp)
  · rw [hs, if_neg (by simp)]
    rw [setMem_mem, hc]
    exact Rep.change (fun x hx => putLe_out (by have := hx.1; omega)) (fun _ h => h) t h.rep

/-- The same for numbers, which get a cell of their own. -/
theorem Alloced.field {t : Ty} {v : Val} {R : Nat → Prop} {w a : Nat} (hs : t.scalar = true)
    (h : Alloced t.size σ σ') (hr : Mv.Rep σ.mem R t v w) (ha : a + 4 ≤ σ.nextFree) :
    FieldCopied σ (σ'.setMem (putLe (putLe σ'.mem σ.nextFree t.size w) a 4 σ.nextFree)) t v a := by
  have hn := h.nextFree
  have h1 := h.extends.alloc.nextFree_le
  have h2 := h.extends.alloc.size_lt
  obtain ⟨e1, e2, e3⟩ := hr.scalar hs
  have hc : leNat (putLe (putLe σ'.mem σ.nextFree t.size w) a 4 σ.nextFree) a 4 = σ.nextFree := by
    rw [leNat_putLe_same, Nat.mod_eq_of_lt (by omega)]
  have hc' : leNat (putLe (putLe σ'.mem σ.nextFree t.size w) a 4 σ.nextFree) σ.nextFree t.size = w := by
    rw [leNat_putLe_disj (by omega), leNat_putLe_same, Nat.mod_eq_of_lt e2]
  refine ⟨?_, ?_, ?_, ?_⟩
  · refine h.extends.alters.write (fun x hx hr => ?_) (fun x hx => ?_)
    · rw [putLe_out, putLe_out (by omega)]
      by_cases h1 : a ≤ x
      · exact .inr (Nat.le_of_not_lt fun h2 => hr ⟨h1, by omega⟩)
      · omega
    · rw [putLe_out (by omega), putLe_out (by omega), h.extends.fresh x hx]
  · rw [hs]; exact h.nextFree
  · intro _
    rw [setMem_mem, hc]
    exact fun x h1 h2 => ⟨h1, by show x < σ'.nextFree; omega⟩
  · rw [hs, if_pos rfl, setMem_mem, hc, hc']
    exact e3 _ _

theorem copyFields_ok {ts : List Ty} (hts : ∀ t ∈ ts, t.scalar = false → CopyOk E t) {R : Nat → Prop}
    {vs : List Val} {p q off src dst b k : Nat} {s l : List Nat} {is : List Instr} {Q : Res → Prop}
    (hσ : Heap σ) (hfit : Fit σ (spillsFs ts) (costFs ts vs)) (hR : ∀ x, R x → x < σ.nextFree)
    (hd : ∀ x, R x → ¬ cells (q + off) ts.length x) (hr : Mv.RepFs σ.mem R ts vs (p + off))
    (hsrc : lget l src = p) (hdst : lget l dst = q) (hq : q + off + 4 * ts.length ≤ σ.nextFree)
    (hq' : reserved ≤ q) (h1 : src < b) (h2 : dst < b) (h3 : b + 3 ≤ k) (hl : k + nlFs ts ≤ l.length)
    (h : ∀ σ' l', FieldsCopied σ σ' ts vs (q + off) → l'.length = l.length → (∀ j, j < b → lget l' j = lget l j) →
      wp is s l' σ' Q) :
    wp (copyFields E ts src dst b k off ++ is) s l σ Q := by
  induction ts generalizing σ vs off k l with
  | nil =>
    simp only [Mv.RepFs] at hr
    subst hr
    simp only [copyFields, List.nil_append]
    refine h σ l ⟨hσ.refl.alters, by simp only [costFs, Nat.add_zero], by simp only [Mv.RepFs]⟩ rfl (fun _ _ => rfl)
  | cons t ts ih =>
    simp only [Mv.RepFs] at hr
    obtain ⟨v, vs, rfl, r1, r2, r3, r4⟩ := hr
    simp only [List.length_cons] at hq
    simp only [nlFs] at hl
    simp only [costFs] at hfit
    have s1 := hσ.alloc.nextFree_le
    have s2 := hσ.alloc.size_lt
    have b1 := r1.lt hR (by omega)
    have step : ∀ σ1 l1, FieldCopied σ σ1 t v (q + off) → l1.length = l.length →
        (∀ j, j < b → lget l1 j = lget l j) →
        wp (copyFields E ts src dst b (k + nlP t) (off + 4) ++ is) s l1 σ1 Q := by
      intro σ1 l1 hf hl1 hloc
      have n1 := hf.nextFree
      have m1 := hf.alters.nextFree
      have hRmem : ∀ x, R x → σ1.mem x = σ.mem x := fun x hx =>
        hf.alters.mem x (hR x hx) fun hc => hd x hx ⟨hc.1, by have := hc.2; simp only [List.length_cons]; omega⟩
      refine ih (fun t' ht' => hts t' (List.mem_cons_of_mem _ ht')) (vs := vs) (off := off + 4)
        (hf.alters.heap hσ fun x hx => ?_) ?_ (fun x hx => Nat.lt_of_lt_of_le (hR x hx) m1) ?_ ?_ ?_ ?_ (by omega)
        (by omega) (by omega) ?_
      · have := hx.1; unfold reserved at hq'; omega
      · refine hfit.after (by omega) n1 hf.alters.maxPages hf.alters.size ?_
        intro hsp; simp [spillsFs, hsp]
      · intro x hx hc
        exact hd x hx ⟨by have := hc.1; omega, by have := hc.2; simp only [List.length_cons]; omega⟩
      · exact RepFs.change hRmem (fun _ h => h) ts r4
      · rw [hloc src h1, hsrc]
      · rw [hloc dst h2, hdst]
      · intro σ2 l2 hc hl2 hloc2
        exact h σ2 l2 (hf.cons (by omega) hc) (by omega) fun j hj => by rw [hloc2 j hj, hloc j hj]
    unfold copyFields
    by_cases hs : t.scalar = true
    · rw [if_pos hs] at r3 hfit ⊢
      have b2 := (r2 hs).lt hR t.size_pos
      have hts8 := t.size_le
      have hv1 : (if t.size = 8 then b + 1 else b) < b + 2 := by split <;> omega
      have hv2 : b ≤ (if t.size = 8 then b + 1 else b) := by split <;> omega
      generalize (if t.size = 8 then b + 1 else b) = vl at hv1 hv2
      wstep
      rw [hsrc]
      wstep
      refine wp_allocR hσ hfit.1 (by omega) fun σ1 a1 => ?_
      have c1 := a1.inside
      have c2 := a1.nextFree
      have c3 := a1.size
      wstep
      rw [hdst]
      refine step _ _ (a1.field hs r3 (by omega)) (by simp only [lset_length]) fun j hj => ?_
      rw [lget_lset_ne (by omega), lget_lset_ne (by omega)]
    · rw [if_neg hs] at r3 hfit ⊢
      have hs' : t.scalar = false := by simpa using hs
      wstep
      rw [hsrc]
      have hpre : CopyPre σ R t v (leNat σ.mem (p + off) 4) := ⟨hσ, hfit.mono (by omega) (by
        intro hsp; simp [spillsFs, hsp]), hR, r3⟩
      simp only [List.append_assoc]
      refine hts t (List.mem_cons_self ..) hs' σ R v _ k s _ _ Q hpre ?_ ?_
      · simp only [lset_length]; omega
      intro σ1 w' l1 hc hl1 hloc
      simp only [lset_length] at hl1
      have hd1 : lget l1 dst = q := by rw [hloc dst (by omega), lget_lset_ne (by omega), hdst]
      have c3 := hc.ext.size
      have c4 := hc.ext.alloc.nextFree_le
      have c5 := hc.ext.alloc.size_lt
      wstep
      rw [hd1]
      refine step _ _ (hc.field hs' (by omega)) ?_ fun j hj => ?_
      · simp only [lset_length]; omega
      rw [lget_lset_ne (by omega), hloc j (by omega), lget_lset_ne (by omega)]

theorem copyStruct_ok {ts : List Ty} (hts : ∀ t ∈ ts, t.scalar = false → CopyOk E t) : CopyOk E (.struct ts) := by
  intro σ R v w k s l is Q hp hl h
  have hr := hp.rep
  simp only [Mv.Rep] at hr
  obtain ⟨vs, rfl, hr⟩ := hr
  have hfit := hp.fit
  simp only [cost, Ty.spills] at hfit
  simp only [nlP] at hl
  have hσ := hp.heap
  have s1 := hσ.alloc.nextFree_le
  have s2 := hσ.alloc.size_lt
  have s3 := hfit.1.1
  simp only [copyP]
  wstep
  refine wp_allocR hσ hfit.1 (by omega) fun σ1 a1 => ?_
  have c1 := a1.inside
  have c2 := a1.nextFree
  have c3 := a1.size
  have c4 := a1.heap.alloc.size_lt
  wstep
  simp only [List.append_assoc]
  refine copyFields_ok hts (R := R) (p := w) (q := σ.nextFree) (off := 0) (vs := vs) (src := k) (dst := k + 1) (b := k + 2) (k := k + 5) a1.heap
    (hfit.after (by omega) c2 a1.maxPages a1.size (fun h => h)) (fun x hx => by have := hp.below x hx; omega)
    (fun x hx hc => by have := hp.below x hx; have := hc.1; omega) (by rw [a1.mem]; exact hr) ?_ ?_ (by omega)
    hσ.base (by omega) (by omega) (by omega) ?_ ?_
  · rw [lget_lset_ne (by omega), lget_lset_same (by omega)]
  · rw [lget_lset_same (by simp only [lset_length]; omega)]
  · simp only [lset_length]; omega
  intro σ2 l2 hc hl2 hloc
  have n2 := hc.nextFree
  simp only [lset_length] at hl2
  wstep
  rw [hloc (k + 1) (by omega), lget_lset_same (by simp only [lset_length]; omega)]
  refine h σ2 σ.nextFree l2 ⟨a1.extends.then hc.alters (fun x hx => hx.1), ?_, ?_, by show _ < 256 ^ 4; omega⟩ hl2 fun j hj => ?_
  · simp only [cost]; omega
  · simp only [Mv.Rep]
    refine ⟨vs, rfl, RepFs.change (fun _ _ => rfl) (fun x hx => ?_) ts hc.rep⟩
    rcases hx with hx | hx
    · exact ⟨hx.1, by have := hx.2; omega⟩
    · exact ⟨by have := hx.1; omega, hx.2⟩
  · rw [hloc j (by omega), lget_lset_ne (by omega), lget_lset_ne (by omega)]

theorem copyObject_ok {ts : List Ty} (hts : ∀ t ∈ ts, t.scalar = false → CopyOk E t) : CopyOk E (.object ts) := by
  intro σ R v w k s l is Q hp hl h
  have hr := hp.rep
  simp only [Mv.Rep] at hr
  obtain ⟨vs, hw, rfl, hown, hr⟩ := hr
  have hfit := hp.fit
  simp only [cost, Ty.spills] at hfit
  simp only [nlP] at hl
  have hσ := hp.heap
  have s1 := hσ.alloc.nextFree_le
  have s2 := hσ.alloc.size_lt
  have s3 := hfit.1.1
  have ho := hown.lt hp.below (by omega)
  simp only [copyP]
  wstep
  refine wp_allocR hσ hfit.1 (by omega) fun σ1 a1 => ?_
  have c1 := a1.inside
  have c2 := a1.nextFree
  have c3 := a1.size
  have c4 := a1.heap.alloc.size_lt
  wstep
  have hcp := a1.copied (p := w - 32)
  generalize σ1.setMem (copyBytes σ1.mem σ.nextFree (w - 32) 32) = σ2 at hcp
  have hσ2 := hcp.ext.heap hσ
  have c5 := hcp.nextFree
  refine wp_allocR hσ2 (hfit.after (c := false) (k := 32) (n := 4 * ts.length + costFs ts vs) (by omega) c5 hcp.ext.maxPages hcp.ext.size (by simp)).1
    (by omega) fun σ3 a3 => ?_
  have d1 := a3.inside
  have d2 := a3.nextFree
  have d3 := a3.size
  have d4 := a3.heap.alloc.size_lt
  have hx3 := hcp.ext.trans a3.extends
  wstep
  simp only [List.append_assoc]
  refine copyFields_ok hts (R := R) (p := w) (q := σ2.nextFree) (off := 0) (vs := vs) (src := k) (dst := k + 1) (b := k + 2) (k := k + 5) a3.heap
    (hfit.after (k := 32 + 4 * ts.length) (by omega) (by omega) hx3.maxPages hx3.size (fun h => h))
    (fun x hx => by have := hp.below x hx; omega)
    (fun x hx hc => by have := hp.below x hx; have := hc.1; omega)
    (RepFs.change (fun x hx => hx3.mem x (hp.below x hx)) (fun _ h => h) ts hr) ?_ ?_ (by omega)
    hσ2.base (by omega) (by omega) (by omega) ?_ ?_
  · rw [lget_lset_ne (by omega), lget_lset_same (by omega)]
  · rw [lget_lset_same (by simp only [lset_length]; omega)]
  · simp only [lset_length]; omega
  intro σ4 l4 hc hl4 hloc
  have n4 := hc.nextFree
  simp only [lset_length] at hl4
  wstep
  rw [hloc (k + 1) (by omega), lget_lset_same (by simp only [lset_length]; omega)]
  refine h σ4 σ2.nextFree l4 ⟨hx3.then hc.alters (fun x hx => by have := hx.1; omega), ?_, ?_,
    by show _ < 256 ^ 4; omega⟩ hl4 fun j hj => ?_
  · simp only [cost]; omega
  · have hown' : beNat σ4.mem (σ2.nextFree - 32) 32 = beNat σ.mem (w - 32) 32 := by
      refine beNat_ext fun i hi => ?_
      rw [show σ2.nextFree - 32 = σ.nextFree by omega, hc.alters.mem _ (by omega)
        (fun hx => by have := hx.1; omega), a3.mem, hcp.bytes i hi]
    simp only [Mv.Rep]
    refine ⟨vs, by omega, by rw [hown'], fun x h1 h2 => ⟨by omega, by omega⟩,
      RepFs.change (fun _ _ => rfl) (fun x hx => ?_) ts hc.rep⟩
    rcases hx with hx | hx
    · exact ⟨by have := hx.1; omega, by have := hx.2; omega⟩
    · exact ⟨by have := hx.1; omega, hx.2⟩
  · rw [hloc j (by omega), lget_lset_ne (by omega), lget_lset_ne (by omega)]

theorem enumHeap_ge {vss : List (List Ty)} {i : Nat} {fs : List Ty} (h : vss[i]? = some fs) :
    4 + 4 * fs.length ≤ enumHeap vss := by
  have key : ∀ (ns : List Nat) (a : Nat), a ≤ ns.foldl max a ∧ ∀ n ∈ ns, n ≤ ns.foldl max a := by
    intro ns
    induction ns with
    | nil => simp
    | cons n ns ih =>
      intro a
      obtain ⟨h1, h2⟩ := ih (max a n)
      simp only [List.foldl_cons, List.mem_cons]
      refine ⟨by omega, ?_⟩
      rintro m (rfl | hm)
      · omega
      · exact h2 m hm
  have := (key (vss.map fun fs => fs.length * 4) 0).2 (fs.length * 4)
    (List.mem_map.mpr ⟨fs, List.mem_of_getElem? h, rfl⟩)
  unfold enumHeap
  omega

/-- The value of a variant is given by the fields of that variant. -/
theorem RepVar.get {f : Bytes} {R : Nat → Prop} {vss : List (List Ty)} {i : Nat} {vs : List Val} {p : Nat}
    (h : Mv.RepVar f R vss i vs p) : ∃ fs, vss[i]? = some fs ∧ Mv.RepFs f R fs vs p := by
  induction vss generalizing i with
  | nil => simp only [Mv.RepVar] at h
  | cons fs vss ih =>
    cases i with
    | zero => simp only [Mv.RepVar] at h; exact ⟨fs, rfl, h⟩
    | succ i => simp only [Mv.RepVar] at h; simpa using ih h

theorem costVar_get {vss : List (List Ty)} {i : Nat} {vs : List Val} {fs : List Ty} (h : vss[i]? = some fs) :
    costVar vss i vs = costFs fs vs := by
  induction vss generalizing i with
  | nil => simp at h
  | cons fs' vss ih =>
    cases i with
    | zero => simp at h; subst h; simp only [costVar]
    | succ i => simp only [costVar]; exact ih (by simpa using h)

theorem spillsVs_get {vss : List (List Ty)} {i : Nat} {fs : List Ty} (h : vss[i]? = some fs)
    (hs : spillsFs fs = true) : spillsVs vss = true := by
  induction vss generalizing i with
  | nil => simp at h
  | cons fs' vss ih =>
    cases i with
    | zero => simp at h; subst h; simp [spillsVs, hs]
    | succ i => simp [spillsVs, ih (by simpa using h)]

theorem repVar_of {f : Bytes} {R : Nat → Prop} {vss : List (List Ty)} {i : Nat} {vs : List Val} {p : Nat} {fs : List Ty}
    (h : vss[i]? = some fs) (hr : Mv.RepFs f R fs vs p) : Mv.RepVar f R vss i vs p := by
  induction vss generalizing i with
  | nil => simp at h
  | cons fs' vss ih =>
    cases i with
    | zero => simp at h; subst h; simpa only [Mv.RepVar] using hr
    | succ i => simp only [Mv.RepVar]; exact ih (by simpa using h)

/-- The arms of an enum copy run the one of the variant and leave the block. -/
theorem copyArms_ok {vss : List (List Ty)} (hts : ∀ fs ∈ vss, ∀ t ∈ fs, t.scalar = false → CopyOk E t)
    {R : Nat → Prop} {vs : List Val} {fs : List Ty} {p q k0 k i i0 : Nat} {s l : List Nat} {Q : Res → Prop}
    (hi : vss[i]? = some fs) (hi0 : i0 + i < 2 ^ 32) (hvar : lget l (k0 + 2) = i0 + i)
    (hσ : Heap σ) (hfit : Fit σ (spillsFs fs) (costFs fs vs)) (hR : ∀ x, R x → x < σ.nextFree)
    (hd : ∀ x, R x → ¬ cells (q + 4) fs.length x) (hr : Mv.RepFs σ.mem R fs vs (p + 4))
    (hsrc : lget l k0 = p) (hdst : lget l (k0 + 1) = q) (hq : q + 4 + 4 * fs.length ≤ σ.nextFree)
    (hq' : reserved ≤ q) (h3 : k0 + 3 ≤ k) (hl : k + nlVs vss ≤ l.length)
    (h : ∀ σ' l', FieldsCopied σ σ' fs vs (q + 4) → l'.length = l.length → (∀ j, j < k0 + 3 → lget l' j = lget l j) →
      Q (.br 0 [] l' σ')) :
    wp (copyArms E vss k0 k i0) s l σ Q := by
  induction vss generalizing i i0 k with
  | nil => simp at hi
  | cons fs' vss ih =>
    simp only [nlVs] at hl
    unfold copyArms
    wstep
    rw [hvar]
    refine .intro (fun hne => ?_) (fun he => ?_)
    · cases i with
      | zero => exact absurd rfl hne
      | succ i =>
        exact ih (fun fs hfs => hts fs (List.mem_cons_of_mem _ hfs)) (by simpa using hi) (by omega) (by omega)
          (by omega) (by omega)
    · obtain rfl : i = 0 := by omega
      simp at hi
      subst hi
      refine copyFields_ok (hts fs' (List.mem_cons_self ..)) (R := R) (p := p) (q := q) (off := 4) (vs := vs)
        (src := k0) (dst := k0 + 1) (b := k) (k := k + 3) hσ hfit hR hd hr hsrc hdst hq hq' (by omega) (by omega)
        (by omega) (by omega) ?_
      intro σ' l' hc hl' hloc
      wstep
      exact h σ' l' hc hl' fun j hj => hloc j (by omega)

theorem copyEnum_ok {vss : List (List Ty)} (hts : ∀ fs ∈ vss, ∀ t ∈ fs, t.scalar = false → CopyOk E t) :
    CopyOk E (.enum vss) := by
  intro σ R v w k s l is Q hp hl h
  have hr := hp.rep
  simp only [Mv.Rep] at hr
  obtain ⟨vs, rfl, hw, hr⟩ := hr
  obtain ⟨fs, hfs, hrf⟩ := RepVar.get hr
  clear hr
  have hge := enumHeap_ge hfs
  have hfit := hp.fit
  simp only [cost, Ty.spills, costVar_get hfs] at hfit
  simp only [nlP] at hl
  have hσ := hp.heap
  have s1 := hσ.alloc.nextFree_le
  have s2 := hσ.alloc.size_lt
  have s3 := hfit.1.1
  have ho := hw.lt hp.below (by omega)
  have hidx := leNat_lt σ.mem w 4
  have hnl : 1 ≤ nlVs vss := by cases vss <;> simp only [nlVs] <;> omega
  simp only [copyP]
  wstep
  refine wp_allocR hσ hfit.1 (by omega) fun σ1 a1 => ?_
  have c1 := a1.inside
  have c2 := a1.nextFree
  have c3 := a1.size
  have c4 := a1.heap.alloc.size_lt
  wstep
  have hwm : leNat σ1.mem w 4 = leNat σ.mem w 4 := by rw [a1.mem]
  rw [hwm]
  generalize hidx' : leNat σ.mem w 4 = idx at *
  have hx2 : Extends σ (σ1.setMem (putLe σ1.mem σ.nextFree 4 idx)) := by
    refine a1.extends.write (fun x hx => putLe_out (by omega)) (fun x hx => ?_)
    rw [putLe_out (by omega), a1.extends.fresh x hx]
  have hmem2 : ∀ x, x < σ.nextFree → putLe σ1.mem σ.nextFree 4 idx x = σ.mem x := fun x hx => by
    rw [putLe_out (by omega), a1.mem]
  have hget2 : leNat (putLe σ1.mem σ.nextFree 4 idx) σ.nextFree 4 = idx := by
    rw [leNat_putLe_same, Nat.mod_eq_of_lt hidx]
  refine copyArms_ok hts (R := R) (p := w) (q := σ.nextFree) (i := idx) (i0 := 0) (vs := vs) (fs := fs)
    hfs (by omega) ?_ (hx2.heap hσ)
    (hfit.after (k := enumHeap vss) (by omega) c2 a1.maxPages a1.size fun hsp => spillsVs_get hfs hsp)
    (fun x hx => by have := hp.below x hx; show x < σ1.nextFree; omega)
    (fun x hx hc => by have := hp.below x hx; have := hc.1; omega)
    (RepFs.change (fun x hx => hmem2 x (hp.below x hx)) (fun _ h => h) fs hrf) ?_ ?_
    (by show _ ≤ σ1.nextFree; omega)
    hσ.base (by omega) ?_ ?_
  · rw [lget_lset_same (by simp only [lset_length]; omega)]; omega
  · rw [lget_lset_ne (by omega), lget_lset_ne (by omega), lget_lset_same (by omega)]
  · rw [lget_lset_ne (by omega), lget_lset_same (by simp only [lset_length]; omega)]
  · simp only [lset_length]; omega
  intro σ3 l3 hc hl3 hloc
  have n3 := hc.nextFree
  replace n3 : σ3.nextFree = σ1.nextFree + costFs fs vs := n3
  simp only [lset_length] at hl3
  have hidx3 : leNat σ3.mem σ.nextFree 4 = idx := by
    rw [hc.alters.leNat (by show _ ≤ σ1.nextFree; omega) (fun x h1 h2 h3 => by have := h3.1; omega)]
    exact hget2
  wstep
  rw [hloc (k + 1) (by omega), lget_lset_ne (by omega), lget_lset_same (by simp only [lset_length]; omega)]
  refine h σ3 σ.nextFree l3 ⟨hx2.then hc.alters (fun x hx => by have := hx.1; omega), ?_, ?_,
    by show _ < 256 ^ 4; omega⟩ hl3 fun j hj => ?_
  · simp only [cost, costVar_get hfs]; omega
  · simp only [Mv.Rep, hidx3]
    refine ⟨vs, rfl, fun x h1 h2 => ⟨by omega, by omega⟩,
      repVar_of hfs (RepFs.change (fun _ _ => rfl) (fun x hx => ?_) fs hc.rep)⟩
    rcases hx with hx | hx
    · exact ⟨by have := hx.1; omega, by have := hx.2; omega⟩
    · exact ⟨by have h1 := hx.1; replace h1 : σ1.nextFree ≤ x := h1; omega, hx.2⟩
  · rw [hloc j (by omega), lget_lset_ne (by omega), lget_lset_ne (by omega), lget_lset_ne (by omega)]

mutual
/-- Copies of all types of values. -/
theorem copyP_ok (E : ErrPtrs) (t : Ty) (h : t.scalar = false) : CopyOk E t := by
  match t with
  | .bool | .u8 | .u16 | .u32 | .u64 => simp [Ty.scalar] at h
  | .u128 => exact copyHeapP_ok (.inl ⟨rfl, rfl⟩)
  | .u256 => exact copyHeapP_ok (.inr (.inl ⟨rfl, rfl⟩))
  | .address => exact copyHeapP_ok (.inr (.inr ⟨rfl, rfl⟩))
  | .vec t => exact copyVecP_ok (copyP_ok E t)
  | .struct fs => exact copyStruct_ok (copyPs_ok E fs)
  | .object fs => exact copyObject_ok (copyPs_ok E fs)
  | .enum vss => exact copyEnum_ok (copyPss_ok E vss)
theorem copyPs_ok (E : ErrPtrs) (ts : List Ty) : ∀ t ∈ ts, t.scalar = false → CopyOk E t := by
  match ts with
  | [] => exact fun _ h => absurd h (by simp)
  | t' :: ts =>
    intro t ht h
    rcases List.mem_cons.mp ht with ht | ht
    · rw [ht] at h ⊢; exact copyP_ok E t' h
    · exact copyPs_ok E ts t ht h
theorem copyPss_ok (E : ErrPtrs) (vss : List (List Ty)) :
    ∀ fs ∈ vss, ∀ t ∈ fs, t.scalar = false → CopyOk E t := by
  match vss with
  | [] => exact fun _ h => absurd h (by simp)
  | fs' :: vss =>
    intro fs hfs t ht h
    rcases List.mem_cons.mp hfs with hfs | hfs
    · rw [hfs] at ht; exact copyPs_ok E fs' t ht h
    · exact copyPss_ok E vss fs hfs t ht h
end

end Rt
