import Verif.Proof.MoveMem

/-! Copies of structs own what they consist of. -/

namespace Move
open Wasm Rt

variable {E : ErrPtrs} {σ σ' : Store}

/-- The value is a number that fits into a register. -/
def Data.isReg (d : Data) : Bool := d.ty.isReg

/-- What is owned by a copy: new memory, by nobody else. -/
structure Copy (σ σ' : Store) (d : Data) (w : Nat) (m : Nat → Nat) : Prop where
  ext : Extends σ σ'
  room : σ'.nextFree + 4 ≤ σ.nextFree + 36 * d.count
  once : ∀ x, m x ≤ 1
  fresh : ∀ x, m x ≠ 0 → σ.nextFree ≤ x ∧ x < σ'.nextFree
  holds : Holds σ' (New σ σ' m) d w m
  lt : w < 2 ^ 32

/-- The code for copies makes a copy. -/
def CopyH (E : ErrPtrs) (d : Data) : Prop :=
  ∀ (σ : Store) (R : Nat → Prop) (w k : Nat) (s l : List Nat) (is : List Instr) (Q : Res → Prop),
    Heap σ → Room σ (36 * d.count - 4) → (∀ x, R x → x < σ.nextFree) → Mv.Rep σ.mem R d.ty.mv d.mv w →
    k + nlP d.ty.mv ≤ l.length →
    (∀ σ' w' l' m, Copy σ σ' d w' m → l'.length = l.length → (∀ j, j < k → lget l' j = lget l j) →
      wp is (w' :: s) l' σ' Q) →
    wp (copyP E d.ty.mv k ++ is) (w :: s) l σ Q

theorem STy.mv_heap {t : STy} (h : t.isReg = false) :
    t.mv = .u128 ∧ t.heapSize = 16 ∨ t.mv = .u256 ∧ t.heapSize = 32 ∨ t.mv = .address ∧ t.heapSize = 32 := by
  rcases t with _ | (r | _ | _) | _ <;> simp_all [STy.isReg, STy.mv, STy.heapSize]

theorem Mv.Rep.repV {v : MVal} {R : Nat → Prop} {w : Nat} (h : Mv.Rep σ.mem R v.ty.mv (.num v.n) w)
    (hR : ∀ x, R x → x < σ.nextFree) : RepV σ v w := by
  obtain ⟨t, n⟩ := v
  rcases t with _ | (r | _ | _) | _
  · simp only [RepV, STy.mv, Mv.Rep, STy.bits, Mv.Val.num.injEq] at h ⊢
    exact ⟨by omega, h.1.symm⟩
  · cases r <;> simp only [RepV, STy.mv, Mv.Rep, STy.bits, IntTy.bits, RegInt.bits, Mv.Val.num.injEq] at h ⊢ <;>
      exact ⟨by omega, h.1.symm⟩
  · simp only [RepV, STy.mv, Mv.Rep, Mv.Val.num.injEq, STy.bits, IntTy.bits] at h ⊢
    have hb := h.2 (w + 15) (by omega) (by omega)
    have hlt := leNat_lt σ.mem w 16
    exact ⟨by omega, by have := hR _ hb; omega, h.1.symm⟩
  · simp only [RepV, STy.mv, Mv.Rep, Mv.Val.num.injEq, STy.bits, IntTy.bits] at h ⊢
    have hb := h.2 (w + 31) (by omega) (by omega)
    have hlt := leNat_lt σ.mem w 32
    exact ⟨by omega, by have := hR _ hb; omega, h.1.symm⟩
  · simp only [RepV, STy.mv, Mv.Rep, Mv.Val.num.injEq, STy.bits] at h ⊢
    have hb := h.2 (w + 31) (by omega) (by omega)
    have hlt := beNat_lt σ.mem w 32
    exact ⟨by omega, by have := hR _ hb; omega, h.1.symm⟩

theorem copyH_num {v : MVal} (hr : v.ty.isReg = false) : CopyH E (.num v) := by
  intro σ R w k s l is Q hσ hroom hR hrep hl h
  simp only [Data.count] at hroom
  have ht := STy.mv_heap hr
  have hle : v.ty.heapSize ≤ 32 := by omega
  have hcode : copyP E (Data.num v).ty.mv k = [(copyHeap v.ty.heapSize).call] := by
    simp only [Data.ty, Ty.mv]
    rcases ht with ⟨h1, h2⟩ | ⟨h1, h2⟩ | ⟨h1, h2⟩ <;> rw [h1, h2] <;> simp only [copyP]
  have hb := heap_bound ht hrep hR
  rw [hcode, List.cons_append, List.nil_append]
  refine wp_call1 (copyHeap_copied hσ (hroom.mono (by omega)) hb) ?_
  rintro r σ' ⟨rfl, hc⟩
  have hn := hc.nextFree
  have hof := hc.of ht hrep
  have hlt := hof.ext.alloc.size_lt
  have hlt' := hof.ext.alloc.nextFree_le
  refine h σ' _ l (ind σ.nextFree v.ty.bytes) ⟨hof.ext, ?_, fun x => ind_le, fun x hx => ?_, ?_, by omega⟩ rfl (fun _ _ => rfl)
  · simp only [Data.count]; omega
  · simp only [ind_pos, STy.bytes, hr] at hx
    simp at hx
    omega
  · simp only [Holds, implies_true, and_true]
    unfold Cell
    rw [hr, if_neg (by simp)]
    exact Mv.Rep.repV (R := Between σ.nextFree σ'.nextFree) hof.rep fun x hx => hx.2

/-- One field has been copied. -/
structure FieldH (σ σ' : Store) (d : Data) (a : Nat) (m : Nat → Nat) : Prop where
  alters : Alters (cells a 1) σ σ'
  room : σ'.nextFree + 4 ≤ σ.nextFree + 36 * d.count
  once : ∀ x, m x ≤ 1
  fresh : ∀ x, m x ≠ 0 → σ.nextFree ≤ x ∧ x < σ'.nextFree
  holds : Holds σ' (New σ σ' m) d (leNat σ'.mem a 4) m

/-- The fields have been copied. -/
structure FieldsH (σ σ' : Store) (ds : List Data) (a : Nat) (m : Nat → Nat) : Prop where
  alters : Alters (cells a ds.length) σ σ'
  room : σ'.nextFree + 4 * ds.length ≤ σ.nextFree + 36 * Data.counts ds
  once : ∀ x, m x ≤ 1
  fresh : ∀ x, m x ≠ 0 → σ.nextFree ≤ x ∧ x < σ'.nextFree
  holds : HoldsFs σ' (fun x => (cells a ds.length x ∨ New σ σ' m x)) ds a m

theorem FieldH.cons {σ'' : Store} {d : Data} {ds : List Data} {a : Nat} {m1 m2 : Nat → Nat}
    (ha : a + 4 * (ds.length + 1) ≤ σ.nextFree) (h : FieldH σ σ' d a m1) (h' : FieldsH σ' σ'' ds (a + 4) m2) :
    FieldsH σ σ'' (d :: ds) a (fun x => m1 x + m2 x) := by
  have n1 := h.alters.nextFree
  have n2 := h'.alters.nextFree
  have hm : ∀ x, σ.nextFree ≤ x → x < σ'.nextFree → σ''.mem x = σ'.mem x :=
    fun x h1 h2 => h'.alters.mem x h2 fun hc => by have := hc.2; omega
  refine ⟨?_, ?_, fun x => ?_, fun x hx => ?_, ?_⟩
  · refine (h.alters.mono fun x _ hx => ?_).trans (h'.alters.mono fun x _ hx => ?_)
    · exact ⟨hx.1, by have := hx.2; simp only [List.length_cons]; omega⟩
    · exact ⟨by have := hx.1; omega, by have := hx.2; simp only [List.length_cons]; omega⟩
  · have := h.room; have := h'.room
    simp only [List.length_cons, Data.counts]; omega
  · have := h.once x; have := h'.once x; have := h.fresh x; have := h'.fresh x
    omega
  · have := h.fresh x; have := h'.fresh x
    omega
  · simp only [HoldsFs]
    refine ⟨m1, m2, ⟨fun x h1 h2 => .inl ⟨h1, by simp only [List.length_cons]; omega⟩, ?_⟩, ?_, fun _ => rfl⟩
    · rw [h'.alters.leNat (by omega) fun x h1 h2 h3 => by have := h3.1; omega]
      refine Holds.change n2 (fun x hx => .inr ⟨hx.1, by have := hx.2.1; omega, ?_⟩) (fun x hx => hm x hx.1 hx.2.1)
        (fun x hx => hm x (h.fresh x hx).1 (h.fresh x hx).2) h.holds
      have := hx.2.2; have := hx.2.1; have := h'.fresh x
      dsimp only; omega
    · refine HoldsFs.change (Nat.le_refl _) (fun x hx => ?_) (fun _ _ => rfl) (fun _ _ => rfl) h'.holds
      rcases hx with hx | hx
      · exact .inl ⟨by have := hx.1; omega, by have := hx.2; simp only [List.length_cons]; omega⟩
      · refine .inr ⟨by have := hx.1; omega, hx.2.1, ?_⟩
        have := hx.1; have := hx.2.2; have := h.fresh x
        dsimp only; omega

/-- The store of a pointer to a copy into its cell. -/
theorem Copy.field {d : Data} {w' a : Nat} {m : Nat → Nat} (h : Copy σ σ' d w' m) (ha : a + 4 ≤ σ.nextFree) :
    FieldH σ (σ'.setMem (putLe σ'.mem a 4 w')) d a m := by
  have hn := h.ext.nextFree
  have hlt := h.lt
  have hc : leNat (putLe σ'.mem a 4 w') a 4 = w' := by rw [leNat_putLe_same, Nat.mod_eq_of_lt (by omega)]
  refine ⟨?_, h.room, h.once, h.fresh, ?_⟩
  · refine h.ext.alters.write (fun x hx hr => putLe_out ?_) (fun x hx => ?_)
    · by_cases h1 : a ≤ x
      · exact .inr (Nat.le_of_not_lt fun h2 => hr ⟨h1, by omega⟩)
      · omega
    · rw [putLe_out (by omega), h.ext.fresh x hx]
  · rw [setMem_mem, hc]
    exact Holds.change (σ := σ') (σ' := σ'.setMem (putLe σ'.mem a 4 w')) (Nat.le_refl _) (fun _ h => h)
      (fun x hx => putLe_out (by have := hx.1; omega))
      (fun x hx => putLe_out (by have := h.fresh x hx; omega)) h.holds

/-- The same for numbers, which get a cell of their own. -/
theorem Alloced.fieldH {v : MVal} {R : Nat → Prop} {w a : Nat} (hs : v.ty.isReg = true)
    (h : Alloced v.ty.size σ σ') (hr : Mv.Rep σ.mem R v.ty.mv (.num v.n) w) (ha : a + 4 ≤ σ.nextFree) :
    FieldH σ (σ'.setMem (putLe (putLe σ'.mem σ.nextFree v.ty.size w) a 4 σ.nextFree)) (.num v) a (ind σ.nextFree v.ty.size) := by
  have hn := h.nextFree
  have h1 := h.extends.alloc.nextFree_le
  have h2 := h.extends.alloc.size_lt
  have hsz := v.ty.size_le
  obtain ⟨e1, e2, e3⟩ := hr.scalar (by rw [STy.mv_scalar, hs])
  rw [STy.mv_size] at e2
  have hc : leNat (putLe (putLe σ'.mem σ.nextFree v.ty.size w) a 4 σ.nextFree) a 4 = σ.nextFree := by
    rw [leNat_putLe_same, Nat.mod_eq_of_lt (by omega)]
  have hc' : leNat (putLe (putLe σ'.mem σ.nextFree v.ty.size w) a 4 σ.nextFree) σ.nextFree v.ty.size = w := by
    rw [leNat_putLe_disj (by omega), leNat_putLe_same, Nat.mod_eq_of_lt e2]
  refine ⟨?_, ?_, fun x => ind_le, fun x hx => ?_, ?_⟩
  · refine h.extends.alters.write (fun x hx hr => ?_) (fun x hx => ?_)
    · rw [putLe_out, putLe_out (by omega)]
      by_cases h1 : a ≤ x
      · exact .inr (Nat.le_of_not_lt fun h2 => hr ⟨h1, by omega⟩)
      · omega
    · rw [putLe_out (by omega), putLe_out (by omega), h.extends.fresh x hx]
  · simp only [Data.count, setMem_nextFree]; omega
  · rw [ind_pos] at hx
    simp only [setMem_nextFree]; omega
  · simp only [Holds]
    rw [setMem_mem, hc]
    refine ⟨?_, fun x => by simp [STy.bytes, hs]⟩
    unfold Cell
    rw [if_pos hs]
    refine ⟨by rw [setMem_nextFree]; omega, ?_⟩
    rw [setMem_mem, hc']
    exact Mv.Rep.repV (R := fun _ => False) (e3 _ _) (fun _ h => h.elim)

theorem Ty.mvs_length : ∀ ts : List Ty, (Ty.mvs ts).length = ts.length
  | [] => rfl
  | _ :: ts => by simp [Ty.mvs, Ty.mvs_length ts]

theorem Data.tys_length : ∀ ds : List Data, (Data.tys ds).length = ds.length
  | [] => rfl
  | _ :: ds => by simp [Data.tys, Data.tys_length ds]

theorem count_pos (d : Data) : 1 ≤ d.count := by cases d <;> simp [Data.count]

theorem counts_ge : ∀ ds : List Data, ds.length ≤ Data.counts ds
  | [] => by simp
  | d :: ds => by
    have := counts_ge ds
    have := count_pos d
    simp [Data.counts]; omega

theorem copyFieldsH {ds : List Data} (hds : ∀ d ∈ ds, d.isReg = false → CopyH E d) {R : Nat → Prop}
    {p q off src dst b k : Nat} {s l : List Nat} {is : List Instr} {Q : Res → Prop}
    (hσ : Heap σ) {n : Nat} (hfit : Room σ n)
    (hn : 36 * Data.counts ds ≤ n + 4 * ds.length) (hR : ∀ x, R x → x < σ.nextFree)
    (hd : ∀ x, R x → ¬ cells (q + off) ds.length x)
    (hr : Mv.RepFs σ.mem R (Ty.mvs (Data.tys ds)) (Data.mvs ds) (p + off))
    (hsrc : lget l src = p) (hdst : lget l dst = q) (hq : q + off + 4 * ds.length ≤ σ.nextFree)
    (hq' : reserved ≤ q) (h1 : src < b) (h2 : dst < b) (h3 : b + 3 ≤ k)
    (hl : k + nlFs (Ty.mvs (Data.tys ds)) ≤ l.length)
    (h : ∀ σ' l' m, FieldsH σ σ' ds (q + off) m → l'.length = l.length → (∀ j, j < b → lget l' j = lget l j) →
      wp is s l' σ' Q) :
    wp (copyFields E (Ty.mvs (Data.tys ds)) src dst b k off ++ is) s l σ Q := by
  induction ds generalizing σ off k l n with
  | nil =>
    simp only [Data.tys, Ty.mvs, copyFields, List.nil_append]
    refine h σ l (fun _ => 0) ⟨hσ.refl.alters, by simp [Data.counts], fun _ => by simp, fun _ h => absurd rfl h,
      by simp only [HoldsFs, implies_true]⟩ rfl (fun _ _ => rfl)
  | cons d ds ih =>
    simp only [Data.tys, Ty.mvs, Data.mvs, Mv.RepFs] at hr
    obtain ⟨v, vs, e0, r1, r2, r3, r4⟩ := hr
    simp only [List.cons.injEq] at e0
    obtain ⟨rfl, rfl⟩ := e0
    simp only [List.length_cons] at hq
    simp only [Data.tys, Ty.mvs, nlFs] at hl
    simp only [Data.counts, List.length_cons] at hn
    have hcg := counts_ge ds
    have hcg' : 1 ≤ d.count := count_pos d
    have s1 := hσ.alloc.nextFree_le
    have s2 := hσ.alloc.size_lt
    have b1 := r1.lt hR (by omega)
    have step : ∀ σ1 l1 m1, FieldH σ σ1 d (q + off) m1 → l1.length = l.length →
        (∀ j, j < b → lget l1 j = lget l j) →
        wp (copyFields E (Ty.mvs (Data.tys ds)) src dst b (k + nlP d.ty.mv) (off + 4) ++ is) s l1 σ1 Q := by
      intro σ1 l1 m1 hf hl1 hloc
      have n1 := hf.room
      have m1 := hf.alters.nextFree
      have hRmem : ∀ x, R x → σ1.mem x = σ.mem x := fun x hx =>
        hf.alters.mem x (hR x hx) fun hc => hd x hx ⟨hc.1, by have := hc.2; simp only [List.length_cons]; omega⟩
      refine ih (fun t' ht' => hds t' (List.mem_cons_of_mem _ ht')) (off := off + 4) (n := 36 * Data.counts ds - 4 * ds.length)
        (hf.alters.heap hσ fun x hx => ?_) ?_ (by omega) (fun x hx => Nat.lt_of_lt_of_le (hR x hx) m1) ?_ ?_ ?_ ?_ (by omega)
        (by omega) (by omega) ?_
      · have := hx.1; unfold reserved at hq'; omega
      · exact Room.after (k := 36 * d.count - 4) (hfit.mono (by omega)) (by omega) hf.alters.maxPages
      · intro x hx hc
        exact hd x hx ⟨by have := hc.1; omega, by have := hc.2; simp only [List.length_cons]; omega⟩
      · exact _root_.Mv.RepFs.change hRmem (fun _ h => h) _ r4
      · rw [hloc src h1, hsrc]
      · rw [hloc dst h2, hdst]
      · intro σ2 l2 m2 hc hl2 hloc2
        exact h σ2 l2 _ (hf.cons (by omega) hc) (by omega) fun j hj => by rw [hloc2 j hj, hloc j hj]
    simp only [Data.tys, Ty.mvs]
    unfold copyFields
    by_cases hs : d.ty.mv.scalar = true
    · rw [if_pos hs] at r3 ⊢
      obtain ⟨u, rfl, hu⟩ : ∃ u, d = .num u ∧ u.ty.isReg = true := by
        cases d with
        | num u => exact ⟨u, rfl, by rw [← STy.mv_scalar]; exact hs⟩
        | struct id ds => simp [Data.ty, Ty.mv, Mv.Ty.scalar] at hs
      have b2 := (r2 hs).lt hR (Mv.Ty.size_pos _)
      simp only [Data.ty, Ty.mv, STy.mv_size, Data.mv] at b2 r3 ⊢
      have hts8 := u.ty.size_le
      simp only [Data.count] at hn
      have hv1 : (if u.ty.size = 8 then b + 1 else b) < b + 2 := by split <;> omega
      have hv2 : b ≤ (if u.ty.size = 8 then b + 1 else b) := by split <;> omega
      generalize (if u.ty.size = 8 then b + 1 else b) = vl at hv1 hv2
      wstep
      rw [hsrc]
      wstep
      refine wp_allocR hσ hfit (by omega) fun σ1 a1 => ?_
      have c1 := a1.inside
      have c2 := a1.nextFree
      have c3 := a1.size
      wstep
      rw [hdst]
      refine step _ _ _ (Alloced.fieldH hu a1 r3 (by omega)) (by simp only [lset_length]) fun j hj => ?_
      rw [lget_lset_ne (by omega), lget_lset_ne (by omega)]
    · rw [if_neg hs] at r3 ⊢
      have hs' : d.isReg = false := by
        cases d with
        | num u => rw [Data.isReg, Data.ty, Ty.isReg, ← STy.mv_scalar]; simpa [Data.ty, Ty.mv] using hs
        | struct id ds => rfl
      wstep
      rw [hsrc]
      simp only [List.append_assoc]
      refine hds d (List.mem_cons_self ..) hs' σ R _ k s _ _ Q hσ (hfit.mono (by omega)) hR r3 ?_ ?_
      · simp only [lset_length]; omega
      intro σ1 w' l1 m1 hc hl1 hloc
      simp only [lset_length] at hl1
      have hd1 : lget l1 dst = q := by rw [hloc dst (by omega), lget_lset_ne (by omega), hdst]
      have c3 := hc.ext.size
      have c4 := hc.ext.alloc.nextFree_le
      have c5 := hc.ext.alloc.size_lt
      wstep
      rw [hd1]
      refine step _ _ _ (hc.field (by omega)) ?_ fun j hj => ?_
      · simp only [lset_length]; omega
      rw [lget_lset_ne (by omega), hloc j (by omega), lget_lset_ne (by omega)]

theorem copyH_struct {id : Nat} {ds : List Data} (hds : ∀ d ∈ ds, d.isReg = false → CopyH E d) :
    CopyH E (.struct id ds) := by
  intro σ R w k s l is Q hσ hroom hR hrep hl h
  simp only [Data.ty, Ty.mv, Data.mv, Mv.Rep, Mv.Val.struct.injEq] at hrep
  obtain ⟨vs, rfl, hr⟩ := hrep
  simp only [Data.count] at hroom
  simp only [Data.ty, Ty.mv, nlP] at hl ⊢
  have hcg := counts_ge ds
  have s1 := hσ.alloc.nextFree_le
  have s2 := hσ.alloc.size_lt
  have s3 := hroom.1
  have hlen : (Ty.mvs (Data.tys ds)).length = ds.length := by rw [Ty.mvs_length, Data.tys_length]
  simp only [copyP, hlen]
  wstep
  refine wp_allocR hσ hroom (by omega) fun σ1 a1 => ?_
  have c1 := a1.inside
  have c2 := a1.nextFree
  have c3 := a1.size
  have c4 := a1.heap.alloc.size_lt
  wstep
  simp only [List.append_assoc]
  refine copyFieldsH hds (R := R) (p := w) (q := σ.nextFree) (off := 0) (src := k) (dst := k + 1) (b := k + 2) (k := k + 5)
    (n := 36 * Data.counts ds - 4 * ds.length) a1.heap
    (Room.after (k := 4 * ds.length) (hroom.mono (by omega)) (by omega) a1.maxPages) (by omega) (fun x hx => by have := hR x hx; omega)
    (fun x hx hc => by have := hR x hx; have := hc.1; omega) (by rw [a1.mem]; exact hr) ?_ ?_ (by omega)
    hσ.base (by omega) (by omega) (by omega) ?_ ?_
  · rw [lget_lset_ne (by omega), lget_lset_same (by omega)]
  · rw [lget_lset_same (by simp only [lset_length]; omega)]
  · simp only [lset_length]; omega
  intro σ2 l2 m hc hl2 hloc
  have n2 := hc.room
  have n3 := hc.alters.nextFree
  simp only [lset_length] at hl2
  wstep
  rw [hloc (k + 1) (by omega), lget_lset_same (by simp only [lset_length]; omega)]
  refine h σ2 σ.nextFree l2 m ⟨a1.extends.then hc.alters (fun x hx => hx.1), ?_, hc.once, fun x hx => ?_, ?_, by omega⟩ hl2 fun j hj => ?_
  · simp only [Data.count]; omega
  · have := hc.fresh x hx; omega
  · simp only [Holds]
    refine ⟨by omega, HoldsFs.change (Nat.le_refl _) (fun x hx => ?_) (fun _ _ => rfl) (fun _ _ => rfl) hc.holds⟩
    rcases hx with hx | hx
    · have := hx.2
      refine ⟨hx.1, by omega, ?_⟩
      have := hc.fresh x; omega
    · exact ⟨by have := hx.1; omega, hx.2.1, hx.2.2⟩
  · rw [hloc j (by omega), lget_lset_ne (by omega), lget_lset_ne (by omega)]

mutual
/-- Copies of all values. -/
theorem copyH_ok (E : ErrPtrs) : ∀ d : Data, d.isReg = false → CopyH E d
  | .num _, h => copyH_num h
  | .struct _ ds, _ => copyH_struct (copyHs_ok E ds)
theorem copyHs_ok (E : ErrPtrs) : ∀ ds : List Data, ∀ d ∈ ds, d.isReg = false → CopyH E d
  | [], _, h => absurd h (by simp)
  | d :: ds, d', h => by
    rcases List.mem_cons.mp h with h | h
    · exact h ▸ copyH_ok E d
    · exact copyHs_ok E ds d' h
end

end Move
