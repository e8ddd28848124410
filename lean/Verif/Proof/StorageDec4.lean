import Verif.Proof.StorageDec3

/-! The emitted decoder: objects. -/

namespace Rt
open Wasm Slots Mv Layout

variable {σ σ' σ'' : Store} {E : ErrPtrs} {T : Ty → Nat}

theorem Extends.later {R : Nat → Prop} (h : Extends σ σ') (hσ : Heap σ) : Later R σ σ' :=
  ⟨h.heap hσ, h.nextFree, h.size, fun x hx _ => h.mem x hx, h.maxPages, h.reader, by rw [h.host]⟩

/-- Type tags: numbers of 64 bits other than zero. -/
def Tags (T : Ty → Nat) : Prop := ∀ t, 0 < T t ∧ T t < 2 ^ 64

theorem bswap_pos {n x : Nat} (h0 : 0 < x) (h : x < 256 ^ n) : 0 < bswap n x := by
  rcases Nat.eq_zero_or_pos (bswap n x) with e | e
  · have h1 := bswap_bswap n x
    rw [e, Nat.mod_eq_of_lt h] at h1
    have h2 : bswap n 0 = 0 := by
      have : ∀ m, bswap m 0 = 0 := by
        intro m
        induction m with
        | zero => rfl
        | succ m ih => simp [bswap, ih]
      exact this n
    omega
  · exact e

/-- The checks in front of an object. -/
theorem wp_decHead {c sl m sp so ow id fop tmp n : Nat} {b d : Bool} {t : Ty} {is s l Q} (h : DSim σ c (sl, m) b)
    (hT : Tags T) (htag : dig (σ.host.storage sl) 0 8 = bswap 8 (T t)) (hfit : Fit σ d n) (hn : 32 ≤ n)
    (how : lget l ow + 32 ≤ σ.nextFree) (hsp : lget l sp = c) (hso : so < l.length) (hio : id ≠ so)
    (hk : ∀ σ', Deced (scr c) c c σ σ' 32 (sl, 8) true → σ'.nextFree = σ.nextFree + 32 →
      beNat σ'.mem σ.nextFree 32 = beNat σ.mem (lget l ow) 32 → wp is s (lset (lset l so 8) fop (lget l id)) σ' Q) :
    wp (decHead E T t sp so ow id fop tmp ++ is) s l σ Q := by
  have hb := h.base
  have hin := h.inside
  have hc := h.cell
  unfold decHead
  wstep
  refine wp_allocR h.heap hfit.1 hn fun σ1 a1 => ?_
  have hn1 := a1.nextFree
  have hi1 := a1.inside
  have hl1 := a1.heap.alloc.size_lt
  wstep
  have d1 := h.block (f := copyBytes σ1.mem σ.nextFree (lget l ow) 32) a1.extends a1.nextFree (fun y hy => copyBytes_out (by omega))
    fun y hy => copyBytes_out (by omega)
  obtain ⟨σ2, e2⟩ : ∃ σ2, σ2 = σ1.setMem (copyBytes σ1.mem σ.nextFree (lget l ow) 32) := ⟨_, rfl⟩
  have o2 : beNat σ2.mem σ.nextFree 32 = beNat σ.mem (lget l ow) 32 := by
    rw [e2, setMem_mem, beNat_copy, a1.mem]
  have n2 : σ2.nextFree = σ.nextFree + 32 := by rw [e2]; exact hn1
  rw [← e2] at d1 ⊢
  have z2 := d1.sim.nf
  have z2' := d1.sim.lt
  have hcs := d1.sim.slot
  rw [hsp, wp_storageLoad (by omega) (by omega), hcs, d1.host]
  have d2 : Deced (scr c) c c σ2 (σ2.setMem (putBe σ2.mem 64 32 (σ.host.storage sl))) 0 (sl, 8) true := by
    refine d1.sim.write (fun x hx => putBe_out ?_) ?_ (show 8 ≤ 32 by omega) fun _ => ?_
    · unfold scr at hx; omega
    · rw [beNat_congr fun y h1 h2 => putBe_out (by unfold Cell at hc; omega)]; exact hcs
    · rw [beNat_putBe_same, d1.host, show (256 : Nat) ^ 32 = 2 ^ 256 by norm_num]
  obtain ⟨σ3, e3⟩ : ∃ σ3, σ3 = σ2.setMem (putBe σ2.mem 64 32 (σ.host.storage sl)) := ⟨_, rfl⟩
  have o3 : beNat σ3.mem σ.nextFree 32 = beNat σ2.mem σ.nextFree 32 := by
    rw [e3]; exact beNat_congr fun y h1 h2 => putBe_out (by omega)
  have n3 : σ3.nextFree = σ2.nextFree := by rw [e3]; rfl
  rw [← e3] at d2 ⊢
  have z3 := d2.sim.nf
  have z3' := d2.sim.lt
  have d3 := d1.then d2
  have tag : leNat σ3.mem 88 8 = T t := by
    have h1 := buf_read (f := σ3.mem) (off := 8) (n := 8) (Nat.le_refl _) (by omega)
    rw [d2.sim.buf rfl, d3.host, dig_word (by omega), htag] at h1
    rw [← bswap_beNat, show (88 : Nat) = 96 - 8 from rfl, h1, bswap_bswap, Nat.mod_eq_of_lt (by have := (hT t).2; norm_num; omega)]
  have nz : leNat σ3.mem 64 32 ≠ 0 := by
    intro hz
    rw [leNat_split _ _ _ 24 (by omega), show leNat σ3.mem (64 + 24) (32 - 24) = T t from tag] at hz
    have h3 := Nat.mul_pos (Nat.pow_pos (n := 24) (show 0 < 256 by omega)) (hT t).1
    exact absurd (Nat.eq_zero_of_add_eq_zero_left hz) (Nat.ne_of_gt h3)
  wstep
  refine wp_call2 (isZero_spec (k := 8) z3' (by omega)) ?_
  rintro r σ4 ⟨rfl, rfl⟩
  rw [b2n_neg nz]
  wstep
  rw [tag]
  refine IfP.intro (fun _ => ?_) fun hne => absurd (Nat.mod_eq_of_lt (hT t).2).symm hne
  exact hk _ (d3.mono (by omega)) (by omega) (by rw [o3, o2])

/-- The id of an object that is read, and the memory of the object. -/
theorem wp_decUid {c k fp wr id n N : Nat} {q : Pos} {b d : Bool} {is s l Q} (h : DSim σ c q b)
    (hfit : Fit σ d N) (hN : 4 * (n + 1) + 12 ≤ N) (n1 : k ≠ fp) (n2 : k ≠ wr) (n3 : k ≠ id) (n4 : fp ≠ wr) (n5 : fp ≠ id)
    (n6 : wr ≠ id) (b1 : k < l.length) (b2 : fp < l.length) (b3 : wr < l.length) (b4 : id < l.length)
    (hid : lget l id < 2 ^ 32)
    (hk : ∀ σ' l', Extends σ σ' → σ'.nextFree = σ.nextFree + (4 * (n + 1) + 12) → l'.length = l.length → lget l' k = σ.nextFree →
      leNat σ'.mem σ.nextFree 4 = σ.nextFree + 4 * (n + 1) + 4 →
      leNat σ'.mem (σ.nextFree + 4 * (n + 1) + 4) 4 = σ.nextFree + 4 * (n + 1) + 8 →
      leNat σ'.mem (σ.nextFree + 4 * (n + 1) + 8) 4 = lget l id →
      (∀ j, j ≠ k → j ≠ fp → j ≠ wr → lget l' j = lget l j) → wp is s l' σ' Q) :
    wp (code[Op.c32 (4 * (n + 1)), alloc.call, Op.lset k] ++ (decUid k fp wr id ++ is)) s l σ Q := by
  have hr := hfit.1.1
  obtain ⟨m, hm⟩ : ∃ m, m = 4 * (n + 1) := ⟨_, rfl⟩
  rw [← hm] at hk ⊢
  unfold decUid
  wstep
  refine wp_allocR h.heap hfit.1 (by omega) fun σ1 a1 => ?_
  have c1 := a1.nextFree
  wstep
  refine wp_allocR a1.heap ((hfit.1.mono (show m + 12 ≤ N by omega)).after (by omega) a1.maxPages) (show 4 ≤ 12 by omega) fun σ2 a2 => ?_
  have c2 := a2.nextFree
  have c2' := a2.inside
  have c2'' := a2.heap.alloc.size_lt
  have e2 := a1.extends.trans a2.extends
  wstep
  have e3 := e2.putLe (p := σ1.nextFree) (n := 4) (v := σ.nextFree) (by omega) (by omega)
  obtain ⟨σ3, h3⟩ : ∃ σ3, σ3 = σ2.setMem (putLe σ2.mem σ1.nextFree 4 σ.nextFree) := ⟨_, rfl⟩
  rw [← h3] at e3 ⊢
  have c3 : σ3.nextFree = σ2.nextFree := by rw [h3]; rfl
  refine wp_allocR (e3.heap h.heap) ((hfit.1.mono (show m + 4 + 8 ≤ N by omega)).after (by omega) e3.maxPages) (show 4 ≤ 8 by omega) fun σ4 a4 => ?_
  have c4 := a4.nextFree
  have e4 := e3.trans a4.extends
  wstep
  refine wp_allocR a4.heap ((hfit.1.mono (show m + 8 + 4 ≤ N by omega)).after (by omega) e4.maxPages) (Nat.le_refl 4) fun σ5 a5 => ?_
  have c5 := a5.nextFree
  have c5' := a5.inside
  have c5'' := a5.heap.alloc.size_lt
  have e5 := e4.trans a5.extends
  wstep
  have e6 := (((e5.putLe (p := σ4.nextFree) (n := 4) (v := lget l id) (by omega) (by omega)).putLe (p := σ3.nextFree) (n := 4)
    (v := σ4.nextFree) (by omega) (by simp only [setMem_nextFree]; omega)).putLe (p := σ.nextFree) (n := 4) (v := σ3.nextFree) (by omega)
    (by simp only [setMem_nextFree]; omega))
  refine hk _ _ e6 (by simp only [setMem_nextFree]; omega) (by simp only [lset_length]) (by lsimp) ?_ ?_ ?_ fun j j1 j2 j3 => ?_
  · simp only [setMem_mem]
    rw [leNat_putLe_same, Nat.mod_eq_of_lt (by norm_num; omega)]; omega
  · simp only [setMem_mem]
    rw [show σ.nextFree + m + 4 = σ3.nextFree by omega, leNat_putLe_disj (by omega), leNat_putLe_same, Nat.mod_eq_of_lt (by norm_num; omega)]; omega
  · simp only [setMem_mem]
    rw [show σ.nextFree + m + 8 = σ4.nextFree by omega, leNat_putLe_disj (by omega), leNat_putLe_disj (by omega), leNat_putLe_same,
      Nat.mod_eq_of_lt (by norm_num; omega)]
  · rw [lget_lset_ne j3, lget_lset_ne j2, lget_lset_ne j1]

/-- The locals are different. -/
structure Dist (k fp wr id sp so fop : Nat) : Prop where
  k1 : k ≠ fp
  k2 : k ≠ wr
  k3 : k ≠ id
  k4 : k ≠ sp
  k5 : k ≠ so
  k6 : k ≠ fop
  p1 : fp ≠ wr
  p2 : fp ≠ id
  p3 : fp ≠ sp
  p4 : fp ≠ so
  p5 : fp ≠ fop
  q1 : wr ≠ id
  q2 : wr ≠ sp
  q3 : wr ≠ so
  q4 : wr ≠ fop
  r1 : id ≠ sp
  r2 : id ≠ so
  r3 : id ≠ fop
  s1 : sp ≠ so
  s2 : sp ≠ fop
  t1 : so ≠ fop

/-- The checks of an object, its id and its fields. -/
theorem wp_object {fs : List Ty} (hfs : DecsRun E T fs) (hT : Tags T) {R : Nat → Prop} {K : List UInt8 → Nat} {c sl m n : Nat} {vs : List Val}
    {b b' d : Bool} {sp so ow id fop tmp k fp wr kk : Nat} {s l : List Nat} {is : List Instr} {Q : Res → Prop} {u : Ty} (hu : u = uidTy)
    (h : DSim σ c (sl, m) b) (hs : Safe σ R c) (hK : σ.host.keccak = K)
    (htag : dig (σ.host.storage sl) 0 8 = bswap 8 (T (.object (u :: fs))))
    (hid : Within R (lget l id) 32) (hidv : beNat σ.mem (lget l id) 32 = n) (how : lget l ow + 32 ≤ σ.nextFree) (hsp : lget l sp = c)
    (hh : Layout.HoldsFs K (fun t => bswap 8 (T t)) σ.host.storage n fs vs (sl, 8)) (hty : TypedFs fs vs)
    (hf : Layout.freshFs fs vs (sl, 8) true = some b') (hfit : Fit σ d (48 + 4 * fs.length + dcostFs fs vs))
    (hnar : Layout.narrowFs fs = true → d = true) (hbnd : (nexts fs (sl, 8)).1 < 2 ^ 256)
    (hseg : ∀ g ∈ Layout.segsFs K n fs vs (sl, 8), g.2 < 2 ^ 256)
    (hd : Dist k fp wr id sp so fop) (hj : ∀ j ∈ [k, fp, wr, id, sp, so, fop], j < kk) (hl : kk + nlDecFs fs ≤ l.length)
    (hk : ∀ σ' l' c' vs', Deced (scr c) c c' σ σ' (48 + 4 * fs.length + dcostFs fs vs) (nexts fs (sl, 8)) b' →
      Mv.Rep σ'.mem (fun x => R x ∨ Got σ σ' c' x) (.object (u :: fs))
        (.object (beNat σ.mem (lget l ow) 32) (.struct [.struct [.num n]] :: vs')) (σ.nextFree + 32) →
      eraseL vs' = eraseL vs → l'.length = l.length → lget l' k = σ.nextFree + 32 →
      (∀ j, j < kk → j ≠ k → j ≠ fp → j ≠ wr → j ≠ sp → j ≠ so → j ≠ fop → lget l' j = lget l j) → wp is s l' σ' Q) :
    wp (decHead E T (.object (u :: fs)) sp so ow id fop tmp ++ (code[Op.c32 (4 * (fs.length + 1)), alloc.call, Op.lset k] ++
      (decUid k fp wr id ++ (decFs E T k fp sp so fop fs kk 4 ++ is)))) s l σ Q := by
  have j1 := hj k (by simp)
  have j2 := hj fp (by simp)
  have j3 := hj wr (by simp)
  have j4 := hj id (by simp)
  have j5 := hj sp (by simp)
  have j6 := hj so (by simp)
  have j7 := hj fop (by simp)
  clear hj
  have hb := h.base
  have hbid := Within.bounds hid hs (by omega)
  have hlt := h.lt
  have hnf := h.nf
  refine wp_decHead h hT htag hfit (by omega) how hsp (by omega) hd.r2 fun σ1 d1 n1 o1 => ?_
  obtain ⟨L, hL⟩ : ∃ L, L = lset (lset l so 8) fop (lget l id) := ⟨_, rfl⟩
  rw [← hL]
  have eL : ∀ j, j ≠ so → j ≠ fop → lget L j = lget l j := fun j g1 g2 => by rw [hL, lget_lset_ne g2, lget_lset_ne g1]
  have eLl : L.length = l.length := by rw [hL, lset_length, lset_length]
  have eid : lget L id = lget l id := eL id hd.r2 hd.r3
  have eso : lget L so = 8 := by rw [hL, lget_lset_ne hd.t1, lget_lset_same (by omega)]
  have efop : lget L fop = lget l id := by rw [hL, lget_lset_same (by rw [lset_length]; omega)]
  refine wp_decUid d1.sim (hfit.deced d1 (n := 4 * (fs.length + 1) + 12 + dcostFs fs vs) (by omega)) (by omega)
    hd.k1 hd.k2 hd.k3 hd.p1 hd.p2 hd.q1 (by omega) (by omega) (by omega) (by omega) (by rw [eid]; omega)
    fun σ2 l2 e2 n2 hl2 lk u1 u2 u3 pres2 => ?_
  have d2 : Deced (scr c) c c σ1 σ2 (4 * (fs.length + 1) + 12) (sl, 8) true :=
    d1.sim.block (f := σ2.mem) e2 n2 (fun _ _ => rfl) fun _ _ => rfl
  have d12 := d1.then d2
  have sf2 := d12.safe hs
  have hin := h.inside
  obtain ⟨W, hW⟩ : ∃ W, W = σ.nextFree + 32 := ⟨_, rfl⟩
  have hW1 : σ1.nextFree = W := by omega
  rw [hW1] at lk u1 u2 u3 n2
  rw [← hW] at hk
  have hP : Safe σ2 (Between (W + 4) (W + 4 + 4 * fs.length)) c := fun x hx => by obtain ⟨c1, c2⟩ := hx; omega
  have hid2 : beNat σ2.mem (lget l id) 32 = n := by rw [hid.beNat fun x hx => d12.later.safe hs hx, hidv]
  refine hfs σ2 R K n vs W c (sl, 8) true b' d k fp sp so fop kk 4 s l2 is Q
    ⟨d2.sim, sf2, hP, fun x hx hr => ?_, d12.later.keccak.trans hK, by rw [d12.host]; exact hh, hty, hf, hfit.deced d12 (by omega), hnar, hbnd, hseg⟩
    ⟨?_, ?_, ?_, j2, j5, j6, j7, hd.s1, hd.t1.symm, hd.s2.symm, hd.p4, hd.p3, hd.p5.symm, by omega⟩ j1 hd.k5 hd.k4 hd.k1 lk ?_
  · have := (hs x hr).2.1; have := hx.1; omega
  · rw [pres2 sp hd.k4.symm hd.p3.symm hd.q2.symm, eL sp hd.s1 hd.s2, hsp]
  · rw [pres2 so hd.k5.symm hd.p4.symm hd.q3.symm, eso]
  · rw [pres2 fop hd.k6.symm hd.p5.symm hd.q4.symm, efop]
    exact ⟨hid, hid2⟩
  intro σ3 l3 c3 vs' d3 hr hl3 _ _ pres3
  have d13 := d12.trans d3 fun x hx hs' => by
    rcases hs' with hs' | hs'
    · exact hs'
    · have := hs'.1; omega
  have hgot := hr.got (σ0 := σ) d3 hP (by omega) d12.later
  have z2 := d2.sim.nf
  have z3 := d2.sim.lt
  have hfix : ∀ x, σ.nextFree ≤ x → x < σ2.nextFree → (x < W + 4 ∨ W + 4 + 4 * fs.length ≤ x) → σ3.mem x = σ2.mem x := fun x c1 c2 c3' => by
    refine d3.later.mem x c2 fun hx => ?_
    rcases hx with hx | ⟨g1, g2⟩
    · unfold scr sizeTable hashBuf at hx; omega
    · omega
  have hgin : ∀ x, σ.nextFree ≤ x → x < σ2.nextFree → Got σ σ3 c3 x := fun x c1 c2 => by
    have := d3.later.nextFree
    rcases d3.cell with e | e <;> exact ⟨c1, by omega, by omega⟩
  have hid3 : beNat σ3.mem (lget l id) 32 = n := by
    rw [hid.beNat fun x hx => d13.later.safe hs hx, hidv]
  refine hk σ3 l3 c3 vs' (d13.mono (by omega)) ?_ hr.erase (by omega) ?_ fun j hj g1 g2 g3 g4 g5 g6 => ?_
  · simp only [Mv.Rep]
    have how' : beNat σ3.mem (W - 32) 32 = beNat σ.mem (lget l ow) 32 := by
      rw [show W - 32 = σ.nextFree by omega, beNat_congr fun x c1 c2 => hfix x c1 (by omega) (by omega), ← o1]
      exact e2.beNat (by omega)
    refine ⟨_, by omega, by rw [how'], fun x c1 c2 => .inr (hgin x (by omega) (by omega)), ?_⟩
    rw [hu, uidTy]
    simp only [Mv.RepFs, Mv.Rep, Ty.scalar, Bool.false_eq_true, if_false]
    have v1 : leNat σ3.mem W 4 = W + 4 * (fs.length + 1) + 4 := by
      rw [leNat_congr fun x c1 c2 => hfix x (by omega) (by omega) (by omega), u1]
    have v2 : leNat σ3.mem (W + 4 * (fs.length + 1) + 4) 4 = W + 4 * (fs.length + 1) + 8 := by
      rw [leNat_congr fun x c1 c2 => hfix x (by omega) (by omega) (by omega), u2]
    have v3 : leNat σ3.mem (W + 4 * (fs.length + 1) + 8) 4 = lget l id := by
      rw [leNat_congr fun x c1 c2 => hfix x (by omega) (by omega) (by omega), u3, eid]
    refine ⟨_, _, rfl, fun x c1 c2 => .inr (hgin x (by omega) (by omega)), by simp, ?_, RepFs.change (fun _ _ => rfl) (fun x hx => .inr hx) fs hgot⟩
    rw [v1]
    refine ⟨_, rfl, _, _, rfl, fun x c1 c2 => .inr (hgin x (by omega) (by omega)), by simp, ?_, rfl⟩
    rw [v2]
    refine ⟨_, rfl, _, _, rfl, fun x c1 c2 => .inr (hgin x (by omega) (by omega)), by simp, ?_, rfl⟩
    rw [v3, hid3]
    exact ⟨rfl, fun x c1 c2 => .inl (hid x c1 c2)⟩
  · rw [pres3 k j1 hd.k5 hd.k4 hd.k1, lk]
  · rw [pres3 j hj g5 g4 g2, pres2 j g1 g2 g3, eL j g5 g6]

end Rt
