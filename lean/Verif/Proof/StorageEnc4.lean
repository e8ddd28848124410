import Verif.Proof.StorageEnc3

/-! The emitted encoder computes `enc`: objects. -/

namespace Rt
open Wasm Slots Mv Layout

variable {σ σ' σ'' : Store} {E : ErrPtrs} {T : Ty → Nat}

/-- Values of locals. -/
macro "lsimp" : tactic => `(tactic| simp (disch := first | assumption | omega | (simp only [lset_length]; omega)) only
  [lget_lset_same, lget_lset_ne, lset_length])

/-- The id of an object and the pointers to it. -/
structure UidAt (f : Bytes) (R : Nat → Prop) (uid : Val) (w p1 p2 p : Nat) : Prop where
  e1 : leNat f w 4 = p1
  e2 : leNat f p1 4 = p2
  e3 : leNat f p2 4 = p
  w1 : Within R w 4
  w2 : Within R p1 4
  w3 : Within R p2 4
  within : Within R p 32
  uid : uid = .struct [.struct [.num (beNat f p 32)]]

theorem uid_rep {f : Bytes} {R : Nat → Prop} {fs : List Ty} {vs : List Val} {w : Nat}
    (h : Mv.RepFs f R (uidTy :: fs) vs w) :
    ∃ uid vs' p1 p2 p, vs = uid :: vs' ∧ UidAt f R uid w p1 p2 p ∧ Mv.RepFs f R fs vs' (w + 4) := by
  simp only [Mv.RepFs, uidTy, Mv.Rep, Ty.scalar] at h
  obtain ⟨v, vs', rfl, h1, -, ⟨vs1, rfl, v1, vs2, rfl, h2, -, ⟨vs3, rfl, v2, vs4, rfl, h3, -, ⟨rfl, h4⟩, rfl⟩, rfl⟩, h5⟩ := h
  exact ⟨_, _, _, _, _, rfl, ⟨rfl, rfl, rfl, h1, h2, h3, h4, rfl⟩, h5⟩

theorem UidAt.idOf {f : Bytes} {R : Nat → Prop} {uid : Val} {w p1 p2 p : Nat} (h : UidAt f R uid w p1 p2 p) :
    idOf uid = beNat f p 32 := by rw [h.uid]; rfl

theorem UidAt.ptr {R : Nat → Prop} {uid : Val} {w p1 p2 p a : Nat} (h : UidAt σ.mem R uid w p1 p2 p)
    (hs : Safe σ R a) (hσ : Heap σ) : Evaluates getIdBytesPtr [w] σ p := by
  have h1 := Within.bounds h.w1 hs (by omega)
  have h2 := Within.bounds h.w2 hs (by omega)
  have h3 := Within.bounds h.w3 hs (by omega)
  have h4 := hσ.alloc.nextFree_le
  exact getIdBytesPtr_spec h.e1 h.e2 h.e3 (by omega) (by omega) (by omega)

theorem UidAt.change {f g : Bytes} {R S : Nat → Prop} {uid : Val} {w p1 p2 p : Nat} (h : UidAt f R uid w p1 p2 p)
    (hm : ∀ x, R x → g x = f x) (hS : ∀ x, R x → S x) : UidAt g S uid w p1 p2 p :=
  ⟨by rw [h.w1.leNat hm, h.e1], by rw [h.w2.leNat hm, h.e2], by rw [h.w3.leNat hm, h.e3], h.w1.mono hS, h.w2.mono hS,
    h.w3.mono hS, h.within.mono hS, by rw [h.within.beNat hm, h.uid]⟩

/-- The cell of the enclosing value is not written. -/
theorem Sim.cell_inner {a b : Nat} {st : St} (h : Sim σ a st) (hb : σ.nextFree ≤ b) (hl : Later (scr b) σ σ') :
    beNat σ'.mem a 32 = st.slot := by
  have h1 := h.inside
  have h2 := h.cell
  have h3 := h.base
  rw [hl.beNat h1 fun x hx hx' => by unfold scr sizeTable hashBuf; unfold Cell at h2; omega, h.slot]

theorem Later.outer {a b : Nat} (h : Later (scr b) σ σ') (hb : σ.nextFree ≤ b) : Later (scr a) σ σ' :=
  h.mono fun x hx hr => by unfold scr sizeTable hashBuf at hr ⊢; omega

theorem Sim.leave {a b n : Nat} {st st1 : St} (h : Sim σ a st) (hb : σ.nextFree ≤ b) (h1 : Enced b σ σ' n st1)
    (off : Nat) (ho : off ≤ 32) : Enced a σ σ' n ⟨st1.stor, st1.buf, st.slot, off⟩ :=
  ⟨h1.later.outer hb, ⟨h1.sim.heap, h1.sim.statics, h.cell, h.inside.trans h1.later.nextFree, h.cell_inner hb h1.later, ho,
    h1.sim.stor, h1.sim.buf⟩, h1.cost⟩

/-- A new cell. -/
theorem Sim.enter {a : Nat} {st : St} (h : Sim σ a st) (h1 : Alloced 32 σ σ') :
    Enced σ.nextFree σ σ' 32 ⟨st.stor, st.buf, 0, st.off⟩ := by
  have h2 := h.base
  refine ⟨h1.later _, ⟨h1.heap, h.statics.of_mem h1.mem, Or.inr h2, by rw [h1.nextFree], ?_, h.off, by rw [h1.host, h.stor],
    by rw [h1.mem, h.buf]⟩, by rw [h1.nextFree]⟩
  exact beNat_zero_of fun x hx _ => by rw [h1.mem]; exact h.heap.fresh x hx

theorem tag_word (x : Nat) : setDig 0 0 8 (bswap 8 x) = bswap 8 x := by
  have := bswap_lt 8 x
  unfold setDig low
  rw [Nat.mod_eq_of_lt this]; simp

/-- The header of an object is put into the buffer. -/
theorem wp_header {a : Nat} {st : St} {t : Ty} {is s l Q} (h : Sim σ a st)
    (hk : ∀ σ1, Enced a σ σ1 0 ⟨st.stor, bswap 8 (T t), st.slot, 8⟩ → wp is s l σ1 Q) :
    wp (code[Op.memCopy, Op.c32 64, Op.c64 (T t), Op.store 8 24] ++ is) (32 :: 0 :: 64 :: s) l σ Q := by
  have h1 := h.base
  have h2 := h.nf
  have hc := h.cell
  wstep
  have z : beNat (copyBytes σ.mem 64 0 32) 64 32 = 0 := by
    rw [beNat_copy]; exact zero_be h.statics
  have w1 : Enced a σ (σ.setMem (copyBytes σ.mem 64 0 32)) 0 ⟨st.stor, 0, st.slot, 8⟩ := by
    refine h.write (fun x hx => copyBytes_out ?_) ?_ (show 8 ≤ 32 by omega) rfl z
    · unfold scr at hx; omega
    · rw [beNat_congr fun y h1 h2 => copyBytes_out (by unfold Cell at hc; omega)]; exact h.slot
  have w2 := w1.sim.putBe (n := 8) (x := bswap 8 (T t)) (Nat.le_refl 8)
  have := w1.trans w2
  rw [← putLe_bswap, bswap_bswap] at this
  unfold St.put at this
  simp only [Nat.sub_self, tag_word, setMem_mem] at this
  rw [putLe_mod (Nat.le_refl 8)] at this
  exact hk _ this

/-- A new slot in the cell. -/
theorem Sim.move {a v : Nat} {st : St} (h : Sim σ a st) (ht : Touches (fun x => hashBuf x ∨ a ≤ x ∧ x < a + 32) σ σ')
    (hv : beNat σ'.mem a 32 = v) : Enced a σ σ' 0 { st with slot := v } := by
  have hc := h.cell
  rw [ht.eq]
  refine h.write (fun x hx => ht.mem x ?_) hv h.off rfl ?_
  · unfold scr sizeTable hashBuf at hx; unfold hashBuf; omega
  · rw [ht.beNat fun x h1 h2 => by unfold hashBuf; unfold Cell at hc; omega]; exact h.buf

theorem encObject_run {fs : List Ty} (hfs : EncsRun E T fs) : EncRun E T (.object (uidTy :: fs)) := by
  intro σ R K o fld v w a st st' sp so ow k s l is Q hp hl hk
  have hr := hp.arg.ptr rfl
  simp only [Mv.Rep] at hr
  obtain ⟨vs, -, rfl, -, hr⟩ := hr
  obtain ⟨uid, vs, p1, p2, p, rfl, hu, hr⟩ := uid_rep hr
  have hrun := hp.run
  simp only [enc, Option.map_eq_some_iff] at hrun
  obtain ⟨s1, hrun, rfl⟩ := hrun
  have hsok := hl.sok
  have hspk := hl.spk
  have howk := hl.owk
  have hlen := hl.len
  have hspo := hl.spo
  have howo := hl.owo
  have hroom := hp.room
  have hsim := hp.sim
  have f1 := hsim.nf
  have f2 := hsim.base
  have f3 := hsim.lt
  simp only [ecost] at hroom hk
  simp only [nlEnc] at hlen
  have hbp := Within.bounds hu.within hp.safe (by omega)
  have hbo := Within.bounds hl.owner.1 hp.safe (by omega)
  simp only [encT, List.append_assoc]
  wstep
  refine wp_call1 (hu.ptr hp.safe hsim.heap) ?_
  rintro r σ0 ⟨rfl, rfl⟩
  wstep
  refine wp_allocR hsim.heap hroom (Nat.le_add_right ..) fun σ1 a1 => ?_
  have g1 := a1.nextFree
  have g2 := a1.size
  have g3 := a1.inside
  have en := hsim.enter a1
  wstep
  refine wp_call3 (writeObjectSlot_spec (by omega) (en.sim.statics.objects) (by omega) (by omega) (by omega) (Or.inr (by omega)) (Or.inr (by omega)) (by omega)) ?_
  rintro r σ2 ⟨rfl, hslot, ht⟩
  have en2 := en.trans (en.sim.move ht hslot)
  wstep
  refine wp_header en2.sim fun σ3 en3 => ?_
  have en4 := en2.trans en3
  have hnb : ∀ x, R x → σ3.mem x = σ0.mem x := fun x hx => en4.later.mem x (hp.safe x hx).2.1
    (by have := hp.safe x hx; unfold scr sizeTable hashBuf; omega)
  have hs4 : Safe σ3 R σ0.nextFree := fun x hx => by
    have := hp.safe x hx; have := en4.later.nextFree; omega
  have hu4 := hu.change hnb fun _ h => h
  wstep
  refine wp_call1 (hu4.ptr hs4 en3.sim.heap) ?_
  rintro r σ4 ⟨rfl, rfl⟩
  wstep
  rw [a1.host, a1.mem, hp.keccak, hl.owner.2, ← hu.idOf] at en4
  have hc4 := en4.cost
  obtain ⟨L, hL⟩ : ∃ L, L = lset (lset (lset (lset (lset (lset l (k + 2) w) (k + 3) p) (k + 4) σ0.nextFree) so 0) so 8)
    (k + 5) p := ⟨_, rfl⟩
  rw [← hL]
  have eq : ∀ j, j < k → j ≠ so → lget L j = lget l j := fun j hj hjs => by subst hL; lsimp
  have eL : L.length = l.length := by subst hL; lsimp
  have e3 : lget L (k + 3) = p := by subst hL; lsimp
  have e4 : lget L (k + 4) = σ0.nextFree := by subst hL; lsimp
  have e5 : lget L (k + 5) = p := by subst hL; lsimp
  refine hfs σ4 R K (idOf uid) vs w σ0.nextFree _ s1 (k + 2) (k + 4) so (k + 5) (k + 6) 4 s _ _ Q en4.sim hs4
    (en4.later.keccak.trans hp.keccak) (RepFs.change hnb (fun _ h => h) fs hr) hrun
    (hroom.after (k := 32) (by omega) en4.later.maxPages)
    ⟨e4, by subst hL; lsimp, ⟨by rw [e5]; exact hu.within, by rw [e5, hu4.idOf]⟩, by omega, by omega, by omega, by omega, by omega, by omega⟩
    (by omega) (by omega) (by subst hL; lsimp) ?_
  intro σ5 l5 h5 hl5 hso5 hpres5
  have en5 := en4.trans h5
  have f4 := h5.sim.nf
  have f5 := h5.sim.inside
  have f6 := h5.sim.base
  have hbase := h5.later.nextFree
  have f7 := en4.later.nextFree
  have hu5 := hu4.change (fun x hx => h5.later.safe hs4 hx) fun _ h => h
  wstep
  rw [hpres5 (k + 4) (by omega) (by omega), e4, wp_storageCache (by omega) (by omega)]
  have en6 := en5.trans h5.sim.flush
  wstep
  rw [hpres5 (k + 3) (by omega) (by omega), e3, wp_memCopy (by simp only [stored_size]; omega) (by simp only [stored_size]; omega)]
  have en7 := hsim.leave (Nat.le_refl _) en6 32 (Nat.le_refl _)
  have hc := hsim.cell
  refine hk _ _ (Enced.mono (en7.trans (en7.sim.write (st' := ⟨s1.view, idOf uid, st.slot, 32⟩) ?_ ?_ (Nat.le_refl 32) rfl ?_)) ?_) ?_ ?_ ?_
  · intro x hx
    unfold scr at hx
    exact copyBytes_out (by omega)
  · rw [beNat_congr fun y h1 h2 => copyBytes_out (by unfold Cell at hc; omega)]; exact en7.sim.slot
  · rw [beNat_copy]; exact hu5.idOf.symm
  · omega
  · rw [lset_length, hl5, eL]
  · exact lget_lset_same (by omega)
  · intro j hj hjs
    rw [lget_lset_ne hjs, hpres5 j (by omega) hjs, eq j hj hjs]


end Rt
