import Verif.Proof.Delete2
import Verif.Proof.StorageEnc8

/-! The emitted code for deleting values: all types, and `deleteObject`. -/

namespace Rt
open Wasm Slots Mv Layout

variable {σ σ' σ'' : Store} {E : ErrPtrs}

mutual
theorem del_run (t : Ty) (h : Storable t) : DelRun E t := by
  match t with
  | .bool | .u8 | .u16 | .u32 | .u64 | .u128 | .u256 | .address | .object _ =>
    exact delAtom_run (by simp [delT]) (by simp [del])
  | .struct fs => rw [Storable] at h; exact delStruct_run (dels_run fs h.2)
  | .enum vss => rw [Storable] at h; exact delEnum_run (sizeOk h.2.1)
  | .vec t => rw [Storable] at h; exact delVec_run (del_run t h)
theorem dels_run (ts : List Ty) (h : StorableFs ts) : DelsRun E ts := by
  match ts with
  | [] => exact delFs_nil
  | t :: ts => rw [StorableFs] at h; exact delFs_cons (del_run t h.1) (dels_run ts h.2)
end

/-- The object at `w` in memory, with the id at `u`. -/
theorem rep_idAt' {R : Nat → Prop} {fs : List Ty} {uid : Val} {vs : List Val} {w a ow : Nat} (hσ : Heap σ) (hsafe : Safe σ R a)
    (hrep : Mv.Rep σ.mem R (.object (uidTy :: fs)) (.object ow (uid :: vs)) w) :
    ∃ u, IdAt σ w u ∧ beNat σ.mem u 32 = idOf uid ∧ beNat σ.mem (w - 32) 32 = ow ∧ w ≤ σ.nextFree ∧ Within R (w - 32) 32 ∧
      u + 32 ≤ σ.nextFree := by
  simp only [Mv.Rep] at hrep
  obtain ⟨vs0, h32, hv, hwo, hr⟩ := hrep
  obtain ⟨uid', vs', p1, p2, p, rfl, hu, hr⟩ := uid_rep hr
  simp only [Val.object.injEq, List.cons.injEq] at hv
  obtain ⟨e0, e1, -⟩ := hv
  have h1 := Within.bounds hu.w1 hsafe (by omega)
  have h2 := Within.bounds hu.w2 hsafe (by omega)
  have h3 := Within.bounds hu.w3 hsafe (by omega)
  have h4 := Within.bounds hu.within hsafe (by omega)
  have h5 := Within.bounds hwo hsafe (by omega)
  have h6 := hσ.alloc.nextFree_le
  refine ⟨p, ⟨by omega, by omega, ?_, ?_, ?_, by omega, by omega⟩, ?_, e0.symm, by omega, hwo, by omega⟩
  · rw [hu.e1]; omega
  · rw [hu.e1, hu.e2]; omega
  · rw [hu.e1, hu.e2, hu.e3]
  · rw [e1, hu.idOf]

theorem rep_idAt {R : Nat → Prop} {fs : List Ty} {uid : Val} {vs : List Val} {w a ow : Nat} (hσ : Heap σ) (hsafe : Safe σ R a)
    (hrep : Mv.Rep σ.mem R (.object (uidTy :: fs)) (.object ow (uid :: vs)) w) :
    ∃ u, IdAt σ w u ∧ beNat σ.mem u 32 = idOf uid ∧ beNat σ.mem (w - 32) 32 = ow ∧ w ≤ σ.nextFree ∧ Within R (w - 32) 32 := by
  obtain ⟨u, h1, h2, h3, h4, h5, -⟩ := rep_idAt' hσ hsafe hrep
  exact ⟨u, h1, h2, h3, h4, h5⟩

/-- A frozen object is not deleted. -/
theorem deleteObject_frozen {R : Nat → Prop} {fs gs : List Ty} {uid : Val} {vs : List Val} {w : Nat} (hσ : Heap σ) (hst : Statics σ)
    (hsafe : Safe σ R 128) (hrep : Mv.Rep σ.mem R (.object (uidTy :: gs)) (.object 2 (uid :: vs)) w) :
    (deleteObject E fs).Calls [w] σ (fun r σ' => r = [] ∧ σ' = errStore σ (E .frozenCannotBeDeleted)) := by
  obtain ⟨u, hid, hu, ho, hw, -⟩ := rep_idAt hσ hsafe hrep
  have f1 := hσ.alloc.nextFree_le
  have f2 := hσ.base
  have f3 := hσ.alloc.size_lt
  have f4 := hid.owner
  unfold reserved at f2
  refine ⟨rfl, ?_⟩
  unfold deleteObject
  simp only [List.append_assoc]
  wstep
  refine wp_call1 (getStructOwner_spec (by omega) (by omega)) ?_
  rintro r σ1 ⟨rfl, rfl⟩
  wstep
  refine wp_slotEq f3 (by omega) (by omega) ho hst.frozen ?_
  rw [b2n_pos rfl]
  unerr
  wstep
  rw [lget_lset_same (by rw [List.length_replicate]; omega), putLe_mod4]

theorem deleteObject_spec {R : Nat → Prop} {fs gs : List Ty} {uid : Val} {vs : List Val} {w ow : Nat} {st' : DSt}
    (hfs : StorableFs fs) (hσ : Heap σ) (hst : Statics σ) (hsafe : Safe σ R 128)
    (hrep : Mv.Rep σ.mem R (.object (uidTy :: gs)) (.object ow (uid :: vs)) w) (how : ow ≠ 2) (hroom : Room σ st'.used)
    (hrun : dels σ.host.keccak fs ⟨σ.host.storage, objectSlot σ.host.keccak ow (idOf uid), 8, 0⟩ = some st') :
    (deleteObject E fs).Calls [w] σ (fun r σ' => r = [] ∧ Later (fun x => scr 128 x ∨ Between (w - 32) w x) σ σ' ∧
      σ'.host = { σ.host with storage := st'.wipe.stor } ∧ σ'.nextFree ≤ σ.nextFree + st'.used ∧ beNat σ'.mem (w - 32) 32 = 0) := by
  obtain ⟨u, hid, hu, ho, hw, hwin⟩ := rep_idAt hσ hsafe hrep
  have f1 := hσ.alloc.nextFree_le
  have f2 := hσ.base
  have f3 := hσ.alloc.size_lt
  have f4 := hid.owner
  unfold reserved at f2
  refine ⟨rfl, ?_⟩
  unfold deleteObject
  simp only [List.append_assoc]
  wstep
  refine wp_call1 (getStructOwner_spec (by omega) (by omega)) ?_
  rintro r σ1 ⟨rfl, rfl⟩
  wstep
  refine wp_slotEq f3 (by omega) (by omega) ho hst.frozen ?_
  clear hid hu ho hwin
  rw [b2n_neg how]
  wstep
  have h0 : Sim σ1 128 ⟨σ1.host.storage, beNat σ1.mem 64 32, beNat σ1.mem 128 32, 8⟩ :=
    ⟨hσ, hst, .inl rfl, by omega, rfl, by simp, rfl, rfl⟩
  have e1 := h0.fillBuf
  obtain ⟨σ2, hσ2⟩ : ∃ σ2, σ2 = σ1.setMem (fillBytes σ1.mem 64 0 32) := ⟨_, rfl⟩
  rw [← hσ2] at e1 ⊢
  have hm : ∀ x, R x → σ2.mem x = σ1.mem x := fun x hx => e1.later.safe hsafe hx
  have hs2 := hsafe.later e1.later
  obtain ⟨u, hid, hu, ho, hw, hwin⟩ := rep_idAt e1.sim.heap hs2 (Rep.change hm (fun _ h => h) _ hrep)
  refine wp_call1 (locateStructSlot_spec e1.sim.heap.ready e1.sim.statics.objects hid) ?_
  rintro r σ3 ⟨rfl, hslot, ht⟩
  rw [ho, hu, e1.later.keccak] at hslot
  have e2 := Sim.reoff (e1.trans (e1.sim.move ht hslot)) (n := 8) (by omega)
  simp only at e2
  wstep
  have hlen : (List.replicate (3 + nlDelFs fs) 0 : List Nat).length = 3 + nlDelFs fs := List.length_replicate
  generalize (List.replicate (3 + nlDelFs fs) 0 : List Nat) = l0 at hlen
  obtain ⟨L, hL⟩ : ∃ L, L = w :: lset (lset l0 1 128) 2 8 := ⟨_, rfl⟩
  rw [← hL]
  have d0 : lget L 0 = w := by rw [hL]; rfl
  have d2 : lget L 2 = 128 := by rw [hL]; show lget (lset (lset l0 1 128) 2 8) 1 = 128; lsimp
  have d3 : lget L 3 = 8 := by rw [hL]; show lget (lset (lset l0 1 128) 2 8) 2 = 8; lsimp
  have dl : L.length = 4 + nlDelFs fs := by
    rw [hL]; simp only [List.length_cons, lset_length, hlen]; omega
  have c2 := e2.cost
  refine dels_run fs hfs σ3 _ 128 ⟨σ1.host.storage, objectSlot σ1.host.keccak ow (idOf uid), 8, 0⟩ st' _ 2 3 4 _ L _ _ e2.sim
    e2.later.keccak hrun (Room.after (k := 0) (hroom.mono (by show 0 + (st'.used - 0) ≤ _; omega)) (by omega) e2.later.maxPages) d2 d3 (by omega) (by omega) (by omega)
    (by omega) ?_
  rintro σ4 l4 ⟨buf, e3⟩ hl4 _ hp4
  have e4 := e2.trans e3
  have g1 := e4.sim.nf
  have g2 := e4.sim.base
  have g3 := e4.sim.inside
  have g4 := e4.later.nextFree
  have g5 := e4.sim.lt
  wstep
  rw [hp4 2 (by omega) (by omega), d2, wp_storageCache (by omega) (by omega)]
  have e5 := e4.trans e4.sim.wipe
  generalize Rt.stored σ4 (beNat σ4.mem 128 32) (beNat σ4.mem 0 32) = σ5 at e5
  have k1 := e5.sim.nf
  have k2 := e5.sim.base
  have k4 := e5.later.nextFree
  have k5 := e5.sim.lt
  wstep
  rw [hp4 0 (by omega) (by omega), d0]
  refine wp_call1 (getStructOwner_spec (by omega) (by omega)) ?_
  rintro r σ6 ⟨rfl, rfl⟩
  wstep
  refine ⟨(e5.later.mono fun x _ h => .inl h).write (fun x h1 h2 => fillBytes_out (by omega)) (fun x h1 h2 => fillBytes_out ?_)
    (fun x h1 => fillBytes_out (by omega)), ?_, by have := e5.cost; show σ6.nextFree ≤ _; omega, beNat_fill ..⟩
  · by_contra hc
    exact h2 (.inr ⟨by omega, by omega⟩)
  · show σ6.host = _
    rw [e5.later.host, e5.sim.stor]
    rfl

end Rt
