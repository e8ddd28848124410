import Verif.Proof.Transfer2

/-! `transferObject`, `shareObject` and `freezeObject`. -/

namespace Rt
open Wasm Slots Mv Layout

variable {σ σ' σ'' : Store} {E : ErrPtrs} {T : Ty → Nat}

/-- The object itself, as something to remove from the storage of its owner. -/
def selfKid (ow id : Nat) (fs : List Ty) : Kid := ⟨some (ow + 1), ow, id, fs⟩

theorem drop_self {K : List UInt8 → Nat} {ow id : Nat} {fs : List Ty} {S : Nat → Nat} : drop K (selfKid ow id fs) S =
    if ow = 0 then some (S, 0) else if ow = 2 then none
    else (dels K fs ⟨S, objectSlot K ow id, 8, 0⟩).map fun st => (st.wipe.stor, st.used) := by
  unfold drop selfKid
  simp

theorem wp_dropOld {R : Nat → Prop} {fs : List Ty} {uid : Val} {vs : List Val} {w ow o : Nat} {S' : Nat → Nat} {n : Nat} {s l is Q}
    (hfs : StorableFs fs) (hσ : Heap σ) (hst : Statics σ) (hsR : Safe σ R 128)
    (htr : Mv.Tree σ.mem R (.object (uidTy :: fs)) (.object ow (uid :: vs)) w)
    (hdr : drop σ.host.keccak (selfKid ow (idOf uid) fs) σ.host.storage = some (S', n)) (hroom : Room σ n)
    (h0 : lget l 0 = w) (ho : lget l o = w - 32)
    (hQ : ∀ σ', Moved R σ σ' S' n → Mv.Tree σ'.mem R (.object (uidTy :: fs)) (.object 0 (uid :: vs)) w → wp is s l σ' Q) :
    wp (dropOld E fs o :: is) s l σ Q := by
  have hrep := htr.rep
  obtain ⟨u, hid, hu, how, hw, hwin⟩ := rep_idAt hσ hsR hrep
  have f1 := hσ.alloc.nextFree_le
  have f2 := hσ.base
  have f3 := hσ.alloc.size_lt
  have f4 := hid.owner
  unfold reserved at f2
  unfold dropOld
  wstep
  rw [ho]
  refine wp_call2 (isZero_spec (k := 8) f3 (by omega)) ?_
  rintro r σ1 ⟨rfl, rfl⟩
  rw [show 4 * 8 = 32 from rfl]
  have ez : leNat σ1.mem (w - 32) 32 = 0 ↔ ow = 0 := by rw [leNat_zero_iff_beNat, how]
  rw [drop_self] at hdr
  by_cases hz : ow = 0
  · rw [if_pos hz] at hdr
    simp only [Option.some.injEq, Prod.mk.injEq] at hdr
    obtain ⟨rfl, rfl⟩ := hdr
    rw [b2n_pos (ez.mpr hz)]
    wstep
    exact hQ _ (Moved.refl hσ hst) (by rw [hz] at htr; exact htr)
  · rw [b2n_neg fun h => hz (ez.mp h)]
    rw [if_neg hz] at hdr
    by_cases h2 : ow = 2
    · rw [if_pos h2] at hdr; exact absurd hdr (by simp)
    rw [if_neg h2] at hdr
    obtain ⟨st', hrun, e⟩ := Option.map_eq_some_iff.mp hdr
    simp only [Prod.mk.injEq] at e
    obtain ⟨rfl, rfl⟩ := e
    wstep
    rw [h0]
    refine wp_call1 (deleteObject_spec hfs hσ hst hsR hrep h2 hroom hrun) ?_
    rintro r σ3 ⟨rfl, hl, hh, hc, hz⟩
    wstep
    have hl' : Later (fun x => scr 128 x ∨ R x) σ1 σ3 :=
      hl.mono fun x _ hx => hx.imp_right fun h => hwin x h.1 (by have := h.2; omega)
    refine hQ σ3 ⟨hl', by rw [hh], hc, statics_safe hσ hst hsR hl'⟩ ?_
    simp only [Mv.Tree] at htr ⊢
    obtain ⟨vs0, S, g1, g2, g3, g4, g5, g6⟩ := htr
    simp only [Val.object.injEq] at g2
    refine ⟨vs0, S, g1, by rw [hz, g2.2], g3, g4, g5, TreeFs.change (fun x hx => ?_) (fun _ h => h) _ g6⟩
    have hx' := hsR x (g4 x hx)
    exact hl.mem x hx'.2.1 fun h => h.elim (hsR.not_scr (g4 x hx)) (g5 x hx)

/-- The owner is overwritten. -/
theorem Tree.setOwner {f : Bytes} {R : Nat → Prop} {fs : List Ty} {vs : List Val} {w ow no : Nat} {m : Bytes}
    (htr : Mv.Tree f R (.object fs) (.object ow vs) w) (hm : ∀ x, ¬ Span (w - 32) w x → m x = f x) (ho : beNat m (w - 32) 32 = no) :
    Mv.Tree m R (.object fs) (.object no vs) w := by
  simp only [Mv.Tree] at htr ⊢
  obtain ⟨vs0, S, g1, g2, g3, g4, g5, g6⟩ := htr
  simp only [Val.object.injEq] at g2
  exact ⟨vs0, S, g1, by rw [ho, g2.2], g3, g4, g5, TreeFs.change (fun x hx => hm x (g5 x hx)) (fun _ h => h) _ g6⟩

/-- The 32 bytes of the new owner. -/
structure KeyAt (σ : Store) (R : Nat → Prop) (kp no : Nat) : Prop where
  inside : kp + 32 ≤ σ.nextFree
  val : beNat σ.mem kp 32 = no
  clear : ∀ x, kp ≤ x → x < kp + 32 → ¬ scr 128 x ∧ ¬ R x

theorem KeyAt.moved {R : Nat → Prop} {kp no n : Nat} {S' : Nat → Nat} (h : KeyAt σ R kp no) (m : Moved R σ σ' S' n) : KeyAt σ' R kp no :=
  ⟨h.inside.trans m.later.nextFree, by
    rw [m.later.beNat h.inside fun x h1 h2 h' => h'.elim (h.clear x h1 h2).1 (h.clear x h1 h2).2]; exact h.val, h.clear⟩

theorem kids_obj {f : Bytes} {R : Nat → Prop} {fs : List Ty} {uid : Val} {vs : List Val} {w ow : Nat}
    (htr : Mv.Tree f R (.object (uidTy :: fs)) (.object ow (uid :: vs)) w) :
    inKids (.object (uidTy :: fs)) (.object ow (uid :: vs)) = kidsFs (some (idOf uid)) fs vs ∧
    inSettle (.object (uidTy :: fs)) (.object ow (uid :: vs)) = .object ow (uid :: settleFs (some (idOf uid)) fs vs) := by
  simp only [Mv.Tree] at htr
  obtain ⟨vs0, S, -, ev, -, -, -, hfs⟩ := htr
  obtain ⟨uid', vs', p1, p2, q, rfl, hu, -⟩ := uid_rep hfs.rep
  simp only [Val.object.injEq, List.cons.injEq] at ev
  rw [ev.2.1]
  simp only [inKids, inSettle, List.headD_cons, headD_settle, kidsFs]
  rw [hu.uid, kids_uid, settle_uid]
  exact ⟨rfl, rfl⟩

/-- The object and the objects in it leave the storage of their owners. -/
theorem wp_uproot {R : Nat → Prop} {fs : List Ty} {uid : Val} {vs : List Val} {w ow o : Nat} {S' : Nat → Nat} {n : Nat} {s l is Q}
    (hfs : StorableFs fs) (hσ : Heap σ) (hst : Statics σ) (hsR : Safe σ R 128)
    (htr : Mv.Tree σ.mem R (.object (uidTy :: fs)) (.object ow (uid :: vs)) w)
    (hdr : drops σ.host.keccak (movers ow (idOf uid) fs vs) σ.host.storage = some (S', n))
    (hroom : Room σ n) (h0 : lget l 0 = w) (ho : lget l o = w - 32)
    (hQ : ∀ σ', Moved R σ σ' S' n → Mv.Tree σ'.mem R (.object (uidTy :: fs)) (.object 0 (uid :: settleFs (some (idOf uid)) fs vs)) w →
      wp is s l σ' Q) :
    wp (dropOld E fs o :: .op (.lget 0) :: (ttoFn E (.object (uidTy :: fs))).call :: is) s l σ Q := by
  simp only [movers, drops, Option.bind_eq_some_iff, Option.map_eq_some_iff] at hdr
  obtain ⟨⟨S1, n1⟩, d1, ⟨S2, n2⟩, d2, d3⟩ := hdr
  simp only [Prod.mk.injEq] at d3
  obtain ⟨rfl, rfl⟩ := d3
  refine wp_dropOld hfs hσ hst hsR htr d1 (hroom.mono (by omega)) h0 ho fun σ1 m1 t1 => ?_
  wstep
  rw [h0]
  refine wp_call1 (tto_run (.object (uidTy :: fs)) (by rw [Storable]; exact ⟨rfl, hfs⟩) rfl σ1 R _ w S2 n2 m1.later.heap m1.statics
    (hsR.later m1.later) t1 (by rw [(kids_obj t1).1, m1.later.keccak, m1.stor]; exact d2)
    (Room.after (k := n1) hroom m1.cost m1.later.maxPages)) ?_
  rintro r σ2 ⟨rfl, m2, t2⟩
  rw [(kids_obj t1).2] at t2
  exact hQ σ2 (m1.trans m2) t2

/-- The new owner is written. -/
theorem wp_setOwner {R : Nat → Prop} {fs : List Ty} {uid : Val} {vs : List Val} {w ow kp no : Nat} {s l is Q} (hσ : Heap σ)
    (hst : Statics σ) (hsR : Safe σ R 128) (htr : Mv.Tree σ.mem R (.object (uidTy :: fs)) (.object ow (uid :: vs)) w) (hk : KeyAt σ R kp no)
    (hQ : ∀ σ', Moved R σ σ' σ.host.storage 0 → Mv.Tree σ'.mem R (.object (uidTy :: fs)) (.object no (uid :: vs)) w → wp is s l σ' Q) :
    wp (.op .memCopy :: is) (32 :: kp :: (w - 32) :: s) l σ Q := by
  obtain ⟨u, hid, hu, how, hw, hwin⟩ := rep_idAt hσ hsR htr.rep
  have f1 := hσ.alloc.nextFree_le
  have f3 := hσ.alloc.size_lt
  have f4 := hid.owner
  have f5 := hk.inside
  rw [wp_memCopy (by omega) (by omega)]
  have hout : ∀ x, ¬ Span (w - 32) w x → copyBytes σ.mem (w - 32) kp 32 x = σ.mem x := fun x hx =>
    copyBytes_out (by unfold Span at hx; omega)
  have hl : Later (fun x => scr 128 x ∨ R x) σ (σ.setMem (copyBytes σ.mem (w - 32) kp 32)) :=
    (Later.refl _ hσ).write (fun x h1 h2 => hout x (by unfold Span; omega))
      (fun x h1 h2 => hout x fun h => h2 (.inr (hwin x h.1 (by have := h.2; omega)))) (fun x h1 => hout x (by unfold Span; omega))
  refine hQ _ ⟨hl, rfl, by simp, statics_safe hσ hst hsR hl⟩ ?_
  exact Tree.setOwner htr hout (by rw [setMem_mem, beNat_copy]; exact hk.val)

/-- The object is saved under the owner at `kp`; `a` is the cell for the slot. -/
theorem wp_saveAt {R : Nat → Prop} {fs : List Ty} {uid : Val} {vs : List Val} {w kp u a no ka pid : Nat} {st' : St} {s l is Q}
    (hfs : StorableFs fs) (hσ : Heap σ) (hst : Statics σ) (hsR : Safe σ R 128) (ha : a = σ.nextFree)
    (hk : KeyAt σ R kp no) (htr : Mv.Tree σ.mem R (.object (uidTy :: fs)) (.object no (uid :: settleFs (some pid) fs vs)) w)
    (hal : Alloced 32 σ σ') (hu : IdAt σ w u) (hui : beNat σ.mem u 32 = idOf uid) (hu' : u + 32 ≤ σ.nextFree)
    (hroom : Room σ' (ecostFs fs vs))
    (hrun : encs σ.host.keccak (fun t => bswap 8 (T t)) (idOf uid) fs vs
      ⟨σ.host.storage, bswap 8 (T (.object (uidTy :: fs))), objectSlot σ.host.keccak no (idOf uid), 8⟩ = some st')
    (h0 : lget l 0 = w) (hka : lget l ka = a)
    (hQ : ∀ σ'', Moved R σ σ'' st'.view (32 + ecostFs fs vs) →
      Mv.Tree σ''.mem R (.object (uidTy :: fs)) (.object no (uid :: settleFs (some pid) fs vs)) w → wp is s l σ'' Q) :
    wp (writeObjectSlot.call :: .op (.lget 0) :: .op (.lget ka) :: (saveObject E T uidTy fs).call :: is) (a :: u :: kp :: s) l σ' Q := by
  have f1 := hal.inside
  have f2 := hσ.base
  have f3 := hal.heap.alloc.size_lt
  have f4 := hal.nextFree
  have f5 := hk.inside
  have f6 := hu.low
  unfold reserved at f2
  subst ha
  refine wp_call3 (writeObjectSlot_spec (by omega) (by rw [hal.mem]; exact hst.objects) (by omega) (by omega) (by omega) (by omega)
    (by omega) (by omega)) ?_
  rintro r σ1 ⟨rfl, hs, ht⟩
  rw [hal.mem, hk.val, hui, hal.host] at hs
  have hl1 : Later (scr σ.nextFree) σ' σ1 := (ht.later hal.heap fun x hx => by unfold hashBuf at hx; omega).mono
    fun x _ hx => by unfold scr; rcases hx with h | h <;> simp [h]
  have hsR' : Safe σ' R σ.nextFree := fun x hx => by have := hsR x hx; omega
  have hm1 : ∀ x, R x → σ1.mem x = σ.mem x := fun x hx => by rw [hl1.safe hsR' hx, hal.mem]
  have t1 : Mv.Tree σ1.mem R (.object (uidTy :: fs)) (.object no (uid :: settleFs (some pid) fs vs)) w :=
    Tree.change hm1 (fun _ h => h) _ htr
  have hst1 : Statics σ1 := hl1.statics (by omega) (by
    have := hal.mem
    exact ⟨by rw [this]; exact hst.zero, by rw [this]; exact hst.one, by rw [this]; exact hst.objects, by rw [this]; exact hst.shared,
      by rw [this]; exact hst.frozen⟩) fun x hx => scr_static (.inr (by omega)) hx
  wstep
  rw [h0, hka]
  have e1 : σ1.host.storage = σ.host.storage := by rw [ht.host, hal.host]
  have e2 : σ1.host.keccak = σ.host.keccak := by rw [ht.host, hal.host]
  refine wp_call2 (saveObject_spec (st' := st') hfs hl1.heap hst1 (.inr (by omega)) (by have := hl1.nextFree; omega) hs (hsR'.later hl1) t1.rep
    (by rw [ecosts_settle]; exact Room.after (k := 0) (hroom.mono (by omega)) (by rw [ht.nextFree]; omega) hl1.maxPages)
    (by rw [encs_settle _ hfs, e1, e2]; exact hrun)) ?_
  rintro r σ2 ⟨rfl, hl2, hh, hc, -⟩
  rw [ecosts_settle] at hc
  have hl : Later (fun x => scr 128 x ∨ R x) σ σ2 :=
    (hal.later (fun x => scr σ.nextFree x)).trans (hl1.trans hl2) |>.mono fun x h1 h2 => .inl (by unfold scr sizeTable hashBuf at h2 ⊢; omega)
  refine hQ σ2 ⟨hl, by rw [hh], by have := ht.nextFree; omega, statics_safe hσ hst hsR hl⟩ ?_
  exact Tree.change (fun x hx => hl2.safe (hsR'.later hl1) hx) (fun _ h => h) _ t1

/-- `transferObject`: the object goes from the storage of its owner to that of the recipient. -/
theorem transfer_spec {R : Nat → Prop} {fs : List Ty} {uid : Val} {vs : List Val} {w ow kp no n : Nat} {S' : Nat → Nat} {st' : St}
    (hfs : StorableFs fs) (hσ : Heap σ) (hst : Statics σ) (hsR : Safe σ R 128)
    (htr : Mv.Tree σ.mem R (.object (uidTy :: fs)) (.object ow (uid :: vs)) w) (h1 : ow ≠ 1) (hk : KeyAt σ R kp no)
    (hdr : drops σ.host.keccak (movers ow (idOf uid) fs vs) σ.host.storage = some (S', n))
    (hrun : encs σ.host.keccak (fun t => bswap 8 (T t)) (idOf uid) fs vs
      ⟨S', bswap 8 (T (.object (uidTy :: fs))), objectSlot σ.host.keccak no (idOf uid), 8⟩ = some st')
    (hroom : Room σ (n + (32 + ecostFs fs vs))) :
    (transferObject E T uidTy fs).Calls [w, kp] σ (fun r σ' => r = [] ∧ Moved R σ σ' st'.view (n + (32 + ecostFs fs vs)) ∧
      Mv.Tree σ'.mem R (.object (uidTy :: fs)) (.object no (uid :: settleFs (some (idOf uid)) fs vs)) w) := by
  obtain ⟨u, hid, hu, how, hw, hwin⟩ := rep_idAt hσ hsR htr.rep
  have f1 := hσ.alloc.nextFree_le
  have f2 := hσ.base
  have f3 := hσ.alloc.size_lt
  have f4 := hid.owner
  unfold reserved at f2
  refine ⟨rfl, ?_⟩
  unfold transferObject
  obtain ⟨X, hX⟩ : ∃ X, X = code[dropOld E fs 2,
   Op.lget 0, (ttoFn E (.object (uidTy :: fs))).call,
   Op.lget 2, Op.lget 1, Op.c32 32, Op.memCopy,
   Op.lget 0, getIdBytesPtr.call, Op.lset 3,
   Op.c32 32, alloc.call, Op.lset 4,
   Op.lget 1, Op.lget 3, Op.lget 4, writeObjectSlot.call,
   Op.lget 0, Op.lget 4, (saveObject E T uidTy fs).call] := ⟨_, rfl⟩
  rw [← hX]
  wstep
  refine wp_slotEq f3 (by omega) (by omega) how hst.shared ?_
  rw [b2n_neg h1]
  wstep
  refine wp_call3 (heapEq_spec (n := 0) f3 (by omega) (by omega)) ?_
  rintro r σ1 ⟨rfl, rfl⟩
  rw [b2n_pos (show EqBytes σ1.mem (w - 32) 192 0 from fun i hi => absurd hi (by omega))]
  wstep
  rw [hX]
  clear hX X
  refine wp_uproot hfs hσ hst hsR htr hdr (hroom.mono (by omega)) rfl rfl fun σ2 m2 t2 => ?_
  wstep
  refine wp_setOwner m2.later.heap m2.statics (hsR.later m2.later) t2 (hk.moved m2) fun σ3 m3 t3 => ?_
  have hsR3 := (hsR.later m2.later).later m3.later
  have hk3 := (hk.moved m2).moved m3
  obtain ⟨u3, hid3, hu3, -, hw3, -, hu3'⟩ := rep_idAt' m3.later.heap hsR3 t3.rep
  wstep
  refine wp_call1 (getIdBytesPtr_spec rfl rfl hid3.bytes hid3.fld hid3.uid hid3.idn) ?_
  rintro r σ4 ⟨rfl, rfl⟩
  have hroom3 := Room.after (k := n) hroom (by have := m2.cost; have := m3.cost; omega) (m3.later.maxPages.trans m2.later.maxPages)
  wstep
  refine wp_allocR m3.later.heap hroom3 (Nat.le_add_right _ _) fun σ5 a5 => ?_
  wstep
  refine wp_saveAt hfs m3.later.heap m3.statics hsR3 rfl hk3 t3 a5 hid3 hu3 hu3'
    (Room.after (k := 32) hroom3 (by rw [a5.nextFree]) a5.maxPages) (by rw [m3.later.keccak, m2.later.keccak, m3.stor, m2.stor]; exact hrun)
    rfl rfl fun σ6 m6 t6 => ?_
  wstep
  exact ⟨((m2.trans m3).trans m6).mono (fun _ h => h) (by omega), t6⟩

/-- Sharing and freezing. -/
theorem publish_spec {R : Nat → Prop} {fs : List Ty} {uid : Val} {vs : List Val} {w ow key other no oo n : Nat} {e : RtErr} {S' : Nat → Nat}
    {st' : St} (hfs : StorableFs fs) (hσ : Heap σ) (hst : Statics σ) (hsR : Safe σ R 128)
    (htr : Mv.Tree σ.mem R (.object (uidTy :: fs)) (.object ow (uid :: vs)) w) (hkn : key = 160 ∨ key = 192)
    (hko : other = 160 ∨ other = 192) (hkv : beNat σ.mem key 32 = no) (hov : beNat σ.mem other 32 = oo) (h1 : ow ≠ no) (h2 : ow ≠ oo)
    (hdr : drops σ.host.keccak (movers ow (idOf uid) fs vs) σ.host.storage = some (S', n))
    (hrun : encs σ.host.keccak (fun t => bswap 8 (T t)) (idOf uid) fs vs
      ⟨S', bswap 8 (T (.object (uidTy :: fs))), objectSlot σ.host.keccak no (idOf uid), 8⟩ = some st')
    (hroom : Room σ (n + (32 + ecostFs fs vs))) :
    (publishObject E T key other e uidTy fs).Calls [w] σ (fun r σ' => r = [] ∧ Moved R σ σ' st'.view (n + (32 + ecostFs fs vs)) ∧
      Mv.Tree σ'.mem R (.object (uidTy :: fs)) (.object no (uid :: settleFs (some (idOf uid)) fs vs)) w) := by
  obtain ⟨u, hid, hu, how, hw, hwin⟩ := rep_idAt hσ hsR htr.rep
  have f1 := hσ.alloc.nextFree_le
  have f2 := hσ.base
  have f3 := hσ.alloc.size_lt
  have f4 := hid.owner
  unfold reserved at f2
  have hk : KeyAt σ R key no := ⟨by omega, hkv, fun x g1 g2 => ⟨scr_static (.inl rfl) (by omega), fun h => by have := hsR x h; omega⟩⟩
  have hko' : other < 2 ^ 32 := by omega
  have hkn' : key < 2 ^ 32 := by omega
  refine ⟨rfl, ?_⟩
  unfold publishObject
  obtain ⟨X, hX⟩ : ∃ X, X = code[dropOld E fs 1,
        Op.lget 0, (ttoFn E (.object (uidTy :: fs))).call,
        Op.lget 1, Op.c32 key, Op.c32 32, Op.memCopy,
        Op.c32 32, alloc.call, Op.lset 2,
        Op.c32 key, Op.lget 0, getIdBytesPtr.call, Op.lget 2, writeObjectSlot.call,
        Op.lget 0, Op.lget 2, (saveObject E T uidTy fs).call] := ⟨_, rfl⟩
  rw [← hX]
  wstep
  refine wp_slotEq f3 (by omega) (by omega) how hkv ?_
  rw [b2n_neg h1]
  wstep
  refine wp_slotEq f3 (by omega) (by omega) how hov ?_
  rw [b2n_neg h2]
  wstep
  rw [hX]
  clear hX X
  refine wp_uproot hfs hσ hst hsR htr hdr (hroom.mono (by omega)) rfl rfl fun σ2 m2 t2 => ?_
  wstep
  refine wp_setOwner m2.later.heap m2.statics (hsR.later m2.later) t2 (hk.moved m2) fun σ3 m3 t3 => ?_
  have hsR3 := (hsR.later m2.later).later m3.later
  have hk3 := (hk.moved m2).moved m3
  obtain ⟨u3, hid3, hu3, -, hw3, -, hu3'⟩ := rep_idAt' m3.later.heap hsR3 t3.rep
  have hroom3 := Room.after (k := n) hroom (by have := m2.cost; have := m3.cost; omega) (m3.later.maxPages.trans m2.later.maxPages)
  wstep
  refine wp_allocR m3.later.heap hroom3 (Nat.le_add_right _ _) fun σ5 a5 => ?_
  wstep
  have hs5 := a5.size
  refine wp_call1 (getIdBytesPtr_spec (c := u3) rfl rfl (by rw [a5.mem]; exact hid3.bytes) (by have := hid3.fld; omega)
    (by rw [a5.mem]; have := hid3.uid; omega) (by rw [a5.mem]; have := hid3.idn; omega)) ?_
  rintro r σ4 ⟨rfl, rfl⟩
  wstep
  refine wp_saveAt hfs m3.later.heap m3.statics hsR3 rfl hk3 t3 a5 hid3 hu3 hu3'
    (Room.after (k := 32) hroom3 (by rw [a5.nextFree]) a5.maxPages) (by rw [m3.later.keccak, m2.later.keccak, m3.stor, m2.stor]; exact hrun)
    rfl rfl fun σ6 m6 t6 => ?_
  wstep
  exact ⟨((m2.trans m3).trans m6).mono (fun _ h => h) (by omega), t6⟩

/-- Sharing what is shared, and freezing what is frozen, does nothing. -/
theorem publish_again {R : Nat → Prop} {fs : List Ty} {uid : Val} {vs : List Val} {w key other no : Nat} {e : RtErr}
    (hσ : Heap σ) (hsR : Safe σ R 128) (hrep : Mv.Rep σ.mem R (.object (uidTy :: fs)) (.object no (uid :: vs)) w)
    (hkn : key = 160 ∨ key = 192) (hkv : beNat σ.mem key 32 = no) :
    (publishObject E T key other e uidTy fs).Calls [w] σ (fun r σ' => r = [] ∧ σ' = σ) := by
  obtain ⟨u, hid, hu, how, hw, hwin⟩ := rep_idAt hσ hsR hrep
  have f1 := hσ.alloc.nextFree_le
  have f2 := hσ.base
  have f3 := hσ.alloc.size_lt
  have f4 := hid.owner
  unfold reserved at f2
  have hkn' : key < 2 ^ 32 := by omega
  refine ⟨rfl, ?_⟩
  unfold publishObject
  wstep
  refine wp_slotEq f3 (by omega) (by omega) how hkv ?_
  rw [b2n_pos rfl]
  wstep

/-- Sharing what is frozen, and freezing what is shared, is refused. -/
theorem publish_refused {R : Nat → Prop} {fs : List Ty} {uid : Val} {vs : List Val} {w key other no oo : Nat} {e : RtErr}
    (hσ : Heap σ) (hsR : Safe σ R 128) (hrep : Mv.Rep σ.mem R (.object (uidTy :: fs)) (.object oo (uid :: vs)) w)
    (hkn : key = 160 ∨ key = 192) (hko : other = 160 ∨ other = 192) (hkv : beNat σ.mem key 32 = no) (hov : beNat σ.mem other 32 = oo)
    (hne : oo ≠ no) :
    (publishObject E T key other e uidTy fs).Calls [w] σ (fun r σ' => r = [] ∧ σ' = errStore σ (E e)) := by
  obtain ⟨u, hid, hu, how, hw, hwin⟩ := rep_idAt hσ hsR hrep
  have f1 := hσ.alloc.nextFree_le
  have f2 := hσ.base
  have f3 := hσ.alloc.size_lt
  have f4 := hid.owner
  unfold reserved at f2
  have hkn' : key < 2 ^ 32 := by omega
  have hko' : other < 2 ^ 32 := by omega
  refine ⟨rfl, ?_⟩
  unfold publishObject
  wstep
  refine wp_slotEq f3 (by omega) (by omega) how hkv ?_
  rw [b2n_neg hne]
  wstep
  refine wp_slotEq f3 (by omega) (by omega) how hov ?_
  rw [b2n_pos rfl]
  unerr
  wstep

/-- Transferring what is shared is refused. -/
theorem transfer_refused {R : Nat → Prop} {fs : List Ty} {uid : Val} {vs : List Val} {w kp : Nat}
    (hσ : Heap σ) (hst : Statics σ) (hsR : Safe σ R 128) (hrep : Mv.Rep σ.mem R (.object (uidTy :: fs)) (.object 1 (uid :: vs)) w) :
    (transferObject E T uidTy fs).Calls [w, kp] σ (fun r σ' => r = [] ∧ σ' = errStore σ (E .sharedCannotBeTransferred)) := by
  obtain ⟨u, hid, hu, how, hw, hwin⟩ := rep_idAt hσ hsR hrep
  have f1 := hσ.alloc.nextFree_le
  have f2 := hσ.base
  have f3 := hσ.alloc.size_lt
  have f4 := hid.owner
  unfold reserved at f2
  refine ⟨rfl, ?_⟩
  unfold transferObject
  wstep
  refine wp_slotEq f3 (by omega) (by omega) how hst.shared ?_
  rw [b2n_pos rfl]
  unerr
  wstep

/-! ### Saving at the end of a function -/

/-- An object without owner is not saved. -/
theorem cache_deleted {R : Nat → Prop} {fs : List Ty} {uid : Val} {vs : List Val} {w p : Nat} (hσ : Heap σ) (hst : Statics σ)
    (hsR : Safe σ R 128) (hp : p + 4 ≤ σ.size) (hpw : leNat σ.mem p 4 = w)
    (hrep : Mv.Rep σ.mem R (.object (uidTy :: fs)) (.object 0 (uid :: vs)) w) :
    (cacheChanges E T uidTy fs).Calls [p] σ (fun r σ' => r = [] ∧ Touches (fun x => hashBuf x ∨ 128 ≤ x ∧ x < 160) σ σ') := by
  obtain ⟨u, hid, hu, how, hw, hwin⟩ := rep_idAt hσ hsR hrep
  have f1 := hσ.alloc.nextFree_le
  have f3 := hσ.alloc.size_lt
  have f4 := hid.owner
  refine ⟨rfl, ?_⟩
  unfold cacheChanges
  wstep
  rw [hpw]
  refine wp_call1 (locateStructSlot_spec hσ.ready hst.objects hid) ?_
  rintro r σ1 ⟨rfl, hs, ht⟩
  have hsz := ht.size
  wstep
  refine wp_call1 (getStructOwner_spec (by omega) (by omega)) ?_
  rintro r σ2 ⟨rfl, rfl⟩
  wstep
  refine wp_call2 (isZero_spec (k := 8) (by omega) (by omega)) ?_
  rintro r σ2 ⟨rfl, rfl⟩
  have ez : leNat σ2.mem (w - 32) (4 * 8) = 0 := by
    rw [leNat_zero_iff_beNat, beNat_congr fun x h1 h2 => ht.mem x (by unfold hashBuf; omega)]; exact how
  rw [b2n_pos ez]
  wstep
  exact ht

/-- An object with an owner is saved where its owner has it. -/
theorem cache_spec {R : Nat → Prop} {fs : List Ty} {uid : Val} {vs : List Val} {w p ow n : Nat} {S' : Nat → Nat} {st' : St}
    (hfs : StorableFs fs) (hσ : Heap σ) (hst : Statics σ) (hsR : Safe σ R 128) (hp : p + 4 ≤ σ.size) (hpw : leNat σ.mem p 4 = w)
    (htr : Mv.Tree σ.mem R (.object (uidTy :: fs)) (.object ow (uid :: vs)) w) (h0 : ow ≠ 0)
    (hdr : drops σ.host.keccak (kidsFs (some (idOf uid)) fs vs) σ.host.storage = some (S', n))
    (hrun : encs σ.host.keccak (fun t => bswap 8 (T t)) (idOf uid) fs vs
      ⟨S', bswap 8 (T (.object (uidTy :: fs))), objectSlot σ.host.keccak ow (idOf uid), 8⟩ = some st')
    (hroom : Room σ (32 + n + ecostFs fs vs)) :
    (cacheChanges E T uidTy fs).Calls [p] σ (fun r σ' => r = [] ∧ Moved R σ σ' st'.view (32 + n + ecostFs fs vs) ∧
      Mv.Tree σ'.mem R (.object (uidTy :: fs)) (.object ow (uid :: settleFs (some (idOf uid)) fs vs)) w) := by
  obtain ⟨u, hid, hu, how, hw, hwin⟩ := rep_idAt hσ hsR htr.rep
  have f1 := hσ.alloc.nextFree_le
  have f2 := hσ.base
  have f3 := hσ.alloc.size_lt
  have f4 := hid.owner
  unfold reserved at f2
  refine ⟨rfl, ?_⟩
  unfold cacheChanges
  wstep
  rw [hpw]
  refine wp_call1 (locateStructSlot_spec hσ.ready hst.objects hid) ?_
  rintro r σ1 ⟨rfl, hs, ht⟩
  rw [how, hu] at hs
  have hsz := ht.size
  have hnf := ht.nextFree
  have hl1 : Later (fun x => scr 128 x ∨ R x) σ σ1 := (ht.later hσ fun x hx => by unfold hashBuf at hx; omega).mono
    fun x _ hx => .inl (by unfold scr; rcases hx with h | h <;> simp [h])
  have m1 : Moved R σ σ1 σ.host.storage 0 := ⟨hl1, by rw [ht.host], by omega, statics_safe hσ hst hsR hl1⟩
  wstep
  refine wp_call1 (getStructOwner_spec (by omega) (by omega)) ?_
  rintro r σ2 ⟨rfl, rfl⟩
  wstep
  refine wp_call2 (isZero_spec (k := 8) (by omega) (by omega)) ?_
  rintro r σ2 ⟨rfl, rfl⟩
  have ez : ¬ leNat σ2.mem (w - 32) (4 * 8) = 0 := by
    rw [leNat_zero_iff_beNat, beNat_congr fun x h1 h2 => ht.mem x (by unfold hashBuf; omega)]; rw [how]; exact h0
  rw [b2n_neg ez]
  have hroom1 := Room.after (k := 0) (by rw [Nat.zero_add]; exact hroom) (by omega) hl1.maxPages
  obtain ⟨X, hX⟩ : ∃ X, X = code[Op.lget 1, (ttoFn E (.object (uidTy :: fs))).call, Op.lget 1, Op.lget 2, (saveObject E T uidTy fs).call] := ⟨_, rfl⟩
  rw [← hX]
  wstep
  refine wp_allocR hl1.heap hroom1 (by omega) fun σ3 a3 => ?_
  have g1 := a3.inside
  have g2 := a3.nextFree
  have g3 := a3.heap.alloc.size_lt
  have g4 := a3.mem
  wstep
  obtain ⟨a, ha⟩ : ∃ a, a = σ2.nextFree := ⟨_, rfl⟩
  rw [← ha] at g2 ⊢
  obtain ⟨σ4, h4⟩ : ∃ σ4, σ4 = σ3.setMem (copyBytes σ3.mem a 128 32) := ⟨_, rfl⟩
  rw [← h4]
  have hout : ∀ x, x < a ∨ a + 32 ≤ x → σ4.mem x = σ2.mem x := fun x hx => by
    rw [h4, setMem_mem, copyBytes_out (by omega), g4]
  have hl4 : Later (fun x => scr 128 x ∨ R x) σ2 σ4 := by
    rw [h4]
    exact (a3.later _).write (fun x h1 h2 => copyBytes_out (by omega)) (fun x h1 h2 => copyBytes_out (by omega)) (fun x h1 => copyBytes_out (by omega))
  have hs4 : beNat σ4.mem a 32 = objectSlot σ.host.keccak ow (idOf uid) := by
    rw [h4, setMem_mem, beNat_copy, g4, hs]
  have hsR2 := hsR.later hl1
  have hsR4 := hsR2.later hl4
  have m4 : Moved R σ2 σ4 σ.host.storage 32 := ⟨hl4, by rw [h4, setMem_host, a3.host]; exact m1.stor,
    by rw [h4, setMem_nextFree]; omega, statics_safe hl1.heap m1.statics hsR2 hl4⟩
  have hmR : ∀ x, R x → σ4.mem x = σ.mem x := fun x hx => by
    have := hsR x hx
    rw [hout x (by omega), ht.mem x (by unfold hashBuf; omega)]
  have t4 : Mv.Tree σ4.mem R (.object (uidTy :: fs)) (.object ow (uid :: vs)) w := Tree.change hmR (fun _ h => h) _ htr
  have g5 : a + 32 ≤ σ4.nextFree := by rw [h4, setMem_nextFree]; omega
  rw [hX]
  wstep
  refine wp_call1 (tto_run (.object (uidTy :: fs)) (by rw [Storable]; exact ⟨rfl, hfs⟩) rfl σ4 R _ w S' n m4.later.heap m4.statics
    hsR4 t4 (by rw [(kids_obj t4).1, m4.later.keccak, hl1.keccak, m4.stor]; exact hdr)
    (Room.after (k := 32) (hroom.mono (by omega)) (by have := m4.cost; omega) (m4.later.maxPages.trans hl1.maxPages))) ?_
  rintro r σ5 ⟨rfl, m5, t5⟩
  rw [(kids_obj t4).2] at t5
  have hC : Safe σ4 (Span a (a + 32)) 128 := fun x hx => ⟨by have := hx.1; omega, by have := hx.2; omega, by have := hx.1; omega⟩
  have hCR : ∀ x, Span a (a + 32) x → ¬ R x := fun x hx hr => by have := hsR x hr; have := hx.1; omega
  have hs5 : beNat σ5.mem a 32 = objectSlot σ.host.keccak ow (idOf uid) := by
    rw [beNat_congr fun x h1 h2 => m5.same hC hCR x ⟨h1, h2⟩, hs4]
  have hk : σ5.host.keccak = σ.host.keccak := by rw [m5.later.keccak, m4.later.keccak, hl1.keccak]
  have hsR5 : Safe σ5 R a := fun x hx => by
    have := hsR x hx
    have := (hsR4.later m5.later) x hx
    omega
  wstep
  refine wp_call2 (saveObject_spec (st' := st') hfs m5.later.heap m5.statics (.inr (by omega)) (by have := m5.later.nextFree; omega) hs5
    hsR5 t5.rep
    (by rw [ecosts_settle]; exact Room.after (k := 32 + n) hroom (by have := m4.cost; have := m5.cost; omega)
          (m5.later.maxPages.trans (m4.later.maxPages.trans hl1.maxPages)))
    (by rw [encs_settle _ hfs, hk, m5.stor]; exact hrun)) ?_
  rintro r σ6 ⟨rfl, hl6, hh, hc, -⟩
  rw [ecosts_settle] at hc
  wstep
  have h15 := (m1.trans m4).trans m5
  have hl : Later (fun x => scr 128 x ∨ R x) σ σ6 := by
    have hl6' := hl6.heap
    refine ⟨hl6', h15.later.nextFree.trans hl6.nextFree, h15.later.size.trans hl6.size, fun x h1 h2 => ?_,
      hl6.maxPages.trans h15.later.maxPages, hl6.reader.trans h15.later.reader, ?_⟩
    · have := h15.later.nextFree
      rw [hl6.mem x (by omega) fun h => h2 (.inl (by unfold scr sizeTable hashBuf at h ⊢; omega)), h15.later.mem x h1 h2]
    · have := hl6.host
      rw [h15.later.host] at this
      exact this
  refine ⟨⟨hl, by rw [hh], by have := h15.cost; omega, statics_safe hσ hst hsR hl⟩, ?_⟩
  exact Tree.change (fun x hx => hl6.safe hsR5 hx) (fun _ h => h) _ t5

end Rt
