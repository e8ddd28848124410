import Verif.Proof.Dynamic3
import Verif.Proof.Transfer3
import Verif.Proof.StorageDec10

/-! Dynamic fields in storage. -/

namespace Rt
open Wasm Slots Mv Layout

variable {σ σ' σ'' : Store} {E : ErrPtrs} {T : Ty → Nat}

theorem b2n_iff {p q : Prop} [Decidable p] [Decidable q] (h : p ↔ q) : b2n p = b2n q := by
  unfold b2n; by_cases hp : p
  · rw [if_pos hp, if_pos (h.mp hp)]
  · rw [if_neg hp, if_neg fun hq => hp (h.mpr hq)]

theorem hasChild_spec {p c : Nat} (hσ : Heap σ) (hst : Statics σ) (hp : p + 32 ≤ σ.nextFree) (hc : c + 32 ≤ σ.nextFree) (hc' : 468 ≤ c) :
    hasChild.Calls [p, c] σ (fun r σ' =>
      r = [b2n (σ.host.storage (objectSlot σ.host.keccak (beNat σ.mem p 32) (beNat σ.mem c 32)) % 2 ^ 256 ≠ 0)] ∧
      Looked σ σ' (beNat σ.mem p 32) (beNat σ.mem c 32)) := by
  have f1 := hσ.alloc.nextFree_le
  have f2 := hσ.base
  have f3 := hσ.alloc.size_lt
  unfold reserved at f2
  refine ⟨rfl, ?_⟩
  obtain ⟨V, hV⟩ : ∃ V, V = σ.host.storage (objectSlot σ.host.keccak (beNat σ.mem p 32) (beNat σ.mem c 32)) % 2 ^ 256 := ⟨_, rfl⟩
  simp only [← hV]
  unfold hasChild negate
  simp only [List.cons_append, List.nil_append]
  wstep
  refine wp_call3 (writeObjectSlot_spec (by omega) hst.objects (by omega) (by omega) (by omega) (by omega)
    (by omega) (by omega)) ?_
  rintro r σ1 ⟨rfl, h1, t1⟩
  have z1 := t1.size
  wstep
  rw [wp_storageLoad (by omega) (by omega)]
  obtain ⟨σ2, h2⟩ : ∃ σ2, σ2 = σ1.setMem (putBe σ1.mem 64 32 (σ1.host.storage (beNat σ1.mem 128 32))) := ⟨_, rfl⟩
  rw [← h2]
  have t : Touches lookupBuf σ σ2 := by
    rw [h2]
    refine (t1.mono fun x hx => ?_).trans (Touches.set fun x hx => ?_)
    · simp only [hashBuf] at hx; simp only [lookupBuf]; omega
    · simp only [lookupBuf] at hx; rw [putBe_out (by omega)]
  have e2 : beNat σ2.mem 64 32 = V := by
    rw [hV, h2, setMem_mem, beNat_putBe_same, h1, t1.host]; rfl
  have e1 : beNat σ2.mem 128 32 = objectSlot σ.host.keccak (beNat σ.mem p 32) (beNat σ.mem c 32) := by
    rw [h2, setMem_mem, beNat_putBe_disj (by omega), h1]
  have z2 := t.size
  wstep
  refine wp_call2 (isZero_spec (k := 8) (by omega) (by omega)) ?_
  rintro r σ3 ⟨rfl, rfl⟩
  have ez : leNat σ3.mem 64 (4 * 8) = 0 ↔ beNat σ3.mem 64 32 = 0 := leNat_zero_iff_beNat _ _ _
  wstep
  refine ⟨?_, t, e1, e2.trans hV⟩
  rw [e2] at ez
  exact congrArg (fun x => [x]) (b2n_iff (not_congr ez))

theorem hasChildTy_spec {p c h : Nat} (hσ : Heap σ) (hst : Statics σ) (hp : p + 32 ≤ σ.nextFree) (hc : c + 32 ≤ σ.nextFree) (hc' : 468 ≤ c)
    (hh : h < 2 ^ 64) :
    (hasChildTy h).Calls [p, c] σ (fun r σ' =>
      r = [b2n (σ.host.storage (objectSlot σ.host.keccak (beNat σ.mem p 32) (beNat σ.mem c 32)) % 2 ^ 256 ≠ 0 ∧
        dig (σ.host.storage (objectSlot σ.host.keccak (beNat σ.mem p 32) (beNat σ.mem c 32))) 0 8 = bswap 8 h)] ∧
      Looked σ σ' (beNat σ.mem p 32) (beNat σ.mem c 32)) := by
  have f1 := hσ.alloc.nextFree_le
  have f2 := hσ.base
  have f3 := hσ.alloc.size_lt
  unfold reserved at f2
  refine ⟨rfl, ?_⟩
  obtain ⟨S, hS⟩ : ∃ S, S = σ.host.storage (objectSlot σ.host.keccak (beNat σ.mem p 32) (beNat σ.mem c 32)) := ⟨_, rfl⟩
  obtain ⟨V, hV⟩ : ∃ V, V = S % 2 ^ 256 := ⟨_, rfl⟩
  have hspec := hasChild_spec hσ hst hp hc hc'
  simp only [← hS, ← hV] at hspec ⊢
  unfold hasChildTy
  wstep
  refine wp_call2 hspec ?_
  rintro r σ1 ⟨rfl, hl⟩
  have z1 := hl.touches.size
  have hd := hl.data
  rw [← hS, ← hV] at hd
  by_cases hz : V ≠ 0
  · rw [b2n_pos hz]
    wstep
    refine ⟨congrArg (fun x => [x]) (b2n_iff ?_), hl⟩
    have e : beNat σ1.mem 88 8 = dig S 0 8 := by
      have := buf_read (f := σ1.mem) (off := 8) (n := 8) (by omega) (by omega)
      rw [hd, hV, dig_word (by omega)] at this
      exact this
    rw [← e]
    constructor
    · intro h1
      exact ⟨hz, by rw [← h1, bswap_leNat]⟩
    · rintro ⟨-, h1⟩
      rw [← bswap_beNat, h1, bswap_bswap, Nat.mod_eq_of_lt (by omega)]
  · rw [b2n_neg hz]
    wstep
    refine ⟨?_, hl⟩
    rw [b2n_neg fun h => hz h.1]

/-- The slot of a field of the object whose id is at `kp` is in the new cell at `a`. -/
structure Prep (σ σ' : Store) (a slot : Nat) : Prop where
  later : Later (scr a) σ σ'
  statics : Statics σ'
  new : a = σ.nextFree
  nextFree : σ'.nextFree = σ.nextFree + 32
  slot : beNat σ'.mem a 32 = slot
  host : σ'.host = σ.host

theorem Prep.safe {R : Nat → Prop} {a b slot : Nat} (h : Prep σ σ' a slot) (hs : Safe σ R b) : Safe σ' R a := fun x hx => by
  have := hs x hx; have := h.new; have := h.nextFree; omega

theorem Prep.mem {R : Nat → Prop} {a b slot x : Nat} (h : Prep σ σ' a slot) (hs : Safe σ R b) (hx : R x) : σ'.mem x = σ.mem x := by
  have h1 := hs x hx
  have h2 := h.new
  exact h.later.mem x h1.2.1 (by unfold scr sizeTable hashBuf; omega)

theorem wp_prep {kp u a : Nat} {s l is Q} (hσ : Heap σ) (hst : Statics σ) (ha : a = σ.nextFree) (hk : kp + 32 ≤ σ.nextFree)
    (hal : Alloced 32 σ σ') (hu : u + 32 ≤ σ.nextFree) (hu' : 468 ≤ u)
    (hQ : ∀ σ'', Prep σ σ'' a (objectSlot σ.host.keccak (beNat σ.mem kp 32) (beNat σ.mem u 32)) → wp is s l σ'' Q) :
    wp (writeObjectSlot.call :: is) (a :: u :: kp :: s) l σ' Q := by
  have f1 := hal.inside
  have f2 := hσ.base
  have f3 := hal.heap.alloc.size_lt
  have f4 := hal.nextFree
  unfold reserved at f2
  subst ha
  refine wp_call3 (writeObjectSlot_spec (by omega) (by rw [hal.mem]; exact hst.objects) (by omega) (by omega) (by omega) (by omega)
    (by omega) (by omega)) ?_
  rintro r σ1 ⟨rfl, hs, ht⟩
  rw [hal.mem, hal.host] at hs
  have hl1 : Later (scr σ.nextFree) σ' σ1 := (ht.later hal.heap fun x hx => by unfold hashBuf at hx; omega).mono
    fun x _ hx => by unfold scr; rcases hx with h | h <;> simp [h]
  have hl : Later (scr σ.nextFree) σ σ1 := (hal.later _).trans hl1
  exact hQ σ1 ⟨hl, hl.statics f2 hst fun x hx => scr_static (.inr (by omega)) hx, rfl, by rw [ht.nextFree, f4], hs, by rw [ht.host, hal.host]⟩

/-- Adding a field: the object is saved in the slot that belongs to its id and the id of its parent. -/
theorem addChild_run {R : Nat → Prop} {fs : List Ty} {uid : Val} {vs : List Val} {w kp ow n : Nat} {P : Store → Prop}
    (hσ : Heap σ) (hst : Statics σ) (hsR : Safe σ R 128) (hrep : Mv.Rep σ.mem R (.object (uidTy :: fs)) (.object ow (uid :: vs)) w)
    (hk : kp + 32 ≤ σ.nextFree) (hroom : Room σ (32 + n))
    (h : ∀ σ1 a, Prep σ σ1 a (objectSlot σ.host.keccak (beNat σ.mem kp 32) (idOf uid)) → Safe σ1 R a →
      Mv.Rep σ1.mem R (.object (uidTy :: fs)) (.object ow (uid :: vs)) w → Room σ1 n →
      (saveObject E T uidTy fs).Calls [w, a] σ1 (fun r σ' => r = [] ∧ Heap σ' ∧ P σ')) :
    (addChild E T uidTy fs).Calls [kp, w] σ (fun r σ' => r = [] ∧ Heap σ' ∧ P σ') := by
  obtain ⟨u, hid, hu, how, hw, hwin, hu'⟩ := rep_idAt' hσ hsR hrep
  have f1 := hσ.alloc.nextFree_le
  have f2 := hσ.base
  have f3 := hσ.alloc.size_lt
  have f4 := hid.owner
  unfold reserved at f2
  refine ⟨rfl, ?_⟩
  unfold addChild callF
  simp only [List.cons_append, List.nil_append]
  wstep
  refine wp_allocR hσ hroom (by omega) fun σ1 a1 => ?_
  have s1 := a1.size
  wstep
  refine wp_call1 (getIdBytesPtr_spec (c := u) rfl rfl (by rw [a1.mem]; exact hid.bytes) (by have := hid.fld; omega)
    (by rw [a1.mem]; have := hid.uid; omega) (by rw [a1.mem]; have := hid.idn; omega)) ?_
  rintro r σ2 ⟨rfl, rfl⟩
  wstep
  refine wp_prep hσ hst rfl hk a1 hu' hid.low fun σ3 hp => ?_
  rw [hu] at hp
  wstep
  refine wp_callF_ok (args := [w, σ.nextFree]) (h σ3 _ hp (hp.safe hsR) (Rep.change (fun x hx => hp.mem hsR hx) (fun _ h => h) _ hrep)
    (Room.after (k := 32) hroom (by rw [hp.nextFree]) hp.later.maxPages)) ?_
  rintro r σ4 ⟨rfl, hh, hP⟩
  refine ⟨by have := hh.alloc.nextFree_le; have := hh.base; unfold reserved at this; omega, hh.ready.noErr, ?_⟩
  wstep
  exact ⟨hh, hP⟩

/-- What the caller of `borrowChild` gets: the address of a new cell with the address of the object. -/
theorem borrowChild_run {fs : List Ty} {p c kp n : Nat} {P : Nat → Store → Prop} (hσ : Heap σ) (hst : Statics σ)
    (hp : p + 4 ≤ σ.nextFree) (hp' : leNat σ.mem p 4 + 4 ≤ σ.nextFree) (hkp : leNat σ.mem (leNat σ.mem p 4) 4 = kp)
    (hk : kp + 32 ≤ σ.nextFree) (hc : c + 32 ≤ σ.nextFree) (hc' : 468 ≤ c) (hroom : Room σ (32 + (n + 4)))
    (h : ∀ σ1 a, Prep σ σ1 a (objectSlot σ.host.keccak (beNat σ.mem kp 32) (beNat σ.mem c 32)) → Room σ1 n →
      (readObject E T uidTy fs).Calls [a, c, kp] σ1 (fun r σ' => ∃ w, r = [w] ∧ w < 2 ^ 32 ∧ Later (scr a) σ1 σ' ∧ σ'.nextFree ≤ σ1.nextFree + n ∧ P w σ')) :
    (borrowChild E T uidTy fs).Calls [p, c] σ (fun r σ' => ∃ q w σ1, r = [q] ∧ P w σ1 ∧ Extends σ1 σ' ∧ σ1.nextFree ≤ q ∧ q + 4 = σ'.nextFree ∧
      leNat σ'.mem q 4 = w ∧ Later (fun x => scr 128 x) σ σ' ∧ Heap σ1) := by
  have f1 := hσ.alloc.nextFree_le
  have f2 := hσ.base
  have f3 := hσ.alloc.size_lt
  unfold reserved at f2
  refine ⟨rfl, ?_⟩
  unfold borrowChild callF
  simp only [List.cons_append, List.nil_append]
  wstep
  refine wp_allocR hσ hroom (by omega) fun σ1 a1 => ?_
  have s1 := a1.size
  rw [← a1.mem] at hp' hkp
  wstep
  rw [hkp]
  refine wp_prep hσ hst rfl hk a1 hc hc' fun σ3 hpr => ?_
  wstep
  refine wp_callF_ok (args := [σ.nextFree, c, kp]) (h σ3 _ hpr
    ((Room.after (k := 32) hroom (by rw [hpr.nextFree]) hpr.later.maxPages).mono (by omega))) ?_
  rintro r σ4 ⟨w, rfl, hw, hl, hcost, hP⟩
  have hh := hl.heap
  refine ⟨by have := hh.alloc.nextFree_le; have := hh.base; unfold reserved at this; omega, hh.ready.noErr, ?_⟩
  have hroom4 : Room σ4 4 := Room.after (k := 32 + n) (by rw [show 32 + n + 4 = 32 + (n + 4) by omega]; exact hroom)
    (by rw [hpr.nextFree] at hcost; omega) (by rw [hl.maxPages, hpr.later.maxPages])
  wstep
  refine wp_allocR hh hroom4 (by omega) fun σ5 a5 => ?_
  have i5 := a5.inside
  have n5 := a5.nextFree
  have l5 := a5.heap.alloc.size_lt
  wstep
  have he : Extends σ4 (σ5.setMem (putLe σ5.mem σ4.nextFree 4 w)) := a5.extends.putLe (by omega) (by omega)
  refine ⟨σ4.nextFree, w, σ4, ⟨rfl, hP, he, Nat.le_refl _, by omega, ?_, ?_, hh⟩⟩
  · rw [leNat_putLe_same, Nat.mod_eq_of_lt (by omega)]
  · have h1 := (hpr.later.trans hl).mono (S := fun x => scr 128 x) fun x hx hr => by unfold scr sizeTable hashBuf at hr ⊢; have := hpr.new; omega
    have g2 := he.host
    refine ⟨he.heap hh, h1.nextFree.trans he.nextFree, h1.size.trans he.size, fun x g1 g2 => ?_, he.maxPages.trans h1.maxPages,
      he.reader.trans h1.reader, ?_⟩
    · rw [he.mem x (by have := h1.nextFree; omega), h1.mem x g1 g2]
    · rw [g2]; exact h1.host

/-- If the field cannot be read, the error reaches the caller. -/
theorem borrowChild_err {fs : List Ty} {p c kp : Nat} {P : Store → Prop} (hσ : Heap σ) (hst : Statics σ)
    (hp : p + 4 ≤ σ.nextFree) (hp' : leNat σ.mem p 4 + 4 ≤ σ.nextFree) (hkp : leNat σ.mem (leNat σ.mem p 4) 4 = kp)
    (hk : kp + 32 ≤ σ.nextFree) (hc : c + 32 ≤ σ.nextFree) (hc' : 468 ≤ c) (hroom : Room σ (32 + 32))
    (h : ∀ σ1 a, Prep σ σ1 a (objectSlot σ.host.keccak (beNat σ.mem kp 32) (beNat σ.mem c 32)) → Room σ1 32 →
      (readObject E T uidTy fs).Calls [a, c, kp] σ1 (fun _ σ' => 260 ≤ σ'.size ∧ errWord σ' ≠ 0 ∧ P σ')) :
    (borrowChild E T uidTy fs).Calls [p, c] σ (fun _ σ' => errWord σ' ≠ 0 ∧ P σ') := by
  have f1 := hσ.alloc.nextFree_le
  have f2 := hσ.base
  have f3 := hσ.alloc.size_lt
  unfold reserved at f2
  refine ⟨rfl, ?_⟩
  unfold borrowChild callF
  simp only [List.cons_append, List.nil_append]
  wstep
  refine wp_allocR hσ hroom (by omega) fun σ1 a1 => ?_
  have s1 := a1.size
  rw [← a1.mem] at hp' hkp
  wstep
  rw [hkp]
  refine wp_prep hσ hst rfl hk a1 hc hc' fun σ3 hpr => ?_
  wstep
  refine wp_callF_err (args := [σ.nextFree, c, kp]) (h σ3 _ hpr
    (Room.after (k := 32) hroom (by rw [hpr.nextFree]) hpr.later.maxPages)) ?_
  rintro r σ4 ⟨h1, h2, hP⟩
  refine ⟨h1, h2, ?_⟩
  simp only [retK, badStk]
  exact ⟨h2, hP⟩

/-- A call that was not executed, or a field that has been deleted: nothing is saved. -/
theorem commitField_unset {fs : List Ty} : (commitField E T uidTy fs).Calls [4294967295] σ (fun r σ' => r = [] ∧ σ' = σ) := by
  refine ⟨rfl, ?_⟩
  unfold commitField
  wstep

theorem commitField_deleted {R : Nat → Prop} {fs : List Ty} {uid : Val} {vs : List Val} {w : Nat} (hσ : Heap σ)
    (hsR : Safe σ R 128) (hrep : Mv.Rep σ.mem R (.object (uidTy :: fs)) (.object 0 (uid :: vs)) w) :
    (commitField E T uidTy fs).Calls [w] σ (fun r σ' => r = [] ∧ σ' = σ) := by
  obtain ⟨u, hid, hu, how, hw, hwin⟩ := rep_idAt hσ hsR hrep
  have f1 := hσ.alloc.nextFree_le
  have f3 := hσ.alloc.size_lt
  have f4 := hid.owner
  have f5 := hid.fld
  have hne : w ≠ 4294967295 := by omega
  refine ⟨rfl, ?_⟩
  unfold commitField
  wstep
  refine wp_call1 (getStructOwner_spec (by omega) (by omega)) ?_
  rintro r σ2 ⟨rfl, rfl⟩
  wstep
  refine wp_call2 (isZero_spec (k := 8) (by omega) (by omega)) ?_
  rintro r σ2 ⟨rfl, rfl⟩
  have ez : leNat σ2.mem (w - 32) (4 * 8) = 0 := by rw [leNat_zero_iff_beNat]; exact how
  rw [b2n_pos ez]
  wstep

/-- A field is saved in the slot that belongs to its id and its owner, which is the id of its parent. -/
theorem commitField_run {R : Nat → Prop} {fs : List Ty} {uid : Val} {vs : List Val} {w ow n : Nat} {P : Store → Prop}
    (hσ : Heap σ) (hst : Statics σ) (hsR : Safe σ R 128) (hrep : Mv.Rep σ.mem R (.object (uidTy :: fs)) (.object ow (uid :: vs)) w)
    (h0 : ow ≠ 0) (hroom : Room σ (32 + n))
    (h : ∀ σ1 a, Prep σ σ1 a (objectSlot σ.host.keccak ow (idOf uid)) → Safe σ1 R a →
      Mv.Rep σ1.mem R (.object (uidTy :: fs)) (.object ow (uid :: vs)) w → Room σ1 n →
      (saveObject E T uidTy fs).Calls [w, a] σ1 (fun r σ' => r = [] ∧ P σ')) :
    (commitField E T uidTy fs).Calls [w] σ (fun r σ' => r = [] ∧ P σ') := by
  obtain ⟨u, hid, hu, how, hw, hwin, hu'⟩ := rep_idAt' hσ hsR hrep
  have f1 := hσ.alloc.nextFree_le
  have f2 := hσ.base
  have f3 := hσ.alloc.size_lt
  have f4 := hid.owner
  have f5 := hid.fld
  unfold reserved at f2
  refine ⟨rfl, ?_⟩
  unfold commitField
  obtain ⟨X, hX⟩ : ∃ X, X = code[Op.c32 32, alloc.call, Op.lset 2,
     Op.lget 1, Op.lget 0, getIdBytesPtr.call, Op.lget 2, writeObjectSlot.call,
     Op.lget 0, Op.lget 2, (saveObject E T uidTy fs).call] := ⟨_, rfl⟩
  rw [← hX]
  wstep
  refine wp_call1 (getStructOwner_spec (by omega) (by omega)) ?_
  rintro r σ2 ⟨rfl, rfl⟩
  wstep
  refine wp_call2 (isZero_spec (k := 8) (by omega) (by omega)) ?_
  rintro r σ2 ⟨rfl, rfl⟩
  have ez : ¬ leNat σ2.mem (w - 32) (4 * 8) = 0 := by rw [leNat_zero_iff_beNat, how]; exact h0
  rw [b2n_neg ez]
  rw [hX]
  wstep
  refine wp_allocR hσ hroom (by omega) fun σ1 a1 => ?_
  have s1 := a1.size
  wstep
  refine wp_call1 (getIdBytesPtr_spec (c := u) rfl rfl (by rw [a1.mem]; exact hid.bytes) (by have := hid.fld; omega)
    (by rw [a1.mem]; have := hid.uid; omega) (by rw [a1.mem]; have := hid.idn; omega)) ?_
  rintro r σ3 ⟨rfl, rfl⟩
  wstep
  refine wp_prep hσ hst rfl (by omega) a1 hu' hid.low fun σ4 hp => ?_
  rw [hu, how] at hp
  wstep
  refine wp_call2 (h σ4 _ hp (hp.safe hsR) (Rep.change (fun x hx => hp.mem hsR hx) (fun _ h => h) _ hrep)
    (Room.after (k := 32) hroom (by rw [hp.nextFree]) hp.later.maxPages)) ?_
  rintro r σ5 ⟨rfl, hP⟩
  wstep
  exact hP

end Rt
