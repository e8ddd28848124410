import Verif.Proof.Dynamic4
import Verif.Proof.StorageDec10
import Verif.Proof.Unpack
import Verif.Rt.Objects

/-!
# Stored objects in function signatures: proofs
-/

namespace Rt
open Wasm Mv Slots Layout

variable {σ σ' : Store} {E : ErrPtrs} {T : Ty → Nat}

/-- The fixed part of memory. -/
def fixedMem (x : Nat) : Prop := x < 468

/-- An object has been located: its slot is in the cell at `a`, its owner at `k`. -/
structure ObjAt (σ σ' : Store) (a k owner slot : Nat) : Prop where
  later : Later fixedMem σ σ'
  statics : Statics σ'
  fixed : k + 32 ≤ 256
  owner : beNat σ'.mem k 32 = owner
  slot : beNat σ'.mem a 32 = slot
  host : σ'.host = σ.host

theorem lookup_later (hσ : Heap σ) (h : Touches lookupBuf σ σ') : Later fixedMem σ σ' := by
  have f2 := hσ.base
  unfold reserved at f2
  exact (h.later hσ fun x hx => by unfold lookupBuf at hx; omega).mono fun x _ hx => by unfold lookupBuf at hx; unfold fixedMem; omega

theorem FoundAt.located {owner id : Nat} {r : List Nat} (hσ : Heap σ) (hst : Statics σ) (h : FoundAt σ σ' owner id r) :
    ∃ k, r = [k] ∧ ObjAt σ σ' 128 k owner (objectSlot σ.host.keccak owner id) := by
  obtain ⟨k, rfl, hk, hown⟩ := h.ptr
  have ht := h.looked.touches
  exact ⟨k, rfl, lookup_later hσ ht, ht.statics hst fun x => lookupBuf_static, by omega, hown, h.looked.slot, ht.host⟩

/-- The slot is copied to new memory. -/
theorem ObjAt.copy {σ1 σ2 : Store} {k owner slot : Nat} (hσ : Heap σ) (h : ObjAt σ σ1 128 k owner slot) (hal : Alloced 32 σ1 σ2) :
    ObjAt σ (σ2.setMem (copyBytes σ2.mem σ1.nextFree 128 32)) σ1.nextFree k owner slot := by
  have f1 := hal.inside
  have f2 := hσ.base
  have f4 := hal.nextFree
  have f5 := h.later.nextFree
  have f6 := h.fixed
  unfold reserved at f2
  have hm : ∀ x, x < σ1.nextFree → copyBytes σ2.mem σ1.nextFree 128 32 x = σ1.mem x := fun x hx => by
    rw [copyBytes_out (by omega), hal.mem]
  have hl : Later fixedMem σ (σ2.setMem (copyBytes σ2.mem σ1.nextFree 128 32)) := by
    refine (h.later.trans (hal.later _)).write (fun x h1 h2 => copyBytes_out (by omega)) (fun x h1 h2 => copyBytes_out (by omega))
      (fun x h1 => copyBytes_out (by omega))
  have hs := h.statics
  refine ⟨hl, ⟨?_, ?_, ?_, ?_, ?_⟩, f6, ?_, ?_, hal.host.trans h.host⟩
  · exact (leNat_congr fun x h1 h2 => hm x (by omega)).trans hs.zero
  · exact (leNat_congr fun x h1 h2 => hm x (by omega)).trans hs.one
  · exact (beNat_congr fun x h1 h2 => hm x (by omega)).trans hs.objects
  · exact (beNat_congr fun x h1 h2 => hm x (by omega)).trans hs.shared
  · exact (beNat_congr fun x h1 h2 => hm x (by omega)).trans hs.frozen
  · exact (beNat_congr fun x h1 h2 => hm x (by omega)).trans h.owner
  · rw [← h.slot, ← hal.mem]
    refine beNat_ext fun i hi => ?_
    rw [setMem_mem, copyBytes_in (by omega) (by omega), Nat.add_sub_cancel_left]

theorem unpackKind_run {locate : Fn} {fs : List Ty} {u owner id n : Nat} {P : List Nat → Store → Prop} (hσ : Heap σ) (hst : Statics σ) (hroom : Room σ (32 + n))
    (hloc : locate.Calls [u] σ (fun r σ' => FoundAt σ σ' owner id r))
    (h : ∀ σ1 k, ObjAt σ σ1 σ.nextFree k owner (objectSlot σ.host.keccak owner id) → σ1.nextFree = σ.nextFree + 32 → Room σ1 n →
      (readObject E T uidTy fs).Calls [σ.nextFree, u, k] σ1 (fun r σ' => ∃ w, r = [w] ∧ P r σ')) :
    (unpackKind E T locate uidTy fs).Calls [u] σ P := by
  have f1 := hσ.alloc.nextFree_le
  have f2 := hσ.base
  have f3 := hσ.alloc.size_lt
  unfold reserved at f2
  refine ⟨rfl, ?_⟩
  unfold unpackKind callF
  simp only [List.cons_append, List.nil_append]
  wstep
  refine wp_callF_ok (args := [u]) hloc ?_
  intro r σ1 hf
  obtain ⟨k, rfl, hl⟩ := hf.located hσ hst
  have hnf := hf.looked.touches.nextFree
  have hh := hl.later.heap
  have g1 := hh.alloc.nextFree_le
  refine ⟨by omega, hh.ready.noErr, ?_⟩
  wstep
  refine wp_allocR hh (Room.after (k := 0) (by rw [Nat.zero_add]; exact hroom) (by omega) hl.later.maxPages) (by omega) fun σ2 a2 => ?_
  have s2 := a2.inside
  have s3 := a2.nextFree
  have s4 := a2.heap.alloc.size_lt
  wstep
  have hc := hl.copy hσ a2
  have hr : Room (σ2.setMem (copyBytes σ2.mem σ1.nextFree 128 32)) n :=
    Room.after (k := 32) hroom (by show σ2.nextFree ≤ _; omega) hc.later.maxPages
  rw [hnf] at hc hr ⊢
  refine wp_call3 (h _ k hc (by show σ2.nextFree = _; omega) hr) ?_
  rintro r σ3 ⟨w, rfl, hP⟩
  wstep
  exact hP

theorem unpackAny_run {fs : List Ty} {u fr owner id n : Nat} {P : List Nat → Store → Prop} (hσ : Heap σ) (hst : Statics σ) (hroom : Room σ (32 + n))
    (hloc : (locateData E).Calls [u, fr] σ (fun r σ' => FoundAt σ σ' owner id r))
    (h : ∀ σ1 k, ObjAt σ σ1 σ.nextFree k owner (objectSlot σ.host.keccak owner id) → σ1.nextFree = σ.nextFree + 32 → Room σ1 n →
      (readObject E T uidTy fs).Calls [σ.nextFree, u, k] σ1 (fun r σ' => ∃ w, r = [w] ∧ P r σ')) :
    (unpackAny E T uidTy fs).Calls [u, fr] σ P := by
  have f1 := hσ.alloc.nextFree_le
  have f2 := hσ.base
  have f3 := hσ.alloc.size_lt
  unfold reserved at f2
  refine ⟨rfl, ?_⟩
  unfold unpackAny callF
  simp only [List.cons_append, List.nil_append]
  wstep
  refine wp_callF_ok (args := [u, fr]) hloc ?_
  intro r σ1 hf
  obtain ⟨k, rfl, hl⟩ := hf.located hσ hst
  have hnf := hf.looked.touches.nextFree
  have hh := hl.later.heap
  have g1 := hh.alloc.nextFree_le
  refine ⟨by omega, hh.ready.noErr, ?_⟩
  wstep
  refine wp_allocR hh (Room.after (k := 0) (by rw [Nat.zero_add]; exact hroom) (by omega) hl.later.maxPages) (by omega) fun σ2 a2 => ?_
  have s2 := a2.inside
  have s3 := a2.nextFree
  have s4 := a2.heap.alloc.size_lt
  wstep
  have hc := hl.copy hσ a2
  have hr : Room (σ2.setMem (copyBytes σ2.mem σ1.nextFree 128 32)) n :=
    Room.after (k := 32) hroom (by show σ2.nextFree ≤ _; omega) hc.later.maxPages
  rw [hnf] at hc hr ⊢
  refine wp_call3 (h _ k hc (by show σ2.nextFree = _; omega) hr) ?_
  rintro r σ3 ⟨w, rfl, hP⟩
  wstep
  exact hP

/-- The error of a failed lookup reaches the caller. -/
theorem unpackKind_none {locate : Fn} {fs : List Ty} {u : Nat} (hσ : Heap σ) (hE : E.Valid)
    (hloc : locate.Calls [u] σ (fun _ σ' => NotFound E σ σ')) :
    (unpackKind E T locate uidTy fs).Calls [u] σ (fun r σ' => (∃ w, r = [w]) ∧ NotFound E σ σ') := by
  have f1 := hσ.alloc.nextFree_le
  have f2 := hσ.base
  unfold reserved at f2
  refine ⟨rfl, ?_⟩
  unfold unpackKind callF
  simp only [List.cons_append, List.nil_append]
  wstep
  refine wp_callF_err (args := [u]) hloc ?_
  rintro r _ ⟨σ1, t, rfl⟩
  refine ⟨by have := t.size; show 260 ≤ σ1.size; omega, by rw [errWord_ptr hE]; have := hE .objectNotFound; omega, ?_⟩
  simp only [retK, badStk]
  exact ⟨⟨_, rfl⟩, σ1, t, rfl⟩

theorem unpackAny_none {fs : List Ty} {u fr : Nat} (hσ : Heap σ) (hE : E.Valid)
    (hloc : (locateData E).Calls [u, fr] σ (fun _ σ' => NotFound E σ σ')) :
    (unpackAny E T uidTy fs).Calls [u, fr] σ (fun r σ' => (∃ w, r = [w]) ∧ NotFound E σ σ') := by
  have f1 := hσ.alloc.nextFree_le
  have f2 := hσ.base
  unfold reserved at f2
  refine ⟨rfl, ?_⟩
  unfold unpackAny callF
  simp only [List.cons_append, List.nil_append]
  wstep
  refine wp_callF_err (args := [u, fr]) hloc ?_
  rintro r _ ⟨σ1, t, rfl⟩
  refine ⟨by have := t.size; show 260 ≤ σ1.size; omega, by rw [errWord_ptr hE]; have := hE .objectNotFound; omega, ?_⟩
  simp only [retK, badStk]
  exact ⟨⟨_, rfl⟩, σ1, t, rfl⟩

/-- The owner under which the object with id `n` is found for a parameter of a function: the sender `me`, 1 for shared objects and
2 for frozen ones. -/
def Holder (σ : Store) (me n : Nat) : Option Sig.Kind → Bool → Nat → Prop
  | some .owned, _, o => o = me ∧ Occupied σ me n
  | some .shared, _, o => o = 1 ∧ Occupied σ 1 n
  | some .frozen, _, o => o = 2 ∧ Occupied σ 2 n
  | none, imm, o => o = me ∧ Occupied σ me n ∨ o = 1 ∧ ¬ Occupied σ me n ∧ Occupied σ 1 n ∨
      o = 2 ∧ ¬ Occupied σ me n ∧ ¬ Occupied σ 1 n ∧ imm = true ∧ Occupied σ 2 n

theorem Holder.of_host {me n o : Nat} {kind : Option Sig.Kind} {imm : Bool} (h : Holder σ me n kind imm o) (hh : σ'.host = σ.host) :
    Holder σ' me n kind imm o := by
  have : ∀ a, Occupied σ' a n ↔ Occupied σ a n := fun a => by unfold Occupied; rw [hh]
  unfold Holder at h ⊢
  split <;> simp_all

theorem Holder.of_host' {me n o : Nat} {kind : Option Sig.Kind} {imm : Bool} (hh : σ'.host = σ.host) :
    Holder σ' me n kind imm o ↔ Holder σ me n kind imm o := ⟨fun h => h.of_host hh.symm, fun h => h.of_host hh⟩

theorem Holder.occupied {me n o : Nat} {kind : Option Sig.Kind} {imm : Bool} (h : Holder σ me n kind imm o) : Occupied σ o n := by
  unfold Holder at h
  split at h
  · rw [h.1]; exact h.2
  · rw [h.1]; exact h.2
  · rw [h.1]; exact h.2
  · rcases h with h | h | h
    · rw [h.1]; exact h.2
    · rw [h.1]; exact h.2.2
    · rw [h.1]; exact h.2.2.2.2

theorem locateKind_found {k : Sig.Kind} {imm : Bool} {u me id owner : Nat} (hσ : Heap σ) (hst : Statics σ) (hu : u + 32 ≤ σ.nextFree) (hu' : 468 ≤ u)
    (hme : σ.host.origin % 2 ^ 160 = me) (hid : beNat σ.mem u 32 = id) (hh : Holder σ me id (some k) imm owner) :
    (locateKind E k).Calls [u] σ (fun r σ' => FoundAt σ σ' owner id r) := by
  have f1 := hσ.alloc.nextFree_le
  cases k <;> simp only [Holder] at hh <;> obtain ⟨rfl, hh⟩ := hh
  · exact (locateOwned_spec hσ.ready hst (by omega) hu' hme hid).mono fun r σ' h => h.1 hh
  · exact (locateShared_spec hσ.ready hst (by omega) hu' hid).mono fun r σ' h => h.1 hh
  · exact (locateFrozen_spec hσ.ready hst (by omega) hu' hid).mono fun r σ' h => h.1 hh

theorem locateKind_none {k : Sig.Kind} {imm : Bool} {u me id : Nat} (hσ : Heap σ) (hst : Statics σ) (hu : u + 32 ≤ σ.nextFree) (hu' : 468 ≤ u)
    (hme : σ.host.origin % 2 ^ 160 = me) (hid : beNat σ.mem u 32 = id) (hh : ∀ o, ¬ Holder σ me id (some k) imm o) :
    (locateKind E k).Calls [u] σ (fun _ σ' => NotFound E σ σ') := by
  have f1 := hσ.alloc.nextFree_le
  cases k <;> simp only [Holder] at hh
  · exact (locateOwned_spec hσ.ready hst (by omega) hu' hme hid).mono fun r σ' h => h.2 fun ho => hh _ ⟨rfl, ho⟩
  · exact (locateShared_spec hσ.ready hst (by omega) hu' hid).mono fun r σ' h => h.2 fun ho => hh _ ⟨rfl, ho⟩
  · exact (locateFrozen_spec hσ.ready hst (by omega) hu' hid).mono fun r σ' h => h.2 fun ho => hh _ ⟨rfl, ho⟩

theorem imm_flag {imm : Bool} : (if imm then 1 else 0 : Nat) ≠ 0 ↔ imm = true := by cases imm <;> simp

theorem imm_mod {imm : Bool} : (if imm = true then 1 else 0) % 4294967296 = (if imm then 1 else 0 : Nat) := by cases imm <;> rfl

theorem locateAny_found {imm : Bool} {u me id owner : Nat} (hσ : Heap σ) (hst : Statics σ) (hu : u + 32 ≤ σ.nextFree) (hu' : 468 ≤ u)
    (hme : σ.host.origin % 2 ^ 160 = me) (hid : beNat σ.mem u 32 = id) (hh : Holder σ me id none imm owner) :
    (locateData E).Calls [u, if imm then 1 else 0] σ (fun r σ' => FoundAt σ σ' owner id r) := by
  have f1 := hσ.alloc.nextFree_le
  refine (locateData_spec hσ.ready hst (by omega) hu' hme hid).mono fun r σ' h => ?_
  rcases hh with ⟨rfl, h1⟩ | ⟨rfl, h1, h2⟩ | ⟨rfl, h1, h2, h3, h4⟩
  · exact h.own h1
  · exact h.shared h1 h2
  · exact h.frozen h1 h2 (imm_flag.2 h3) h4

theorem locateAny_none {imm : Bool} {u me id : Nat} (hσ : Heap σ) (hst : Statics σ) (hu : u + 32 ≤ σ.nextFree) (hu' : 468 ≤ u)
    (hme : σ.host.origin % 2 ^ 160 = me) (hid : beNat σ.mem u 32 = id) (hh : ∀ o, ¬ Holder σ me id none imm o) :
    (locateData E).Calls [u, if imm then 1 else 0] σ (fun _ σ' => NotFound E σ σ') := by
  have f1 := hσ.alloc.nextFree_le
  refine (locateData_spec hσ.ready hst (by omega) hu' hme hid).mono fun r σ' h => ?_
  have h1 : ¬ Occupied σ me id := fun h => hh _ (.inl ⟨rfl, h⟩)
  have h2 : ¬ Occupied σ 1 id := fun h => hh _ (.inr (.inl ⟨rfl, h1, h⟩))
  exact h.none h1 h2 fun h3 => hh _ (.inr (.inr ⟨rfl, h1, h2, imm_flag.1 h3.1, h3.2⟩))

/-- Loading the object whose id is at `u`. -/
theorem wp_loadObject {kind : Option Sig.Kind} {imm : Bool} {fs : List Ty} {u me id owner n : Nat} {s l is Q} {P : Nat → Store → Prop}
    (hσ : Heap σ) (hst : Statics σ) (hu : u + 32 ≤ σ.nextFree) (hu' : 468 ≤ u) (hroom : Room σ (32 + n))
    (hme : σ.host.origin % 2 ^ 160 = me) (hid : beNat σ.mem u 32 = id) (hh : Holder σ me id kind imm owner)
    (h : ∀ σ1 k, ObjAt σ σ1 σ.nextFree k owner (objectSlot σ.host.keccak owner id) → σ1.nextFree = σ.nextFree + 32 → Room σ1 n →
      (readObject E T uidTy fs).Calls [σ.nextFree, u, k] σ1 (fun r σ' => ∃ w, r = [w] ∧ P w σ'))
    (hP : ∀ w σ', P w σ' → Heap σ' ∧ wp is (w :: s) l σ' Q) :
    wp (loadObject E T kind imm uidTy fs ++ is) (u :: s) l σ Q := by
  have hsz : ∀ σ' : Store, Heap σ' → 260 ≤ σ'.size := fun σ' h => by
    have := h.alloc.nextFree_le; have := h.base; unfold reserved at this; omega
  cases kind with
  | some k =>
    unfold loadObject callF
    simp only [List.cons_append, List.nil_append]
    refine wp_callF_ok (args := [u]) (unpackKind_run (P := fun r σ' => ∃ w, r = [w] ∧ P w σ') hσ hst hroom
      (locateKind_found hσ hst hu hu' hme hid hh) fun σ1 k h1 h2 h3 => (h σ1 k h1 h2 h3).mono ?_) ?_
    · rintro r σ' ⟨w, rfl, hw⟩
      exact ⟨w, rfl, w, rfl, hw⟩
    · rintro r σ' ⟨w, rfl, hw⟩
      obtain ⟨g1, g2⟩ := hP w σ' hw
      exact ⟨hsz _ g1, g1.ready.noErr, g2⟩
  | none =>
    unfold loadObject callF
    simp only [List.cons_append, List.nil_append]
    wstep
    rw [imm_mod]
    refine wp_callF_ok (args := [u, if imm then 1 else 0]) (unpackAny_run (P := fun r σ' => ∃ w, r = [w] ∧ P w σ') hσ hst hroom
      (locateAny_found hσ hst hu hu' hme hid hh) fun σ1 k h1 h2 h3 => (h σ1 k h1 h2 h3).mono ?_) ?_
    · rintro r σ' ⟨w, rfl, hw⟩
      exact ⟨w, rfl, w, rfl, hw⟩
    · rintro r σ' ⟨w, rfl, hw⟩
      obtain ⟨g1, g2⟩ := hP w σ' hw
      exact ⟨hsz _ g1, g1.ready.noErr, g2⟩

/-- An object that cannot be read. -/
theorem wp_loadObject_err {kind : Option Sig.Kind} {imm : Bool} {fs : List Ty} {u me id owner n : Nat} {s l is Q} {P : Store → Prop}
    (hσ : Heap σ) (hst : Statics σ) (hu : u + 32 ≤ σ.nextFree) (hu' : 468 ≤ u) (hroom : Room σ (32 + n))
    (hme : σ.host.origin % 2 ^ 160 = me) (hid : beNat σ.mem u 32 = id) (hh : Holder σ me id kind imm owner)
    (h : ∀ σ1 k, ObjAt σ σ1 σ.nextFree k owner (objectSlot σ.host.keccak owner id) → σ1.nextFree = σ.nextFree + 32 → Room σ1 n →
      (readObject E T uidTy fs).Calls [σ.nextFree, u, k] σ1 (fun r σ' => ∃ w, r = [w] ∧ 260 ≤ σ'.size ∧ errWord σ' ≠ 0 ∧ P σ'))
    (hP : ∀ σ', errWord σ' ≠ 0 → P σ' → Q (.ret (badStk .i32) σ')) :
    wp (loadObject E T kind imm uidTy fs ++ is) (u :: s) l σ Q := by
  cases kind with
  | some k =>
    unfold loadObject callF
    simp only [List.cons_append, List.nil_append]
    refine wp_callF_err (args := [u]) (unpackKind_run (P := fun r σ' => 260 ≤ σ'.size ∧ errWord σ' ≠ 0 ∧ P σ') hσ hst hroom
      (locateKind_found hσ hst hu hu' hme hid hh) fun σ1 k h1 h2 h3 => h σ1 k h1 h2 h3) ?_
    rintro r σ' ⟨h1, h2, h3⟩
    exact ⟨h1, h2, hP σ' h2 h3⟩
  | none =>
    unfold loadObject callF
    simp only [List.cons_append, List.nil_append]
    wstep
    rw [imm_mod]
    refine wp_callF_err (args := [u, if imm then 1 else 0]) (unpackAny_run (P := fun r σ' => 260 ≤ σ'.size ∧ errWord σ' ≠ 0 ∧ P σ') hσ hst hroom
      (locateAny_found hσ hst hu hu' hme hid hh) fun σ1 k h1 h2 h3 => h σ1 k h1 h2 h3) ?_
    rintro r σ' ⟨h1, h2, h3⟩
    exact ⟨h1, h2, hP σ' h2 h3⟩

/-- An object that is not found. -/
theorem wp_loadObject_none {kind : Option Sig.Kind} {imm : Bool} {fs : List Ty} {u me id : Nat} {s l is Q} (hE : E.Valid)
    (hσ : Heap σ) (hst : Statics σ) (hu : u + 32 ≤ σ.nextFree) (hu' : 468 ≤ u)
    (hme : σ.host.origin % 2 ^ 160 = me) (hid : beNat σ.mem u 32 = id) (hh : ∀ o, ¬ Holder σ me id kind imm o)
    (hP : ∀ σ', NotFound E σ σ' → Q (.ret (badStk .i32) σ')) :
    wp (loadObject E T kind imm uidTy fs ++ is) (u :: s) l σ Q := by
  have f1 := hσ.alloc.nextFree_le
  have f2 := hσ.base
  unfold reserved at f2
  have key : ∀ σ', NotFound E σ σ' → 260 ≤ σ'.size ∧ errWord σ' ≠ 0 := by
    rintro _ ⟨σ1, t, rfl⟩
    exact ⟨by have := t.size; show 260 ≤ σ1.size; omega, by rw [errWord_ptr hE]; have := hE .objectNotFound; omega⟩
  cases kind with
  | some k =>
    unfold loadObject callF
    simp only [List.cons_append, List.nil_append]
    refine wp_callF_err (args := [u]) (unpackKind_none hσ hE (locateKind_none hσ hst hu hu' hme hid hh)) ?_
    rintro r σ' ⟨-, h⟩
    exact ⟨(key σ' h).1, (key σ' h).2, hP σ' h⟩
  | none =>
    unfold loadObject callF
    simp only [List.cons_append, List.nil_append]
    wstep
    rw [imm_mod]
    refine wp_callF_err (args := [u, if imm then 1 else 0]) (unpackAny_none hσ hE (locateAny_none hσ hst hu hu' hme hid hh)) ?_
    rintro r σ' ⟨-, h⟩
    exact ⟨(key σ' h).1, (key σ' h).2, hP σ' h⟩

end Rt
