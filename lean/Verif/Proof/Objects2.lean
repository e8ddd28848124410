import Verif.Proof.Objects

/-!
# `peep`, reading objects again after a delegated call, and named ids: proofs
-/

namespace Rt
open Wasm Mv Slots Layout

variable {σ σ' : Store} {E : ErrPtrs} {T : Ty → Nat}

/-! ### Named ids -/

theorem computeNamedId_spec {h m : Nat} (hσ : Heap σ) (hroom : Room σ m) (hm : 32 ≤ m) :
    (computeNamedId h).Calls [] σ (fun r σ' => r = [σ.nextFree] ∧ Extends σ σ' ∧ σ'.nextFree = σ.nextFree + 32 ∧
      beNat σ'.mem σ.nextFree 32 = h % 2 ^ 256) := by
  refine ⟨rfl, ?_⟩
  unfold computeNamedId
  simp only [List.cons_append, List.nil_append]
  wstep
  refine wp_allocR hσ hroom hm fun σ1 a1 => ?_
  have i1 := a1.inside
  have n1 := a1.nextFree
  have s1 := a1.heap.alloc.size_lt
  wstep
  rw [wp_storeHash (p := σ.nextFree) (by simp [lget, lset]) (by omega)]
  wstep
  have hx := a1.extends.putBe (p := σ.nextFree) (n := 32) (v := h) (by omega) (by omega)
  exact ⟨hx, n1, by rw [beNat_putBe_same]; norm_num⟩

theorem asUid_spec {p m : Nat} (hσ : Heap σ) (hroom : Room σ m) (hm : 4 ≤ m) (hp : p < 2 ^ 32) :
    asUid.Calls [p] σ (fun r σ' => r = [σ.nextFree] ∧ Extends σ σ' ∧ σ'.nextFree = σ.nextFree + 4 ∧ leNat σ'.mem σ.nextFree 4 = p) := by
  refine ⟨rfl, ?_⟩
  unfold asUid
  wstep
  refine wp_allocR hσ hroom hm fun σ1 a1 => ?_
  have i1 := a1.inside
  have n1 := a1.nextFree
  have s1 := a1.heap.alloc.size_lt
  wstep
  have hx := a1.extends.putLe (p := σ.nextFree) (n := 4) (v := p) (by omega) (by omega)
  exact ⟨hx, n1, by rw [leNat_putLe_same, Nat.mod_eq_of_lt (by omega)]⟩

/-! ### `peep` -/

/-- The slot has been computed and its content has been read. -/
structure Seen (σ σ' : Store) (slot : Nat) : Prop where
  later : Later fixedMem σ σ'
  statics : Statics σ'
  nextFree : σ'.nextFree = σ.nextFree + 32
  cell : beNat σ'.mem σ.nextFree 32 = slot
  data : beNat σ'.mem 64 32 = σ.host.storage slot % 2 ^ 256
  host : σ'.host = σ.host

theorem Prep.seen {σ1 : Store} {slot : Nat} (hσ : Heap σ) (h : Prep σ σ1 σ.nextFree slot) :
    Seen σ (σ1.setMem (putBe σ1.mem 64 32 (σ1.host.storage (beNat σ1.mem σ.nextFree 32)))) slot := by
  have hb := hσ.base
  unfold reserved at hb
  have hn := h.nextFree
  have hl : Later fixedMem σ σ1 := h.later.mono fun x hx hr => by unfold scr sizeTable hashBuf at hr; unfold fixedMem; omega
  have hm : ∀ p, p + 32 ≤ 64 ∨ 96 ≤ p → beNat (putBe σ1.mem 64 32 (σ1.host.storage (beNat σ1.mem σ.nextFree 32))) p 32 = beNat σ1.mem p 32 :=
    fun p hp => beNat_putBe_disj (by omega)
  have hm' : ∀ p, p + 32 ≤ 64 ∨ 96 ≤ p → leNat (putBe σ1.mem 64 32 (σ1.host.storage (beNat σ1.mem σ.nextFree 32))) p 32 = leNat σ1.mem p 32 :=
    fun p hp => leNat_congr fun x h1 h2 => putBe_out (by omega)
  have hs := h.statics
  refine ⟨hl.write (fun x h1 h2 => putBe_out (by omega)) (fun x h1 h2 => putBe_out (by unfold fixedMem at h2; omega)) (fun x h1 => putBe_out (by omega)),
    ⟨?_, ?_, ?_, ?_, ?_⟩, hn, ?_, ?_, h.host⟩
  · exact (hm' 0 (by omega)).trans hs.zero
  · exact (hm' 32 (by omega)).trans hs.one
  · exact (hm 96 (by omega)).trans hs.objects
  · exact (hm 160 (by omega)).trans hs.shared
  · exact (hm 192 (by omega)).trans hs.frozen
  · exact (hm _ (by omega)).trans h.slot
  · rw [setMem_mem, beNat_putBe_same, h.slot, h.host]; norm_num

/-- A reference to a `UID`. -/
structure RefUid (σ : Store) (q u : Nat) : Prop where
  ref : q + 4 ≤ σ.nextFree
  inner : leNat σ.mem q 4 + 4 ≤ σ.nextFree
  bytes : leNat σ.mem (leNat σ.mem q 4) 4 = u
  low : 468 ≤ u
  high : u + 32 ≤ σ.nextFree

theorem peep_run {fs : List Ty} {o q u n : Nat} {P : Nat → Store → Store → Prop} (hσ : Heap σ) (hst : Statics σ) (hq : RefUid σ q u)
    (ho : o + 32 ≤ σ.nextFree) (hroom : Room σ (32 + (4 + n))) (hocc : Occupied σ (beNat σ.mem o 32) (beNat σ.mem u 32))
    (h : ∀ σ1 σ2, Seen σ σ1 (objectSlot σ.host.keccak (beNat σ.mem o 32) (beNat σ.mem u 32)) → Alloced 4 σ1 σ2 → Room σ2 n →
      (readObject E T uidTy fs).Calls [σ.nextFree, u, o] σ2 (fun r σ' => ∃ w, r = [w] ∧ w < 2 ^ 32 ∧ Later (scr σ.nextFree) σ2 σ' ∧ P w σ2 σ')) :
    (peep E T uidTy fs).Calls [o, q] σ (fun r σ' => ∃ w σ1 σ2 σ3, r = [σ.nextFree + 32] ∧
      Seen σ σ1 (objectSlot σ.host.keccak (beNat σ.mem o 32) (beNat σ.mem u 32)) ∧ Alloced 4 σ1 σ2 ∧ Later (scr σ.nextFree) σ2 σ3 ∧ w < 2 ^ 32 ∧ P w σ2 σ3 ∧
      σ' = σ3.setMem (putLe σ3.mem (σ.nextFree + 32) 4 w)) := by
  have f1 := hσ.alloc.nextFree_le
  have f2 := hσ.base
  have f3 := hσ.alloc.size_lt
  have g1 := hq.ref; have g2 := hq.inner; have g3 := hq.bytes; have g4 := hq.high; have g5 := hq.low
  unfold reserved at f2
  refine ⟨rfl, ?_⟩
  unfold peep negate
  simp only [List.cons_append, List.nil_append]
  wstep
  rw [g3]
  refine wp_allocR hσ hroom (by omega) fun σ1 a1 => ?_
  have s1 := a1.size
  wstep
  refine wp_prep hσ hst rfl ho a1 g4 g5 fun σ3 hp => ?_
  have z3 := hp.later.heap.alloc.nextFree_le
  have z4 := hp.later.heap.alloc.size_lt
  have n3 := hp.nextFree
  have hseen := hp.seen hσ
  wstep
  rw [wp_storageLoad (by omega) (by omega)]
  obtain ⟨σ4, h4⟩ : ∃ σ4, σ4 = σ3.setMem (putBe σ3.mem 64 32 (σ3.host.storage (beNat σ3.mem σ.nextFree 32))) := ⟨_, rfl⟩
  rw [← h4] at hseen ⊢
  have z5 := hseen.later.heap.alloc.nextFree_le
  have z6 := hseen.later.heap.alloc.size_lt
  have n5 := hseen.nextFree
  wstep
  refine wp_call2 (isZero_spec (k := 8) (by omega) (by omega)) ?_
  rintro r σ5 ⟨rfl, rfl⟩
  have ez : leNat σ5.mem 64 (4 * 8) = 0 ↔ beNat σ5.mem 64 32 = 0 := leNat_zero_iff_beNat _ _ _
  rw [hseen.data] at ez
  wstep
  rw [ez]
  refine .intro (fun _ => ?_) (fun hne => absurd hocc (by unfold Occupied; exact hne))
  refine wp_allocR hseen.later.heap (Room.after (k := 32) hroom (by omega) hseen.later.maxPages) (by omega) fun σ6 a6 => ?_
  have n6 := a6.nextFree
  have i6 := a6.inside
  have s6 := a6.heap.alloc.size_lt
  have hr6 : Room σ6 n := Room.after (k := 36) (by rw [show 36 + n = 32 + (4 + n) by omega]; exact hroom) (by omega) (a6.maxPages.trans hseen.later.maxPages)
  wstep
  refine wp_call3 (h σ5 σ6 hseen a6 hr6) ?_
  rintro r σ7 ⟨w, rfl, hw, hl, hP⟩
  have i7 := hl.heap.alloc.nextFree_le
  have m7 := hl.nextFree
  wstep
  exact ⟨w, σ5, σ6, σ7, by rw [n5], hseen, a6, hl, hw, hP, by rw [n5]⟩

theorem peep_none {fs : List Ty} {o q u : Nat} (hσ : Heap σ) (hst : Statics σ) (hq : RefUid σ q u)
    (ho : o + 32 ≤ σ.nextFree) (hroom : Room σ 32) (hocc : ¬ Occupied σ (beNat σ.mem o 32) (beNat σ.mem u 32)) :
    (peep E T uidTy fs).Calls [o, q] σ (fun _ σ' => ∃ σ1, σ1.host = σ.host ∧ σ' = errStore σ1 (E .objectNotFound)) := by
  have f1 := hσ.alloc.nextFree_le
  have f2 := hσ.base
  have f3 := hσ.alloc.size_lt
  have g1 := hq.ref; have g2 := hq.inner; have g3 := hq.bytes; have g4 := hq.high; have g5 := hq.low
  unfold reserved at f2
  refine ⟨rfl, ?_⟩
  unfold peep negate
  simp only [List.cons_append, List.nil_append]
  wstep
  rw [g3]
  refine wp_allocR hσ hroom (by omega) fun σ1 a1 => ?_
  have s1 := a1.size
  wstep
  refine wp_prep hσ hst rfl ho a1 g4 g5 fun σ3 hp => ?_
  have z3 := hp.later.heap.alloc.nextFree_le
  have z4 := hp.later.heap.alloc.size_lt
  have n3 := hp.nextFree
  have hseen := hp.seen hσ
  wstep
  rw [wp_storageLoad (by omega) (by omega)]
  obtain ⟨σ4, h4⟩ : ∃ σ4, σ4 = σ3.setMem (putBe σ3.mem 64 32 (σ3.host.storage (beNat σ3.mem σ.nextFree 32))) := ⟨_, rfl⟩
  rw [← h4] at hseen ⊢
  have z5 := hseen.later.heap.alloc.nextFree_le
  have z6 := hseen.later.heap.alloc.size_lt
  have n5 := hseen.nextFree
  wstep
  refine wp_call2 (isZero_spec (k := 8) (by omega) (by omega)) ?_
  rintro r σ5 ⟨rfl, rfl⟩
  have ez : leNat σ5.mem 64 (4 * 8) = 0 ↔ beNat σ5.mem 64 32 = 0 := leNat_zero_iff_beNat _ _ _
  rw [hseen.data] at ez
  unerr
  wstep
  rw [ez]
  refine .intro (fun hne => absurd (show Occupied σ _ _ from hne) hocc) (fun hne => ?_)
  exact ⟨σ5, hseen.host, rfl⟩

/-! ### Reading objects again -/

theorem reload_plain {fs : List Ty} {c p : Nat} :
    (reload E T uidTy fs).Calls [c, 0, p] σ (fun r σ' => r = [c] ∧ σ' = σ) := by
  refine ⟨rfl, ?_⟩
  unfold reload
  simp only [List.cons_append, List.nil_append]
  wstep

/-- The reference `q` to the `UID` of the object at `x`: the address of the object is in the four bytes before the `UID`. -/
structure BackRef (σ : Store) (q x u n : Nat) : Prop extends RefUid σ q u where
  four : 472 ≤ q
  back : leNat σ.mem (q - 4) 4 = x
  fits : x + n ≤ σ.nextFree
  above : 468 ≤ x

theorem reload_run {fs : List Ty} {c d q x u me owner n : Nat} {P : Nat → Store → Store → Prop} (hσ : Heap σ) (hst : Statics σ) (hd : d ≠ 0)
    (hq : BackRef σ q x u (4 * (fs.length + 1)))
    (hme : σ.host.origin % 2 ^ 160 = me) (hh : Holder σ me (beNat σ.mem u 32) none false owner) (hroom : Room σ n)
    (h : ∀ σ1 k, ObjAt σ σ1 128 k owner (objectSlot σ.host.keccak owner (beNat σ.mem u 32)) → σ1.nextFree = σ.nextFree → σ1.size = σ.size → Room σ1 n →
      (readObject E T uidTy fs).Calls [128, u, k] σ1 (fun r σ' => ∃ w, r = [w] ∧ w + 4 * (fs.length + 1) ≤ σ'.nextFree ∧ Heap σ' ∧ σ.nextFree ≤ σ'.nextFree ∧ P w σ1 σ')) :
    (reload E T uidTy fs).Calls [c, d, q] σ (fun r σ' => ∃ w σ1 σ2, r = [c] ∧
      σ1.nextFree = σ.nextFree ∧ Later fixedMem σ σ1 ∧ Heap σ2 ∧ P w σ1 σ2 ∧ σ' = σ2.setMem (copyBytes σ2.mem x w (4 * (fs.length + 1)))) := by
  have f1 := hσ.alloc.nextFree_le
  have f2 := hσ.base
  have f3 := hσ.alloc.size_lt
  have g1 := hq.ref; have g2 := hq.inner; have g3 := hq.bytes; have g4 := hq.high; have g5 := hq.low
  have g6 := hq.four; have g7 := hq.back; have g8 := hq.fits
  unfold reserved at f2
  refine ⟨rfl, ?_⟩
  unfold reload reloadOne callF
  simp only [List.cons_append, List.nil_append]
  have e4 : (q + 4294967296 - 4) % 4294967296 = q - 4 := by omega
  wstep
  rw [g3, g7]
  have hl := locateAny_found (E := E) (imm := false) hσ hst g4 g5 hme rfl hh
  simp only [Bool.false_eq_true, if_false] at hl
  refine wp_callF_ok (args := [u, 0]) hl ?_
  intro r σ1 hf
  obtain ⟨k, rfl, ho⟩ := hf.located hσ hst
  have hnf := hf.looked.touches.nextFree
  have hsz := hf.looked.touches.size
  have hh1 := ho.later.heap
  refine ⟨by omega, hh1.ready.noErr, ?_⟩
  wstep
  refine wp_callF_ok (args := [128, u, k]) (h σ1 k ho hnf hsz (Room.after (k := 0) (by rw [Nat.zero_add]; exact hroom) (by omega) ho.later.maxPages)) ?_
  rintro r σ2 ⟨w, rfl, hw, hh2, hn2, hP⟩
  have i2 := hh2.alloc.nextFree_le
  have s2 := hh2.alloc.size_lt
  refine ⟨by omega, hh2.ready.noErr, ?_⟩
  wstep
  exact ⟨w, σ1, σ2, hnf, ho.later, hh2, hP, rfl⟩

/-- The object is not found. -/
theorem reload_none {fs : List Ty} {c d q x u me : Nat} (hE : E.Valid) (hσ : Heap σ) (hst : Statics σ) (hd : d ≠ 0)
    (hq : BackRef σ q x u (4 * (fs.length + 1)))
    (hme : σ.host.origin % 2 ^ 160 = me) (hh : ∀ o, ¬ Holder σ me (beNat σ.mem u 32) none false o) :
    (reload E T uidTy fs).Calls [c, d, q] σ (fun _ σ' => NotFound E σ σ') := by
  have f1 := hσ.alloc.nextFree_le
  have f2 := hσ.base
  have f3 := hσ.alloc.size_lt
  have g1 := hq.ref; have g2 := hq.inner; have g3 := hq.bytes; have g4 := hq.high; have g5 := hq.low
  have g6 := hq.four; have g7 := hq.back; have g8 := hq.fits
  unfold reserved at f2
  refine ⟨rfl, ?_⟩
  unfold reload reloadOne callF
  simp only [List.cons_append, List.nil_append]
  have e4 : (q + 4294967296 - 4) % 4294967296 = q - 4 := by omega
  wstep
  rw [g3, g7]
  have hl := locateAny_none (E := E) (imm := false) hσ hst g4 g5 hme rfl hh
  simp only [Bool.false_eq_true, if_false] at hl
  refine wp_callF_err (args := [u, 0]) hl ?_
  intro r σ1 hf
  have key : 260 ≤ σ1.size ∧ errWord σ1 ≠ 0 := by
    obtain ⟨σ2, t, rfl⟩ := hf
    exact ⟨by have := t.size; show 260 ≤ σ2.size; omega, by rw [errWord_ptr hE]; have := hE .objectNotFound; omega⟩
  refine ⟨key.1, key.2, ?_⟩
  simp only [contB, retK]
  exact hf

/-- Fields whose pointers have been copied. -/
theorem repFs_copied {f g : Bytes} {R S : Nat → Prop} (h : ∀ x, R x → g x = f x) (hRS : ∀ x, R x → S x) : ∀ (ts : List Ty) {vs : List Val} {p p' : Nat},
    (∀ i, i < 4 * ts.length → g (p' + i) = f (p + i)) → (∀ i, i < 4 * ts.length → S (p' + i)) → Mv.RepFs f R ts vs p → Mv.RepFs g S ts vs p'
  | [], vs, p, p', _, _, hr => by simpa only [Mv.RepFs] using hr
  | t :: ts, vs, p, p', hc, hs, hr => by
    simp only [Mv.RepFs] at hr ⊢
    simp only [List.length_cons] at hc hs
    obtain ⟨v, vs', h1, h2, h3, h4, h5⟩ := hr
    have e : leNat g p' 4 = leNat f p 4 := leNat_ext fun i hi => hc i (by omega)
    rw [e]
    refine ⟨v, vs', h1, fun x a b => ?_, fun hsc => (h3 hsc).mono hRS, ?_, repFs_copied h hRS ts (p := p + 4) (fun i hi => ?_) (fun i hi => ?_) h5⟩
    · have := hs (x - p') (by omega)
      rwa [show p' + (x - p') = x by omega] at this
    · by_cases hsc : t.scalar = true
      · rw [if_pos hsc] at h4 ⊢
        rw [(h3 hsc).leNat h]; exact Rep.change h hRS t h4
      · rw [if_neg hsc] at h4 ⊢
        exact Rep.change h hRS t h4
    · have := hc (4 + i) (by omega)
      rw [show p' + 4 + i = p' + (4 + i) by omega, show p + 4 + i = p + (4 + i) by omega]; exact this
    · have := hs (4 + i) (by omega)
      rw [show p' + 4 + i = p' + (4 + i) by omega]; exact this

end Rt
