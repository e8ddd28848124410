import Verif.Proof.Delete3
import Verif.Proof.StorageDec10
import Verif.Props.ReadBack

/-!
# Deleting objects, and reading objects that are not there: C43, C60

The hash function of the host is arbitrary.
-/

namespace Props
open Wasm Rt Slots Mv Layout

variable {σ σ' : Store} {E : ErrPtrs} {T : Ty → Nat}

/-- The slots of the object have no slot in common and end before `2^256`. -/
structure Own (K : List UInt8 → Nat) (fs : List Ty) (vs : List Val) (c : Nat) : Prop where
  apart : (owned K fs vs c).Pairwise Apart
  lt : ∀ g ∈ owned K fs vs c, g.2 < 2 ^ 256

/-- Deleting an object that is not frozen: afterwards all its slots, with those of the elements of its vectors, are zero, no other
slot changes, the owner in memory is zero and all other values in memory are kept.  Objects in the fields are objects of
their own and are kept.  (If the last field is an enum that ends with its slot, the next slot counts as one of the object.)  The fields `vs` in storage and `vs0` in memory need not be equal.  Missing: types with vectors in enums and
structs that end with an enum (`tidyFs`, `C43_false_enum` and `C43_false_edge`), and addresses of more than 20 bytes (`SmallFs`). -/
theorem C43_partial {R : Nat → Prop} {fs : List Ty} {uid : Val} {vs vs0 : List Val} {w ow : Nat} (hσ : Heap σ) (hst : Statics σ)
    (hfs : StorableFs fs) (htidy : tidyFs fs = true) (hv : SmallFs fs vs) (hsafe : Safe σ R 128)
    (hrep : Mv.Rep σ.mem R (.object (uidTy :: fs)) (.object ow (uid :: vs0)) w) (how : ow ≠ 2)
    (hroom : Room σ (xcostFs fs vs))
    (hs : Stored σ.host.keccak (tagOf T) σ.host.storage fs uid vs (objectSlot σ.host.keccak ow (idOf uid)))
    (hown : Own σ.host.keccak fs vs (objectSlot σ.host.keccak ow (idOf uid))) :
    (deleteObject E fs).Calls [w] σ (fun r σ' => r = [] ∧ Heap σ' ∧ σ'.host = { σ.host with storage := σ'.host.storage } ∧
      (∀ g ∈ owned σ.host.keccak fs vs (objectSlot σ.host.keccak ow (idOf uid)), ∀ x, g.1 ≤ x → x ≤ g.2 → σ'.host.storage x = 0) ∧
      (∀ x, Off (owned σ.host.keccak fs vs (objectSlot σ.host.keccak ow (idOf uid))) x → σ'.host.storage x = σ.host.storage x) ∧
      beNat σ'.mem (w - 32) 32 = 0 ∧ ∀ x, 468 ≤ x → x < σ.nextFree → ¬ Between (w - 32) w x → σ'.mem x = σ.mem x) := by
  obtain ⟨c, hc⟩ : ∃ c, c = objectSlot σ.host.keccak ow (idOf uid) := ⟨_, rfl⟩
  rw [← hc] at hs hown ⊢
  have hap := List.pairwise_cons.mp hown.apart
  obtain ⟨st', h1, h2⟩ := dels_ok (K := σ.host.keccak) fs vs ⟨σ.host.storage, c, 8, 0⟩ (by simp only; omega) htidy
    (LensFs.of_holds fs hs.fields hv) ⟨hap.2, hap.1⟩ (hown.lt _ (List.mem_cons_self ..)) (fun g hg => hown.lt g (List.mem_cons_of_mem _ hg))
  have hu : st'.used = xcostFs fs vs := by rw [h2.used]; exact Nat.zero_add _
  rw [hc] at h1
  refine (deleteObject_spec hfs hσ hst hsafe hrep how (by rw [hu]; exact hroom) h1).mono ?_
  rintro r σ' ⟨rfl, hl, hh, -, hz⟩
  have hsl : st'.slot = (nexts fs (c, 8)).1 := congrArg Prod.fst h2.pos
  have hstor : ∀ x, σ'.host.storage x = if x = (nexts fs (c, 8)).1 then 0 else st'.stor x := fun x => by
    rw [hh]; show upd st'.stor st'.slot 0 x = _; rw [hsl]; rfl
  refine ⟨rfl, hl.heap, by rw [hh], fun g hg x x1 x2 => ?_, fun x hx => ?_, hz, fun x x1 x2 hb => hl.mem x x2 fun h => h.elim (fun h => ?_) hb⟩
  · rw [hstor]
    split
    · rfl
    rcases List.mem_cons.mp hg with rfl | hg
    · exact h2.zero x x1 (by simp only at x2; show x < (nexts fs (c, 8)).1; omega)
    · exact h2.segs g hg x x1 x2
  · have hx0 := hx _ (List.mem_cons_self ..)
    simp only at hx0
    have hle : c ≤ (nexts fs (c, 8)).1 := (nexts_Le fs (p := (c, 8)) (by simp only; omega)).slot
    rw [hstor, if_neg (by omega)]
    exact h2.frame x (by show x < c ∨ (nexts fs (c, 8)).1 < x; omega) fun g hg => hx g (List.mem_cons_of_mem _ hg)
  · unfold scr sizeTable hashBuf at h; omega

theorem safeD {ws : List (Nat × Nat)} {S : Nat → Nat} : Safe (storeO ws S) (Between 500 900) 128 := fun x hx => by
  have h1 := hx.1; have h2 := hx.2
  exact ⟨by omega, by show x < 1000; omega, by omega⟩

theorem slotD : objectSlot hashO 0 (idOf uidO) = 64000 := by decide +kernel

/-- Storage with the object of `wsO`, and something else in slot 12. -/
def storD (x : Nat) : Nat :=
  if x = 64000 then 5 * 72057594037927936 + 5 * 18446744073709551616 else if x = 64001 then 2 else if x = 64002 then 197633
  else if x = 32000 then 513 else if x = 12 then 1 else 0

theorem storedD (hT : T (.object (uidTy :: fsO)) = 5) : Stored hashO (tagOf T) storD fsO uidO vsO 64000 := by
  constructor
  · rw [tagOf, hT]; decide +kernel
  · simp [fsO, vsO, uidO, idOf, HoldsFs, Layout.Holds, HoldsVar, walk, next, place, width, elems, hashO, atom]
    decide +kernel

theorem ownD : Own hashO fsO vsO 64000 := by
  have : owned hashO fsO vsO 64000 = [(64000, 64002), (32000, 32000)] := by decide +kernel
  constructor <;> rw [this] <;> simp [Layout.Apart]

example : (deleteObject E fsO).Calls [600] (storeO wsO storD) (fun _ σ' => σ'.host.storage 64000 = 0 ∧ σ'.host.storage 64001 = 0 ∧
    σ'.host.storage 64002 = 0 ∧ σ'.host.storage 32000 = 0 ∧ σ'.host.storage 12 = 1) := by
  refine (C43_partial (E := E) (T := fun _ => 5) (storeO_heap _ wsO_in) (storeO_statics _ (by decide)) storableO (by decide +kernel) smallO safeD repO
    (by omega) (storeO_room (by decide +kernel)) (by rw [show (storeO wsO storD).host.keccak = hashO from rfl, slotD]; exact storedD rfl)
    (by rw [show (storeO wsO storD).host.keccak = hashO from rfl, slotD]; exact ownD)).mono fun r σ' h => ?_
  have e : owned hashO fsO vsO 64000 = [(64000, 64002), (32000, 32000)] := by decide +kernel
  rw [show (storeO wsO storD).host.keccak = hashO from rfl, slotD, e] at h
  obtain ⟨-, -, -, h1, h2, -⟩ := h
  refine ⟨h1 (64000, 64002) (by simp) _ (by simp) (by simp), h1 (64000, 64002) (by simp) _ (by simp) (by simp),
    h1 (64000, 64002) (by simp) _ (by simp) (by simp), h1 (32000, 32000) (by simp) _ (by simp) (by simp), (h2 12 ?_).trans rfl⟩
  intro g hg
  simp only [List.mem_cons, List.not_mem_nil, or_false] at hg
  rcases hg with rfl | rfl <;> simp only <;> omega

/-- A frozen object is not deleted: the call ends with an error, and neither storage nor memory, except for the error word, changes. -/
theorem C43_frozen {R : Nat → Prop} {fs : List Ty} {uid : Val} {vs : List Val} {w : Nat} (hE : E.Valid) (hσ : Heap σ) (hst : Statics σ)
    (hsafe : Safe σ R 128) (hrep : Mv.Rep σ.mem R (.object (uidTy :: fs)) (.object 2 (uid :: vs)) w) :
    (deleteObject E fs).Calls [w] σ (fun r σ' => r = [] ∧ errWord σ' = E .frozenCannotBeDeleted ∧ errWord σ' ≠ 0 ∧ σ'.host = σ.host ∧
      ∀ x, x < 256 ∨ 260 ≤ x → σ'.mem x = σ.mem x) := by
  refine (deleteObject_frozen (fs := fs) hσ hst hsafe hrep).mono ?_
  rintro r σ' ⟨rfl, rfl⟩
  rw [errWord_ptr hE]
  exact ⟨rfl, rfl, by have := hE .frozenCannotBeDeleted; omega, rfl, fun x hx => putLe_out (by unfold abortPtr; omega)⟩

/-- A frozen object with a field `5: u8`. -/
def wsFr : List (Nat × Nat) := wsN ++ [(596, 33554432)]

theorem repOwn {f : Bytes} {fs : List Ty} {vs : List Val} {ow : Nat} (h0 : beNat f 568 32 = ow) (h1 : leNat f 600 4 = 640)
    (h2 : leNat f 640 4 = 644) (h3 : leNat f 644 4 = 660) (h4 : beNat f 660 32 = 9) (h : Mv.RepFs f (Between 500 900) fs vs 604) :
    Mv.Rep f (Between 500 900) (.object (uidTy :: fs)) (.object ow (uidO :: vs)) 600 := by
  have hw : ∀ p n, 500 ≤ p → p + n ≤ 900 → Within (Between 500 900) p n := fun p n h1 h2 x h3 h4 => ⟨by omega, by omega⟩
  simp only [Mv.Rep]
  refine ⟨_, by omega, by rw [h0], hw _ _ (by omega) (by omega), ?_⟩
  simp only [uidTy, Mv.RepFs, Mv.Rep, Ty.scalar, Bool.false_eq_true, if_false, h1, h2, h3, h4]
  exact ⟨_, _, rfl, hw _ _ (by omega) (by omega), fun h => h.elim, ⟨_, rfl, _, _, rfl, hw _ _ (by omega) (by omega), fun h => h.elim,
    ⟨_, rfl, _, _, rfl, hw _ _ (by omega) (by omega), fun h => h.elim, ⟨rfl, hw _ _ (by omega) (by omega)⟩, rfl⟩, rfl⟩, h⟩

example : (deleteObject E0 [.u8]).Calls [600] (storeO wsFr storD) (fun _ σ' => errWord σ' ≠ 0 ∧ σ'.host.storage 32000 = 513) := by
  refine (C43_frozen (E := E0) (fs := [.u8]) (uid := uidO) (vs := [.num 5]) E0_valid (storeO_heap _ (by decide)) (storeO_statics _ (by decide)) safeD ?_).mono
    fun r σ' h => ⟨h.2.2.1, by rw [h.2.2.2.1]; rfl⟩
  show Mv.Rep (memO wsFr) _ _ _ _
  refine repOwn (by decide +kernel) (by decide +kernel) (by decide +kernel) (by decide +kernel) (by decide +kernel) ?_
  have e1 : leNat (memO wsFr) 604 4 = 700 := by decide +kernel
  have e2 : leNat (memO wsFr) 700 1 = 5 := by decide +kernel
  have hw : ∀ p n, 500 ≤ p → p + n ≤ 900 → Within (Between 500 900) p n := fun p n h1 h2 x h3 h4 => ⟨by omega, by omega⟩
  simp only [Mv.RepFs, Mv.Rep, Ty.scalar, if_true, e1, Ty.size, e2]
  exact ⟨_, _, rfl, hw _ _ (by omega) (by omega), fun _ => hw _ _ (by omega) (by omega), ⟨rfl, by omega⟩, rfl⟩

/-! ### C60: objects are read as what they are -/

/-- The state in which an object is looked for: the cell at `a` contains the slot, the 32 bytes at `ow` are the owner. -/
structure Looker (σ : Store) (a ow slot : Nat) : Prop where
  heap : Heap σ
  statics : Statics σ
  cell : Cell a
  inside : a + 32 ≤ σ.nextFree
  slot : beNat σ.mem a 32 = slot
  owner : ow + 32 ≤ σ.nextFree
  room : Room σ 32

/-- The call has ended with the error; the host is as it was. -/
def Failed (E : ErrPtrs) (e : RtErr) (σ σ' : Store) : Prop := errWord σ' = E e ∧ errWord σ' ≠ 0 ∧ σ'.host = σ.host

theorem failed_err {σ1 : Store} {e : RtErr} (hE : E.Valid) (h : σ1.host = σ.host) : Failed E e σ (errStore σ1 (E e)) := by
  unfold Failed
  rw [errWord_ptr hE]
  exact ⟨rfl, by have := hE e; omega, h⟩

/-- Reading an empty slot as an object of any type fails. -/
theorem C60_absent {fs : List Ty} {a id ow slot : Nat} (hE : E.Valid) (hT : Tags T) (h : Looker σ a ow slot) (hs : σ.host.storage slot = 0) :
    (readObject E T uidTy fs).Calls [a, id, ow] σ (fun _ σ' => Failed E .objectNotFound σ σ') := by
  refine (readObject_err (E := E) h.heap h.statics h.cell h.inside h.slot h.owner h.room (hT _).2 ?_).mono ?_
  · rw [hs]
    have := bswap_pos (n := 8) (hT (.object (uidTy :: fs))).1 (Nat.lt_of_lt_of_eq (hT _).2 (by norm_num))
    unfold dig
    rw [Nat.zero_div, Nat.zero_mod]
    omega
  · rintro r σ' ⟨σ1, x, rfl, -, hh, rfl⟩
    rw [hs, headErr, if_pos (Nat.zero_mod _)]
    exact failed_err hE hh

/-- Reading a slot that holds an object of another type fails. -/
theorem C60_type {fs gs : List Ty} {uid : Val} {vs : List Val} {a id ow slot : Nat} (hE : E.Valid) (hT : Tags T) (h : Looker σ a ow slot)
    (hs : Stored σ.host.keccak (tagOf T) σ.host.storage fs uid vs slot) (hne : T (.object (uidTy :: gs)) ≠ T (.object (uidTy :: fs))) :
    (readObject E T uidTy gs).Calls [a, id, ow] σ (fun _ σ' => Failed E .typeMismatch σ σ') := by
  have hpos := bswap_pos (n := 8) (hT (.object (uidTy :: fs))).1 (Nat.lt_of_lt_of_eq (hT _).2 (by norm_num))
  refine (readObject_err (E := E) h.heap h.statics h.cell h.inside h.slot h.owner h.room (hT _).2 ?_).mono ?_
  · rw [hs.tag]
    intro he
    unfold tagOf at he
    have h1 := congrArg (bswap 8) he
    rw [bswap_bswap, bswap_bswap, Nat.mod_eq_of_lt (Nat.lt_of_lt_of_eq (hT _).2 (by norm_num)),
      Nat.mod_eq_of_lt (Nat.lt_of_lt_of_eq (hT _).2 (by norm_num))] at h1
    exact hne h1.symm
  · rintro r σ' ⟨σ1, x, rfl, -, hh, rfl⟩
    rw [headErr, if_neg]
    · exact failed_err hE hh
    · intro hz
      have h1 := hs.tag
      rw [← dig_word (x := σ.host.storage slot) (i := 0) (n := 8) (by omega), hz] at h1
      unfold dig at h1
      rw [Nat.zero_div, Nat.zero_mod] at h1
      unfold tagOf at h1
      omega

/-- An object that has been deleted cannot be read any more, as an object of any type: in any later state where its first slot
is as the deletion has left it. -/
theorem C60_deleted_partial {R : Nat → Prop} {fs : List Ty} {uid : Val} {vs vs0 : List Val} {w ow : Nat} (hE : E.Valid) (hT : Tags T) (hσ : Heap σ)
    (hst : Statics σ) (hfs : StorableFs fs) (htidy : tidyFs fs = true) (hv : SmallFs fs vs) (hsafe : Safe σ R 128)
    (hrep : Mv.Rep σ.mem R (.object (uidTy :: fs)) (.object ow (uid :: vs0)) w) (how : ow ≠ 2)
    (hroom : Room σ (xcostFs fs vs))
    (hs : Stored σ.host.keccak (tagOf T) σ.host.storage fs uid vs (objectSlot σ.host.keccak ow (idOf uid)))
    (hown : Own σ.host.keccak fs vs (objectSlot σ.host.keccak ow (idOf uid))) :
    (deleteObject E fs).Calls [w] σ (fun r σ1 => r = [] ∧ ∀ (σ2 : Store) (gs : List Ty) (a id ow2 : Nat),
      σ2.host.storage (objectSlot σ.host.keccak ow (idOf uid)) = σ1.host.storage (objectSlot σ.host.keccak ow (idOf uid)) →
      Looker σ2 a ow2 (objectSlot σ.host.keccak ow (idOf uid)) →
      (readObject E T uidTy gs).Calls [a, id, ow2] σ2 (fun _ σ' => Failed E .objectNotFound σ2 σ')) := by
  refine (C43_partial (E := E) hσ hst hfs htidy hv hsafe hrep how hroom hs hown).mono fun r σ1 h => ⟨h.1, fun σ2 gs a id ow2 hS hl => ?_⟩
  refine C60_absent hE hT hl ?_
  rw [hS]
  exact h.2.2.2.1 _ (List.mem_cons_self ..) _ (Nat.le_refl _)
    (nexts_Le fs (p := (objectSlot σ.host.keccak ow (idOf uid), 8)) (by simp only; omega)).slot

theorem lookerO {ws : List (Nat × Nat)} {S : Nat → Nat} {slot : Nat} (h : ∀ a ∈ ws, 468 ≤ a.1 ∧ a.1 + 4 ≤ 1000)
    (h1 : beNat (memO ws) 960 32 = slot) : Looker (storeO ws S) 960 568 slot :=
  ⟨storeO_heap S h, storeO_statics S fun a ha => (h a ha).1, Or.inr (by omega), by show 960 + 32 ≤ 1000; omega, h1,
    by show 568 + 32 ≤ 1000; omega, storeO_room (by omega)⟩

example : (readObject E0 (fun _ => 5) uidTy fsO).Calls [960, 660, 568] (storeO wsO storD) (fun _ σ' => errWord σ' ≠ 0) :=
  (C60_absent (E := E0) E0_valid tags5 (lookerO (slot := 7) wsO_in (by decide +kernel)) rfl).mono fun _ _ h => h.2.1

/-- Type tags for an example. -/
def tagsO (t : Ty) : Nat := if t matches .object [_, _] then 6 else 5

/-- The slot of the object of `storD` at 960. -/
def wsL : List (Nat × Nat) := [(988, 16384000)]

example : (readObject E0 tagsO uidTy [.u8]).Calls [960, 660, 568] (storeO wsL storD) (fun _ σ' => errWord σ' = E0 .typeMismatch) := by
  refine (C60_type (E := E0) (T := tagsO) (fs := fsO) (uid := uidO) (vs := vsO) E0_valid ?_ (lookerO (slot := 64000) (by decide) (by decide +kernel)) (storedD rfl) (by decide)).mono fun _ _ h => h.1
  intro t
  unfold tagsO
  split <;> norm_num

example : (deleteObject E0 fsO).Calls [600] (storeO wsO storD) (fun _ σ1 =>
    (readObject E0 (fun _ => 5) uidTy fsO).Calls [960, 660, 568] (storeO wsL σ1.host.storage) (fun _ σ' => errWord σ' ≠ 0)) := by
  refine (C60_deleted_partial (E := E0) (T := fun _ => 5) E0_valid tags5 (storeO_heap _ wsO_in) (storeO_statics _ (by decide)) storableO (by decide +kernel) smallO
    safeD repO (by omega) (storeO_room (by decide +kernel)) (by rw [show (storeO wsO storD).host.keccak = hashO from rfl, slotD]; exact storedD rfl)
    (by rw [show (storeO wsO storD).host.keccak = hashO from rfl, slotD]; exact ownD)).mono fun r σ1 h => ?_
  rw [show (storeO wsO storD).host.keccak = hashO from rfl, slotD] at h
  exact (h.2 (storeO wsL σ1.host.storage) fsO 960 660 568 rfl (lookerO (by decide) (by decide +kernel))).mono fun _ _ h => h.2.1

/-! ### Counterexamples -/

/-- An object with the variant `0 ([1, 2]: vector<u8>)` of an enum. -/
def wsVe : List (Nat × Nat) := wsId ++ [(604, 700), (704, 720), (720, 2), (724, 2), (728, 513)]

/-- Storage with this object. -/
def storV (x : Nat) : Nat :=
  if x = 64000 then 5 * 72057594037927936 else if x = 64001 then 2 else if x = 32000 then 513 else 0

/-- Deleting an object does not always clear all its slots: the elements of a vector in an enum stay. -/
theorem C43_false_enum : ∃ (σ : Store) (R : Nat → Prop) (fs : List Ty) (uid : Val) (vs : List Val) (w ow : Nat),
    Heap σ ∧ Statics σ ∧ StorableFs fs ∧ SmallFs fs vs ∧ Safe σ R 128 ∧ Mv.Rep σ.mem R (.object (uidTy :: fs)) (.object ow (uid :: vs)) w ∧
    ow ≠ 2 ∧ Room σ (xcostFs fs vs) ∧
    Stored σ.host.keccak (tagOf fun _ => 5) σ.host.storage fs uid vs (objectSlot σ.host.keccak ow (idOf uid)) ∧
    Own σ.host.keccak fs vs (objectSlot σ.host.keccak ow (idOf uid)) ∧
    (deleteObject E0 fs).Calls [w] σ (fun r σ' => r = [] ∧ errWord σ' = 0 ∧
      ∃ g ∈ owned σ.host.keccak fs vs (objectSlot σ.host.keccak ow (idOf uid)), ∃ x, g.1 ≤ x ∧ x ≤ g.2 ∧ σ'.host.storage x ≠ 0) := by
  have hk : (storeO wsVe storV).host.keccak = hashO := rfl
  have e : owned hashO [.enum [[.vec .u8]]] [.variant 0 [.vec [.num 1, .num 2]]] 64000 = [(64000, 64002), (32000, 32000)] := by decide +kernel
  refine ⟨storeO wsVe storV, Between 500 900, [.enum [[.vec .u8]]], uidO, [.variant 0 [.vec [.num 1, .num 2]]], 600, 0,
    storeO_heap _ (by decide), storeO_statics _ (by decide), ?_, ?_, safeD, ?_, by omega, storeO_room (by decide +kernel), ?_, ?_, ?_⟩
  · simp only [StorableFs, Storable, StorableVs, true_and, and_true]
    refine ⟨by simp, fun i hi => ?_⟩
    revert i
    decide +kernel
  · simp [SmallFs, Small, SmallVar, width, atom]
  · show Mv.Rep (memO wsVe) _ _ _ _
    refine repOwn (by decide +kernel) (by decide +kernel) (by decide +kernel) (by decide +kernel) (by decide +kernel) ?_
    have e1 : leNat (memO wsVe) 604 4 = 700 := by decide +kernel
    have e2 : leNat (memO wsVe) 700 4 = 0 := by decide +kernel
    have e3 : leNat (memO wsVe) (700 + 4) 4 = 720 := by decide +kernel
    have e4 : leNat (memO wsVe) 720 4 = 2 := by decide +kernel
    have e5 : leNat (memO wsVe) (720 + 4) 4 = 2 := by decide +kernel
    have hw : ∀ p n, 500 ≤ p → p + n ≤ 900 → Within (Between 500 900) p n := fun p n h1 h2 x h3 h4 => ⟨by omega, by omega⟩
    simp only [Mv.RepFs, Mv.Rep, Ty.scalar, Bool.false_eq_true, if_false, e1, e2]
    refine ⟨_, _, rfl, hw _ _ (by omega) (by omega), fun h => h.elim, ⟨_, rfl, hw _ _ (by omega) (by omega), ?_⟩, rfl⟩
    simp only [Mv.RepVar, Mv.RepFs, Mv.Rep, Ty.scalar, Bool.false_eq_true, if_true, if_false, e3, e4, e5]
    refine ⟨_, _, rfl, hw _ _ (by omega) (by omega), fun h => h.elim, ⟨_, rfl, rfl, by simp, hw _ _ (by omega) (by simp [Ty.size]), ?_⟩, rfl⟩
    intro i hi
    match i, hi with
    | 0, _ => rw [show leNat (memO wsVe) (720 + 8 + 0 * Ty.u8.size) Ty.u8.size = 1 by decide +kernel]; exact ⟨rfl, by omega⟩
    | 1, _ => rw [show leNat (memO wsVe) (720 + 8 + 1 * Ty.u8.size) Ty.u8.size = 2 by decide +kernel]; exact ⟨rfl, by omega⟩
  · rw [hk, slotD]
    constructor
    · decide +kernel
    · simp [uidO, idOf, HoldsFs, Layout.Holds, HoldsVar, walk, next, place, width, elems, hashO, atom]
      decide +kernel
  · rw [hk, slotD]
    constructor <;> rw [e] <;> simp [Layout.Apart]
  · rw [hk, slotD, e]
    refine (calls_of_obs 1000 (fun σ' => (errWord σ', σ'.host.storage 32000)) [] (0, 513) rfl (by decide +kernel)).mono fun r σ' h => ?_
    have h2 := h.2
    simp only [Prod.mk.injEq] at h2
    exact ⟨h.1, h2.1, (32000, 32000), by simp, 32000, by simp, by simp, by rw [h2.2]; omega⟩

/-- An object with a struct of `1: address`, `2: u16`, `3: u8` and the variant 1 of an enum with two variants without fields, and
the field `[1, 2]: vector<u8>`. -/
def wsBe : List (Nat × Nat) := wsId ++ [(604, 800), (800, 720), (748, 16777216), (804, 760), (760, 2), (808, 764), (764, 3), (812, 768), (768, 1),
  (608, 820), (820, 2), (824, 2), (828, 513)]

def fsB : List Ty := [.struct [.address, .u16, .u8, .enum [[], []]], .vec .u8]
def vsB : List Val := [.struct [.num 1, .num 2, .num 3, .variant 1 []], .vec [.num 1, .num 2]]

/-- Storage with this object. -/
def storB (x : Nat) : Nat :=
  if x = 64000 then 5 * 72057594037927936 + 1 * 18446744073709551616 + 2 * 2 ^ 224 + 3 * 2 ^ 240 + 1 * 2 ^ 248 else
  if x = 64001 then 2 else if x = 32000 then 513 else 0

/-- The same for a vector behind a struct that ends with an enum at the end of a slot. -/
theorem C43_false_edge : ∃ (σ : Store) (R : Nat → Prop) (fs : List Ty) (uid : Val) (vs : List Val) (w ow : Nat),
    Heap σ ∧ Statics σ ∧ StorableFs fs ∧ SmallFs fs vs ∧ Safe σ R 128 ∧ Mv.Rep σ.mem R (.object (uidTy :: fs)) (.object ow (uid :: vs)) w ∧
    ow ≠ 2 ∧ Room σ (xcostFs fs vs) ∧
    Stored σ.host.keccak (tagOf fun _ => 5) σ.host.storage fs uid vs (objectSlot σ.host.keccak ow (idOf uid)) ∧
    Own σ.host.keccak fs vs (objectSlot σ.host.keccak ow (idOf uid)) ∧ (∀ t ∈ fs, ∀ vss, t ≠ .enum vss) ∧
    (deleteObject E0 fs).Calls [w] σ (fun r σ' => r = [] ∧ errWord σ' = 0 ∧
      ∃ g ∈ owned σ.host.keccak fs vs (objectSlot σ.host.keccak ow (idOf uid)), ∃ x, g.1 ≤ x ∧ x ≤ g.2 ∧ σ'.host.storage x ≠ 0) := by
  have hk : (storeO wsBe storB).host.keccak = hashO := rfl
  have e : owned hashO fsB vsB 64000 = [(64000, 64001), (32000, 32000)] := by decide +kernel
  refine ⟨storeO wsBe storB, Between 500 900, fsB, uidO, vsB, 600, 0,
    storeO_heap _ (by decide), storeO_statics _ (by decide), ?_, ?_, safeD, ?_, by omega, storeO_room (by decide +kernel), ?_, ?_, by simp [fsB], ?_⟩
  · simp only [fsB, StorableFs, Storable, StorableVs, true_and, and_true]
    refine ⟨by simp, by simp, fun i hi => ?_⟩
    revert i
    decide +kernel
  · simp [fsB, vsB, SmallFs, Small, SmallVar, width, atom]
  · show Mv.Rep (memO wsBe) _ _ _ _
    refine repOwn (by decide +kernel) (by decide +kernel) (by decide +kernel) (by decide +kernel) (by decide +kernel) ?_
    have e0 : leNat (memO wsBe) 604 4 = 800 := by decide +kernel
    have e1 : leNat (memO wsBe) 800 4 = 720 := by decide +kernel
    have e2 : beNat (memO wsBe) 720 32 = 1 := by decide +kernel
    have e3 : leNat (memO wsBe) (800 + 4) 4 = 760 := by decide +kernel
    have e4 : leNat (memO wsBe) 760 2 = 2 := by decide +kernel
    have e5 : leNat (memO wsBe) (800 + 4 + 4) 4 = 764 := by decide +kernel
    have e6 : leNat (memO wsBe) 764 1 = 3 := by decide +kernel
    have e7 : leNat (memO wsBe) (800 + 4 + 4 + 4) 4 = 768 := by decide +kernel
    have e8 : leNat (memO wsBe) 768 4 = 1 := by decide +kernel
    have e9 : leNat (memO wsBe) (604 + 4) 4 = 820 := by decide +kernel
    have e10 : leNat (memO wsBe) 820 4 = 2 := by decide +kernel
    have e11 : leNat (memO wsBe) (820 + 4) 4 = 2 := by decide +kernel
    have hw : ∀ p n, 500 ≤ p → p + n ≤ 900 → Within (Between 500 900) p n := fun p n h1 h2 x h3 h4 => ⟨by omega, by omega⟩
    simp only [fsB, vsB, Mv.RepFs, Mv.Rep, Mv.RepVar, Ty.scalar, Bool.false_eq_true, if_false, if_true, Ty.size, e0, e1, e2, e3, e4, e5, e6, e7, e8, e9, e10, e11]
    refine ⟨_, _, rfl, hw _ _ (by omega) (by omega), fun h => h.elim,
      ⟨_, rfl, _, _, rfl, hw _ _ (by omega) (by omega), fun h => h.elim, ⟨rfl, hw _ _ (by omega) (by omega)⟩,
      _, _, rfl, hw _ _ (by omega) (by omega), fun _ => hw _ _ (by omega) (by omega), ⟨rfl, by omega⟩,
      _, _, rfl, hw _ _ (by omega) (by omega), fun _ => hw _ _ (by omega) (by omega), ⟨rfl, by omega⟩,
      _, _, rfl, hw _ _ (by omega) (by omega), fun h => h.elim, ⟨_, rfl, hw _ _ (by omega) (by omega), rfl⟩, rfl⟩,
      _, _, rfl, hw _ _ (by omega) (by omega), fun h => h.elim, ⟨_, rfl, rfl, by simp, hw _ _ (by omega) (by simp), ?_⟩, rfl⟩
    intro i hi
    match i, hi with
    | 0, _ => rw [show leNat (memO wsBe) (820 + 8 + 0 * 1) 1 = 1 by decide +kernel]; exact ⟨rfl, by omega⟩
    | 1, _ => rw [show leNat (memO wsBe) (820 + 8 + 1 * 1) 1 = 2 by decide +kernel]; exact ⟨rfl, by omega⟩
  · rw [hk, slotD]
    constructor
    · decide +kernel
    · simp [fsB, vsB, uidO, idOf, HoldsFs, Layout.Holds, HoldsVar, walk, next, place, width, elems, hashO, atom]
      decide +kernel
  · rw [hk, slotD]
    constructor <;> rw [e] <;> simp [Layout.Apart]
  · rw [hk, slotD, e]
    refine (calls_of_obs 1000 (fun σ' => (errWord σ', σ'.host.storage 32000)) [] (0, 513) rfl (by decide +kernel)).mono fun r σ' h => ?_
    have h2 := h.2
    simp only [Prod.mk.injEq] at h2
    exact ⟨h.1, h2.1, (32000, 32000), by simp, 32000, by simp, by simp, by rw [h2.2]; omega⟩

end Props
