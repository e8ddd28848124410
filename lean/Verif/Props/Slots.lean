import Verif.Proof.Slots
import Verif.Proof.Pack
import Verif.Props.Base

/-!
# Storage slots and object lookup: C34, C35, C36, C42

The hash function of the host is arbitrary.
-/

namespace Props
open Wasm Rt Abi Slots

variable {σ σ' : Store} {E : ErrPtrs}

/-! ### Example state -/

/-- The fixed data area, an id at 500 and another word at 540. -/
def memS (id w : Nat) : Bytes :=
  putBe (putBe (putBe (putBe (putLe (fun _ => 0) 32 32 1) 160 32 1) 192 32 2) 500 32 id) 540 32 w

def storeS (h : Host) (id w : Nat) : Store := ⟨memS id w, 65536, 128, 1000, 64536, 0, h⟩

theorem memS_out {id w x : Nat} (h : x < 32 ∨ 64 ≤ x ∧ x < 160 ∨ 224 ≤ x ∧ x < 500 ∨ 572 ≤ x) : memS id w x = 0 := by
  unfold memS
  rw [putBe_out (by omega), putBe_out (by omega), putBe_out (by omega), putBe_out (by omega), putLe_out (by omega)]

theorem storeS_ready (h : Host) (id w : Nat) : Ready (storeS h id w) :=
  ⟨by show 65536 ≤ 65536; omega, by show 65536 < _; omega, leNat_zero_of fun x (h1 : 256 ≤ x) (h2 : x < 256 + 4) => memS_out (by omega)⟩

theorem storeS_heap (h : Host) (id w : Nat) : Heap (storeS h id w) :=
  ⟨storeS_ready h id w,
   ⟨store0_alloc.sum, store0_alloc.page, store0_alloc.first, store0_alloc.limit, store0_alloc.max, store0_alloc.small⟩,
   by show 468 ≤ 1000; omega, fun _ hx => memS_out (by have : 1000 ≤ _ := hx; omega)⟩

theorem storeS_room {h : Host} {id w n : Nat} (hn : n ≤ 1000000) : Room (storeS h id w) n := by
  refine ⟨by omega, ?_⟩
  show 1000 + n + 65536 ≤ 128 * 65536
  omega

theorem storeS_statics (h : Host) (id w : Nat) : Statics (storeS h id w) := by
  constructor
  · exact leNat_zero_of fun _ _ _ => memS_out (by omega)
  · show leNat (memS id w) 32 32 = 1
    unfold memS
    rw [leNat_putBe_disj (by omega), leNat_putBe_disj (by omega), leNat_putBe_disj (by omega),
      leNat_putBe_disj (by omega), leNat_putLe_same]
  · exact beNat_zero_of fun _ _ _ => memS_out (by omega)
  · show beNat (memS id w) 160 32 = 1
    unfold memS
    rw [beNat_putBe_disj (by omega), beNat_putBe_disj (by omega), beNat_putBe_disj (by omega), beNat_putBe_same]
    norm_num
  · show beNat (memS id w) 192 32 = 2
    unfold memS
    rw [beNat_putBe_disj (by omega), beNat_putBe_disj (by omega), beNat_putBe_same]
    norm_num

theorem storeS_id (h : Host) (id w : Nat) (hi : id < 2 ^ 256) : beNat (storeS h id w).mem 500 32 = id := by
  show beNat (memS id w) 500 32 = id
  unfold memS
  rw [beNat_putBe_disj (by omega), beNat_putBe_same, show 256 ^ 32 = 2 ^ 256 by norm_num, Nat.mod_eq_of_lt hi]

theorem storeS_word (h : Host) (id w : Nat) (hw : w < 2 ^ 256) : beNat (storeS h id w).mem 540 32 = w := by
  show beNat (memS id w) 540 32 = w
  unfold memS
  rw [beNat_putBe_same, show 256 ^ 32 = 2 ^ 256 by norm_num, Nat.mod_eq_of_lt hw]

/-! ### C34: the slot of an object -/

/-- The slot computed for the owner at `o` and the id at `u` is that of the nested mapping, stated on the
bytes that are hashed: `keccak256(id ‖ keccak256(owner ‖ 0))`. -/
theorem C34_slot_bytes {o u d : Nat} (hs : Ready σ) (hz : Statics σ) (ho : o + 32 ≤ σ.size)
    (hu : u + 32 ≤ σ.size) (hd : d + 32 ≤ σ.size) (hd' : d + 32 ≤ 404 ∨ 468 ≤ d)
    (hu' : u + 32 ≤ 404 ∨ 468 ≤ u) (hud : u + 32 ≤ d ∨ d + 32 ≤ u) :
    writeObjectSlot.Calls [o, u, d] σ (fun r σ' => r = [] ∧
      beNat σ'.mem d 32 = σ.host.keccak (rdBytes σ.mem u 32 ++
        word (σ.host.keccak (rdBytes σ.mem o 32 ++ List.replicate 32 0) % 2 ^ 256)) % 2 ^ 256 ∧
      σ'.host = σ.host ∧
      ∀ x, σ'.mem x ≠ σ.mem x → d ≤ x ∧ x < d + 32 ∨ 404 ≤ x ∧ x < 468) := by
  have hs1 := hs.size
  refine (writeObjectSlot_spec (by omega) hz.objects ho hu hd hd' hu' hud).mono ?_
  rintro r σ' ⟨rfl, h, t⟩
  refine ⟨rfl, ?_, t.host, fun x hx => ?_⟩
  · rw [h, rdBytes_word (f := σ.mem) (a := u) rfl, rdBytes_word (f := σ.mem) (a := o) rfl]
    rfl
  · by_contra hc
    exact hx (t.mem x (by simp only [hashBuf]; omega))

example : writeObjectSlot.Calls [160, 500, 128] (storeS host0 77 0) (fun r σ' => r = [] ∧
      beNat σ'.mem 128 32 = (storeS host0 77 0).host.keccak (rdBytes (storeS host0 77 0).mem 500 32 ++
        word ((storeS host0 77 0).host.keccak (rdBytes (storeS host0 77 0).mem 160 32 ++ List.replicate 32 0) % 2 ^ 256)) % 2 ^ 256 ∧
      σ'.host = (storeS host0 77 0).host ∧
      ∀ x, σ'.mem x ≠ (storeS host0 77 0).mem x → 128 ≤ x ∧ x < 128 + 32 ∨ 404 ≤ x ∧ x < 468) :=
  C34_slot_bytes (storeS_ready _ _ _) (storeS_statics _ _ _) (by show 160 + 32 ≤ 65536; omega)
    (by show 500 + 32 ≤ 65536; omega) (by show 128 + 32 ≤ 65536; omega) (by omega) (by omega) (by omega)

/-- The slot of an object in memory: its owner is stored in front of it, its id in its first field. -/
theorem C34_struct {s u : Nat} (hσ : Ready σ) (hz : Statics σ) (h : IdAt σ s u) :
    locateStructSlot.Calls [s] σ (fun r σ' => r = [] ∧
      beNat σ'.mem 128 32 = objectSlot σ.host.keccak (beNat σ.mem (s - 32) 32) (beNat σ.mem u 32) ∧
      σ'.host = σ.host ∧ ∀ x, σ'.mem x ≠ σ.mem x → 128 ≤ x ∧ x < 160 ∨ 404 ≤ x ∧ x < 468) := by
  refine (locateStructSlot_spec hσ hz.objects h).mono ?_
  rintro r σ' ⟨rfl, h, t⟩
  refine ⟨rfl, h, t.host, fun x hx => ?_⟩
  by_contra hc
  exact hx (t.mem x (by simp only [hashBuf]; omega))

/-- An object at 700 with its `UID` at 800, its `ID` at 804 and the bytes at 500. -/
def storeObj (h : Host) (id : Nat) : Store :=
  (storeS h id 0).setMem (putLe (putLe (putLe (memS id 0) 700 4 800) 800 4 804) 804 4 500)

theorem storeObj_facts {h : Host} {id : Nat} {σ : Store} (e : storeObj h id = σ) :
    Ready σ ∧ Statics σ ∧ IdAt σ 700 500 ∧ beNat σ.mem 668 32 = 0 ∧ σ.host = h ∧
      (id < 2 ^ 256 → beNat σ.mem 500 32 = id) := by
  subst e
  have t : Touches (fun x => 700 ≤ x ∧ x < 808) (storeS h id 0) (storeObj h id) :=
    .set fun x hx => by
      rw [putLe_out (by omega), putLe_out (by omega), putLe_out (by omega)]
      rfl
  have m1 : leNat (storeObj h id).mem 700 4 = 800 := by
    show leNat (putLe (putLe (putLe (memS id 0) 700 4 800) 800 4 804) 804 4 500) 700 4 = 800
    rw [leNat_putLe_disj (by omega), leNat_putLe_disj (by omega), leNat_putLe_same]
  have m2 : leNat (storeObj h id).mem 800 4 = 804 := by
    show leNat (putLe (putLe (putLe (memS id 0) 700 4 800) 800 4 804) 804 4 500) 800 4 = 804
    rw [leNat_putLe_disj (by omega), leNat_putLe_same]
  have m3 : leNat (storeObj h id).mem 804 4 = 500 := by
    show leNat (putLe (putLe (putLe (memS id 0) 700 4 800) 800 4 804) 804 4 500) 804 4 = 500
    rw [leNat_putLe_same]
  have sz : (storeObj h id).size = 65536 := rfl
  refine ⟨⟨by omega, by omega, ?_⟩, ?_, ?_, ?_, rfl, fun hi => ?_⟩
  · exact (t.leNat (p := 256) (n := 4) (by intros; omega)).trans (storeS_ready h id 0).noErr
  · exact t.statics (storeS_statics h id 0) (by intros; omega)
  · exact ⟨by omega, by omega, by omega, by rw [m1]; omega, by rw [m1, m2, m3], by omega, by omega⟩
  · rw [t.beNat (by intros; omega)]
    exact beNat_zero_of fun _ _ _ => memS_out (by omega)
  · rw [t.beNat (by intros; omega), storeS_id h id 0 hi]

example (h : Host) : locateStructSlot.Calls [700] (storeObj h 77) (fun _ σ' =>
      beNat σ'.mem 128 32 = objectSlot h.keccak 0 77) := by
  generalize e : storeObj h 77 = σ
  obtain ⟨h1, h2, h3, h4, hh, h5⟩ := storeObj_facts e
  refine (C34_struct h1 h2 h3).mono ?_
  rintro r σ' ⟨-, h, -⟩
  rw [h, h4, h5 (by norm_num), hh]

/-- The inputs of the hash function in the computation of two slots. -/
def slotInputs (H : List UInt8 → Nat) (o1 i1 o2 i2 : Nat) : List (List UInt8) :=
  [word o1 ++ word 0, word i1 ++ word (mapSlot H o1 0), word o2 ++ word 0, word i2 ++ word (mapSlot H o2 0)]

/-- Different pairs of owner and id have different slots, unless the hash function collides on the
inputs of these slots. -/
theorem C34_distinct {H : List UInt8 → Nat} {o1 i1 o2 i2 : Nat} (ho1 : o1 < 2 ^ 256) (hi1 : i1 < 2 ^ 256) (ho2 : o2 < 2 ^ 256)
    (hi2 : i2 < 2 ^ 256)
    (hH : ∀ a ∈ slotInputs H o1 i1 o2 i2, ∀ b ∈ slotInputs H o1 i1 o2 i2, H a % 2 ^ 256 = H b % 2 ^ 256 → a = b)
    (h : objectSlot H o1 i1 = objectSlot H o2 i2) : o1 = o2 ∧ i1 = i2 := by
  have wi : ∀ {a b : Nat}, a < 2 ^ 256 → b < 2 ^ 256 → word a = word b → a = b := by
    intro a b ha hb hw
    have e := congrArg (fun l => beNat (wrBytes (fun _ => 0) 0 l) 0 32) hw
    simp only [wr_word, beNat_putBe_same] at e
    rwa [show 256 ^ 32 = 2 ^ 256 by norm_num, Nat.mod_eq_of_lt ha, Nat.mod_eq_of_lt hb] at e
  have e := hH _ (by simp [slotInputs]) _ (by simp [slotInputs]) h
  obtain ⟨e1, e2⟩ := List.append_inj e (by simp [word_length])
  have e2' := wi (Nat.mod_lt _ (by norm_num)) (Nat.mod_lt _ (by norm_num)) e2
  have e3 := hH _ (by simp [slotInputs]) _ (by simp [slotInputs]) e2'
  exact ⟨wi ho1 ho2 (List.append_inj e3 (by simp [word_length])).1, wi hi1 hi2 e1⟩

/-- A function on byte strings. -/
def hash3 (bs : List UInt8) : Nat := bs.foldl (fun a b => 3 * a + b.toNat) 1

example : objectSlot hash3 5 7 ≠ objectSlot hash3 5 8 := by
  intro h
  have := C34_distinct (by norm_num) (by norm_num) (by norm_num) (by norm_num) (by decide +kernel) h
  omega

/-! ### C35: the slot of an element of a vector -/

/-- The claim is false: for a hash value ending in the byte 255, the slot of the second element of an
array of 32-byte elements is the successor of the hash value, but the code traps instead.  The numbers
are added as if the first byte were the least significant, so a carry leaves the number. -/
theorem C35_false : ∃ (σ : Store) (p i n d : Nat), Heap σ ∧ Room σ 96 ∧ p + 32 ≤ σ.nextFree ∧ 0 < n ∧ d + 32 ≤ σ.nextFree ∧
    elemSlot σ.host.keccak (beNat σ.mem p 32) n i = 256 ∧ ∀ E, (deriveDynArraySlot E).Traps [p, i, n, d] σ := by
  refine ⟨storeS { host0 with keccak := fun _ => 255 } 0 0, 500, 1, 32, 540, storeS_heap _ _ _, ?_, ?_, by omega, ?_, ?_, fun E => ?_⟩
  · exact storeS_room (by omega)
  · show 500 + 32 ≤ 1000; omega
  · show 540 + 32 ≤ 1000; omega
  · decide
  · refine deriveDyn_traps (storeS_heap _ _ _) ?_ (by show 500 + 32 ≤ 1000; omega) (by omega) (by omega) (by omega)
      (by decide) (by decide) (by decide)
    exact storeS_room (by omega)

/-- What holds: if no byte of the sum of hash and offset carries into the next, the slot is that of the
Solidity layout.  Missing: the sums that do carry, for which `C35_false` and `C35_traps` show that the
claim fails. -/
theorem C35_partial {p i n d : Nat} (hσ : Heap σ) (hr : Room σ 96)
    (hp : p + 32 ≤ σ.nextFree) (hn : 0 < n) (hn' : n + 31 < 2 ^ 32) (hi : i < 2 ^ 32)
    (ho : elemOffset n i < 2 ^ 32) (hd : d + 32 ≤ σ.nextFree) (hd' : d + 32 ≤ 256 ∨ 260 ≤ d)
    (hc : ∀ j, j < 32 → σ.host.keccak (rdBytes σ.mem p 32) / 256 ^ j % 256 + elemOffset n i / 256 ^ j % 256 < 256) :
    (deriveDynArraySlot E).Calls [p, i, n, d] σ (fun r σ' => r = [] ∧
      beNat σ'.mem d 32 = (σ.host.keccak (rdBytes σ.mem p 32) + elemOffset n i) % 2 ^ 256 ∧
      σ'.host = σ.host ∧ Heap σ' ∧ ∀ x, x < σ.nextFree → σ'.mem x ≠ σ.mem x → d ≤ x ∧ x < d + 32) := by
  rw [rdBytes_word (f := σ.mem) (a := p) rfl] at hc ⊢
  refine (deriveDyn_ok hσ hr hp hn hn' hi ho hd hd' hc).mono ?_
  rintro r σ' ⟨rfl, h, hh, -, t⟩
  refine ⟨rfl, h, hh, t.heap, fun x hx hne => ?_⟩
  by_contra hn
  exact hne (t.mem x hx hn)

/-- Whenever the last byte carries, the code traps. -/
theorem C35_traps {p i n d : Nat} (hσ : Heap σ) (hr : Room σ 96)
    (hp : p + 32 ≤ σ.nextFree) (hn : 0 < n) (hn' : n + 31 < 2 ^ 32) (hi : i < 2 ^ 32)
    (ho : elemOffset n i < 2 ^ 32) (hm : σ.maxPages * 65536 ≤ badF00d)
    (hc : 256 ≤ σ.host.keccak (rdBytes σ.mem p 32) % 256 + elemOffset n i % 256) :
    (deriveDynArraySlot E).Traps [p, i, n, d] σ := by
  rw [rdBytes_word (f := σ.mem) (a := p) rfl] at hc
  exact deriveDyn_traps hσ hr hp hn hn' hi ho hm hc

example : (deriveDynArraySlot E).Calls [500, 9, 16, 540] (storeS { host0 with keccak := hash3 } 3 0) (fun r σ' => r = [] ∧
      beNat σ'.mem 540 32 = (hash3 (rdBytes (storeS { host0 with keccak := hash3 } 3 0).mem 500 32) + elemOffset 16 9) % 2 ^ 256 ∧
      σ'.host = { host0 with keccak := hash3 } ∧ Heap σ' ∧
      ∀ x, x < 1000 → σ'.mem x ≠ (storeS { host0 with keccak := hash3 } 3 0).mem x → 540 ≤ x ∧ x < 540 + 32) := by
  refine C35_partial (storeS_heap _ _ _) (storeS_room (by omega)) (by show 500 + 32 ≤ 1000; omega) (by omega) (by omega) (by omega)
    (by decide) (by show 540 + 32 ≤ 1000; omega) (by omega) ?_
  have e : rdBytes (storeS { host0 with keccak := hash3 } 3 0).mem 500 32 = word 3 :=
    rdBytes_word (storeS_id _ _ _ (by norm_num))
  rw [e]
  show ∀ j, j < 32 → hash3 (word 3) / 256 ^ j % 256 + elemOffset 16 9 / 256 ^ j % 256 < 256
  decide +kernel

/-! ### C36: the next slot -/

/-- Advancing adds one to the big-endian number, and changes nothing else. -/
theorem C36_next {p : Nat} (hσ : Ready σ) (hz : Statics σ) (hp : p + 32 ≤ σ.size) (hp' : p + 32 ≤ 32 ∨ 64 ≤ p)
    (hv : beNat σ.mem p 32 ≠ 2 ^ 256 - 1) :
    (nextSlot E).Calls [p] σ (fun r σ' => r = [p] ∧ beNat σ'.mem p 32 = beNat σ.mem p 32 + 1 ∧
      Touches (fun x => p ≤ x ∧ x < p + 32) σ σ') := by
  have hlt : beNat σ.mem p 32 < 2 ^ 256 := by
    have := beNat_lt σ.mem p 32
    rwa [show 256 ^ 32 = 2 ^ 256 by norm_num] at this
  refine (nextSlot_spec hσ.size hσ.size_lt hz.one hp hp' (by omega)).mono ?_
  rintro r σ' ⟨rfl, rfl⟩
  refine ⟨rfl, ?_, .set fun x hx => putBe_out (by omega)⟩
  show beNat (putBe σ.mem p 32 (beNat σ.mem p 32 + 1)) p 32 = _
  rw [beNat_putBe_same, show 256 ^ 32 = 2 ^ 256 by norm_num, Nat.mod_eq_of_lt (by omega)]

/-- At the last slot the number wraps around to zero and an overflow is recorded. -/
theorem C36_last {p : Nat} (hσ : Ready σ) (hz : Statics σ) (hE : E.Valid) (hp : p + 32 ≤ σ.size) (hp' : p + 32 ≤ 32 ∨ 64 ≤ p)
    (hp'' : p + 32 ≤ 256 ∨ 260 ≤ p) (hv : beNat σ.mem p 32 = 2 ^ 256 - 1) :
    (nextSlot E).Calls [p] σ (fun _ σ' => beNat σ'.mem p 32 = 0 ∧ errWord σ' = E .overflow) := by
  refine (nextSlot_overflow hσ.size hσ.size_lt hz.one hp hp' hp'' (by rw [hv]; norm_num)).mono ?_
  rintro r σ' rfl
  refine ⟨?_, errWord_ptr hE _⟩
  show beNat (putLe (putBe σ.mem p 32 0) 256 4 (E .overflow)) p 32 = 0
  rw [beNat_putLe_disj (by omega), beNat_putBe_same, Nat.zero_mod]

example : (nextSlot E).Calls [540] (storeS host0 0 255) (fun r σ' => r = [540] ∧ beNat σ'.mem 540 32 = 256) := by
  refine (C36_next (storeS_ready _ _ _) (storeS_statics _ _ _) (by show 540 + 32 ≤ 65536; omega) (by omega) ?_).mono ?_
  · rw [storeS_word _ _ _ (by norm_num)]; norm_num
  · rintro r σ' ⟨rfl, h, -⟩
    rw [storeS_word _ _ _ (by norm_num)] at h
    exact ⟨rfl, h⟩

example : (nextSlot E0).Calls [540] (storeS host0 0 (2 ^ 256 - 1)) (fun _ σ' => beNat σ'.mem 540 32 = 0 ∧ errWord σ' = E0 .overflow) :=
  C36_last (storeS_ready _ _ _) (storeS_statics _ _ _) E0_valid (by show 540 + 32 ≤ 65536; omega) (by omega) (by omega)
    (storeS_word _ _ _ (by norm_num))

/-! ### C42: object lookup

`Occupied σ owner id`: the first slot of `objects[owner][id]` is not zero.  The keys 1 and 2 stand for
shared and frozen objects.  The origin of the transaction is an arbitrary number below 2^160. -/

/-- The search finds an object of the sender if there is one, else a shared one, else, if asked to, a
frozen one.  `FoundAt`: the result points to the owner under which the object was found, and its slot and
the content of the slot are in the fixed buffers.  Otherwise `objectNotFound` is recorded. -/
theorem C42_search {u fr me id : Nat} (hσ : Ready σ) (hz : Statics σ) (hu : u + 32 ≤ σ.size) (hu' : 468 ≤ u)
    (hme : σ.host.origin = me) (hme' : me < 2 ^ 160) (hid : beNat σ.mem u 32 = id) :
    (locateData E).Calls [u, fr] σ (fun r σ' =>
      (Occupied σ me id → FoundAt σ σ' me id r) ∧
      (¬ Occupied σ me id → Occupied σ 1 id → FoundAt σ σ' 1 id r) ∧
      (¬ Occupied σ me id → ¬ Occupied σ 1 id → fr ≠ 0 → Occupied σ 2 id → FoundAt σ σ' 2 id r) ∧
      (¬ Occupied σ me id → ¬ Occupied σ 1 id → ¬ (fr ≠ 0 ∧ Occupied σ 2 id) → NotFound E σ σ')) := by
  have hm : σ.host.origin % 2 ^ 160 = me := by rw [hme]; exact Nat.mod_eq_of_lt hme'
  refine (locateData_spec (E := E) hσ hz hu hu' hm hid).mono ?_
  rintro r σ' h
  exact ⟨h.own, h.shared, h.frozen, h.none⟩

/-- Search restricted to the objects of the sender. -/
theorem C42_owned {u me id : Nat} (hσ : Ready σ) (hz : Statics σ) (hu : u + 32 ≤ σ.size) (hu' : 468 ≤ u)
    (hme : σ.host.origin = me) (hme' : me < 2 ^ 160) (hid : beNat σ.mem u 32 = id) :
    (locateOwned E).Calls [u] σ (fun r σ' =>
      (Occupied σ me id → FoundAt σ σ' me id r) ∧ (¬ Occupied σ me id → NotFound E σ σ')) :=
  locateOwned_spec hσ hz hu hu' (by rw [hme]; exact Nat.mod_eq_of_lt hme') hid

/-- Search restricted to shared objects. -/
theorem C42_shared {u id : Nat} (hσ : Ready σ) (hz : Statics σ) (hu : u + 32 ≤ σ.size) (hu' : 468 ≤ u)
    (hid : beNat σ.mem u 32 = id) :
    (locateShared E).Calls [u] σ (fun r σ' =>
      (Occupied σ 1 id → FoundAt σ σ' 1 id r) ∧ (¬ Occupied σ 1 id → NotFound E σ σ')) :=
  locateShared_spec hσ hz hu hu' hid

/-- Search restricted to frozen objects. -/
theorem C42_frozen {u id : Nat} (hσ : Ready σ) (hz : Statics σ) (hu : u + 32 ≤ σ.size) (hu' : 468 ≤ u)
    (hid : beNat σ.mem u 32 = id) :
    (locateFrozen E).Calls [u] σ (fun r σ' =>
      (Occupied σ 2 id → FoundAt σ σ' 2 id r) ∧ (¬ Occupied σ 2 id → NotFound E σ σ')) :=
  locateFrozen_spec hσ hz hu hu' hid

/-- What the outcomes mean: the result designates the owner, the object's slot and its content. -/
theorem C42_found {owner id : Nat} {r : List Nat} (h : FoundAt σ σ' owner id r) :
    ∃ k, r = [k] ∧ beNat σ'.mem k 32 = owner ∧ beNat σ'.mem 128 32 = objectSlot σ.host.keccak owner id ∧
      beNat σ'.mem 64 32 = σ.host.storage (objectSlot σ.host.keccak owner id) % 2 ^ 256 ∧ σ'.host = σ.host ∧ errWord σ' = errWord σ := by
  obtain ⟨k, rfl, -, hk⟩ := h.ptr
  refine ⟨k, rfl, hk, h.looked.slot, h.looked.data, h.looked.touches.host, ?_⟩
  exact h.looked.touches.leNat (p := 256) (n := 4) fun x h1 h2 => by unfold lookupBuf; omega

/-- ... and the error word is set exactly when nothing is found. -/
theorem C42_notFound (hE : E.Valid) (h : NotFound E σ σ') : errWord σ' = E .objectNotFound ∧ σ'.host = σ.host := by
  obtain ⟨σ1, t, rfl⟩ := h
  exact ⟨errWord_ptr hE _, t.host⟩

/-- An object owned by nobody in particular, but shared: found under 1 by any sender who has no object with
that id. -/
def hostShared : Host := { host0 with keccak := hash3, storage := fun s => if s = objectSlot hash3 1 77 then 5 else 0, origin := 9 }

theorem slots_ne : objectSlot hash3 9 77 ≠ objectSlot hash3 1 77 := by decide +kernel

example : (locateData E).Calls [500, 0] (storeS hostShared 77 0) (fun r σ' =>
    FoundAt (storeS hostShared 77 0) σ' 1 77 r) := by
  refine (C42_search (storeS_ready _ _ _) (storeS_statics _ _ _) (by show 500 + 32 ≤ 65536; omega) (by omega)
    (me := 9) rfl (by norm_num) (storeS_id _ _ _ (by norm_num))).mono ?_
  rintro r σ' ⟨-, h, -⟩
  refine h ?_ ?_
  · unfold Occupied
    simp only [storeS, hostShared, if_neg slots_ne]; norm_num
  · unfold Occupied
    simp only [storeS, hostShared, if_true]; norm_num

example : (locateOwned E).Calls [500] (storeS hostShared 77 0) (fun _ σ' =>
    NotFound E (storeS hostShared 77 0) σ') := by
  refine (C42_owned (storeS_ready _ _ _) (storeS_statics _ _ _) (by show 500 + 32 ≤ 65536; omega) (by omega)
    (me := 9) rfl (by norm_num) (storeS_id _ _ _ (by norm_num))).mono ?_
  rintro r σ' ⟨-, h⟩
  refine h ?_
  unfold Occupied
  simp only [storeS, hostShared, if_neg slots_ne]; norm_num

end Props
