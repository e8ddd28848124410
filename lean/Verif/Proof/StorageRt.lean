import Verif.Proof.Codec3
import Verif.Proof.Slots
import Verif.Proof.Copy3

/-! The functions that move from field to field of a stored object. -/

namespace Rt
open Wasm Abi Slots Mv Layout

variable {σ σ' σ'' : Store} {E : ErrPtrs}

/-! ### Host calls -/

/-- The store after writing a word to storage. -/
def stored (σ : Store) (k v : Nat) : Store := σ.setHost { σ.host with storage := upd σ.host.storage k v }

theorem stored_mem {k v : Nat} : (stored σ k v).mem = σ.mem := rfl
theorem stored_size {k v : Nat} : (stored σ k v).size = σ.size := rfl
theorem stored_nextFree {k v : Nat} : (stored σ k v).nextFree = σ.nextFree := rfl
theorem stored_maxPages {k v : Nat} : (stored σ k v).maxPages = σ.maxPages := rfl
theorem stored_reader {k v : Nat} : (stored σ k v).reader = σ.reader := rfl
theorem stored_storage {k v : Nat} : (stored σ k v).host.storage = upd σ.host.storage k v := rfl

theorem wp_storageCache {v k is s l Q} (h1 : k + 32 ≤ σ.size) (h2 : v + 32 ≤ σ.size) :
    wp (.op (.host .storageCache) :: is) (v :: k :: s) l σ Q ↔
      wp is s l (stored σ (beNat σ.mem k 32) (beNat σ.mem v 32)) Q := by
  rw [wp_op]; simp only [Op.exec, HostFn.eval, if_pos (And.intro h1 h2)]; rfl

theorem Heap.stored (h : Heap σ) {k v : Nat} : Heap (stored σ k v) :=
  ⟨⟨h.ready.size, h.ready.size_lt, h.ready.noErr⟩,
   ⟨h.alloc.sum, h.alloc.page, h.alloc.first, h.alloc.limit, h.alloc.max, h.alloc.small⟩, h.base, h.fresh⟩

theorem Statics.of_mem (h : Statics σ) (hm : σ'.mem = σ.mem) : Statics σ' := by
  exact ⟨by rw [hm, h.zero], by rw [hm, h.one], by rw [hm, h.objects], by rw [hm, h.shared], by rw [hm, h.frozen]⟩

theorem stored_later {R : Nat → Prop} (h : Heap σ) {k v : Nat} : Later R σ (stored σ k v) :=
  ⟨h.stored, Nat.le_refl _, Nat.le_refl _, fun _ _ _ => rfl, rfl, rfl, rfl⟩

/-! ### Numbers in the slot buffer -/

theorem digit_beNat (f : Bytes) (p n j : Nat) (h : j < n) : digit (beNat f p n) j = (f (p + (n - 1 - j))).toNat :=
  (toNat_beDigit f p n j h).symm

theorem beNat_fill (f : Bytes) (p n : Nat) : beNat (fillBytes f p 0 n) p n = 0 :=
  beNat_zero_of fun x h1 h2 => by rw [fillBytes_in h1 h2]; rfl

theorem digit_of_ge {w n j : Nat} (hw : w < 256 ^ n) (h : n ≤ j) : digit w j = 0 := by
  unfold digit
  rw [Nat.div_eq_of_lt (Nat.lt_of_lt_of_le hw (Nat.pow_le_pow_right (by omega) h))]

/-- Words with the same digits. -/
theorem ext32 {w w' : Nat} (hw : w < 256 ^ 32) (hw' : w' < 256 ^ 32) (h : ∀ j, j < 32 → digit w j = digit w' j) :
    w = w' := digits_ext 32 w w' hw hw' h

theorem setDig_lt {w i n x : Nat} (hw : w < 256 ^ 32) (h : i + n ≤ 32) : setDig w i n x < 256 ^ 32 := by
  unfold setDig low
  have h1 : w / 256 ^ (i + n) < 256 ^ (32 - (i + n)) := by
    rw [Nat.div_lt_iff_lt_mul (Nat.pow_pos (by omega)), ← Nat.pow_add, show 32 - (i + n) + (i + n) = 32 by omega]
    exact hw
  have h2 : x % 256 ^ n + 256 ^ n * (w / 256 ^ (i + n)) < 256 ^ (32 - i) := by
    have := Nat.mod_lt x (show 256 ^ n > 0 from Nat.pow_pos (by omega))
    have e : (256 : Nat) ^ (32 - i) = 256 ^ n * 256 ^ (32 - (i + n)) := by rw [← Nat.pow_add]; congr 1; omega
    rw [e]
    generalize w / 256 ^ (i + n) = y at h1 ⊢
    generalize 256 ^ (32 - (i + n)) = z at h1 ⊢
    generalize 256 ^ n = u at this ⊢
    have h5 : u * (y + 1) ≤ u * z := Nat.mul_le_mul_left _ h1
    rw [Nat.mul_add, Nat.mul_one] at h5
    omega
  have := Nat.mod_lt w (show 256 ^ i > 0 from Nat.pow_pos (by omega))
  have e : (256 : Nat) ^ 32 = 256 ^ i * 256 ^ (32 - i) := by rw [← Nat.pow_add]; congr 1; omega
  rw [e]
  generalize x % 256 ^ n + 256 ^ n * (w / 256 ^ (i + n)) = y at h2 ⊢
  generalize w % 256 ^ i = m at this ⊢
  generalize 256 ^ (32 - i) = z at h2 ⊢
  generalize 256 ^ i = u at this ⊢
  have h5 : u * (y + 1) ≤ u * z := Nat.mul_le_mul_left _ h2
  rw [Nat.mul_add, Nat.mul_one] at h5
  omega

/-- A buffer in which the bytes of one field have been replaced. -/
theorem buf_write {f g : Bytes} {x off n : Nat} (hn : n ≤ off) (ho : off ≤ 32)
    (hin : ∀ i, i < n → (g (96 - off + i)).toNat = digit x (n - 1 - i))
    (hout : ∀ y, 64 ≤ y → y < 96 → (y < 96 - off ∨ 96 - off + n ≤ y) → g y = f y) :
    beNat g 64 32 = setDig (beNat f 64 32) (off - n) n x := by
  refine ext32 (beNat_lt ..) (setDig_lt (beNat_lt ..) (by omega)) fun j hj => ?_
  rw [digit_setDig, digit_beNat _ _ _ _ hj]
  split
  · rename_i h
    have := hin (off - 1 - j) (by omega)
    rw [show 96 - off + (off - 1 - j) = 64 + (32 - 1 - j) by omega] at this
    rw [this]; congr 1; omega
  · rename_i h
    rw [hout _ (by omega) (by omega) (by omega), digit_beNat _ _ _ _ hj]

theorem digit_mod {x n j : Nat} (h : j < n) : digit (x % 256 ^ n) j = digit x j := by
  have := digit_dig x 0 n j h
  unfold dig at this
  rwa [Nat.pow_zero, Nat.div_one, Nat.zero_add] at this

/-- The bytes of a field, read from the buffer. -/
theorem buf_read {f : Bytes} {off n : Nat} (hn : n ≤ off) (ho : off ≤ 32) :
    beNat f (96 - off) n = dig (beNat f 64 32) (off - n) n := by
  refine digits_ext n _ _ (beNat_lt ..) (dig_lt ..) fun j hj => ?_
  have h1 := digit_beNat f (96 - off) n j hj
  have h2 := digit_dig (beNat f 64 32) (off - n) n j hj
  rw [digit_beNat _ _ _ _ (by omega)] at h2
  unfold digit at h1 h2
  rw [h1, h2]
  congr 2; omega

/-! ### Advancing -/

/-- A storage slot in memory: the current slot of an encoder, or a fresh block. -/
structure CellAt (σ : Store) (p : Nat) : Prop where
  place : p = 128 ∨ 468 ≤ p
  size : 65536 ≤ σ.size
  size_lt : σ.size < 2 ^ 32
  inside : p + 32 ≤ σ.size
  one : leNat σ.mem 32 32 = 1

theorem wp_nextSlot {p : Nat} {is s l Q} (h : CellAt σ p) (hv : beNat σ.mem p 32 + 1 < 2 ^ 256)
    (hk : wp is (p :: s) l (σ.setMem (putBe σ.mem p 32 (beNat σ.mem p 32 + 1))) Q) :
    wp ((nextSlot E).call :: is) (p :: s) l σ Q := by
  refine wp_call1 (nextSlot_spec h.size h.size_lt h.one h.inside (by have := h.place; omega) hv) ?_
  rintro r σ1 ⟨rfl, rfl⟩
  exact hk

/-- The effect of moving on to the next slot while writing. -/
def advW (σ : Store) (p : Nat) : Store :=
  (stored σ (beNat σ.mem p 32) (beNat σ.mem 64 32)).setMem
    (putBe (fillBytes σ.mem 64 0 32) p 32 (beNat σ.mem p 32 + 1))

theorem beNat_fill_cell {p : Nat} (h : p = 128 ∨ 468 ≤ p) (f : Bytes) :
    beNat (fillBytes f 64 0 32) p 32 = beNat f p 32 :=
  beNat_congr fun x h1 h2 => fillBytes_out (by omega)

theorem accW_spec {p off n : Nat} (h : CellAt σ p) (ho : off ≤ 32) (hn : n ≤ 32)
    (hv : off + n ≤ 32 ∨ beNat σ.mem p 32 + 1 < 2 ^ 256) :
    (accW E).Calls [p, off, n] σ (fun r σ' =>
      if off + n ≤ 32 then r = [off + n] ∧ σ' = σ else r = [n] ∧ σ' = advW σ p) := by
  have h1 := h.size; have h2 := h.size_lt; have h3 := h.inside; have h4 := h.place
  refine ⟨rfl, ?_⟩
  unfold accW accumulate
  by_cases hc : off + n ≤ 32
  · simp only [if_pos hc]
    wstep
  · simp only [if_neg hc]
    wstep
    rw [wp_storageCache (by omega) (by omega)]
    wstep
    rw [wp_memFill (by simp only [stored_size]; omega)]
    simp only [stored_mem]
    wstep
    refine wp_nextSlot ⟨h4, h1, h2, h3, ?_⟩ ?_ ?_
    · simp only [setMem_mem]
      rw [leNat_congr fun x h1 h2 => fillBytes_out (by omega), h.one]
    · simp only [setMem_mem]; rw [beNat_fill_cell h4]; omega
    · simp only [setMem_mem, setMem_setMem]
      rw [beNat_fill_cell h4]
      wstep
      exact rfl

/-- The effect of moving on to the next slot while reading. -/
def advR (σ : Store) (p : Nat) : Store :=
  σ.setMem (putBe (putBe σ.mem p 32 (beNat σ.mem p 32 + 1)) 64 32 (σ.host.storage (beNat σ.mem p 32 + 1)))

theorem accR_spec {p off n : Nat} (h : CellAt σ p) (ho : off ≤ 32) (hn : n ≤ 32)
    (hv : off + n ≤ 32 ∨ beNat σ.mem p 32 + 1 < 2 ^ 256) :
    (accR E).Calls [p, off, n] σ (fun r σ' =>
      if off + n ≤ 32 then r = [off + n] ∧ σ' = σ else r = [n] ∧ σ' = advR σ p) := by
  have h1 := h.size; have h2 := h.size_lt; have h3 := h.inside; have h4 := h.place
  refine ⟨rfl, ?_⟩
  unfold accR accumulate
  by_cases hc : off + n ≤ 32
  · simp only [if_pos hc]
    wstep
  · simp only [if_neg hc]
    wstep
    refine wp_nextSlot h (by omega) ?_
    wstep
    rw [wp_storageLoad (by simp only [setMem_size]; omega) (by simp only [setMem_size]; omega)]
    simp only [setMem_mem, setMem_setMem]
    have : (256 : Nat) ^ 32 = 2 ^ 256 := by norm_num
    rw [beNat_putBe_same, Nat.mod_eq_of_lt (by omega)]
    wstep
    exact rfl

/-- The effect of moving on to the next slot while deleting. -/
def advD (σ : Store) (p : Nat) : Store :=
  (stored σ (beNat σ.mem p 32) 0).setMem (putBe σ.mem p 32 (beNat σ.mem p 32 + 1))

theorem zero_be (h : Statics σ) : beNat σ.mem 0 32 = 0 := (leNat_zero_iff_beNat _ _ _).mp h.zero

theorem accD_spec {p off n : Nat} (h : CellAt σ p) (h0 : beNat σ.mem 0 32 = 0) (ho : off ≤ 32) (hn : n ≤ 32)
    (hv : off + n ≤ 32 ∨ beNat σ.mem p 32 + 1 < 2 ^ 256) :
    (accD E).Calls [p, off, n] σ (fun r σ' =>
      if off + n ≤ 32 then r = [off + n] ∧ σ' = σ else r = [n] ∧ σ' = advD σ p) := by
  have h1 := h.size; have h2 := h.size_lt; have h3 := h.inside; have h4 := h.place
  refine ⟨rfl, ?_⟩
  unfold accD accumulate
  by_cases hc : off + n ≤ 32
  · simp only [if_pos hc]
    wstep
  · simp only [if_neg hc]
    wstep
    rw [wp_storageCache (by omega) (by omega), h0]
    wstep
    refine wp_nextSlot ⟨h4, h1, h2, h3, h.one⟩ (by simp only [stored_mem]; omega) ?_
    simp only [stored_mem]
    wstep
    exact rfl

theorem wp_slotPtr {so : Nat} {is s l Q} (h0 : 0 < lget l so) (h1 : lget l so ≤ 32)
    (h : wp is ((96 - lget l so) :: s) l σ Q) : wp (slotPtr so ++ is) s l σ Q := by
  unfold slotPtr
  wstep
  have e : (4294967296 + 32 - lget l so) % 4294967296 = 32 - lget l so := by omega
  have e' : 64 + (32 - lget l so) = 96 - lget l so := by omega
  simpa only [e, e'] using h

end Rt
