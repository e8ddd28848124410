import Verif.Proof.Str2
import Verif.Props.Storage

/-! # Strings -/

namespace Props
open Wasm Rt

variable {σ : Store}

/-- `Utf8` is Lean's own notion of valid UTF-8. -/
theorem utf8_iff {bs : List UInt8} : Utf8 bs ↔ bs.toByteArray.IsValidUTF8 := by
  constructor
  · rintro ⟨cs, rfl⟩; exact ⟨cs, rfl⟩
  · rintro ⟨cs, h⟩
    refine ⟨cs, ?_⟩
    have := congrArg (fun b => b.data.toList) h
    simpa [List.utf8Encode] using this

/-- **C76** `std::string` accepts every valid UTF-8 byte string, and rejects every other one provided that it does not
contain the bytes 0xC0 0x80 and that the byte that happens to follow the vector in memory is not a continuation byte.
The vector must not end in the last three bytes of the memory. -/
theorem C76_partial {q : Nat} {bs : List UInt8} (h : StrAt σ.mem q bs) (hq : q + 8 + bs.length + 3 ≤ σ.size) (hs : σ.size < 2 ^ 32) :
    (bs.toByteArray.IsValidUTF8 → checkUtf8.Calls [q] σ (fun r σ' => r = [1] ∧ σ' = σ)) ∧
    (¬ bs.toByteArray.IsValidUTF8 → (∀ j : Nat, bs[j]? = some (0xC0 : UInt8) → bs[j + 1]? ≠ some (0x80 : UInt8)) →
      (σ.mem (q + 8 + bs.length)).toNat < 0x80 ∨ 0xBF < (σ.mem (q + 8 + bs.length)).toNat →
      checkUtf8.Calls [q] σ (fun r σ' => r = [0] ∧ σ' = σ)) := by
  rw [← utf8_iff]
  have hc := checkUtf8_spec h.len hq hs
  refine ⟨fun hv => hc.mono ?_, fun hv hz hn => hc.mono ?_⟩
  · rintro r σ' ⟨rfl, ⟨rfl, -⟩ | ⟨rfl, i, hi, hsc, h0⟩⟩
    · exact ⟨rfl, rfl⟩
    · exact absurd h0 ((hsc.complete h.data hv).2.2 hi)
  · rintro r σ' ⟨rfl, ⟨rfl, i, hi, hsc⟩ | ⟨rfl, -⟩⟩
    · obtain ⟨h1, h2⟩ := hsc.sound h.data hz hn
      rw [List.take_of_length_le hi] at h2
      exact absurd h2 hv
    · exact ⟨rfl, rfl⟩

/-- A state whose memory holds the vector `bs` at `p`. -/
def storeStr (p : Nat) (bs : List UInt8) : Store :=
  store0.setMem (wrBytes (putLe (putLe store0.mem p 4 bs.length) (p + 4) 4 bs.length) (p + 8) bs)

/-- **C76 is false**: 0xC0 0x80 is accepted, although it is not valid UTF-8. -/
theorem C76_false_overlong : ∃ (σ : Store) (q : Nat), StrAt σ.mem q [0xC0, 0x80] ∧ q + 8 + 2 + 3 ≤ σ.size ∧
    checkUtf8.Calls [q] σ (fun r σ' => r = [1] ∧ σ'.size = 65536) ∧ ¬ ([0xC0, 0x80] : List UInt8).toByteArray.IsValidUTF8 :=
  ⟨storeStr 600 [0xC0, 0x80], 600, ⟨by decide +kernel, by decide +kernel⟩, by decide,
    calls_of_obs 200 (fun σ => σ.size) [1] 65536 rfl (by decide +kernel), by decide +kernel⟩

/-- **C76 is false**: a string cut in the middle of a character is accepted when the missing byte is still in memory, as
it is after `pop_back`. -/
theorem C76_false_truncated : ∃ (σ : Store) (q : Nat), StrAt σ.mem q [0xC3] ∧ q + 8 + 1 + 3 ≤ σ.size ∧
    checkUtf8.Calls [q] σ (fun r σ' => r = [1] ∧ σ'.size = 65536) ∧ ¬ ([0xC3] : List UInt8).toByteArray.IsValidUTF8 :=
  ⟨(storeStr 600 [0xC3, 0xA9]).setMem (putLe (storeStr 600 [0xC3, 0xA9]).mem 600 4 1), 600, ⟨by decide +kernel, by decide +kernel⟩, by decide,
    calls_of_obs 200 (fun σ => σ.size) [1] 65536 rfl (by decide +kernel), by decide +kernel⟩

/-- **C76 is false**: a string whose last character has three bytes and ends where the memory ends makes the program trap,
because four bytes are read at once. -/
theorem C76_false_trap : ∃ (σ : Store) (q : Nat), StrAt σ.mem q [0xE2, 0x82, 0xAC] ∧ q + 8 + 3 = σ.size ∧
    ([0xE2, 0x82, 0xAC] : List UInt8).toByteArray.IsValidUTF8 ∧ checkUtf8.Traps [q] σ :=
  ⟨storeStr 65525 [0xE2, 0x82, 0xAC], 65525, ⟨by decide +kernel, by decide +kernel⟩, by decide, by decide +kernel,
    traps_of_run 200 rfl (by decide +kernel)⟩

/-- **C77** A byte position of a string (up to its length) is reported as a character boundary exactly when the bytes before
it are a whole number of characters. -/
theorem C77 {q i : Nat} {bs : List UInt8} (h : StrAt σ.mem q bs) (hv : bs.toByteArray.IsValidUTF8) (hi : i ≤ bs.length)
    (hq : q + 8 + bs.length ≤ σ.size) (hs : σ.size < 2 ^ 32) :
    ((bs.take i).toByteArray.IsValidUTF8 → isCharBoundary.Calls [q, i] σ (fun r σ' => r = [1] ∧ σ' = σ)) ∧
    (¬ (bs.take i).toByteArray.IsValidUTF8 → isCharBoundary.Calls [q, i] σ (fun r σ' => r = [0] ∧ σ' = σ)) := by
  rw [← utf8_iff] at hv ⊢
  have hc := isCharBoundary_spec h hv hi hq hs
  refine ⟨fun hu => hc.mono ?_, fun hu => hc.mono ?_⟩
  · rintro r σ' ⟨rfl, ⟨rfl, -⟩ | ⟨rfl, h0⟩⟩
    · exact ⟨rfl, rfl⟩
    · exact absurd hu h0
  · rintro r σ' ⟨rfl, ⟨rfl, h0⟩ | ⟨rfl, -⟩⟩
    · exact absurd h0 hu
    · exact ⟨rfl, rfl⟩

/-- **C78** `index_of` returns the first position at which the pattern occurs in the string, or the length of the string if
it does not occur. -/
theorem C78 {q p : Nat} {bs ps : List UInt8} (hb : StrAt σ.mem q bs) (hp : StrAt σ.mem p ps)
    (hq : q + 8 + bs.length ≤ σ.size) (hpp : p + 8 + ps.length ≤ σ.size) (hs : σ.size < 2 ^ 32) :
    indexOf.Calls [q, p] σ (fun r σ' => σ' = σ ∧ ∃ k, r = [k] ∧ k ≤ bs.length ∧ (k = bs.length ∨ ps <+: bs.drop k) ∧
      ∀ j < k, ¬ ps <+: bs.drop j) :=
  indexOf_spec hb hp hq hpp hs

/-- **C79** Cutting a string at two character boundaries gives a new vector with exactly the bytes between them, which are
again valid UTF-8; nothing else changes. -/
theorem C79 {q s e : Nat} {bs : List UInt8} (hb : StrAt σ.mem q bs) (hσ : Heap σ) (hq : q + 8 + bs.length ≤ σ.nextFree)
    (hse : s ≤ e) (he : e ≤ bs.length) (hs : (bs.take s).toByteArray.IsValidUTF8) (hv : (bs.take e).toByteArray.IsValidUTF8)
    (hr : Room σ (8 + (e - s))) :
    ((bs.take e).drop s).toByteArray.IsValidUTF8 ∧
    subString.Calls [q, s, e] σ (fun r σ' => ∃ p, r = [p] ∧ Extends σ σ' ∧ σ.nextFree ≤ p ∧ p + (8 + (e - s)) ≤ σ'.nextFree ∧
      ByteVec σ'.mem p ((bs.take e).drop s)) := by
  constructor
  · rw [← utf8_iff] at hs hv ⊢
    refine Utf8.cancel hs (b := (bs.take e).drop s) ?_
    have : bs.take s = (bs.take e).take s := by rw [List.take_take, Nat.min_eq_left hse]
    rw [this, List.take_append_drop]
    exact hv
  · refine (subString_spec hb hσ hq hse he hr).mono ?_
    rintro r σ' ⟨rfl, h1, h2, h3⟩
    exact ⟨_, rfl, h1, Nat.le_refl _, by omega, h3⟩

/-- Positions in the wrong order or outside the string never give a string. -/
theorem C79_outside {q s e : Nat} {bs : List UInt8} (hb : StrAt σ.mem q bs) (hq : q + 8 + bs.length ≤ σ.size)
    (hs : s < 2 ^ 32) (he : e < 2 ^ 32) (h : e < s ∨ bs.length < e) : subString.Traps [q, s, e] σ :=
  subString_traps hb hq hs he h

/-- The string `aé€` at 600. -/
def storeU : Store := storeStr 600 [0x61, 0xC3, 0xA9, 0xE2, 0x82, 0xAC]

theorem storeU_at : StrAt storeU.mem 600 [0x61, 0xC3, 0xA9, 0xE2, 0x82, 0xAC] := ⟨by decide +kernel, by decide +kernel⟩

theorem storeU_heap : Heap storeU := by
  refine store0_heap.setMem (leNat_zero_of fun x h1 h2 => ?_) fun x h1 => ?_
  · rw [wrBytes_out (by omega), putLe_out (by omega), putLe_out (by omega)]; rfl
  · have : 1000 ≤ x := h1
    rw [wrBytes_out (by simp; omega), putLe_out (by omega), putLe_out (by omega)]

example : checkUtf8.Calls [600] storeU (fun r σ' => r = [1] ∧ σ' = storeU) :=
  (C76_partial storeU_at (by decide) (by decide)).1 (by decide +kernel)
example : checkUtf8.Calls [600] (storeStr 600 [0x61, 0xED, 0xA0, 0x80]) (fun r σ' => r = [0] ∧ σ' = storeStr 600 [0x61, 0xED, 0xA0, 0x80]) :=
  (C76_partial (bs := [0x61, 0xED, 0xA0, 0x80]) ⟨by decide +kernel, by decide +kernel⟩ (by decide) (by decide)).2 (by decide +kernel)
    (fun j => by
      match j with
      | 0 | 1 | 2 | 3 => simp
      | j + 4 => simp)
    (by decide +kernel)
example : isCharBoundary.Calls [600, 3] storeU (fun r σ' => r = [1] ∧ σ' = storeU) :=
  (C77 storeU_at (by decide +kernel) (by decide) (by decide) (by decide)).1 (by decide +kernel)
example : isCharBoundary.Calls [600, 4] storeU (fun r σ' => r = [0] ∧ σ' = storeU) :=
  (C77 storeU_at (by decide +kernel) (by decide) (by decide) (by decide)).2 (by decide +kernel)
example : indexOf.Calls [600, 600] storeU (fun r σ' => σ' = storeU ∧ r = [0]) := by
  refine (C78 storeU_at storeU_at (by decide) (by decide) (by decide)).mono ?_
  rintro r σ' ⟨rfl, k, rfl, -, -, hk⟩
  refine ⟨rfl, ?_⟩
  rcases Nat.eq_zero_or_pos k with rfl | h
  · rfl
  · exact absurd (List.prefix_refl _) (hk 0 h)
example : subString.Calls [600, 1, 3] storeU (fun r σ' => ∃ p, r = [p] ∧ Extends storeU σ' ∧ storeU.nextFree ≤ p ∧
    p + (8 + (3 - 1)) ≤ σ'.nextFree ∧ ByteVec σ'.mem p [0xC3, 0xA9]) :=
  (C79 storeU_at storeU_heap (by decide) (by decide) (by decide) (by decide +kernel) (by decide +kernel)
    ⟨by decide, by decide⟩).2

end Props
