import Verif.Rt.Str
import Verif.Proof.Natives

/-! UTF-8, as far as the check of `std::string` is concerned. -/

namespace Rt
open Wasm

/-- The bytes are the UTF-8 encoding of a list of characters (Lean's own definition of the encoding). -/
def Utf8 (bs : List UInt8) : Prop := ∃ cs : List Char, bs = cs.flatMap String.utf8EncodeChar

/-- The number of bytes the check takes at four given bytes, 0 if it gives up. -/
def utfStep (a b c d : Nat) : Nat :=
  if a ≤ 0x7F then 1
  else if a = 0xC0 ∧ b = 0x80 then 2
  else if 0xC2 ≤ a ∧ a ≤ 0xDF ∧ 0x80 ≤ b ∧ b ≤ 0xBF then 2
  else if 0xE0 ≤ a ∧ a ≤ 0xEF ∧ 0x80 ≤ b ∧ b ≤ 0xBF ∧ 0x80 ≤ c ∧ c ≤ 0xBF ∧ (a = 0xE0 → 0xA0 ≤ b) ∧ (a = 0xED → b ≤ 0x9F) then 3
  else if 0xF0 ≤ a ∧ a ≤ 0xF4 ∧ 0x80 ≤ b ∧ b ≤ 0xBF ∧ 0x80 ≤ c ∧ c ≤ 0xBF ∧ 0x80 ≤ d ∧ d ≤ 0xBF ∧ (a = 0xF0 → 0x90 ≤ b) ∧ (a = 0xF4 → b ≤ 0x8F) then 4
  else 0

/-- `utfStep` at position `i` of the bytes from `p` on. -/
def stepAt (m : Bytes) (p i : Nat) : Nat :=
  utfStep (m (p + i)).toNat (m (p + i + 1)).toNat (m (p + i + 2)).toNat (m (p + i + 3)).toNat

/-- The check gets from the beginning of the vector at `p`, `n` bytes long, to position `i`. -/
inductive Scan (m : Bytes) (p n : Nat) : Nat → Prop
  | zero : Scan m p n 0
  | step {i : Nat} : Scan m p n i → i < n → stepAt m p i ≠ 0 → Scan m p n (i + stepAt m p i)

theorem utfStep_le (a b c d : Nat) : utfStep a b c d ≤ 4 := by
  unfold utfStep; repeat' split
  all_goals omega

theorem char_of {v : Nat} (h1 : v < 0x110000) (h2 : v < 0xD800 ∨ 0xDFFF < v) : (Char.ofNat v).val.toNat = v := by
  have hv : v.isValidChar := by unfold Nat.isValidChar; omega
  rw [Char.ofNat, dif_pos hv]
  rfl

theorem u8_eq {a : UInt8} {n : Nat} (h : n = a.toNat) : UInt8.ofNat n = a := by
  subst h; exact UInt8.ofNat_toNat

/-- A step that is not over 0xC080 is over the encoding of a character. -/
theorem utfStep_sound {a b c d : UInt8} (h0 : utfStep a.toNat b.toNat c.toNat d.toNat ≠ 0) (hz : ¬ (a = 0xC0 ∧ b = 0x80)) :
    ∃ x : Char, [a, b, c, d].take (utfStep a.toNat b.toNat c.toNat d.toNat) = String.utf8EncodeChar x := by
  have hz' : ¬ (a.toNat = 0xC0 ∧ b.toNat = 0x80) := fun h => hz ⟨UInt8.toNat.inj h.1, UInt8.toNat.inj h.2⟩
  have ha := a.toNat_lt
  have hb := b.toNat_lt
  have hc := c.toNat_lt
  have hd := d.toNat_lt
  revert h0
  unfold utfStep
  rw [if_neg hz']
  split
  · intro _
    refine ⟨Char.ofNat a.toNat, ?_⟩
    have := char_of (v := a.toNat) (by omega) (by omega)
    unfold String.utf8EncodeChar
    rw [this]
    simp only [if_pos (show a.toNat ≤ 0x7f by omega), List.take, u8_eq rfl]
  · split
    · intro _
      refine ⟨Char.ofNat ((a.toNat - 0xC0) * 64 + (b.toNat - 0x80)), ?_⟩
      have := char_of (v := (a.toNat - 0xC0) * 64 + (b.toNat - 0x80)) (by omega) (by omega)
      unfold String.utf8EncodeChar
      rw [this]
      simp only [List.take]
      rw [if_neg (by omega), if_pos (by omega), u8_eq (a := a) (by omega), u8_eq (a := b) (by omega)]
    · split
      · intro _
        refine ⟨Char.ofNat ((a.toNat - 0xE0) * 4096 + (b.toNat - 0x80) * 64 + (c.toNat - 0x80)), ?_⟩
        have := char_of (v := (a.toNat - 0xE0) * 4096 + (b.toNat - 0x80) * 64 + (c.toNat - 0x80)) (by omega) (by omega)
        unfold String.utf8EncodeChar
        rw [this]
        simp only [List.take]
        rw [if_neg (by omega), if_neg (by omega), if_pos (by omega), u8_eq (a := a) (by omega), u8_eq (a := b) (by omega),
          u8_eq (a := c) (by omega)]
      · split
        · intro _
          refine ⟨Char.ofNat ((a.toNat - 0xF0) * 262144 + (b.toNat - 0x80) * 4096 + (c.toNat - 0x80) * 64 + (d.toNat - 0x80)), ?_⟩
          have := char_of (v := (a.toNat - 0xF0) * 262144 + (b.toNat - 0x80) * 4096 + (c.toNat - 0x80) * 64 + (d.toNat - 0x80))
            (by omega) (by omega)
          unfold String.utf8EncodeChar
          rw [this]
          simp only [List.take]
          rw [if_neg (by omega), if_neg (by omega), if_neg (by omega), u8_eq (a := a) (by omega), u8_eq (a := b) (by omega),
            u8_eq (a := c) (by omega), u8_eq (a := d) (by omega)]
        · intro h; exact absurd rfl h

/-- The bytes of the step after the first are continuation bytes. -/
theorem utfStep_cont {a b c d : Nat} :
    (1 < utfStep a b c d → 0x80 ≤ b ∧ b ≤ 0xBF) ∧ (2 < utfStep a b c d → 0x80 ≤ c ∧ c ≤ 0xBF) ∧
    (3 < utfStep a b c d → 0x80 ≤ d ∧ d ≤ 0xBF) := by
  unfold utfStep
  split <;> [skip; split] <;> [skip; skip; split] <;> [skip; skip; skip; split] <;> [skip; skip; skip; skip; split]
  all_goals refine ⟨fun h => ?_, fun h => ?_, fun h => ?_⟩ <;> omega

theorem char_valid (x : Char) : x.val.toNat < 0xD800 ∨ 0xDFFF < x.val.toNat ∧ x.val.toNat < 0x110000 := x.valid

/-- On the encoding of a character, the step is over exactly that character. -/
theorem utfStep_complete {a b c d : UInt8} {x : Char} {rest : List UInt8} {k : Nat}
    (h : [a, b, c, d].take k = (String.utf8EncodeChar x ++ rest).take k) (hk : (String.utf8EncodeChar x).length ≤ k) :
    utfStep a.toNat b.toNat c.toNat d.toNat = (String.utf8EncodeChar x).length := by
  have hv := char_valid x
  have h1 : [a, b, c, d].take (String.utf8EncodeChar x).length = String.utf8EncodeChar x := by
    have := congrArg (List.take (String.utf8EncodeChar x).length) h
    rw [List.take_take, List.take_take, Nat.min_eq_left hk, List.take_left] at this
    exact this
  revert h1
  unfold String.utf8EncodeChar
  simp only
  generalize x.val.toNat = v at hv
  have hn : ∀ n : Nat, n < 256 → (UInt8.ofNat n).toNat = n := fun n hn => by
    rw [UInt8.toNat_ofNat', Nat.mod_eq_of_lt hn]
  split
  · intro h1
    simp only [List.length_cons, List.length_nil, List.take, List.cons.injEq, and_true] at h1
    subst h1
    rw [hn _ (by omega)]
    unfold utfStep
    rw [if_pos (by omega)]; rfl
  · split
    · intro h1
      simp only [List.length_cons, List.length_nil, List.take, List.cons.injEq, and_true] at h1
      obtain ⟨rfl, rfl⟩ := h1
      rw [hn _ (by omega), hn _ (by omega)]
      unfold utfStep
      rw [if_neg (by omega), if_neg (by omega), if_pos (by omega)]; rfl
    · split
      · intro h1
        simp only [List.length_cons, List.length_nil, List.take, List.cons.injEq, and_true] at h1
        obtain ⟨rfl, rfl, rfl⟩ := h1
        rw [hn _ (by omega), hn _ (by omega), hn _ (by omega)]
        unfold utfStep
        rw [if_neg (by omega), if_neg (by omega), if_neg (by omega), if_pos (by omega)]; rfl
      · intro h1
        simp only [List.length_cons, List.length_nil, List.take, List.cons.injEq, and_true] at h1
        obtain ⟨rfl, rfl, rfl, rfl⟩ := h1
        rw [hn _ (by omega), hn _ (by omega), hn _ (by omega), hn _ (by omega)]
        unfold utfStep
        rw [if_neg (by omega), if_neg (by omega), if_neg (by omega), if_neg (by omega), if_pos (by omega)]; rfl

theorem encode_pos (x : Char) : 0 < (String.utf8EncodeChar x).length ∧ (String.utf8EncodeChar x).length ≤ 4 := by
  unfold String.utf8EncodeChar
  simp only
  repeat' split
  all_goals simp

/-- On valid UTF-8 the check never gives up, and stops exactly at the end. -/
theorem Scan.complete {m : Bytes} {p i : Nat} {bs : List UInt8} (hm : rdBytes m p bs.length = bs) (hv : Utf8 bs)
    (h : Scan m p bs.length i) : i ≤ bs.length ∧ Utf8 (bs.drop i) ∧ (i < bs.length → stepAt m p i ≠ 0) := by
  have key : ∀ i, i ≤ bs.length → Utf8 (bs.drop i) → i < bs.length →
      0 < stepAt m p i ∧ i + stepAt m p i ≤ bs.length ∧ Utf8 (bs.drop (i + stepAt m p i)) := by
    rintro i h1 ⟨cs, hcs⟩ h2
    cases cs with
    | nil =>
      have := congrArg List.length hcs
      simp at this
      omega
    | cons x cs =>
      have hl := encode_pos x
      rw [List.flatMap_cons] at hcs
      have hlen := congrArg List.length hcs
      rw [List.length_drop, List.length_append] at hlen
      have hs : stepAt m p i = (String.utf8EncodeChar x).length := by
        refine utfStep_complete (rest := cs.flatMap String.utf8EncodeChar) (k := min 4 (bs.length - i)) ?_ (by omega)
        rw [← hcs]
        refine List.ext_getElem ?_ fun j hj1 hj2 => ?_
        · simp only [List.length_take, List.length_cons, List.length_nil, List.length_drop]; omega
        · simp only [List.length_take, List.length_cons, List.length_nil, List.length_drop] at hj1 hj2
          rw [List.getElem_take, List.getElem_take, List.getElem_drop]
          have hb : ∀ (j) (hj : i + j < bs.length), bs[i + j] = m (p + i + j) := fun j hj => by
            have hl : i + j < (rdBytes m p bs.length).length := by rw [rdBytes_length]; exact hj
            have := rdBytes_getElem m p bs.length (i + j) hl
            simp only [hm] at this
            rw [this, Nat.add_assoc]
          rw [hb j (by omega)]
          have : j < 4 := by omega
          match j, this with
          | 0, _ => rfl
          | 1, _ => rfl
          | 2, _ => rfl
          | 3, _ => rfl
      rw [hs]
      refine ⟨by omega, by omega, cs, ?_⟩
      rw [← List.drop_drop, hcs, List.drop_left]
  have : i ≤ bs.length ∧ Utf8 (bs.drop i) := by
    induction h with
    | zero => exact ⟨by omega, by simpa using hv⟩
    | step _ h1 h2 ih => exact (key _ ih.1 ih.2 h1).2
  exact ⟨this.1, this.2, fun h => by have := (key _ this.1 this.2 h).1; omega⟩

theorem Utf8.append {a b : List UInt8} (ha : Utf8 a) (hb : Utf8 b) : Utf8 (a ++ b) := by
  obtain ⟨x, rfl⟩ := ha
  obtain ⟨y, rfl⟩ := hb
  exact ⟨x ++ y, by rw [List.flatMap_append]⟩

/-- What the check has read is UTF-8 unless it contains 0xC080, provided that the byte behind the vector is not a
continuation byte. -/
theorem Scan.sound {m : Bytes} {p i : Nat} {bs : List UInt8} (hm : rdBytes m p bs.length = bs) (hz : ∀ j : Nat, bs[j]? = some (0xC0 : UInt8) → bs[j + 1]? ≠ some (0x80 : UInt8))
    (hn : (m (p + bs.length)).toNat < 0x80 ∨ 0xBF < (m (p + bs.length)).toNat)
    (h : Scan m p bs.length i) : i ≤ bs.length ∧ Utf8 (bs.take i) := by
  have hb : ∀ (j) (hj : j < bs.length), m (p + j) = bs[j] := fun j hj => by
    have hl : j < (rdBytes m p bs.length).length := by rw [rdBytes_length]; exact hj
    have := rdBytes_getElem m p bs.length j hl
    simp only [hm] at this
    rw [this]
  induction h with
  | zero => exact ⟨by omega, [], by simp⟩
  | @step i _ h1 h2 ih =>
    have hc := utfStep_cont (a := (m (p + i)).toNat) (b := (m (p + i + 1)).toNat) (c := (m (p + i + 2)).toNat)
      (d := (m (p + i + 3)).toNat)
    have h4 := utfStep_le (m (p + i)).toNat (m (p + i + 1)).toNat (m (p + i + 2)).toNat (m (p + i + 3)).toNat
    have hz' : ¬ (m (p + i) = 0xC0 ∧ m (p + i + 1) = 0x80) := fun h => by
      by_cases h3 : i + 1 < bs.length
      · refine hz i ?_ ?_
        · rw [List.getElem?_eq_getElem h1, ← hb i h1, h.1]
        · rw [List.getElem?_eq_getElem h3, ← hb _ h3, ← Nat.add_assoc, h.2]
      · rw [show bs.length = i + 1 by omega, ← Nat.add_assoc, h.2] at hn
        simp at hn
    obtain ⟨x, hx⟩ := utfStep_sound h2 hz'
    unfold stepAt at h2 ⊢
    generalize hk : utfStep (m (p + i)).toNat (m (p + i + 1)).toNat (m (p + i + 2)).toNat (m (p + i + 3)).toNat = k at *
    have hle : i + k ≤ bs.length := by
      by_contra hgt
      have : bs.length = i + 1 ∨ bs.length = i + 2 ∨ bs.length = i + 3 := by omega
      rcases this with h | h | h
      · rw [h, ← Nat.add_assoc] at hn
        have := hc.1 (by omega)
        omega
      · rw [h, ← Nat.add_assoc] at hn
        have := hc.2.1 (by omega)
        omega
      · rw [h, ← Nat.add_assoc] at hn
        have := hc.2.2 (by omega)
        omega
    refine ⟨hle, ?_⟩
    rw [List.take_add]
    refine ih.2.append ⟨[x], ?_⟩
    rw [List.flatMap_singleton, ← hx]
    refine List.ext_getElem ?_ fun j hj1 hj2 => ?_
    · simp only [List.length_take, List.length_drop, List.length_cons, List.length_nil]; omega
    · simp only [List.length_take, List.length_cons, List.length_nil, List.length_drop] at hj1 hj2
      rw [List.getElem_take, List.getElem_take, List.getElem_drop, ← hb _ (by omega), ← Nat.add_assoc]
      have : j < 4 := by omega
      match j, this with
      | 0, _ => rfl
      | 1, _ => rfl
      | 2, _ => rfl
      | 3, _ => rfl

end Rt
