import Verif.Proof.Data
import Verif.Abi
import Init.Data.Nat.ToString

/-! Error blobs as lists of bytes; decimal text; allocation histories. -/

namespace Rt
open Wasm

theorem rdBytes_length (f : Bytes) (a n : Nat) : (rdBytes f a n).length = n := by
  induction n generalizing a with
  | zero => rfl
  | succ n ih => simp [rdBytes, ih]

theorem rdBytes_getElem (f : Bytes) (a n i : Nat) (h : i < (rdBytes f a n).length) :
    (rdBytes f a n)[i] = f (a + i) := by
  induction n generalizing a i with
  | zero => simp [rdBytes] at h
  | succ n ih =>
    cases i with
    | zero => rfl
    | succ i =>
      simp only [rdBytes, List.getElem_cons_succ]
      rw [ih]; congr 1; omega

theorem rdBytes_eq {f : Bytes} {a : Nat} {l : List UInt8} (h : ∀ i (h : i < l.length), f (a + i) = l[i]) :
    rdBytes f a l.length = l := by
  apply List.ext_getElem (rdBytes_length _ _ _)
  intro i h1 h2
  rw [rdBytes_getElem]; exact h i h2

theorem rdBytes_append (f : Bytes) (a m n : Nat) :
    rdBytes f a (m + n) = rdBytes f a m ++ rdBytes f (a + m) n := by
  induction m generalizing a with
  | zero => simp [rdBytes]
  | succ m ih =>
    rw [show m + 1 + n = (m + n) + 1 by omega]
    simp only [rdBytes, ih, List.cons_append]
    rw [show a + 1 + m = a + (m + 1) by omega]

theorem word_length (v : Nat) : (Abi.word v).length = 32 := by simp [Abi.word]

theorem word_getElem (v i : Nat) (h : i < (Abi.word v).length) :
    (Abi.word v)[i] = UInt8.ofNat (v / 256 ^ (31 - i)) := by
  simp only [Abi.word, List.getElem_map, List.getElem_range]

theorem rdBytes_word {f : Bytes} {a v : Nat} (h : beNat f a 32 = v) : rdBytes f a 32 = Abi.word v := by
  subst h
  apply List.ext_getElem (by rw [rdBytes_length, word_length])
  intro i h1 h2
  rw [rdBytes_length] at h1
  rw [rdBytes_getElem, word_getElem, beNat_digit _ _ _ _ (by omega)]
  congr 1; omega

theorem pad_length (l : List UInt8) : (Abi.pad l).length = padded l.length := by
  unfold Abi.pad padded
  simp only [List.length_append, List.length_replicate]; omega

theorem errorString_length (msg : List UInt8) : (Abi.errorString msg).length = 68 + padded msg.length := by
  simp only [Abi.errorString, Abi.bytes, List.length_append, word_length, pad_length,
    List.length_cons, List.length_nil]; omega

/-- The bytes at `p` are a length-prefixed `Error(string)`, as the entry point expects of an
abort message. -/
def IsRevert (f : Bytes) (p : Nat) (msg : List UInt8) : Prop :=
  leNat f p 4 = (Abi.errorString msg).length ∧
  rdBytes f (p + 4) (Abi.errorString msg).length = Abi.errorString msg

theorem ErrBlob.isRevert {f : Bytes} {p : Nat} {msg : List UInt8} (h : ErrBlob f p msg) : IsRevert f p msg := by
  refine ⟨by rw [errorString_length]; exact h.head.len, ?_⟩
  rw [errorString_length, show 68 + padded msg.length = 4 + (32 + (32 + padded msg.length)) by omega,
    rdBytes_append, rdBytes_append, rdBytes_append]
  have e1 : rdBytes f (p + 4) 4 = [0x08, 0xc3, 0x79, 0xa0] := by
    simp only [rdBytes, Nat.add_assoc, Nat.reduceAdd, h.head.s0, h.head.s1, h.head.s2, h.head.s3]
  have e2 : rdBytes f (p + 4 + 4) 32 = Abi.word 32 := rdBytes_word h.head.off
  have e3 : rdBytes f (p + 4 + 4 + 32) 32 = Abi.word msg.length := rdBytes_word h.head.strlen
  have e4 : rdBytes f (p + 4 + 4 + 32 + 32) (padded msg.length) = Abi.pad msg := by
    rw [← pad_length]
    apply rdBytes_eq
    intro i hi
    rw [pad_length] at hi
    rw [show p + 4 + 4 + 32 + 32 + i = p + 72 + i by omega]
    by_cases him : i < msg.length
    · rw [h.text i him]; simp only [Abi.pad]; rw [List.getElem_append_left him]
    · rw [h.pad i (by omega) hi]; simp only [Abi.pad]; rw [List.getElem_append_right (by omega)]; simp
  rw [e1, e2, e3, e4]
  simp [Abi.errorString, Abi.bytes]

theorem IsRevert.congr {f g : Bytes} {p : Nat} {msg : List UInt8} (h : IsRevert f p msg)
    (he : ∀ x, p ≤ x → x < p + 4 + (Abi.errorString msg).length → g x = f x) : IsRevert g p msg := by
  refine ⟨(leNat_congr fun x h1 h2 => he x h1 (by omega)).trans h.1, Eq.trans ?_ h.2⟩
  apply List.ext_getElem (by simp [rdBytes_length])
  intro i h1 h2
  rw [rdBytes_length] at h1
  rw [rdBytes_getElem, rdBytes_getElem]; exact he _ (by omega) (by omega)

theorem digitChar_toNat {d : Nat} (h : d < 10) : (Nat.digitChar d).toNat = 48 + d := by
  have : d = 0 ∨ d = 1 ∨ d = 2 ∨ d = 3 ∨ d = 4 ∨ d = 5 ∨ d = 6 ∨ d = 7 ∨ d = 8 ∨ d = 9 := by omega
  rcases this with rfl | rfl | rfl | rfl | rfl | rfl | rfl | rfl | rfl | rfl <;> rfl

theorem decText_eq {n L : Nat} (h : DecLen n L) : decText n L = Abi.text (toString n) := by
  have : (toString n).toList = Nat.toDigits 10 n := by
    show n.repr.toList = _
    exact Nat.toList_repr
  unfold Abi.text
  rw [this]
  induction L generalizing n with
  | zero => rcases h.2 with ⟨_, h⟩ | ⟨h, _⟩ <;> omega
  | succ L ih =>
    by_cases hn : n < 10
    · have : L = 0 := by
        rcases h.2 with ⟨_, h⟩ | ⟨_, h⟩
        · omega
        · by_contra hL
          have : 10 ^ 1 ≤ 10 ^ L := Nat.pow_le_pow_right (by omega) (by omega)
          simp only [Nat.add_sub_cancel] at h
          omega
      subst this
      rw [Nat.toDigits_of_lt_base hn]
      simp only [decText, List.map_cons, List.map_nil, decDigit, digitChar_toNat hn]
      simp [Nat.mod_eq_of_lt hn]
    · rw [Nat.toDigits_of_base_le (by omega) (by omega), List.map_append]
      have hL : 10 ^ L ≤ n := by
        rcases h.2 with ⟨h, _⟩ | ⟨_, h⟩
        · omega
        · exact h
      have hlt := h.1
      rw [Nat.pow_succ] at hlt
      have hd : DecLen (n / 10) L := by
        have hL0 : L ≠ 0 := by rintro rfl; simp at hlt; omega
        refine ⟨by omega, .inr ⟨by omega, ?_⟩⟩
        obtain ⟨k, rfl⟩ : ∃ k, L = k + 1 := ⟨L - 1, by omega⟩
        rw [Nat.pow_succ] at hL
        simp only [Nat.add_sub_cancel]; omega
      rw [← ih hd (Nat.toList_repr)]
      simp only [decText, List.range_succ, List.map_append, List.map_cons, List.map_nil]
      congr 1
      · apply List.map_congr_left
        intro i hi
        rw [List.mem_range] at hi
        unfold decDigit
        congr 2
        rw [show L + 1 - 1 - i = (L - 1 - i) + 1 by omega, Nat.pow_succ, Nat.mul_comm, Nat.div_div_eq_div_mul]
      · rw [digitChar_toNat (Nat.mod_lt _ (by omega))]
        unfold decDigit
        rw [show L + 1 - 1 - L = 0 by omega]; simp

end Rt
