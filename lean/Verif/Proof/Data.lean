import Verif.Proof.Ascii
import Verif.Rt.Data
import Mathlib.Data.List.Perm.Subperm
import Mathlib.Data.List.Nodup

/-! The data segment. -/

namespace Rt
open Wasm

theorem wrBytes_out {f : Bytes} {a x : Nat} {l : List UInt8} (h : x < a ∨ a + l.length ≤ x) :
    wrBytes f a l x = f x := by
  unfold wrBytes; rw [if_neg (by omega)]

theorem wrBytes_in {f : Bytes} {a i : Nat} {l : List UInt8} (h : i < l.length) :
    wrBytes f a l (a + i) = l[i] := by
  unfold wrBytes
  rw [if_pos (by omega), Nat.add_sub_cancel_left, List.getD_eq_getElem?_getD,
    List.getElem?_eq_getElem h]
  rfl

theorem wrBytes_append (f : Bytes) (a : Nat) (l m : List UInt8) :
    wrBytes f a (l ++ m) = wrBytes (wrBytes f a l) (a + l.length) m := by
  funext x
  unfold wrBytes
  rw [List.length_append]
  by_cases h1 : a ≤ x ∧ x < a + l.length
  · rw [if_pos (by omega), if_neg (by omega), if_pos h1, List.getD_eq_getElem?_getD,
      List.getElem?_append_left (by omega), List.getD_eq_getElem?_getD]
  · by_cases h2 : a + l.length ≤ x ∧ x < a + l.length + m.length
    · rw [if_pos (by omega), if_pos h2, List.getD_eq_getElem?_getD,
        List.getElem?_append_right (by omega), List.getD_eq_getElem?_getD]
      congr 2; omega
    · rw [if_neg (by omega), if_neg h2, if_neg h1]

theorem padUp_eq {n : Nat} (h : n < 2 ^ 32) : padUp n = padded n := by
  have := and_field (n + 31) 5 59
  unfold padUp padded
  rw [show (2 : Nat) ^ 64 - 32 = (2 ^ 59 - 1) * 2 ^ 5 from rfl, this, show (2 : Nat) ^ 5 = 32 from rfl,
    Nat.mod_eq_of_lt (by omega)]

theorem le4_length (v : Nat) : (le4 v).length = 4 := rfl
theorem be4_length (v : Nat) : (be4 v).length = 4 := rfl

theorem wr_le4 (f : Bytes) (p v : Nat) : wrBytes f p (le4 v) = putLe f p 4 v := by
  funext x
  by_cases h : p ≤ x ∧ x < p + 4
  · obtain ⟨i, rfl⟩ : ∃ i, x = p + i := ⟨x - p, by omega⟩
    rw [wrBytes_in (by rw [le4_length]; omega), putLe_in h.1 h.2, Nat.add_sub_cancel_left]
    have : i = 0 ∨ i = 1 ∨ i = 2 ∨ i = 3 := by omega
    rcases this with rfl | rfl | rfl | rfl <;> simp [le4]
  · rw [wrBytes_out (by rw [le4_length]; omega), putLe_out (by omega)]

theorem wr_be4 (f : Bytes) (p v : Nat) : wrBytes f p (be4 v) = putBe f p 4 v := by
  funext x
  by_cases h : p ≤ x ∧ x < p + 4
  · obtain ⟨i, rfl⟩ : ∃ i, x = p + i := ⟨x - p, by omega⟩
    rw [wrBytes_in (by rw [be4_length]; omega), putBe_in h.1 h.2,
      show p + 4 - 1 - (p + i) = 3 - i by omega]
    have : i = 0 ∨ i = 1 ∨ i = 2 ∨ i = 3 := by omega
    rcases this with rfl | rfl | rfl | rfl <;> simp [be4]
  · rw [wrBytes_out (by rw [be4_length]; omega), putBe_out (by omega)]

theorem wr_replicate {f : Bytes} {p n i : Nat} (h : i < n) :
    wrBytes f p (List.replicate n 0) (p + i) = 0 := by
  rw [wrBytes_in (by simpa using h)]; simp

theorem encodeError_length {msg : List UInt8} (h : msg.length < 2 ^ 32) :
    (encodeError msg).length = 72 + padded msg.length := by
  have hp : msg.length ≤ padded msg.length := by unfold padded; omega
  unfold encodeError
  simp only [List.length_append, le4_length, be4_length, List.length_replicate, List.length_cons,
    List.length_nil, padUp_eq h]
  omega

set_option maxHeartbeats 1000000 in
/-- The compile-time encoder produces a valid `Error(string)`. -/
theorem encodeError_blob (f : Bytes) (p : Nat) {msg : List UInt8} (h : msg.length < 2 ^ 31) :
    ErrBlob (wrBytes f p (encodeError msg)) p msg := by
  have hp : msg.length ≤ padded msg.length := by unfold padded; omega
  have hp2 : padded msg.length ≤ msg.length + 31 := by unfold padded; omega
  unfold encodeError
  rw [padUp_eq (by omega)]
  simp only [wrBytes_append, wr_le4, wr_be4, List.length_append, le4_length, be4_length,
    List.length_replicate, List.length_cons, List.length_nil, Nat.reduceAdd]
  generalize hm : padded msg.length = P at *
  constructor
  · constructor
    · rw [leNat_congr (g := putLe f p 4 (68 + P)), leNat_putLe_same, hm]
      · omega
      · intro x h1 h2
        rw [wrBytes_out (by omega), wrBytes_out (by omega), putBe_out (by omega),
          wrBytes_out (by omega), wrBytes_out (by omega), wrBytes_out (by omega),
          wrBytes_out (by omega)]
    · rw [wrBytes_out (by omega), wrBytes_out (by omega), putBe_out (by omega),
        wrBytes_out (by omega), wrBytes_out (by omega), wrBytes_out (by omega)]
      exact wrBytes_in (i := 0) (by simp)
    · rw [wrBytes_out (by omega), wrBytes_out (by omega), putBe_out (by omega),
        wrBytes_out (by omega), wrBytes_out (by omega), wrBytes_out (by omega)]
      exact wrBytes_in (a := p + 4) (i := 1) (by simp)
    · rw [wrBytes_out (by omega), wrBytes_out (by omega), putBe_out (by omega),
        wrBytes_out (by omega), wrBytes_out (by omega), wrBytes_out (by omega)]
      exact wrBytes_in (a := p + 4) (i := 2) (by simp)
    · rw [wrBytes_out (by omega), wrBytes_out (by omega), putBe_out (by omega),
        wrBytes_out (by omega), wrBytes_out (by omega), wrBytes_out (by omega)]
      exact wrBytes_in (a := p + 4) (i := 3) (by simp)
    · rw [beNat_zeros (m := 31) (n := 1), beNat_one]
      · rw [wrBytes_out (by omega), wrBytes_out (by omega), putBe_out (by omega),
          wrBytes_out (by simp)]
        rw [show p + 8 + 31 = p + 8 + 31 + 0 from rfl, wrBytes_in (by simp)]
        rfl
      · intro x h1 h2
        rw [wrBytes_out (by omega), wrBytes_out (by omega), putBe_out (by omega),
          wrBytes_out (by omega), wrBytes_out (by omega)]
        obtain ⟨i, rfl⟩ : ∃ i, x = p + 8 + i := ⟨x - (p + 8), by omega⟩
        exact wr_replicate (by omega)
    · rw [beNat_zeros (m := 28) (n := 4)]
      · rw [beNat_congr (g := putBe (wrBytes (wrBytes (wrBytes (wrBytes (putLe f p 4 (68 + P)) (p + 4)
          [8, 195, 121, 160]) (p + 8) (List.replicate 31 0)) (p + 8 + 31) [32]) (p + 8 + 32)
          (List.replicate 28 0)) (p + 40 + 28) 4 msg.length), beNat_putBe_same]
        · omega
        · intro x h1 h2
          rw [wrBytes_out (by omega), wrBytes_out (by omega)]
      · intro x h1 h2
        rw [wrBytes_out (by omega), wrBytes_out (by omega), putBe_out (by omega)]
        obtain ⟨i, rfl⟩ : ∃ i, x = p + 40 + i := ⟨x - (p + 40), by omega⟩
        exact wr_replicate (by omega)
  · intro i hi
    rw [wrBytes_out (by omega)]
    exact wrBytes_in hi
  · intro i h1 h2
    rw [show p + 72 + i = p + (72 + msg.length) + (i - msg.length) by omega]
    exact wr_replicate (by omega)

theorem msg_len (e : RtErr) : e.msg.length ≤ 40 := by
  cases e <;> simp [RtErr.msg, ascii8]

theorem encode_len (e : RtErr) : 72 ≤ (encodeError e.msg).length ∧ (encodeError e.msg).length ≤ 136 := by
  have := msg_len e
  rw [encodeError_length (by omega)]
  unfold padded; omega

/-- Invariant of the error table. -/
structure ErrTable.Ok (t : ErrTable) : Prop where
  base : 468 ≤ t.next
  small : t.next ≤ 468 + 136 * t.errors.length
  keys : (t.errors.map Prod.fst).Nodup
  low : ∀ e p, (e, p) ∈ t.errors → 468 ≤ p ∧ p + (encodeError e.msg).length ≤ t.next
  apart : ∀ e p e' p', (e, p) ∈ t.errors → (e', p') ∈ t.errors → e ≠ e' →
    p + (encodeError e.msg).length ≤ p' ∨ p' + (encodeError e'.msg).length ≤ p
  blob : ∀ e p, (e, p) ∈ t.errors → ErrBlob (segMem t.segs (fun _ => 0)) p e.msg
  zero : ∀ x, t.next ≤ x → segMem t.segs (fun _ => 0) x = 0
  fixed : ∀ x, x < 468 → segMem t.segs (fun _ => 0) x = segMem baseSegs (fun _ => 0) x

theorem segMem_append (l m : List (Nat × List UInt8)) (f : Bytes) :
    segMem (l ++ m) f = segMem m (segMem l f) := by
  induction l generalizing f with
  | nil => rfl
  | cons a l ih => obtain ⟨a, b⟩ := a; exact ih _

theorem ErrTable.new_ok : ErrTable.new.Ok := by
  constructor <;> try simp [ErrTable.new]
  intro x hx
  simp only [baseSegs, segMem]
  rw [wrBytes_out (by simp [u256be]; omega), wrBytes_out (by simp [u256be]; omega),
    wrBytes_out (by simp [u256le]; omega)]

theorem ErrTable.Ok.count (h : ErrTable.Ok t) : t.errors.length ≤ 12 := by
  have : (t.errors.map Prod.fst).Subperm [RtErr.frozenCannotBeShared, .sharedCannotBeFrozen,
      .frozenCannotBeTransferred, .sharedCannotBeTransferred, .objectNotFound,
      .frozenCannotBeDeleted, .typeMismatch, .overflow, .outOfBounds, .memoryAccessOutOfBounds,
      .enumSizeTooLarge, .vectorNotEmpty] :=
    List.subperm_of_subset h.keys (by intro e _; cases e <;> simp)
  simpa using this.length_le

theorem lookup_mem {e : RtErr} {l : List (RtErr × Nat)} {p : Nat} (h : l.lookup e = some p) :
    (e, p) ∈ l := by
  induction l with
  | nil => simp at h
  | cons a l ih =>
    obtain ⟨e', p'⟩ := a
    rw [List.lookup_cons] at h
    by_cases he : e = e'
    · subst he; simp at h; subst h; simp
    · rw [beq_eq_false_iff_ne.mpr he] at h
      exact List.mem_cons_of_mem _ (ih h)

theorem lookup_none {e : RtErr} {l : List (RtErr × Nat)} (h : l.lookup e = none) :
    e ∉ l.map Prod.fst := by
  induction l with
  | nil => simp
  | cons a l ih =>
    obtain ⟨e', p'⟩ := a
    rw [List.lookup_cons] at h
    by_cases he : e = e'
    · subst he; simp at h
    · rw [beq_eq_false_iff_ne.mpr he] at h
      simpa [he] using ih h

/-- A request succeeds, keeps the table in order, and does not move any message. -/
theorem ErrTable.Ok.get (h : ErrTable.Ok t) (e : RtErr) : ∃ p t', t.get e = some (p, t') ∧ t'.Ok ∧
    (e, p) ∈ t'.errors ∧ ∀ x ∈ t.errors, x ∈ t'.errors := by
  unfold ErrTable.get
  cases hl : t.errors.lookup e with
  | some p => exact ⟨p, t, rfl, h, lookup_mem hl, fun _ hx => hx⟩
  | none =>
    have hlen := encode_len e
    simp only
    rw [if_neg (by omega)]
    refine ⟨_, _, rfl, ?_, by simp, fun x hx => List.mem_cons_of_mem _ hx⟩
    have hne := lookup_none hl
    have hb := h.base
    have hmem : segMem (t.segs ++ [(t.next, encodeError e.msg)]) (fun _ => 0) =
        wrBytes (segMem t.segs (fun _ => 0)) t.next (encodeError e.msg) := by
      rw [segMem_append]; rfl
    constructor
    · simp only; omega
    · have := h.small
      simp only [List.length_cons]; omega
    · exact List.nodup_cons.mpr ⟨hne, h.keys⟩
    · intro e' p' hm
      rcases List.mem_cons.mp hm with hm | hm
      · obtain ⟨rfl, rfl⟩ := Prod.mk.inj hm; exact ⟨hb, Nat.le_refl _⟩
      · have := h.low _ _ hm; simp only; omega
    · intro e1 p1 e2 p2 h1 h2 hn
      rcases List.mem_cons.mp h1 with g1 | g1 <;> rcases List.mem_cons.mp h2 with g2 | g2
      · exact absurd ((Prod.mk.inj g1).1.trans (Prod.mk.inj g2).1.symm) hn
      · obtain ⟨rfl, rfl⟩ := Prod.mk.inj g1; exact .inr (h.low _ _ g2).2
      · obtain ⟨rfl, rfl⟩ := Prod.mk.inj g2; exact .inl (h.low _ _ g1).2
      · exact h.apart _ _ _ _ g1 g2 hn
    · intro e' p' hm
      simp only [hmem]
      rcases List.mem_cons.mp hm with hm | hm
      · obtain ⟨rfl, rfl⟩ := Prod.mk.inj hm; exact encodeError_blob _ _ (by have := msg_len e'; omega)
      · refine (h.blob _ _ hm).congr fun x h1 h2 => wrBytes_out (.inl ?_)
        have h3 := (h.low _ _ hm).2
        have := msg_len e'
        rw [encodeError_length (by omega)] at h3
        omega
    · intro x hx
      simp only [hmem] at hx ⊢
      rw [wrBytes_out (.inr hx)]
      exact h.zero x (by omega)
    · intro x hx
      simp only [hmem]
      rw [wrBytes_out (by omega)]
      exact h.fixed x hx

theorem ErrTable.Ok.gets (h : ErrTable.Ok t) (es : List RtErr) : ∃ ps t', t.gets es = some (ps, t') ∧
    t'.Ok ∧ ps.length = es.length ∧ (∀ q ∈ es.zip ps, q ∈ t'.errors) ∧
    ∀ x ∈ t.errors, x ∈ t'.errors := by
  induction es generalizing t with
  | nil => exact ⟨[], t, rfl, h, rfl, by simp, fun _ h => h⟩
  | cons e es ih =>
    obtain ⟨p, t1, h1, k1, m1, s1⟩ := h.get e
    obtain ⟨ps, t2, h2, k2, l2, m2, s2⟩ := ih k1
    refine ⟨p :: ps, t2, by simp only [ErrTable.gets, h1, h2], k2, by simp [l2], ?_,
      fun x hx => s2 x (s1 x hx)⟩
    intro q hq
    rcases List.mem_cons.mp hq with rfl | hq
    · exact s2 _ m1
    · exact m2 q hq

theorem ErrTable.Ok.next_le (h : ErrTable.Ok t) : t.next ≤ 2100 := by
  have := h.small; have := h.count; omega

/-- The machine at the entry point is in order. -/
theorem initStore_heap (h : ErrTable.Ok t) (h1 : 1 ≤ maxPages) (h2 : maxPages ≤ 65535) (host : Host) :
    Heap (initStore t maxPages host) := by
  have hn := h.next_le
  have hb := h.base
  refine ⟨?_, ?_, hb, h.zero⟩
  · refine ⟨Nat.le_refl _, by show (65536 : Nat) < _; omega, ?_⟩
    show leNat (segMem t.segs _) 256 4 = 0
    rw [leNat_congr (g := segMem baseSegs (fun _ => 0)) (fun x h1 h2 => h.fixed x (by omega))]
    decide
  · constructor <;> simp only [initStore] <;> omega

end Rt
