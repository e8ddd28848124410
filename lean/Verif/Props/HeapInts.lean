import Verif.Proof.BigEndian
import Verif.Proof.HeapInts3
import Verif.Proof.HeapShift
import Verif.Props.Base

/-!
# C05-C09, C11-C16, C18: u128 and u256

A u128 (u256) value is a pointer to 16 (32) bytes holding the number in little-endian order.
`binFnL k code` is a compiled Move function of two parameters whose body is the operator.
`CheckedInt f args σ p n o` says: if `o = some v` the call returns a pointer to a newly allocated
block of `n` bytes holding `v` and no existing memory changes; if `o = none` it raises the runtime
error with message at `p`, and apart from the error word no existing memory changes.
`Heap σ`: no error is pending and the allocator state is consistent; `CanAlloc σ n`: there is room
for `n` more bytes.
-/

namespace Props
open Wasm Rt

variable {E : ErrPtrs} {σ : Store} {a b : Nat}

/-- **C05** Addition of u128 and u256. -/
theorem C05_add (t : HeapInt) (hE : E.Valid) (hσ : Heap σ) (hc : CanAlloc σ t.bytes)
    (ha : a + t.bytes ≤ σ.nextFree) (hb : b + t.bytes ≤ σ.nextFree) :
    CheckedInt (binFnL 0 (hintAdd E t .i32)) [a, b] σ (E .overflow) t.bytes
      (if leNat σ.mem a t.bytes + leNat σ.mem b t.bytes < 2 ^ t.bits
        then some (leNat σ.mem a t.bytes + leNat σ.mem b t.bytes) else none) := by
  apply CheckedInt.of_wp2
  intro Q hK
  rw [← List.append_nil (hintAdd E t .i32)]
  refine wp_hintAdd E t hE hσ hc ha hb ⟨?_, hK.err⟩
  intro v hv q σ' h1 h2 h3 h4
  exact wp_nil.mpr (hK.ok v hv q σ' h1 h2 h3 h4 _ .refl)

seal CheckedInt in
example : ReturnsInt (binFnL 0 (hintAdd E0 .u128 .i32)) [500, 540] (store2 (2 ^ 127) (2 ^ 127 - 1)) 16
    (2 ^ 128 - 1) := by
  generalize hs : store2 _ _ = σ
  obtain ⟨hσ, hn, h1, h2, hc⟩ := store2_facts hs
  have h := C05_add (E := E0) (σ := σ) (a := 500) (b := 540) .u128 E0_valid hσ (hc _ (by decide)) (by rw [hn]; decide) (by rw [hn]; decide)
  exact h.val_if (by rw [h1 _ (by decide), h2 _ (by decide)]; decide) (by rw [h1 _ (by decide), h2 _ (by decide)]; decide)
seal CheckedInt in
example : Raises (binFnL 0 (hintAdd E0 .u256 .i32)) [500, 540] (store2 (2 ^ 255) (2 ^ 255)) (E0 .overflow) := by
  generalize hs : store2 _ _ = σ
  obtain ⟨hσ, hn, h1, h2, hc⟩ := store2_facts hs
  have h := C05_add (E := E0) (σ := σ) (a := 500) (b := 540) .u256 E0_valid hσ (hc _ (by decide)) (by rw [hn]; decide) (by rw [hn]; decide)
  exact h.err_if (by rw [h1 _ (by decide), h2 _ (by decide)]; decide)

/-- **C06** Subtraction of u128 and u256. -/
theorem C06_sub (t : HeapInt) (hE : E.Valid) (hσ : Heap σ) (hc : CanAlloc σ t.bytes)
    (ha : a + t.bytes ≤ σ.nextFree) (hb : b + t.bytes ≤ σ.nextFree) :
    CheckedInt (binFnL 0 (hintSub E t .i32)) [a, b] σ (E .overflow) t.bytes
      (if leNat σ.mem b t.bytes ≤ leNat σ.mem a t.bytes
        then some (leNat σ.mem a t.bytes - leNat σ.mem b t.bytes) else none) := by
  apply CheckedInt.of_wp2
  intro Q hK
  rw [← List.append_nil (hintSub E t .i32)]
  refine wp_hintSub E t hE hσ hc ha hb ⟨?_, hK.err⟩
  intro v hv q σ' h1 h2 h3 h4
  exact wp_nil.mpr (hK.ok v hv q σ' h1 h2 h3 h4 _ .refl)

seal CheckedInt in
example : ReturnsInt (binFnL 0 (hintSub E0 .u256 .i32)) [500, 540] (store2 (2 ^ 200) 1) 32
    (2 ^ 200 - 1) := by
  generalize hs : store2 _ _ = σ
  obtain ⟨hσ, hn, h1, h2, hc⟩ := store2_facts hs
  have h := C06_sub (E := E0) (σ := σ) (a := 500) (b := 540) .u256 E0_valid hσ (hc _ (by decide)) (by rw [hn]; decide) (by rw [hn]; decide)
  exact h.val_if (by rw [h1 _ (by decide), h2 _ (by decide)]; decide) (by rw [h1 _ (by decide), h2 _ (by decide)]; decide)

/-! ## Multiplication

**C07** is false of the code: partial products that only overflow because of high digits of the
first operand are dropped without an error. -/

theorem mul_actual (t : HeapInt) (hE : E.Valid) (hσ : Heap σ) (hc : CanAlloc σ t.bytes)
    (ha : a + t.bytes ≤ σ.nextFree) (hb : b + t.bytes ≤ σ.nextFree) :
    CheckedInt (binFnL 0 (hintMul E t .i32)) [a, b] σ (E .overflow) t.bytes
      (if RowOvf (t.bytes / 4) (leNat σ.mem a t.bytes) (leNat σ.mem b t.bytes) then none
       else some (leNat σ.mem a t.bytes * leNat σ.mem b t.bytes % 2 ^ t.bits)) := by
  apply CheckedInt.of_wp2
  intro Q hK
  rw [← List.append_nil (hintMul E t .i32)]
  refine wp_hintMul E t hE hσ hc ha hb ⟨?_, hK.err⟩
  intro v hv q σ' h1 h2 h3 h4
  exact wp_nil.mpr (hK.ok v hv q σ' h1 h2 h3 h4 _ .refl)

/-- **C07 (partial)** When the product fits it is returned.  When it does not, either the overflow
error is raised or the product modulo 2^w is returned.  Missing: the error in all overflowing
cases (false, see `C07_false`). -/
theorem C07_mul_partial (t : HeapInt) (hE : E.Valid) (hσ : Heap σ) (hc : CanAlloc σ t.bytes)
    (ha : a + t.bytes ≤ σ.nextFree) (hb : b + t.bytes ≤ σ.nextFree) :
    (leNat σ.mem a t.bytes * leNat σ.mem b t.bytes < 2 ^ t.bits →
      ReturnsInt (binFnL 0 (hintMul E t .i32)) [a, b] σ t.bytes
        (leNat σ.mem a t.bytes * leNat σ.mem b t.bytes)) ∧
    (2 ^ t.bits ≤ leNat σ.mem a t.bytes * leNat σ.mem b t.bytes →
      Raises (binFnL 0 (hintMul E t .i32)) [a, b] σ (E .overflow) ∨
      ReturnsInt (binFnL 0 (hintMul E t .i32)) [a, b] σ t.bytes
        (leNat σ.mem a t.bytes * leNat σ.mem b t.bytes % 2 ^ t.bits)) := by
  have h := mul_actual t hE hσ hc ha hb
  have e : 256 ^ (4 * (t.bytes / 4)) = 2 ^ t.bits := by cases t <;> rfl
  constructor
  · intro hlt
    refine h.val ?_
    rw [if_neg, Nat.mod_eq_of_lt hlt]
    intro ho
    have := ho.overflow
    omega
  · intro _
    by_cases ho : RowOvf (t.bytes / 4) (leNat σ.mem a t.bytes) (leNat σ.mem b t.bytes)
    · exact .inl (h.err (if_pos ho))
    · exact .inr (h.val (if_neg ho))

seal CheckedInt in
/-- **C07 is false**: in every state, multiplying two u128 both equal to 2^64 returns 0. -/
theorem C07_false (hE : E.Valid) (hσ : Heap σ) (hc : CanAlloc σ 16)
    (ha : a + 16 ≤ σ.nextFree) (hb : b + 16 ≤ σ.nextFree)
    (ha' : leNat σ.mem a 16 = 2 ^ 64) (hb' : leNat σ.mem b 16 = 2 ^ 64) :
    ReturnsInt (binFnL 0 (hintMul E .u128 .i32)) [a, b] σ 16 0 := by
  have h := mul_actual .u128 hE hσ hc ha hb
  refine h.val ?_
  simp only [HeapInt.bytes, ha', hb']
  rw [if_neg (by decide)]
  rfl

seal CheckedInt in
example : ReturnsInt (binFnL 0 (hintMul E0 .u128 .i32)) [500, 540] (store2 (2 ^ 64) (2 ^ 64)) 16 0 := by
  generalize hs : store2 _ _ = σ
  obtain ⟨hσ, hn, h1, h2, hc⟩ := store2_facts hs
  exact C07_false E0_valid hσ (hc _ (by decide)) (by rw [hn]; decide) (by rw [hn]; decide)
    (h1 _ (by omega)) (h2 _ (by omega))
seal CheckedInt in
example : ReturnsInt (binFnL 0 (hintMul E0 .u128 .i32)) [500, 540] (store2 (2 ^ 64) (2 ^ 63)) 16 (2 ^ 127) := by
  generalize hs : store2 _ _ = σ
  obtain ⟨hσ, hn, h1, h2, hc⟩ := store2_facts hs
  have := (C07_mul_partial (E := E0) (σ := σ) (a := 500) (b := 540) .u128 E0_valid hσ (hc _ (by decide))
    (by rw [hn]; decide) (by rw [hn]; decide)).1
  simp only [HeapInt.bytes, h1 _ (show 16 ≤ 32 by omega), h2 _ (show 16 ≤ 32 by omega)] at this
  exact this (by decide)

/-! ## Division -/

/-- **C08** Quotient: for a non-zero divisor. -/
theorem C08_div (t : HeapInt) (hσ : Heap σ) (hc : CanAlloc σ (2 * t.bytes))
    (ha : a + t.bytes ≤ σ.nextFree) (hb : b + t.bytes ≤ σ.nextFree)
    (hz : leNat σ.mem b t.bytes ≠ 0) :
    ReturnsInt (binFnL 0 (hintDiv E t .i32)) [a, b] σ t.bytes
      (leNat σ.mem a t.bytes / leNat σ.mem b t.bytes) := by
  have : CheckedInt (binFnL 0 (hintDiv E t .i32)) [a, b] σ 0 t.bytes
      (some (leNat σ.mem a t.bytes / leNat σ.mem b t.bytes)) := by
    apply CheckedInt.of_wp2
    intro Q hK
    rw [← List.append_nil (hintDiv E t .i32)]
    refine wp_hintDiv E t hσ (by rwa [← Nat.two_mul]) ha hb hz ?_
    intro q σ' h1 h2 h3 h4
    exact wp_nil.mpr (hK.ok _ rfl q σ' h1 h2 h3 h4 _ .refl)
  exact this

/-- **C08** Remainder: for a non-zero divisor. -/
theorem C08_rem (t : HeapInt) (hσ : Heap σ) (hc : CanAlloc σ (2 * t.bytes))
    (ha : a + t.bytes ≤ σ.nextFree) (hb : b + t.bytes ≤ σ.nextFree)
    (hz : leNat σ.mem b t.bytes ≠ 0) :
    ReturnsInt (binFnL 0 (hintRem E t .i32)) [a, b] σ t.bytes
      (leNat σ.mem a t.bytes % leNat σ.mem b t.bytes) := by
  have : CheckedInt (binFnL 0 (hintRem E t .i32)) [a, b] σ 0 t.bytes
      (some (leNat σ.mem a t.bytes % leNat σ.mem b t.bytes)) := by
    apply CheckedInt.of_wp2
    intro Q hK
    rw [← List.append_nil (hintRem E t .i32)]
    refine wp_hintRem E t hσ (by rwa [← Nat.two_mul]) ha hb hz ?_
    intro q σ' h1 h2 h3 h4
    exact wp_nil.mpr (hK.ok _ rfl q σ' h1 h2 h3 h4 _ .refl)
  exact this

/-- **C08** A zero divisor stops the contract. -/
theorem C08_zero (t : HeapInt) (hσ : Heap σ) (hb : b + t.bytes ≤ σ.nextFree)
    (hz : leNat σ.mem b t.bytes = 0) :
    (binFnL 0 (hintDiv E t .i32)).Traps [a, b] σ ∧ (binFnL 0 (hintRem E t .i32)).Traps [a, b] σ := by
  constructor <;> refine ⟨rfl, ?_⟩ <;>
    simp only [binFnL, List.cons_append, List.nil_append, wp_lget, lget_zero, lget_succ]
  · have := wp_hintDiv_zero E t (a := a) (s := []) (is := []) (ty := .i32)
      (loc := [a, b] ++ List.replicate 0 0) hσ hb hz (Q := fun r => r = .trap) rfl
    rwa [List.append_nil] at this
  · have := wp_hintRem_zero E t (a := a) (s := []) (is := []) (ty := .i32)
      (loc := [a, b] ++ List.replicate 0 0) hσ hb hz (Q := fun r => r = .trap) rfl
    rwa [List.append_nil] at this

example : ReturnsInt (binFnL 0 (hintDiv E0 .u256 .i32)) [500, 540] (store2 (2 ^ 255 + 1) (2 ^ 128)) 32
    (2 ^ 127) := by
  have := C08_div (E := E0) (σ := store2 (2 ^ 255 + 1) (2 ^ 128)) (a := 500) (b := 540) .u256
    (store2_heap _ _) (store2_canAlloc (by decide)) (by decide) (by decide)
    (by simp only [HeapInt.bytes]; rw [store2_snd (by omega)]; decide)
  simp only [HeapInt.bytes] at this
  rw [store2_fst (by omega), store2_snd (by omega)] at this
  exact this
example : (binFnL 0 (hintDiv E0 .u128 .i32)).Traps [500, 540] (store2 7 0) :=
  (C08_zero .u128 (store2_heap _ _) (by decide) (by
    simp only [HeapInt.bytes]; rw [store2_snd (by omega)]; decide)).1

/-! ## Shifts -/

/-- **C09** Left shift; the shift amount is a u8. -/
theorem C09_shl (t : HeapInt) {n : Nat} (hE : E.Valid) (hσ : Heap σ) (hc : CanAlloc σ t.bytes)
    (ha : a + t.bytes ≤ σ.nextFree) :
    CheckedInt (binFnL 0 (hintShl E t .i32)) [a, n] σ (E .overflow) t.bytes
      (if n < t.bits then some (leNat σ.mem a t.bytes * 2 ^ n % 2 ^ t.bits) else none) := by
  apply CheckedInt.of_wp2
  intro Q hK
  rw [← List.append_nil (hintShl E t .i32)]
  refine wp_hintShl E t hE hσ hc ha ⟨?_, hK.err⟩
  intro v hv q σ' h1 h2 h3 h4
  exact wp_nil.mpr (hK.ok v hv q σ' h1 h2 h3 h4 _ .refl)

/-- **C09** Right shift. -/
theorem C09_shr (t : HeapInt) {n : Nat} (hE : E.Valid) (hσ : Heap σ) (hc : CanAlloc σ t.bytes)
    (ha : a + t.bytes ≤ σ.nextFree) :
    CheckedInt (binFnL 0 (hintShr E t .i32)) [a, n] σ (E .overflow) t.bytes
      (if n < t.bits then some (leNat σ.mem a t.bytes / 2 ^ n) else none) := by
  apply CheckedInt.of_wp2
  intro Q hK
  rw [← List.append_nil (hintShr E t .i32)]
  refine wp_hintShr E t hE hσ hc ha ⟨?_, hK.err⟩
  intro v hv q σ' h1 h2 h3 h4
  exact wp_nil.mpr (hK.ok v hv q σ' h1 h2 h3 h4 _ .refl)

example : ReturnsInt (binFnL 0 (hintShl E0 .u256 .i32)) [500, 100] (store2 (2 ^ 155 + 2 ^ 156 + 5) 0) 32
    (2 ^ 255 + 5 * 2 ^ 100) := by
  generalize hs : store2 _ _ = σ
  obtain ⟨hσ, hn, h1, h2, hc⟩ := store2_facts hs
  have h := C09_shl (E := E0) (σ := σ) (a := 500) (n := 100) .u256 E0_valid hσ (hc _ (by decide)) (by rw [hn]; decide)
  exact h.val_if (by decide) (by rw [h1 _ (by decide)]; decide)
example : Raises (binFnL 0 (hintShr E0 .u128 .i32)) [500, 128] (store2 1 0) (E0 .overflow) := by
  generalize hs : store2 _ _ = σ
  obtain ⟨hσ, hn, h1, h2, hc⟩ := store2_facts hs
  have h := C09_shr (E := E0) (σ := σ) (a := 500) (n := 128) .u128 E0_valid hσ (hc _ (by decide)) (by rw [hn]; decide)
  exact h.err_if (by decide)

/-! ## Comparison and bitwise operators -/

/-- **C11** `<`, `<=`, `>`, `>=` on u128 and u256. -/
theorem C11_cmp (o : CmpOp) (t : HeapInt) (hσ : Heap σ)
    (ha : a + t.bytes ≤ σ.nextFree) (hb : b + t.bytes ≤ σ.nextFree) :
    Evaluates (binFnL 2 (hintCmp o t 2)) [a, b] σ (match o with
      | .lt => if leNat σ.mem a t.bytes < leNat σ.mem b t.bytes then 1 else 0
      | .le => if leNat σ.mem a t.bytes ≤ leNat σ.mem b t.bytes then 1 else 0
      | .gt => if leNat σ.mem a t.bytes > leNat σ.mem b t.bytes then 1 else 0
      | .ge => if leNat σ.mem a t.bytes ≥ leNat σ.mem b t.bytes then 1 else 0) := by
  refine ⟨rfl, ?_⟩
  simp only [binFnL, List.cons_append, List.nil_append, wp_lget, lget_zero, lget_succ]
  rw [← List.append_nil (hintCmp o t 2)]
  refine wp_hintCmp o t hσ (by simp) ha hb ?_
  intro loc' _
  rw [wp_nil]
  cases o <;> exact ⟨rfl, rfl⟩

example : Evaluates (binFnL 2 (hintCmp .le .u256 2)) [500, 540] (store2 (2 ^ 255) (2 ^ 255)) 1 := by
  have := C11_cmp (σ := store2 (2 ^ 255) (2 ^ 255)) (a := 500) (b := 540) .le .u256 (store2_heap _ _)
    (by decide) (by decide)
  simp only [HeapInt.bytes, store2_fst (show 32 ≤ 32 by omega), store2_snd (show 32 ≤ 32 by omega)] at this
  exact this

/-- **C12** Bitwise and, or, xor on u128 and u256. -/
theorem C12_bitwise (o : BitOp) (t : HeapInt) (hσ : Heap σ) (hc : CanAlloc σ t.bytes)
    (ha : a + t.bytes ≤ σ.nextFree) (hb : b + t.bytes ≤ σ.nextFree) :
    ReturnsInt (binFnL 3 (hintBitwise o t 2)) [a, b] σ t.bytes (match o with
      | .and => leNat σ.mem a t.bytes &&& leNat σ.mem b t.bytes
      | .or => leNat σ.mem a t.bytes ||| leNat σ.mem b t.bytes
      | .xor => leNat σ.mem a t.bytes ^^^ leNat σ.mem b t.bytes) := by
  have : CheckedInt (binFnL 3 (hintBitwise o t 2)) [a, b] σ 0 t.bytes
      (some (o.nat (leNat σ.mem a t.bytes) (leNat σ.mem b t.bytes))) := by
    apply CheckedInt.of_wp2
    intro Q hK
    rw [← List.append_nil (hintBitwise o t 2)]
    refine wp_hintBitwise (e := 0) o t hσ (by simp) hc ha hb ⟨?_, fun _ _ _ => trivial⟩
    intro v hv q σ' h1 h2 h3 h4 loc' hl
    exact wp_nil.mpr (hK.ok v hv q σ' h1 h2 h3 h4 _ hl)
  cases o <;> exact this

example : ReturnsInt (binFnL 3 (hintBitwise .xor .u128 2)) [500, 540] (store2 (2 ^ 127 + 6) (2 ^ 127 + 3)) 16 5 := by
  have := C12_bitwise (σ := store2 (2 ^ 127 + 6) (2 ^ 127 + 3)) (a := 500) (b := 540) .xor .u128 (store2_heap _ _)
    (store2_canAlloc (by decide)) (by decide) (by decide)
  simp only [HeapInt.bytes] at this
  rw [store2_fst (by omega), store2_snd (by omega)] at this
  exact this

/-- **C50** Comparison of register integers. -/
theorem C50_cmp (o : CmpOp) (t : RegInt) :
    Evaluates (binFn (intCmp o t)) [a, b] σ (match o with
      | .lt => if a < b then 1 else 0
      | .le => if a ≤ b then 1 else 0
      | .gt => if a > b then 1 else 0
      | .ge => if a ≥ b then 1 else 0) := by
  refine ⟨rfl, ?_⟩
  unfold binFn intCmp
  cases o <;> simp only [CmpOp.bin] <;> wstep <;> rfl

/-- **C50** Bitwise operators on register integers; the result is a value of the type. -/
theorem C50_bitwise (o : BitOp) (t : RegInt) (ha : a < 2 ^ t.bits) (hb : b < 2 ^ t.bits) :
    ∃ v, Evaluates (binFn (intBitwise o t)) [a, b] σ v ∧ v < 2 ^ t.bits ∧
      ∀ i, v.testBit i = (match o with
        | .and => (a.testBit i && b.testBit i)
        | .or => (a.testBit i || b.testBit i)
        | .xor => (a.testBit i ^^ b.testBit i)) := by
  refine ⟨o.nat a b, ⟨rfl, ?_⟩, ?_, ?_⟩
  · unfold binFn intBitwise
    wstep
    rw [wp_bitop]
    wstep
  · cases o
    · exact Nat.and_lt_two_pow _ hb
    · exact Nat.or_lt_two_pow ha hb
    · exact Nat.xor_lt_two_pow ha hb
  · intro i
    cases o
    · exact Nat.testBit_and _ _ _
    · exact Nat.testBit_or _ _ _
    · exact Nat.testBit_xor _ _ _

example : Evaluates (binFn (intCmp .ge .u64)) [2 ^ 63, 1] store0 1 := C50_cmp .ge .u64
example : ∃ v, Evaluates (binFn (intBitwise .and .u8)) [12, 10] store0 v ∧ v < 2 ^ 8 :=
  let ⟨v, h1, h2, _⟩ := C50_bitwise (σ := store0) (a := 12) (b := 10) .and .u8 (by decide) (by decide)
  ⟨v, h1, h2⟩

/-! ## Casts -/

/-- **C14** Casts from u8..u64 to u128 and u256. -/
theorem C14_widen_heap (t : HeapInt) (r : RegInt) (hσ : Heap σ) (hc : CanAlloc σ t.bytes)
    (ha : a < 2 ^ r.bits) : ReturnsInt (unFnL 2 (hintCast E t (.reg r) 1)) [a] σ t.bytes a := by
  have : CheckedInt (unFnL 2 (hintCast E t (.reg r) 1)) [a] σ 0 t.bytes (some a) := by
    apply CheckedInt.of_wp1
    intro Q hK
    rw [← List.append_nil (hintCast E t (.reg r) 1)]
    refine wp_hintCast_reg (e := 0) E t r hσ (by simp) hc ha ⟨?_, fun _ _ _ => trivial⟩
    intro v hv q σ' h1 h2 h3 h4 loc' hl
    exact wp_nil.mpr (hK.ok v hv q σ' h1 h2 h3 h4 _ hl)
  exact this

/-- **C14** Cast from u128 to u256. -/
theorem C14_widen_u128 (hσ : Heap σ) (hc : CanAlloc σ 32) (ha : a + 16 ≤ σ.nextFree) :
    ReturnsInt (unFnL 2 (hintCast E .u256 .u128 1)) [a] σ 32 (leNat σ.mem a 16) := by
  have : CheckedInt (unFnL 2 (hintCast E .u256 .u128 1)) [a] σ 0 32 (some (leNat σ.mem a 16)) := by
    apply CheckedInt.of_wp1
    intro Q hK
    rw [← List.append_nil (hintCast E .u256 .u128 1)]
    refine wp_hintCast_up (e := 0) E hσ (by simp) hc ha ⟨?_, fun _ _ _ => trivial⟩
    intro v hv q σ' h1 h2 h3 h4 loc' hl
    exact wp_nil.mpr (hK.ok v hv q σ' h1 h2 h3 h4 _ hl)
  exact this

/-- What the cast u256 → u128 really does when 16 more bytes of memory follow the result: it drops
the upper half, because the check looks at the memory behind the result instead of the argument. -/
theorem cast_u256_u128_actual (hσ : Heap σ) (hc : CanAlloc σ 16) (ha : a + 32 ≤ σ.nextFree)
    (hroom : σ.nextFree + 32 ≤ (allocated σ 16).size) :
    ReturnsInt (unFnL 4 (hintCast E .u128 .u256 1)) [a] σ 16 (leNat σ.mem a 32 % 2 ^ 128) := by
  have e : leNat σ.mem a 32 % 2 ^ 128 = leNat σ.mem a 16 := by
    rw [leNat_split σ.mem a 32 16 (by omega)]
    have := leNat_lt σ.mem a 16
    simp only [Nat.reducePow, Nat.reduceSub] at *
    omega
  rw [e]
  have : CheckedInt (unFnL 4 (hintCast E .u128 .u256 1)) [a] σ 0 16 (some (leNat σ.mem a 16)) := by
    apply CheckedInt.of_wp1
    intro Q hK
    rw [← List.append_nil (hintCast E .u128 .u256 1)]
    refine wp_hintCast_down (e := 0) E hσ (by simp) hc ha hroom ⟨?_, fun _ _ _ => trivial⟩
    intro v hv q σ' h1 h2 h3 h4 loc' hl
    exact wp_nil.mpr (hK.ok v hv q σ' h1 h2 h3 h4 _ hl)
  exact this

/-- **C13 (partial)** The cast u256 → u128 returns the number when it fits.  Missing: the abort for
numbers that do not fit (false, see `C13_false_u256`). -/
theorem C13_cast_u256_u128_partial (hσ : Heap σ) (hc : CanAlloc σ 16) (ha : a + 32 ≤ σ.nextFree)
    (hroom : σ.nextFree + 32 ≤ (allocated σ 16).size) (hlt : leNat σ.mem a 32 < 2 ^ 128) :
    ReturnsInt (unFnL 4 (hintCast E .u128 .u256 1)) [a] σ 16 (leNat σ.mem a 32) := by
  have := cast_u256_u128_actual (E := E) hσ hc ha hroom
  rwa [Nat.mod_eq_of_lt hlt] at this

/-- **C13 is false**: `2^128 as u128` evaluates to 0. -/
theorem C13_false_u256 (hσ : Heap σ) (hc : CanAlloc σ 16) (ha : a + 32 ≤ σ.nextFree)
    (hroom : σ.nextFree + 32 ≤ (allocated σ 16).size) (hv : leNat σ.mem a 32 = 2 ^ 128) :
    ReturnsInt (unFnL 4 (hintCast E .u128 .u256 1)) [a] σ 16 0 := by
  have := cast_u256_u128_actual (E := E) hσ hc ha hroom
  rwa [hv] at this

example : ReturnsInt (unFnL 2 (hintCast E0 .u256 (.reg .u64) 1)) [2 ^ 63] store0 32 (2 ^ 63) :=
  C14_widen_heap .u256 .u64 store0_heap ⟨by decide, .inl (by decide)⟩ (by decide)
example : ReturnsInt (unFnL 4 (hintCast E0 .u128 .u256 1)) [500] (store2 (2 ^ 128) 0) 16 0 :=
  C13_false_u256 (store2_heap _ _) (store2_canAlloc (by decide)) (by decide)
    (by show 1000 + 32 ≤ (allocated (store2 (2 ^ 128) 0) 16).size
        exact Nat.le_trans (by show 1032 ≤ 65536; decide) (allocated_size_le (σ := store2 (2 ^ 128) 0)))
    (by rw [store2_fst (by omega)]; decide)

/-! ## Byte order, equality, copies -/

/-- **C15** The byte swap of a u32: byte `i` of the result is byte `3 - i` of the argument. -/
theorem C15_swap_u32 : ∃ v, Evaluates swap32 [a] σ v ∧ v < 2 ^ 32 ∧
    ∀ i, i < 4 → v / 256 ^ i % 256 = a / 256 ^ (3 - i) % 256 :=
  ⟨_, swap32_spec, bswap_lt 4 a, fun i hi => bswap_digit 4 a i hi⟩

/-- **C15** The byte swap of a u64. -/
theorem C15_swap_u64 (ha : a < 2 ^ 64) : ∃ v, Evaluates swap64 [a] σ v ∧ v < 2 ^ 64 ∧
    ∀ i, i < 8 → v / 256 ^ i % 256 = a / 256 ^ (7 - i) % 256 :=
  ⟨_, swap64_spec ha, bswap_lt 8 a, fun i hi => bswap_digit 8 a i hi⟩

/-- **C15** The byte swap of 16 (32) bytes at `p` into `q`; the ranges may overlap.  The bytes at
`q` become the bytes at `p` in reverse order and no other memory changes. -/
theorem C15_swap_heap (t : HeapInt) {p q : Nat} (hp : p + t.bytes ≤ σ.size) (hq : q + t.bytes ≤ σ.size) :
    (swapBytes (t.bytes / 8)).Calls [p, q] σ (fun r σ' => r = [] ∧ σ' = σ.setMem σ'.mem ∧
      (∀ i, i < t.bytes → σ'.mem (q + i) = σ.mem (p + (t.bytes - 1 - i))) ∧
      (∀ x, x < q ∨ q + t.bytes ≤ x → σ'.mem x = σ.mem x)) := by
  have h : (swapBytes (t.bytes / 8)).Calls [p, q] σ
      (fun r σ' => r = [] ∧ σ' = σ.setMem (putLe σ.mem q t.bytes (beNat σ.mem p t.bytes))) := by
    cases t
    · exact swapBytes2_spec hp hq
    · exact swapBytes4_spec hp hq
  refine h.mono ?_
  rintro r σ' ⟨rfl, rfl⟩
  refine ⟨rfl, rfl, ?_, ?_⟩
  · intro i hi
    show putLe _ _ _ _ (q + i) = _
    rw [putLe_in (by omega) (by omega), Nat.add_sub_cancel_left, beNat_digit _ _ _ _ hi]
  · intro x hx
    exact putLe_out hx

/-- **C15** Reversing the bytes twice gives the original number. -/
theorem C15_swap_twice {v w n : Nat} (hv : v < 256 ^ n) (hw : w < 256 ^ n) {u : Nat}
    (h1 : ∀ i, i < n → v / 256 ^ i % 256 = u / 256 ^ (n - 1 - i) % 256)
    (h2 : ∀ i, i < n → w / 256 ^ i % 256 = v / 256 ^ (n - 1 - i) % 256) (hu : u < 256 ^ n) : w = u := by
  have key : ∀ n x y, x < 256 ^ n → y < 256 ^ n →
      (∀ i, i < n → x / 256 ^ i % 256 = y / 256 ^ i % 256) → x = y := by
    intro n
    induction n with
    | zero => intro x y hx hy _; simp at hx hy; omega
    | succ n ih =>
      intro x y hx hy h
      have h0 := h 0 (by omega)
      simp only [Nat.pow_zero, Nat.div_one] at h0
      have := ih (x / 256) (y / 256) (by rw [Nat.pow_succ] at hx; omega) (by rw [Nat.pow_succ] at hy; omega)
        (fun i hi => by
          have := h (i + 1) (by omega)
          rwa [Nat.pow_succ', ← Nat.div_div_eq_div_mul, ← Nat.div_div_eq_div_mul] at this)
      omega
  have _ := hv
  refine key n w u hw hu fun i hi => ?_
  rw [h2 i hi, h1 (n - 1 - i) (by omega), show n - 1 - (n - 1 - i) = i by omega]

example : ∃ v, Evaluates swap32 [0x01020304] store0 v ∧ v % 256 = 1 :=
  let ⟨v, h1, _, h3⟩ := C15_swap_u32 (σ := store0) (a := 0x01020304)
  ⟨v, h1, by have := h3 0 (by omega); simpa using this⟩
example : (swapBytes 4).Calls [500, 520] (store2 7 8) (fun r σ' => r = [] ∧ σ'.mem 551 = (store2 7 8).mem 500) :=
  (C15_swap_heap (σ := store2 7 8) (p := 500) (q := 520) .u256 (by decide) (by decide)).mono
    (fun _ _ h => ⟨h.1, h.2.2.1 31 (by decide)⟩)

/-- **C16** Equality of `n` bytes. -/
theorem C16_eq {p q n : Nat} (hs : σ.size < 2 ^ 32) (hp : p + n ≤ σ.size) (hq : q + n ≤ σ.size) :
    ∃ r, Evaluates heapEq [p, q, n] σ r ∧ (r = 1 ↔ ∀ i, i < n → σ.mem (p + i) = σ.mem (q + i)) ∧
      (r = 0 ↔ ¬ ∀ i, i < n → σ.mem (p + i) = σ.mem (q + i)) := by
  refine ⟨_, heapEq_spec hs hp hq, ?_, ?_⟩
  · exact b2n_eq_one
  · exact b2n_eq_zero

example : ∃ r, Evaluates heapEq [500, 540, 32] (store2 5 5) r ∧ r = 1 := by
  obtain ⟨r, h1, h2, -⟩ := C16_eq (σ := store2 5 5) (p := 500) (q := 540) (n := 32) (by decide) (by decide)
    (by decide)
  refine ⟨r, h1, h2.mpr ?_⟩
  exact leNat_inj (by rw [store2_fst (by omega), store2_snd (by omega)])

/-- **C18** `CopyU128`, `CopyU256`: the copy is a new block with the same bytes, apart from the
original; the original does not change. -/
theorem C18_copy (t : HeapInt) {p : Nat} (hσ : Heap σ) (hc : CanAlloc σ t.bytes)
    (hp : p + t.bytes ≤ σ.nextFree) :
    (copyHeap t.bytes).Calls [p] σ (fun r σ' => ∃ q, r = [q] ∧ p + t.bytes ≤ q ∧
      q + t.bytes ≤ σ'.nextFree ∧ σ.nextFree ≤ q ∧
      (∀ i, i < t.bytes → σ'.mem (q + i) = σ.mem (p + i)) ∧
      (∀ x, x < σ.nextFree → σ'.mem x = σ.mem x)) := by
  refine (copyHeap_spec hσ hc hp).mono ?_
  rintro r σ' ⟨q, rfl, h1, h2, h3, h4⟩
  exact ⟨q, rfl, by omega, h2.1, h1, leNat_inj h3, h4.mem⟩

example : (copyHeap 32).Calls [500] (store2 9 0) (fun r _ => ∃ q, r = [q] ∧ 1000 ≤ q) :=
  (C18_copy (σ := store2 9 0) (p := 500) .u256 (store2_heap _ _) (store2_canAlloc (by decide)) (by decide)).mono
    (fun _ _ ⟨q, h1, _, _, h2, _⟩ => ⟨q, h1, h2⟩)

end Props
