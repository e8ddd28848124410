import Verif.Proof.Pack4
import Verif.Props.Base

/-! Properties C21, C26, C27, C51: encoding of results. -/

namespace Props
open Wasm Rt

variable {σ : Store} {E : ErrPtrs}

/-! ### C21 -/

/-- The 32 bytes at `p` are inside memory and zero. -/
structure Blank (σ : Store) (p : Nat) : Prop where
  inside : p + 32 ≤ σ.size
  zero : ∀ x, p ≤ x → x < p + 32 → σ.mem x = 0

/-- `f args` writes the bytes `bs` at `p` and has no other effect. -/
def WritesAt (f : Fn) (args : List Nat) (σ : Store) (p : Nat) (bs : List UInt8) : Prop :=
  f.Calls args σ (fun r σ' => r = [] ∧ σ' = { σ with mem := wrBytes σ.mem p bs })

theorem word_at {p v n m : Nat} (hb : Blank σ p) (hv : v < 256 ^ n) (hm : m + n = 32) :
    putBe σ.mem (p + m) n v = wrBytes σ.mem p (Abi.word v) := by
  rw [wr_word, putBe_zero_ext hv (fun x h1 h2 => hb.zero x h1 (by omega)), hm]

/-- bool, u8, u16, u32 -/
theorem C21_u32 {v p : Nat} (hv : v < 2 ^ 32) (hb : Blank σ p) :
    WritesAt packU32 [v, p] σ p (Abi.word v) := by
  refine (packU32_spec hb.inside).mono ?_
  rintro r σ' ⟨rfl, rfl⟩
  exact ⟨rfl, by rw [← word_at hb (n := 4) (m := 28) hv rfl]; rfl⟩

theorem C21_u64 {v p : Nat} (hv : v < 2 ^ 64) (hb : Blank σ p) :
    WritesAt packU64 [v, p] σ p (Abi.word v) := by
  refine (packU64_spec hv hb.inside).mono ?_
  rintro r σ' ⟨rfl, rfl⟩
  exact ⟨rfl, by rw [← word_at hb (n := 8) (m := 24) hv rfl]; rfl⟩

/-- The number is the one stored at `w`, before the destination. -/
theorem C21_u128 {w p : Nat} (hw : w + 16 ≤ p) (hb : Blank σ p) :
    WritesAt packU128 [w, p] σ p (Abi.word (leNat σ.mem w 16)) := by
  refine (packU128_spec hw hb.inside).mono ?_
  rintro r σ' ⟨rfl, rfl⟩
  exact ⟨rfl, by rw [← word_at hb (n := 16) (m := 16) (leNat_lt _ _ _) rfl]; rfl⟩

theorem C21_u256 {w p : Nat} (hw : w + 32 ≤ p) (hb : Blank σ p) :
    WritesAt packU256 [w, p] σ p (Abi.word (leNat σ.mem w 32)) := by
  refine (packU256_spec hw hb.inside).mono ?_
  rintro r σ' ⟨rfl, rfl⟩
  exact ⟨rfl, by rw [wr_word]; rfl⟩

/-- The specification word: its big-endian value is the number. -/
theorem C21_word_value {v : Nat} (hv : v < 2 ^ 256) (f : Bytes) (p : Nat) :
    (Abi.word v).length = 32 ∧ beNat (wrBytes f p (Abi.word v)) p 32 = v := by
  refine ⟨word_length v, ?_⟩
  rw [wr_word, beNat_putBe_same]
  exact Nat.mod_eq_of_lt hv

theorem store0_blank : Blank store0 2000 := ⟨by decide, fun _ _ _ => rfl⟩

example : WritesAt packU32 [70000, 2000] store0 2000 (Abi.word 70000) := C21_u32 (by decide) store0_blank
example : WritesAt packU64 [2 ^ 40, 2000] store0 2000 (Abi.word (2 ^ 40)) :=
  C21_u64 (by decide) store0_blank
example : WritesAt packU128 [500, 2000] (store2 (2 ^ 100) 0) 2000 (Abi.word (2 ^ 100)) := by
  have h := C21_u128 (σ := store2 (2 ^ 100) 0) (w := 500) (p := 2000) (by decide)
    ⟨by decide, fun x h1 h2 => (store2_heap _ _).fresh x (by show 1000 ≤ x; omega)⟩
  rwa [store2_fst (by decide)] at h
example : WritesAt packU256 [500, 2000] (store2 (2 ^ 200) 0) 2000 (Abi.word (2 ^ 200)) := by
  have h := C21_u256 (σ := store2 (2 ^ 200) 0) (w := 500) (p := 2000) (by decide)
    ⟨by decide, fun x h1 h2 => (store2_heap _ _).fresh x (by show 1000 ≤ x; omega)⟩
  rwa [store2_fst (by decide)] at h
example : (Abi.word 5).length = 32 ∧ beNat (wrBytes store0.mem 600 (Abi.word 5)) 600 32 = 5 :=
  C21_word_value (by decide) _ _

/-! ### C26 -/

/-- Packing the string at `w`, whose characters are `bs`, with the head at `p` and offsets counted
from `b`: the head is the distance from `b` to the tail, the tail is the length and the characters,
padded with zeros to a multiple of 32; it takes the next free memory and nothing else changes. -/
theorem C26_string {bs : List UInt8} {w p b : Nat} (hσ : Heap σ)
    (hw : w + 4 ≤ p) (hv : leNat σ.mem w 4 + 8 + bs.length ≤ p)
    (hlen : leNat σ.mem (leNat σ.mem w 4) 4 = bs.length)
    (hbs : rdBytes σ.mem (leNat σ.mem w 4 + 8) bs.length = bs)
    (hp : reserved ≤ p) (hfit : p + 32 ≤ σ.nextFree)
    (hz : ∀ x, p ≤ x → x < p + 32 → σ.mem x = 0) (hb : b ≤ σ.nextFree)
    (hroom : Room σ (32 + (bs.length + 31) / 32 * 32)) :
    packString.Calls [w, p, b] σ (fun r σ' => r = [] ∧
      rdBytes σ'.mem p 32 = Abi.word (σ.nextFree - b) ∧
      rdBytes σ'.mem σ.nextFree (32 + (bs.length + 31) / 32 * 32) = Abi.bytes bs ∧
      σ'.nextFree = σ.nextFree + (32 + (bs.length + 31) / 32 * 32) ∧
      (∀ x, x < p ∨ p + 32 ≤ x ∧ x < σ.nextFree → σ'.mem x = σ.mem x)) := by
  have hl : (Abi.bytes bs).length = 32 + (bs.length + 31) / 32 * 32 := by
    rw [bytes_length]; unfold padded; omega
  rw [← hl] at hroom ⊢
  refine (packString_spec (lim := p) ⟨hw, hv, hlen, hbs⟩ ⟨hσ, hp, Nat.le_refl _, hfit, hz, ?_⟩ hroom).mono ?_
  · exact hb
  rintro r σ' ⟨rfl, h⟩
  refine ⟨rfl, ?_, ?_, h.nextFree, fun x hx => h.mem_out (by rw [word_length]; omega) (by omega)⟩
  · rw [h.mem, rdBytes_congr (g := wrBytes σ.mem p (Abi.word (σ.nextFree - b)))]
    · have := rdBytes_wr σ.mem p (Abi.word (σ.nextFree - b))
      rwa [word_length] at this
    · intro x h1 h2; rw [wrBytes_out (by omega)]
  · rw [h.mem, rdBytes_wr]

/-- Contents of memory for the examples: the vector of bytes [5, 6] at 500, a pointer to it
at 540. -/
def storeV : Store := store2 (2 + 2 * 2 ^ 32 + 5 * 2 ^ 64 + 6 * 2 ^ 72) 500

example : packString.Calls [540, 900, 900] storeV (fun r σ' => r = [] ∧
      rdBytes σ'.mem 900 32 = Abi.word (1000 - 900) ∧
      rdBytes σ'.mem 1000 (32 + 32) = Abi.bytes [5, 6] ∧ σ'.nextFree = 1000 + (32 + 32) ∧
      (∀ x, x < 900 ∨ 900 + 32 ≤ x ∧ x < 1000 → σ'.mem x = storeV.mem x)) :=
  C26_string (σ := storeV) (bs := [5, 6]) (w := 540) (p := 900) (b := 900) (store2_heap _ _) (by decide) (by decide) (by decide) (by decide) (by decide) (by decide)
    (fun x h1 h2 => by
      show putLe (putLe store0.mem 500 32 _) 540 32 _ x = 0
      rw [putLe_out (by omega), putLe_out (by omega)]; rfl)
    (by decide) ⟨by decide, by decide⟩

/-! ### C27 -/

/-- The compiler's classification and sizes agree with the ABI, for all values of the type. -/
theorem C27_classification (t : MTy) {v : Abi.Val} (h : HasTy t v) :
    Abi.dyn v = t.dyn ∧ (t.dyn = false → (Abi.enc v).length = t.encSize) ∧
      (∀ off vs, (Abi.heads off (v :: vs)).length = t.headSize + (Abi.heads off vs).length) := by
  obtain ⟨h1, h2⟩ := HasTy.shape t h
  refine ⟨h1, h2, fun off vs => ?_⟩
  rw [heads_length, heads_length, headLen_cons, h1]; unfold MTy.headSize
  cases hd : t.dyn
  · rw [← h2 hd]
  · rfl

/-- A tuple is dynamic iff a component is. -/
theorem C27_tuple (fs : List MTy) : (MTy.struct fs).dyn = true ↔ ∃ t ∈ fs, t.dyn = true := by
  rw [MTy.dyn]
  induction fs with
  | nil => simp [MTy.dynFs]
  | cons t ts ih => rw [MTy.dynFs, Bool.or_eq_true, ih]; simp

example : Abi.dyn (.tuple [.word 7, .tuple [.word 1, .bytes [9]]]) = true ∧
    (MTy.struct [.u64, .struct [.bool, .string]]).headSize = 32 :=
  ⟨(C27_classification (.struct [.u64, .struct [.bool, .string]]) (by simp [HasTy, HasTys])).1, by
    simp [MTy.headSize, MTy.dyn, MTy.dynFs]⟩
example : (Abi.enc (.tuple [.word 7, .tuple [.word 1, .word 2]])).length =
    (MTy.struct [.u64, .struct [.bool, .u8]]).encSize :=
  (C27_classification (.struct [.u64, .struct [.bool, .u8]]) (by simp [HasTy, HasTys])).2.1 (by
    simp [MTy.dyn, MTy.dynFs])
example : (MTy.struct [.u64, .vec .bool]).dyn = true := (C27_tuple _).mpr ⟨.vec .bool, by simp, by
  rw [MTy.dyn]⟩

/-! ### C51 -/

/-- A function that receives the results of a public function of result types `ts` and returns
what the entry point passes on to the caller of the contract: the address and length of the return
data.  The code between pushing the results and pushing the two numbers is the one the compiler
emits; `d` is the branch depth of the block it leaves on errors. -/
def encodeResults (E : ErrPtrs) (d : Nat) (ts : List PTy) : Fn := ⟨ts.length, 2, ts.length + 4,
  (List.range ts.length).map (fun i => (Op.lget (0 + i) : Instr)) ++
  (packAll E (propagate .i32) (propagateTo .i32 (d + 1)) ts.length ts ++
    code[Op.lget (ts.length + ts.length), Op.lget (ts.length + ts.length + 1)])⟩

/-- For all result types and all results, the return data is the ABI encoding of the results.  The
values are represented in memory as Move values are; there is room for the encoding. -/
theorem C51_results {ts : List PTy} {vs : List Abi.Val} {ws : List Nat} {d : Nat} (hσ : Heap σ)
    (hr : RepAll σ.mem σ.nextFree ts vs ws) (hroom : Room σ (Abi.encTuple vs).length) :
    (encodeResults E d ts).Calls ws σ (fun r σ' => ∃ ptr len, r = [len, ptr] ∧
      rdBytes σ'.mem ptr len = Abi.encTuple vs ∧ ptr + len ≤ σ'.size ∧
      (∀ x, x < σ.nextFree → σ'.mem x = σ.mem x) ∧ σ'.host = σ.host) := by
  obtain ⟨hlw, hlv⟩ := hr.lengths
  refine ⟨hlw, ?_⟩
  refine wp_pushes (xs := ws) hlw ?_ ?_
  · intro i hi
    rw [Nat.zero_add]
    exact lget_append hi
  · refine packAll_ok (propagate_ok _) (propagateTo_ok _ _) hσ hr hroom
      (by simp [encodeResults, hlw]; omega) ?_
    intro σ' l' h1 h2 h3 h4 h5 h6 h7
    wstep
    rw [h5, h6]
    exact ⟨_, _, rfl, h3, by have := h2.alloc.nextFree_le; omega, h2.mem, h2.host⟩

/-- A vector, a string and a number. -/
example : (encodeResults E 3 [.val (.vec .u8), .val .string, .val .u64]).Calls [500, 540, 7] storeV
    (fun r σ' => ∃ ptr len, r = [len, ptr] ∧
      rdBytes σ'.mem ptr len =
        Abi.word 96 ++ Abi.word 192 ++ Abi.word 7 ++
        (Abi.word 2 ++ Abi.word 5 ++ Abi.word 6) ++ (Abi.word 2 ++ Abi.pad [5, 6]) ∧
      ptr + len ≤ σ'.size ∧
      (∀ x, x < 1000 → σ'.mem x = storeV.mem x) ∧ σ'.host = host0) := by
  have e : Abi.encTuple [.array [.word 5, .word 6], .bytes [5, 6], .word 7] =
      Abi.word 96 ++ Abi.word 192 ++ Abi.word 7 ++
        (Abi.word 2 ++ Abi.word 5 ++ Abi.word 6) ++ (Abi.word 2 ++ Abi.pad [5, 6]) := by
    simp [Abi.encTuple, Abi.enc, Abi.heads, Abi.tails, Abi.headLen, Abi.dyn, Abi.bytes, word_length,
      List.append_assoc]
  rw [← e]
  refine C51_results (σ := storeV) (store2_heap _ _) ?_ ⟨?_, ?_⟩
  · simp only [RepAll, RepP, and_true]
    refine ⟨?_, ?_, ?_⟩
    · rw [Rep]
      refine ⟨by decide, by decide, ?_⟩
      intro i hi
      have : i = 0 ∨ i = 1 := by simp at hi; omega
      rcases this with rfl | rfl
      · show Rep _ _ .u8 (.word 5) _
        rw [Rep]; decide
      · show Rep _ _ .u8 (.word 6) _
        rw [Rep]; decide
    · rw [Rep]; decide
    · rw [Rep]; decide
  · rw [e]; simp [word_length, pad_length, padded]
  · rw [e]; simp [word_length, pad_length, padded, storeV, store2, store0, Store.setMem]

end Props
