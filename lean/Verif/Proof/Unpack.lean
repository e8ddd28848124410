import Verif.Proof.Pack4
import Verif.Rt.Dec

/-! ABI unpacking: words, pointers, strings, allocation of vectors. -/

namespace Rt
open Wasm Abi

variable {σ σ' σ'' : Store} {E : ErrPtrs}

/-! ### Big-endian words -/

theorem beNat_mod (f : Bytes) (p m k : Nat) : beNat f p (m + k) % 256 ^ k = beNat f (p + m) k := by
  rw [beNat_add, Nat.mul_comm, Nat.mul_add_mod, Nat.mod_eq_of_lt (beNat_lt _ _ _)]

/-- The low bytes of a word that is small. -/
theorem beNat_low {f : Bytes} {p n m k : Nat} (hm : m + k = 32) (h : beNat f p 32 = n) (hn : n < 256 ^ k) :
    beNat f (p + m) k = n := by
  rw [← beNat_mod, hm, h, Nat.mod_eq_of_lt hn]

theorem beNat_zero_bytes {f : Bytes} {p n : Nat} (h : beNat f p n = 0) :
    ∀ x, p ≤ x → x < p + n → f x = 0 := by
  rw [← bswap_leNat] at h
  have : leNat f p n = 0 := by
    rw [← bswap_beNat, ← bswap_leNat, h]
    have := bswap_bswap n 0
    have hz : ∀ k, bswap k 0 = 0 := by
      intro k
      induction k with
      | zero => rfl
      | succ k ih => show 0 % 256 * 256 ^ k + bswap k (0 / 256) = 0; rw [Nat.zero_div, ih]; simp
    exact hz n
  exact zero_of_leNat_zero this

/-- The high 28 bytes of a word are zero iff the word is below `2 ^ 32`. -/
theorem word_small_iff {f : Bytes} {p : Nat} :
    beNat f p 32 < 2 ^ 32 ↔ ∀ i, i < 7 → leNat f (p + i * 4) 4 = 0 := by
  have h := beNat_add f p 28 4
  have hl := beNat_lt f (p + 28) 4
  constructor
  · intro hs i hi
    have hz : beNat f p 28 = 0 := by
      rw [show (28 + 4 : Nat) = 32 from rfl] at h
      have : beNat f p 28 * 4294967296 < 4294967296 := by
        have : (256 : Nat) ^ 4 = 4294967296 := rfl
        rw [this] at h; omega
      omega
    have hb := beNat_zero_bytes hz
    exact leNat_zero_of fun x h1 h2 => hb x (by omega) (by omega)
  · intro hz
    have : beNat f p 28 = 0 := by
      apply beNat_zero_of
      intro x h1 h2
      have := zero_of_leNat_zero (hz ((x - p) / 4) (by omega)) x (by omega) (by omega)
      exact this
    rw [show (28 + 4 : Nat) = 32 from rfl, this] at h
    rw [h]
    have : (256 : Nat) ^ 4 = 2 ^ 32 := rfl
    omega

/-! ### The store relation of unpacking -/

theorem AllocOk.setReader (h : AllocOk σ) {r} : AllocOk { σ with reader := r } :=
  ⟨h.sum, h.page, h.first, h.limit, h.max, h.small⟩

theorem Heap.setReader (h : Heap σ) {r} : Heap { σ with reader := r } :=
  ⟨⟨h.ready.size, h.ready.size_lt, h.ready.noErr⟩, h.alloc.setReader, h.base, h.fresh⟩

/-- Memory grows; the reader may be anywhere. -/
def Grows (σ σ' : Store) : Prop := Extends { σ with reader := σ'.reader } σ'

theorem Extends.grows (h : Extends σ σ') : Grows σ σ' := by
  refine ⟨h.nextFree, h.size, h.mem, h.fresh, h.alloc, h.maxPages, rfl, h.host⟩

theorem Heap.grows (h : Heap σ) : Grows σ σ := h.refl.grows

theorem Grows.trans (h : Grows σ σ') (h' : Grows σ' σ'') : Grows σ σ'' := by
  refine ⟨Nat.le_trans h.nextFree h'.nextFree, Nat.le_trans h.size h'.size, ?_, h'.fresh, h'.alloc,
    h'.maxPages.trans h.maxPages, rfl, h'.host.trans h.host⟩
  intro x hx
  have := h.nextFree
  rw [h'.mem x (Nat.lt_of_lt_of_le hx this), h.mem x hx]

theorem Grows.heap (h : Grows σ σ') (hσ : Heap σ) : Heap σ' := Extends.heap h hσ.setReader

theorem Grows.setReader (h : Grows σ σ') {r} : Grows σ { σ' with reader := r } :=
  ⟨h.nextFree, h.size, h.mem, h.fresh, h.alloc.setReader, h.maxPages, rfl, h.host⟩

theorem Grows.ofReader {r} (h : Grows { σ with reader := r } σ') : Grows σ σ' :=
  ⟨h.nextFree, h.size, h.mem, h.fresh, h.alloc, h.maxPages, rfl, h.host⟩

/-- Types other than vectors and strings. -/
def MTy.plain : MTy → Bool
  | .vec _ | .string => false
  | _ => true

mutual
/-- The struct `v` at `w` is laid out without sharing: the pointers to the fields, then one field after
the other.  (Nothing is said about the inside of vectors and strings.) -/
def Laid (f : Bytes) : MTy → Val → Nat → Prop
  | .struct ts, .tuple vs, w => LaidFs f ts vs w (w + 4 * ts.length)
  | _, _, _ => True
/-- The fields, the pointers to them starting at `q`, themselves starting at `a`. -/
def LaidFs (f : Bytes) : List MTy → List Val → Nat → Nat → Prop
  | t :: ts, v :: vs, q, a => (t.plain = true → leNat f q 4 = a ∧ Laid f t v a) ∧
      LaidFs f ts vs (q + 4) (a + if t.isScalar then t.size else need t v)
  | _, _, _, _ => True
end

/-- `v` has been unpacked: it is represented by `w` in newly allocated memory alone. -/
structure Unpacked (σ σ' : Store) (t : MTy) (v : Val) (w r : Nat) : Prop where
  grows : Grows σ σ'
  reader : σ'.reader = r
  nextFree : σ'.nextFree = σ.nextFree + need t v
  rep : ∀ g : Bytes, (∀ x, σ.nextFree ≤ x → x < σ'.nextFree → g x = σ'.mem x) →
    Rep g σ'.nextFree t v w
  at_ : t.plain = true → t.isScalar = false → w = σ.nextFree
  laid : t.plain = true → ∀ g : Bytes, (∀ x, σ.nextFree ≤ x → x < σ'.nextFree → g x = σ'.mem x) →
    Laid g t v w

/-! ### Words -/

theorem unpackU32_spec {p n : Nat} (hp : p + 32 ≤ σ.size) :
    unpackU32.Calls [p, n] σ (fun r σ' => r = [beNat σ.mem (p + 28) 4] ∧
      σ' = { σ with reader := (p + n) % 4294967296 }) := by
  refine ⟨rfl, ?_⟩
  unfold unpackU32
  wstep
  refine wp_eval1 swap32_spec ?_
  rw [bswap_leNat]
  wstep

theorem unpackU64_spec {p : Nat} (hp : p + 32 ≤ σ.size) (hs : σ.size < 2 ^ 32) :
    unpackU64.Calls [p] σ (fun r σ' => r = [beNat σ.mem (p + 24) 8] ∧
      σ' = { σ with reader := p + 32 }) := by
  refine ⟨rfl, ?_⟩
  unfold unpackU64
  wstep
  refine wp_eval1 (swap64_spec (leNat_lt8 _ _)) ?_
  rw [bswap_leNat]
  wstep

/-- A block holding a number. -/
theorem Heap.block (hσ : Heap σ) {n v : Nat} (hc : CanAlloc σ n) :
    Extends σ ((Rt.allocated σ n).setMem (putLe σ.mem σ.nextFree n v)) := by
  have := (hσ.allocated hc).putLe (p := σ.nextFree) (n := n) (v := v) (Nat.le_refl _)
    (by rw [allocated_nextFree])
  rwa [hσ.allocated_mem] at this

theorem unpackU128_spec {p : Nat} (hσ : Heap σ) (hp : p + 32 ≤ σ.nextFree) (hc : CanAlloc σ 16) :
    unpackU128.Calls [p] σ (fun r σ' => r = [σ.nextFree] ∧ Grows σ σ' ∧ σ'.reader = p + 32 ∧
      σ'.nextFree = σ.nextFree + 16 ∧
      σ'.mem = putLe σ.mem σ.nextFree 16 (beNat σ.mem (p + 16) 16)) := by
  have h1 := hσ.alloc.nextFree_le
  have h2 := hσ.alloc.size_lt
  have hx := hσ.allocated hc
  have hain := allocated_inside hσ.alloc hc
  have hb := hσ.block (v := beNat σ.mem (p + 16) 16) hc
  have hm := hσ.allocated_mem (n := 16)
  have hnf : (allocated σ 16).nextFree = σ.nextFree + 16 := allocated_nextFree
  have hsl := hx.alloc.size_lt
  have hsz := hx.size
  refine ⟨rfl, ?_⟩
  unfold unpackU128
  wstep
  refine wp_alloc hσ hc ?_
  generalize allocated σ 16 = σ1 at *
  wstep
  refine wp_call2 (swapBytes2_spec (by omega) (by omega)) ?_
  rintro r σ' ⟨rfl, rfl⟩
  wstep
  rw [hm]
  exact ⟨hb.grows.setReader, hnf, rfl⟩

theorem unpackU256_spec {p : Nat} (hσ : Heap σ) (hp : p + 32 ≤ σ.nextFree) (hc : CanAlloc σ 32) :
    unpackU256.Calls [p] σ (fun r σ' => r = [σ.nextFree] ∧ Grows σ σ' ∧ σ'.reader = p + 32 ∧
      σ'.nextFree = σ.nextFree + 32 ∧
      σ'.mem = putLe σ.mem σ.nextFree 32 (beNat σ.mem p 32)) := by
  have h1 := hσ.alloc.nextFree_le
  have h2 := hσ.alloc.size_lt
  have hx := hσ.allocated hc
  have hain := allocated_inside hσ.alloc hc
  have hb := hσ.block (v := beNat σ.mem p 32) hc
  have hm := hσ.allocated_mem (n := 32)
  have hnf : (allocated σ 32).nextFree = σ.nextFree + 32 := allocated_nextFree
  have hsl := hx.alloc.size_lt
  have hsz := hx.size
  refine ⟨rfl, ?_⟩
  unfold unpackU256
  wstep
  refine wp_alloc hσ hc ?_
  generalize allocated σ 32 = σ1 at *
  wstep
  refine wp_call2 (swapBytes4_spec (by omega) (by omega)) ?_
  rintro r σ' ⟨rfl, rfl⟩
  wstep
  rw [hm]
  exact ⟨hb.grows.setReader, hnf, rfl⟩

theorem unpackAddress_spec {p : Nat} (hσ : Heap σ) (hp : p + 32 ≤ σ.nextFree) (hc : CanAlloc σ 32) :
    unpackAddress.Calls [p] σ (fun r σ' => r = [σ.nextFree] ∧ Grows σ σ' ∧ σ'.reader = p + 32 ∧
      σ'.nextFree = σ.nextFree + 32 ∧
      σ'.mem = copyBytes σ.mem σ.nextFree p 32) := by
  have h1 := hσ.alloc.nextFree_le
  have h2 := hσ.alloc.size_lt
  have hx := hσ.allocated hc
  have hain := allocated_inside hσ.alloc hc
  have hm := hσ.allocated_mem (n := 32)
  have hnf : (allocated σ 32).nextFree = σ.nextFree + 32 := allocated_nextFree
  have hsl := hx.alloc.size_lt
  have hsz := hx.size
  have hb : Extends σ ((allocated σ 32).setMem (copyBytes σ.mem σ.nextFree p 32)) := by
    refine hx.write (fun x hx => ?_) (fun x hx => ?_)
    · rw [copyBytes_out (by omega), hm]
    · rw [copyBytes_out (by omega), hm]
  refine ⟨rfl, ?_⟩
  unfold unpackAddress
  wstep
  refine wp_alloc hσ hc ?_
  generalize allocated σ 32 = σ1 at *
  wstep
  rw [hm]
  exact ⟨hb.grows.setReader, hnf, rfl⟩

theorem unpackBytes_spec {p : Nat} (hp : p + 32 < 2 ^ 32) :
    unpackBytes.Calls [p] σ (fun r σ' => r = [p] ∧ σ' = { σ with reader := p + 32 }) := by
  refine ⟨rfl, ?_⟩
  unfold unpackBytes
  wstep

/-! ### Enums -/

theorem unpackEnum_spec {p n : Nat} (hσ : Heap σ) (hn : 0 < n ∧ n ≤ 2 ^ 32) (hp : p + 32 ≤ σ.nextFree)
    (hv : beNat σ.mem (p + 28) 4 < n) (hc : CanAlloc σ 4) :
    (unpackEnum E n).Calls [p] σ (fun r σ' => r = [σ.nextFree] ∧ Grows σ σ' ∧ σ'.reader = p + 32 ∧
      σ'.nextFree = σ.nextFree + 4 ∧
      σ'.mem = putLe σ.mem σ.nextFree 4 (beNat σ.mem (p + 28) 4)) := by
  have h1 := hσ.alloc.nextFree_le
  have h2 := hσ.alloc.size_lt
  have hc' : CanAlloc { σ with reader := p + 32 } 4 := hc
  have hσ' := hσ.setReader (r := p + 32)
  have hx := hσ'.allocated hc'
  have hain := allocated_inside hσ'.alloc hc'
  have hb := hσ'.block (v := beNat σ.mem (p + 28) 4) hc'
  have hm := hσ'.allocated_mem (n := 4)
  have hnf : (allocated { σ with reader := p + 32 } 4).nextFree = σ.nextFree + 4 := allocated_nextFree
  have hr : (allocated { σ with reader := p + 32 } 4).reader = p + 32 := allocated_reader
  have hsl := hx.alloc.size_lt
  have hsz := hx.size
  refine ⟨rfl, ?_⟩
  unfold unpackEnum
  unerr
  wstep
  refine wp_call2 (unpackU32_spec (by omega)) ?_
  rintro r σ' ⟨rfl, rfl⟩
  rw [Nat.mod_eq_of_lt (by omega)]
  wstep
  refine wp_alloc hσ' hc' ?_
  generalize allocated { σ with reader := p + 32 } 4 = σ1 at *
  replace hain : σ.nextFree + 4 ≤ σ1.size := hain
  wstep
  rw [hm]
  exact ⟨hb.grows.ofReader, hr, hnf, rfl⟩

theorem unpackEnum_err {p n : Nat} (hs : σ.size < 2 ^ 32) (h0 : 65536 ≤ σ.size) (hE : E.Valid)
    (hn : 0 < n ∧ n ≤ 2 ^ 32) (hp : p + 32 ≤ σ.size) (hv : n ≤ beNat σ.mem (p + 28) 4) :
    (unpackEnum E n).Calls [p] σ (fun r σ' => r = [badF00d] ∧
      σ' = errStore { σ with reader := p + 32 } (E .outOfBounds)) := by
  have hE' := hE .outOfBounds
  refine ⟨rfl, ?_⟩
  unfold unpackEnum
  unerr
  wstep
  refine wp_call2 (unpackU32_spec (by omega)) ?_
  rintro r σ' ⟨rfl, rfl⟩
  rw [Nat.mod_eq_of_lt (by omega)]
  unfold badF00d
  wstep

/-! ### Pointers -/

theorem wp_validateWord {i : Nat} {is l Q} (hE : E.Valid) (h0 : 65536 ≤ σ.size) (hl : 1 + i < l.length)
    (hp : lget l 0 + i * 4 + 4 ≤ σ.size) :
    wp (validateWord E i :: is) [] l σ Q ↔ IfP (leNat σ.mem (lget l 0 + i * 4) 4 = 0) (wp is [] l σ Q)
      (Q (.ret [] (errStore σ (E .memoryAccessOutOfBounds)))) := by
  have hE' := hE .memoryAccessOutOfBounds
  unfold validateWord
  unerr
  wstep

theorem validate_list {is : List Nat} {l : List Nat} {Q} (hE : E.Valid) (h0 : 65536 ≤ σ.size)
    (hp : ∀ i ∈ is, 1 + i < l.length ∧ lget l 0 + i * 4 + 4 ≤ σ.size) :
    wp (is.map (validateWord E)) [] l σ Q ↔ IfP (∀ i ∈ is, leNat σ.mem (lget l 0 + i * 4) 4 = 0)
      (Q (.ok [] l σ)) (Q (.ret [] (errStore σ (E .memoryAccessOutOfBounds)))) := by
  induction is with
  | nil => rw [List.map_nil, wp_nil, IfP.pos (by simp)]
  | cons i is ih =>
    obtain ⟨h1, h2⟩ := hp i (by simp)
    rw [List.map_cons, wp_validateWord hE h0 h1 h2]
    by_cases h : leNat σ.mem (lget l 0 + i * 4) 4 = 0
    · rw [IfP.pos h, ih (fun j hj => hp j (by simp [hj]))]
      by_cases h' : ∀ i ∈ is, leNat σ.mem (lget l 0 + i * 4) 4 = 0
      · rw [IfP.pos h', IfP.pos (by simpa [h] using h')]
      · rw [IfP.neg h', IfP.neg (by simpa [h] using h')]
    · rw [IfP.neg h, IfP.neg (fun h' => h (h' i (by simp)))]

/-- `validate_pointer_32_bit` accepts a word below `2 ^ 32` and rejects all others. -/
theorem validatePtr_ok {p : Nat} (hE : E.Valid) (h0 : 65536 ≤ σ.size) (hp : p + 32 ≤ σ.size)
    (h : beNat σ.mem p 32 < 2 ^ 32) : (validatePtr E).Calls [p] σ (fun r σ' => r = [] ∧ σ' = σ) := by
  refine ⟨rfl, ?_⟩
  unfold validatePtr
  simp only [List.cons_append, List.nil_append, List.replicate]
  rw [validate_list hE h0, IfP.pos]
  · exact ⟨rfl, rfl⟩
  · intro i hi
    exact word_small_iff.mp h i (List.mem_range.mp hi)
  · intro i hi
    have := List.mem_range.mp hi
    exact ⟨by simp; omega, by wstep; omega⟩

theorem validatePtr_err {p : Nat} (hE : E.Valid) (h0 : 65536 ≤ σ.size) (hp : p + 32 ≤ σ.size)
    (h : 2 ^ 32 ≤ beNat σ.mem p 32) : (validatePtr E).Calls [p] σ
      (fun r σ' => r = [] ∧ σ' = errStore σ (E .memoryAccessOutOfBounds)) := by
  refine ⟨rfl, ?_⟩
  unfold validatePtr
  simp only [List.cons_append, List.nil_append, List.replicate]
  rw [validate_list hE h0, IfP.neg]
  · exact ⟨rfl, rfl⟩
  · intro hz
    have : beNat σ.mem p 32 < 2 ^ 32 := word_small_iff.mpr (fun i hi => hz i (List.mem_range.mpr hi))
    omega
  · intro i hi
    have := List.mem_range.mp hi
    exact ⟨by simp; omega, by wstep; omega⟩

theorem wp_validate {p : Nat} {ty is s l Q} (hE : E.Valid) (h0 : 65536 ≤ σ.size) (hp : p + 32 ≤ σ.size)
    (he : errWord σ = 0) :
    IfP (beNat σ.mem p 32 < 2 ^ 32) (wp is s l σ Q)
      (Q (.ret (badStk ty) (errStore σ (E .memoryAccessOutOfBounds)))) →
    wp ((validatePtr E).call :: propagate ty :: is) (p :: s) l σ Q := by
  intro h
  by_cases hb : beNat σ.mem p 32 < 2 ^ 32
  · rw [IfP.pos hb] at h
    refine wp_callF_ok (args := [p]) (validatePtr_ok hE h0 hp hb) ?_
    rintro r σ' ⟨rfl, h'⟩
    rw [h']
    exact ⟨by omega, he, h⟩
  · rw [IfP.neg hb] at h
    refine wp_callF_err (args := [p]) (validatePtr_err hE h0 hp (by omega)) ?_
    rintro r σ' ⟨rfl, h'⟩
    have hE' := hE .memoryAccessOutOfBounds
    rw [h']
    refine ⟨?_, ?_, h⟩
    · show 260 ≤ σ.size; omega
    · rw [errWord_errStore, Nat.mod_eq_of_lt (by omega)]; omega

/-! ### Allocation of vectors -/

theorem putLe_zeros {f : Bytes} {a n : Nat} (h : ∀ x, a ≤ x → x < a + n → f x = 0) : putLe f a n 0 = f := by
  funext x
  by_cases hx : a ≤ x ∧ x < a + n
  · rw [putLe_in hx.1 hx.2, h x hx.1 hx.2]; simp
  · exact putLe_out (by omega)

theorem allocVec_spec {len cap size : Nat} (hσ : Heap σ) (hlen : len ≤ cap)
    (hroom : Room σ (8 + cap * size)) :
    allocVec.Calls [len, cap, size] σ (fun r σ' => r = [σ.nextFree] ∧ Extends σ σ' ∧
      σ'.nextFree = σ.nextFree + (8 + cap * size) ∧
      σ'.mem = putLe (putLe σ.mem σ.nextFree 4 len) (σ.nextFree + 4) 4 cap) := by
  have h1 := hσ.alloc.nextFree_le
  have h2 := hσ.alloc.size_lt
  have hr1 := hroom.1
  refine ⟨rfl, ?_⟩
  unfold allocVec
  wstep
  refine .intro (fun h0 => ?_) (fun h0 => ?_)
  · subst h0
    have hl : len = 0 := by omega
    subst hl
    have hc : CanAlloc σ 8 := hroom.canAlloc hσ.alloc (by omega)
    have hx := hσ.allocated hc
    have hm := hσ.allocated_mem (n := 8)
    have hnf : (allocated σ 8).nextFree = σ.nextFree + 8 := allocated_nextFree
    refine wp_alloc hσ hc ?_
    generalize allocated σ 8 = σ1 at *
    wstep
    refine ⟨hx, by rw [hnf]; omega, ?_⟩
    rw [hm, putLe_zeros (f := σ.mem) (fun x hx _ => hσ.fresh x hx),
      putLe_zeros (fun x hx _ => hσ.fresh x (by omega))]
  · have hc : CanAlloc σ (cap * size + 8) := hroom.canAlloc hσ.alloc (by omega)
    have hx := hσ.allocated hc
    have hain := allocated_inside hσ.alloc hc
    have hm := hσ.allocated_mem (n := cap * size + 8)
    have hsl := hx.alloc.size_lt
    have hnf : (allocated σ (cap * size + 8)).nextFree = σ.nextFree + (cap * size + 8) := allocated_nextFree
    refine wp_alloc hσ hc ?_
    generalize allocated σ (cap * size + 8) = σ1 at *
    wstep
    rw [hm]
    refine ⟨?_, by rw [hnf]; omega, rfl⟩
    refine hx.write (fun x hx => ?_) (fun x hx => ?_)
    · rw [putLe_out (by omega), putLe_out (by omega), hm]
    · rw [putLe_out (by omega), putLe_out (by omega), hm]

/-! ### The data of a vector or string -/

theorem wp_findData {p b q len x2 x3 : Nat} {rest : List Nat} {is Q} (hE : E.Valid) (hσ : Heap σ)
    (hp : p + 32 ≤ σ.nextFree) (hb : b + beNat σ.mem p 32 = q) (hq : q + 32 ≤ σ.nextFree)
    (hl : beNat σ.mem q 32 = len) (hlen : len < 2 ^ 32)
    (h : wp is [] (p :: b :: (q + 32) :: len :: rest) { σ with reader := p + 32 } Q) :
    wp (findData E ++ is) [] (p :: b :: x2 :: x3 :: rest) σ Q := by
  have h1 := hσ.alloc.nextFree_le
  have h2 := hσ.alloc.size_lt
  have h3 := hσ.alloc.first
  have e1 : beNat σ.mem (p + 28) 4 = beNat σ.mem p 32 := beNat_low rfl rfl (by
    have : (256 : Nat) ^ 4 = 2 ^ 32 := rfl
    omega)
  have e2 : beNat σ.mem (q + 28) 4 = beNat σ.mem q 32 := beNat_low rfl rfl (by
    have : (256 : Nat) ^ 4 = 2 ^ 32 := rfl
    omega)
  unfold findData
  simp only [List.cons_append, List.nil_append]
  wstep
  refine wp_validate hE h3 (by omega) hσ.ready.noErr ?_
  rw [IfP.pos (by omega)]
  wstep
  refine wp_eval1 swap32_spec ?_
  rw [bswap_leNat, e1]
  wstep
  rw [Nat.add_comm _ b, hb]
  refine wp_validate hE h3 (by exact (by omega : q + 32 ≤ σ.size)) hσ.ready.noErr ?_
  rw [IfP.pos (by exact (by omega : beNat σ.mem q 32 < 2 ^ 32))]
  wstep
  refine wp_eval1 swap32_spec ?_
  rw [bswap_leNat, e2, hl]
  wstep
  exact h

end Rt
