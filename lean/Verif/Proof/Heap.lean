import Verif.Proof.Alloc
import Verif.Rt.Heap

/-! Lemmas about well-formed heaps. -/

namespace Rt
open Wasm

variable {σ σ' σ'' : Store} {n p v e : Nat}

theorem AllocOk.size_lt (h : AllocOk σ) : σ.size < 2 ^ 32 := by
  have h1 := h.limit; have h2 := h.max; omega

theorem AllocOk.nextFree_le (h : AllocOk σ) : σ.nextFree ≤ σ.size := by
  have := h.sum; omega

theorem AllocOk.setMem (h : AllocOk σ) {m} : AllocOk (σ.setMem m) :=
  ⟨h.sum, h.page, h.first, h.limit, h.max, h.small⟩

theorem Heap.refl (h : Heap σ) : Extends σ σ :=
  ⟨Nat.le_refl _, Nat.le_refl _, fun _ _ => rfl, h.fresh, h.alloc, rfl, rfl, rfl⟩

theorem Extends.trans (h : Extends σ σ') (h' : Extends σ' σ'') : Extends σ σ'' := by
  refine ⟨Nat.le_trans h.nextFree h'.nextFree, Nat.le_trans h.size h'.size, ?_, h'.fresh, h'.alloc,
    h'.maxPages.trans h.maxPages, h'.reader.trans h.reader, h'.host.trans h.host⟩
  intro x hx
  rw [h'.mem x (Nat.lt_of_lt_of_le hx h.nextFree), h.mem x hx]

/-- Numbers in allocated memory are preserved. -/
theorem Extends.leNat (h : Extends σ σ') {a k : Nat} (hk : a + k ≤ σ.nextFree) :
    leNat σ'.mem a k = leNat σ.mem a k :=
  leNat_congr fun x _ hx => h.mem x (by omega)

theorem Extends.beNat (h : Extends σ σ') {a k : Nat} (hk : a + k ≤ σ.nextFree) :
    beNat σ'.mem a k = beNat σ.mem a k :=
  beNat_congr fun x _ hx => h.mem x (by omega)

theorem Extends.heap (h : Extends σ σ') (hσ : Heap σ) : Heap σ' := by
  refine ⟨⟨h.alloc.first, h.alloc.size_lt, ?_⟩, h.alloc, Nat.le_trans hσ.base h.nextFree, h.fresh⟩
  have := hσ.base
  unfold reserved at this
  unfold errWord abortPtr
  rw [h.leNat (by omega)]
  exact hσ.ready.noErr

theorem Heap.allocated (h : Heap σ) (hc : CanAlloc σ n) : Extends σ (allocated σ n) := by
  have hn := h.alloc.nextFree_le
  refine ⟨by rw [allocated_nextFree]; omega, allocated_size_le, ?_, ?_, allocated_ok h.alloc hc,
    allocated_maxPages, allocated_reader, allocated_host⟩
  · intro x hx; exact allocated_mem_lt (by omega)
  · intro x hx
    rw [allocated_nextFree] at hx
    by_cases hs : x < σ.size
    · rw [allocated_mem_lt hs]; exact h.fresh x (by omega)
    · unfold Rt.allocated
      split_ifs
      · exact h.fresh x (by omega)
      · dsimp only; rw [if_neg hs]

/-- The new block is zero. -/
theorem Heap.allocated_zero (h : Heap σ) {x : Nat} (hx : σ.nextFree ≤ x) :
    (Rt.allocated σ n).mem x = 0 := by
  unfold Rt.allocated
  split_ifs
  · exact h.fresh x hx
  · dsimp only
    split_ifs
    · exact h.fresh x hx
    · rfl

/-- Writing to newly allocated memory. -/
theorem Extends.write (h : Extends σ σ') {m : Bytes}
    (hm : ∀ x, x < σ.nextFree → m x = σ'.mem x) (hm' : ∀ x, σ'.nextFree ≤ x → m x = σ'.mem x) :
    Extends σ (σ'.setMem m) := by
  refine ⟨h.nextFree, h.size, ?_, ?_, h.alloc.setMem, h.maxPages, h.reader, h.host⟩
  · intro x hx
    show m x = _
    rw [hm x hx, h.mem x hx]
  · intro x hx
    show m x = _
    rw [hm' x hx, h.fresh x hx]

theorem Extends.putLe (h : Extends σ σ') (h1 : σ.nextFree ≤ p) (h2 : p + n ≤ σ'.nextFree) :
    Extends σ (σ'.setMem (putLe σ'.mem p n v)) :=
  h.write (fun _ _ => putLe_out (by omega)) (fun _ _ => putLe_out (by omega))

theorem Extends.err (h : Extends σ σ') (hσ : Heap σ) : Extends (errStore σ e) (errStore σ' e) := by
  have hb := hσ.base
  have hn := h.nextFree
  unfold reserved at hb
  refine ⟨h.nextFree, h.size, ?_, ?_, h.alloc.setMem, h.maxPages, h.reader, h.host⟩
  · intro x hx
    show Wasm.putLe σ'.mem abortPtr 4 e x = Wasm.putLe σ.mem abortPtr 4 e x
    by_cases h1 : abortPtr ≤ x ∧ x < abortPtr + 4
    · rw [putLe_in h1.1 h1.2, putLe_in h1.1 h1.2]
    · rw [putLe_out (by omega), putLe_out (by omega)]; exact h.mem x hx
  · intro x hx
    show Wasm.putLe σ'.mem abortPtr 4 e x = _
    have : (errStore σ' e).nextFree = σ'.nextFree := rfl
    rw [putLe_out (by unfold abortPtr; omega)]; exact h.fresh x hx

/-- The error is visible after raising. -/
theorem Extends.errWord (h : Extends (errStore σ e) σ') (hb : reserved ≤ σ.nextFree) (he : e < 2 ^ 32) :
    errWord σ' = e := by
  unfold reserved at hb
  unfold Rt.errWord
  rw [h.leNat (by show abortPtr + 4 ≤ σ.nextFree; unfold abortPtr; omega)]
  show Wasm.leNat (Wasm.putLe σ.mem abortPtr 4 e) abortPtr 4 = e
  rw [leNat_putLe_same, Nat.mod_eq_of_lt (by omega)]

/-- Calling the allocator. -/
theorem wp_alloc {is s l Q} (hσ : Heap σ) (hc : CanAlloc σ n)
    (h : wp is (σ.nextFree :: s) l (allocated σ n) Q) : wp (alloc.call :: is) (n :: s) l σ Q := by
  refine wp_call1 (alloc_calls hσ.alloc hc) ?_
  rintro r σ' ⟨rfl, rfl⟩
  exact h

theorem wp_callF_ok {f : Fn} {ty args s is l σ Q} {P : List Nat → Store → Prop}
    (h : f.Calls args σ P)
    (hP : ∀ r σ', P r σ' → 260 ≤ σ'.size ∧ errWord σ' = 0 ∧ wp is (r ++ s) l σ' Q) :
    wp (f.call :: propagate ty :: is) (args.reverse ++ s) l σ Q := by
  refine wp_callF (ty := ty) h ?_
  intro r σ' hp
  obtain ⟨h1, h2, h3⟩ := hP r σ' hp
  exact ⟨h1, by rw [IfP.pos h2]; exact h3⟩

theorem wp_callF_err {f : Fn} {ty args s is l σ Q} {P : List Nat → Store → Prop}
    (h : f.Calls args σ P)
    (hP : ∀ r σ', P r σ' → 260 ≤ σ'.size ∧ errWord σ' ≠ 0 ∧ Q (.ret (badStk ty) σ')) :
    wp (f.call :: propagate ty :: is) (args.reverse ++ s) l σ Q := by
  refine wp_callF (ty := ty) h ?_
  intro r σ' hp
  obtain ⟨h1, h2, h3⟩ := hP r σ' hp
  exact ⟨h1, by rw [IfP.neg h2]; exact h3⟩

/-- A checked call with a heap result, followed by error propagation. -/
theorem wp_checkedInt {f : Fn} {ty args s is l σ p Q} {o : Option Nat}
    (h : CheckedInt f args σ p n o) (hσ : Heap σ) (hp : 0 < p ∧ p < 2 ^ 32)
    (hok : ∀ v, o = some v → ∀ q σ', σ.nextFree ≤ q → q + n ≤ σ'.nextFree ∧ σ'.nextFree ≤ σ.nextFree + 2 * n → leNat σ'.mem q n = v →
      Extends σ σ' → wp is (q :: s) l σ' Q)
    (herr : o = none → ∀ σ', Extends (errStore σ p) σ' → Q (.ret (badStk ty) σ')) :
    wp (f.call :: propagate ty :: is) (args.reverse ++ s) l σ Q := by
  cases o with
  | some v =>
    refine wp_callF_ok h ?_
    rintro r σ' ⟨q, rfl, h1, h2, h3, h4⟩
    have hh := h4.heap hσ
    have := hh.ready.size
    exact ⟨by omega, hh.ready.noErr, hok v rfl q σ' h1 h2 h3 h4⟩
  | none =>
    refine wp_callF_err h ?_
    intro r σ' h4
    have := h4.alloc.first
    exact ⟨by omega, by rw [h4.errWord hσ.base hp.2]; omega, herr rfl σ' h4⟩

theorem Room.canAlloc {k : Nat} (h : Room σ n) (ha : AllocOk σ) (hk : k ≤ n) : CanAlloc σ k := by
  have h1 := ha.sum; have h2 := ha.page; have h3 := h.2; have h4 := h.1
  refine ⟨by omega, ?_⟩
  by_cases hle : k ≤ σ.avail
  · exact .inl hle
  · right; omega

/-- What is left of a budget after `k` of the bytes have been used. -/
theorem Room.after {k : Nat} (h : Room σ (k + n)) (hn : σ'.nextFree ≤ σ.nextFree + k)
    (hm : σ'.maxPages = σ.maxPages) : Room σ' n := by
  have h1 := h.1; have h2 := h.2
  exact ⟨by omega, by rw [hm]; omega⟩

theorem Room.mono {k : Nat} (h : Room σ n) (hk : k ≤ n) : Room σ k := by
  have h1 := h.1; have h2 := h.2
  exact ⟨by omega, by omega⟩

theorem CheckedInt.intro {f : Fn} {args : List Nat} {o : Option Nat}
    (main : ∀ P : List Nat → Store → Prop,
      (∀ v, o = some v → ∀ q σ', σ.nextFree ≤ q → q + n ≤ σ'.nextFree ∧ σ'.nextFree ≤ σ.nextFree + 2 * n → leNat σ'.mem q n = v →
        Extends σ σ' → P [q] σ') →
      (o = none → ∀ r σ', Extends (errStore σ p) σ' → P r σ') → f.Calls args σ P) :
    CheckedInt f args σ p n o := by
  cases o with
  | some v =>
    exact main _ (fun v' hv q σ' h1 h2 h3 h4 => ⟨q, rfl, h1, h2, by
      rw [h3]; injection hv with hv; exact hv.symm, h4⟩) (fun h => nomatch h)
  | none => exact main _ (fun v h => nomatch h) (fun _ r σ' h4 => h4)

end Rt
