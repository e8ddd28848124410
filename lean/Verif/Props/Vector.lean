import Verif.Props.Base
import Verif.Proof.Forward

/-! Vectors, references, copies and equality (C17, C44, C45, C57, C58). -/

namespace Props
open Wasm Rt Mv

variable {σ σ' : Store} {E : ErrPtrs} {t : Ty} {R S : Nat → Prop} {vs : List Val} {v v' : Val} {cap p r w : Nat}

/-! ## Concrete states -/

/-- Memory given by its words. -/
def memW : List (Nat × Nat) → Bytes
  | [] => store0.mem
  | (a, x) :: ws => putLe (memW ws) a 4 x

def storeW (ws : List (Nat × Nat)) : Store := store0.setMem (memW ws)

theorem memW_out {ws : List (Nat × Nat)} {x : Nat} (h : ∀ a ∈ ws, x < a.1 ∨ a.1 + 4 ≤ x) : memW ws x = 0 := by
  induction ws with
  | nil => rfl
  | cons a ws ih =>
    rw [memW, putLe_out (h a (by simp))]
    exact ih fun b hb => h b (by simp [hb])

theorem storeW_heap (ws : List (Nat × Nat)) (h : ∀ a ∈ ws, 468 ≤ a.1 ∧ a.1 + 4 ≤ 1000) : Heap (storeW ws) := by
  refine ⟨⟨store0_ready.size, store0_ready.size_lt, ?_⟩, store0_alloc.setMem, store0_heap.base, ?_⟩
  · refine Eq.trans (leNat_congr (g := store0.mem) fun x h1 h2 => ?_) (by decide : leNat store0.mem 256 4 = 0)
    exact memW_out fun a ha => by
      have := h a ha
      have : x < 260 := h2
      omega
  · intro x hx
    have hx : 1000 ≤ x := hx
    exact memW_out fun a ha => by have := h a ha; omega

theorem storeW_room {ws : List (Nat × Nat)} {n : Nat} (h : n ≤ 8000000) : Room (storeW ws) n := by
  refine ⟨by omega, ?_⟩
  show 1000 + n + 65536 ≤ 128 * 65536
  omega

/-- Bridges for concrete executions. -/
theorem traps_of_run {f : Fn} {args : List Nat} {σ : Store} (n : Nat) (ha : args.length = f.na)
    (h : (match run n f.body [] (args ++ List.replicate f.nl 0) σ with | .trap => true | _ => false) = true) : f.Traps args σ := by
  refine ⟨ha, n, ?_, ?_⟩ <;> revert h <;> generalize run n f.body [] (args ++ List.replicate f.nl 0) σ = x <;> cases x <;> simp

theorem calls_of_run {f : Fn} {args : List Nat} {σ : Store} (n : Nat) (res : List Nat) (P : Store → Prop) (ha : args.length = f.na)
    (h : (match run n [f.call] args.reverse [] σ with
      | .ok r l _ => (r, l)
      | _ => ([0], [0])) = (res, []))
    (hP : ∀ r l σ', run n [f.call] args.reverse [] σ = .ok r l σ' → P σ') :
    f.Calls args σ (fun r σ' => r = res ∧ P σ') := by
  refine Fn.Calls.of_run n ha ?_
  revert h hP
  generalize run n [f.call] args.reverse [] σ = x
  intro h hP
  cases x <;> simp at h
  obtain ⟨rfl, rfl⟩ := h
  exact ⟨rfl, hP _ _ _ rfl⟩

/-! ## Equality -/

/-- Comparing two vectors.  Missing: two empty vectors of elements kept in memory, also inside the elements
(`Clear`), for which `C17_false` shows that the claim fails.  The owner the runtime keeps in front of an object is
not part of the Move value (`erase`). -/
theorem C17_partial {vs1 vs2 : List Val} {w1 w2 : Nat} (hs : σ.size < 2 ^ 32) (hR : ∀ x, R x → x < σ.size)
    (h1 : Mv.Rep σ.mem R (.vec t) (.vec vs1) w1) (h2 : Mv.Rep σ.mem R (.vec t) (.vec vs2) w2)
    (hc : vs1.length = vs2.length → (t.scalar = false → vs1 ≠ []) ∧
      ∀ i (h : i < vs1.length) (h' : i < vs2.length), Clear t vs1[i] vs2[i]) :
    (eqFn E (.vec t)).Calls [w1, w2] σ (fun res σ' => σ' = σ ∧
      (vs1.map Val.erase = vs2.map Val.erase → res = [1]) ∧ (vs1.map Val.erase ≠ vs2.map Val.erase → res = [0])) := by
  refine (eqFn_spec ⟨hs, hR, h1, h2, by simpa only [Clear] using hc⟩).mono ?_
  rintro _ σ' ⟨rfl, b, rfl, hb⟩
  simp only [Val.erase, eraseL_eq, Val.vec.injEq] at hb
  rcases hb with ⟨rfl, hb⟩ | ⟨rfl, hb⟩
  · exact ⟨rfl, fun _ => rfl, fun h => absurd hb h⟩
  · exact ⟨rfl, fun h => absurd h hb, fun _ => rfl⟩

/-- Two empty vectors with one stale slot each, pointing to different numbers. -/
def storeStale : Store := storeW [(600, 0), (604, 1), (608, 700), (620, 0), (624, 1), (628, 740), (700, 1), (740, 2)]

/-- The claim is false of empty vectors whose elements are pointers. -/
theorem C17_false : ∃ (σ : Store) (R : Nat → Prop) (w1 w2 : Nat), Heap σ ∧ (∀ x, R x → x < σ.nextFree) ∧
    Mv.Rep σ.mem R (.vec .u256) (.vec []) w1 ∧ Mv.Rep σ.mem R (.vec .u256) (.vec []) w2 ∧
    (eqFn E0 (.vec .u256)).Calls [w1, w2] σ (fun res _ => res = [0]) := by
  refine ⟨storeStale, Between 600 800, 600, 620, storeW_heap _ (by decide), fun x hx => Nat.lt_trans hx.2 (by decide), ?_, ?_, ?_⟩
  · simp only [Mv.Rep]
    refine ⟨[], rfl, by decide +kernel, by simp, ?_, fun i hi => by simp at hi⟩
    have : leNat storeStale.mem (600 + 4) 4 = 1 := by decide +kernel
    rw [this]
    exact fun x h1 h2 => ⟨h1, by simp [Ty.size] at h2; omega⟩
  · simp only [Mv.Rep]
    refine ⟨[], rfl, by decide +kernel, by simp, ?_, fun i hi => by simp at hi⟩
    have : leNat storeStale.mem (620 + 4) 4 = 1 := by decide +kernel
    rw [this]
    exact fun x h1 h2 => ⟨by omega, by simp [Ty.size] at h2; omega⟩
  · exact (calls_of_run 100 [0] (fun _ => True) rfl (by decide +kernel) fun _ _ _ _ => trivial).mono fun _ _ h => h.1

/-- Two vectors `[7, 9]` of different capacities. -/
def storeTwo : Store := storeW [(600, 2), (604, 2), (608, 7), (612, 9), (620, 2), (624, 3), (628, 7), (632, 9), (636, 5)]

theorem rep_u32s {ws : List (Nat × Nat)} {R : Nat → Prop} {w : Nat} {ns : List Nat} {c : Nat} (h1 : leNat (memW ws) w 4 = ns.length)
    (h2 : leNat (memW ws) (w + 4) 4 = c) (h3 : ns.length ≤ c) (h4 : Within R w (8 + c * 4))
    (h5 : ∀ i (h : i < ns.length), leNat (memW ws) (w + 8 + i * 4) 4 = ns[i]) :
    Mv.Rep (storeW ws).mem R (.vec .u32) (.vec (ns.map .num)) w := by
  simp only [Mv.Rep]
  refine ⟨_, rfl, by rw [List.length_map]; exact h1, ?_, ?_, ?_⟩
  · show (ns.map Val.num).length ≤ leNat (memW ws) (w + 4) 4
    rw [h2]; simpa using h3
  · show Within R w (8 + leNat (memW ws) (w + 4) 4 * _)
    rw [h2]; exact h4
  · intro i hi
    have hi : i < ns.length := by simpa using hi
    have := h5 i hi
    have hl := leNat_lt4 (memW ws) (w + 8 + i * 4)
    show Mv.Rep (memW ws) R .u32 _ (leNat (memW ws) (w + 8 + i * 4) 4)
    simp only [Mv.Rep, List.getElem_map]
    exact ⟨by rw [this], hl⟩

example : (eqFn E (.vec .u32)).Calls [600, 620] storeTwo (fun res σ' => σ' = storeTwo ∧ res = [1]) := by
  refine (C17_partial (t := .u32) (R := Between 600 700) (vs1 := [7, 9].map .num) (vs2 := [7, 9].map .num) (by decide) (fun x hx => Nat.lt_trans hx.2 (by decide))
    (rep_u32s (c := 2) (by decide +kernel) (by decide +kernel) (by decide) (fun x h1 h2 => ⟨h1, by omega⟩) (by decide +kernel))
    (rep_u32s (c := 3) (by decide +kernel) (by decide +kernel) (by decide) (fun x h1 h2 => ⟨by omega, by omega⟩) (by decide +kernel))
    (fun _ => ⟨by simp [Ty.scalar], fun i _ _ => by simp [Clear]⟩)).mono ?_
  rintro res σ' ⟨h1, h2, -⟩
  exact ⟨h1, h2 rfl⟩

/-! ## Copies -/

/-- `σ'` holds a copy of the value that `r` designates: it is in memory allocated since `σ`, so that it stays what it
is whatever happens to older memory, and the original stays what it is whatever happens to newer memory. -/
def IndependentCopy (σ σ' : Store) (R : Nat → Prop) (t : Ty) (v : Val) (r w : Nat) : Prop :=
  Heap σ' ∧
  (∀ g : Bytes, (∀ x, σ.nextFree ≤ x → x < σ'.nextFree → g x = σ'.mem x) → ∃ S, (∀ x, S x → σ.nextFree ≤ x ∧ x < σ'.nextFree) ∧ Mv.Rep g S t v w) ∧
  (∀ g : Bytes, (∀ x, x < σ.nextFree → g x = σ'.mem x) → RefTo g R t v r)

/-- Copying a local variable (`copyLocal`) or the value designated by a reference (`readRef`).  Missing: copies of
vectors of one- or two-byte elements whose block ends less than three bytes before the end of memory, for which
`C57_false` shows that the copy may trap. -/
theorem C57_partial (hσ : Heap σ) (hroom : Room σ (cost t v)) (hend : t.spills = true → σ.nextFree + cost t v + 3 ≤ σ.size)
    (hR : ∀ x, R x → x < σ.nextFree) (hr : RefTo σ.mem R t v r) :
    (readRef E t).Calls [r] σ (fun res σ' => ∃ w, res = [w] ∧ IndependentCopy σ σ' R t v r w) ∧
    (copyLocal E t).Calls [r] σ (fun res σ' => ∃ w, res = [w] ∧ IndependentCopy σ σ' R t v r w) := by
  have h : (readRef E t).Calls [r] σ (fun res σ' => ∃ w, res = [w] ∧ IndependentCopy σ σ' R t v r w) := by
    refine (readRef_spec hσ ⟨hroom, hend⟩ hR hr).mono ?_
    rintro _ σ' ⟨w, rfl, h⟩
    refine ⟨w, rfl, h.ext.heap hσ, fun g hg => ⟨_, fun x hx => hx, Rep.change (fun x hx => hg x hx.1 hx.2) (fun _ h => h) t h.rep⟩, fun g hg => ?_⟩
    have hg' : ∀ x, R x → g x = σ.mem x := fun x hx => by rw [hg x (hR x hx), h.ext.mem x (hR x hx)]
    have hc : leNat g r 4 = leNat σ.mem r 4 := hr.cell.leNat hg'
    refine ⟨hr.cell, by rw [hc]; exact hr.own, ?_⟩
    have := Rep.change hg' (fun _ h => h) t hr.rep
    rw [hc]
    by_cases ht : t.scalar = true
    · rw [if_pos ht] at this ⊢
      rwa [(hr.own ht).leNat hg']
    · rwa [if_neg ht] at this ⊢
  exact ⟨h, h⟩

/-- A vector of one byte at the beginning of the heap, which ends nine bytes before the end of the page. -/
def storeEdge : Store := ⟨memW [(600, 1), (604, 1), (608, 7), (620, 600)], 65536, 128, 65527, 9, 0, host0⟩

/-- Copying may trap although there is room: the last element of a `vector<u8>` is written with a four-byte store. -/
theorem C57_false : ∃ (σ : Store) (R : Nat → Prop) (v : Val) (r : Nat), Heap σ ∧ Room σ (cost (.vec .u8) v) ∧
    (∀ x, R x → x < σ.nextFree) ∧ RefTo σ.mem R (.vec .u8) v r ∧ (copyLocal E0 (.vec .u8)).Traps [r] σ := by
  refine ⟨storeEdge, Between 600 800, .vec [.num 7], 620, ?_, ?_, ?_, ?_, ?_⟩
  · refine ⟨⟨by decide, by decide, ?_⟩, ⟨by decide, by decide, by decide, by decide, by decide, by decide⟩, by decide, ?_⟩
    · decide +kernel
    · intro x hx
      have hx : 65527 ≤ x := hx
      exact memW_out fun a ha => by simp at ha; rcases ha with rfl | rfl | rfl | rfl <;> simp <;> omega
  · exact ⟨by decide, by decide⟩
  · exact fun x hx => Nat.lt_trans hx.2 (by decide)
  · have e1 : leNat storeEdge.mem 620 4 = 600 := by decide +kernel
    refine ⟨fun x h1 h2 => ⟨by omega, by omega⟩, by simp [Ty.scalar], ?_⟩
    simp only [Ty.scalar, Bool.false_eq_true, if_false, e1, Mv.Rep]
    have e2 : leNat storeEdge.mem (600 + 4) 4 = 1 := by decide +kernel
    refine ⟨_, rfl, by decide +kernel, by rw [e2]; simp, ?_, ?_⟩
    · rw [e2]
      exact fun x h1 h2 => ⟨by omega, by simp [Ty.size] at h2; omega⟩
    · intro i hi
      obtain rfl : i = 0 := by simpa using hi
      have e3 : leNat storeEdge.mem (600 + 8 + 0 * Ty.u8.size) Ty.u8.size = 7 := by decide +kernel
      rw [e3]
      exact ⟨rfl, by decide⟩
  · exact traps_of_run 200 rfl (by decide +kernel)

/-- A variable at 580 holding the vector `[7, 9]`, with room for a third element. -/
def wsV : List (Nat × Nat) := [(580, 600), (600, 2), (604, 3), (608, 7), (612, 9)]

theorem refV : VecRef (storeW wsV) (fun _ => False) .u32 [.num 7, .num 9] 3 600 580 := by
  refine ⟨by decide +kernel, by decide, by decide, by decide, by decide, by decide, ⟨by decide +kernel, by decide +kernel, by decide, ?_⟩,
    fun _ h => h.elim, fun _ h => h.elim⟩
  intro i hi
  have hl := leNat_lt4 (storeW wsV).mem (600 + 8 + i * 4)
  match i, hi with
  | 0, _ =>
    have e3 : leNat (storeW wsV).mem (600 + 8 + 0 * Ty.u32.size) Ty.u32.size = 7 := by decide +kernel
    rw [e3]
    exact ⟨rfl, by decide⟩
  | 1, _ =>
    have e3 : leNat (storeW wsV).mem (600 + 8 + 1 * Ty.u32.size) Ty.u32.size = 9 := by decide +kernel
    rw [e3]
    exact ⟨rfl, by decide⟩

theorem heapV : Heap (storeW wsV) := storeW_heap _ (by decide)

example : ∃ P, (copyLocal E (.vec .u32)).Calls [580] (storeW wsV) P ∧
    ∀ r σ', P r σ' → ∃ w, r = [w] ∧ IndependentCopy (storeW wsV) σ' (Between 500 700) (.vec .u32) (.vec [.num 7, .num 9]) 580 w := by
  have e1 : leNat (storeW wsV).mem 580 4 = 600 := by decide +kernel
  refine ⟨_, (C57_partial heapV (storeW_room (by decide)) (by simp [Ty.spills, Ty.size]) (R := Between 500 700)
    (fun x hx => Nat.lt_trans hx.2 (by decide)) ⟨fun x h1 h2 => ⟨by omega, by omega⟩, by simp [Ty.scalar], ?_⟩).2, fun _ _ h => h⟩
  simp only [Ty.scalar, Bool.false_eq_true, if_false, e1]
  refine refV.at_.rep (fun x hx => ⟨by have := hx.1; omega, ?_⟩) (fun _ h => h.elim)
  have : x < 600 + (8 + 3 * 4) := hx.2
  omega

/-! ## Vector operations -/

/-- The length. -/
theorem C44_len (hσ : Heap σ) (hr : VecRef σ R t vs cap p r) :
    Fn.Calls ⟨1, 1, 0, code[Op.lget 0] ++ vecLen⟩ [r] σ (fun res σ' => res = [vs.length] ∧ σ' = σ) := by
  refine ⟨rfl, ?_⟩
  simp only [List.cons_append, List.nil_append]
  wstep
  rw [← List.append_nil vecLen]
  refine vecLen_spec hσ hr ?_
  wstep

/-- Appending to a vector with a free slot: only its block changes. -/
theorem C44_push (hσ : Heap σ) (hr : VecRef σ R t vs cap p r) (hv : Mv.Rep σ.mem R t v w) (hw : w < 256 ^ t.size) (hlt : vs.length < cap) :
    (vecPush E t).Calls [r, w] σ (fun res σ' => res = [] ∧ VecRef σ' R t (vs ++ [v]) cap p r ∧ Heap σ' ∧
      ∀ x, x < σ.nextFree → σ'.mem x ≠ σ.mem x → p ≤ x ∧ x < p + (8 + cap * t.size)) := by
  refine (vecPush_inplace hσ hr hv hw hlt).mono ?_
  rintro _ σ' ⟨rfl, h1, -, h3⟩
  refine ⟨rfl, h3, h1.heap hσ fun x hx => ?_, fun x hx hne => ?_⟩
  · have := hx.1; have := hr.low; unfold reserved at this; omega
  · by_contra hc
    exact hne (h1.mem x hx fun hb => hc hb)

/-- Appending to a full vector: it moves to new memory, the variable designates it there, and only the variable and
the header of the old block change.  Missing: as for copies (`C57_partial`), vectors of one- or two-byte elements whose
new block would end less than three bytes before the end of memory. -/
theorem C44_push_full_partial (hσ : Heap σ) (hr : VecRef σ R t vs cap p r) (hv : Mv.Rep σ.mem R t v w) (hw : w < 256 ^ t.size)
    (hfull : vs.length = cap) (hroom : Room σ (vecCost t vs 2)) (hend : (Ty.vec t).spills = true → σ.nextFree + vecCost t vs 2 + 3 ≤ σ.size) :
    (vecPush E t).Calls [r, w] σ (fun res σ' => res = [] ∧ Heap σ' ∧
      (∃ R' cap', VecRef σ' R' t (vs ++ [v]) cap' σ.nextFree r ∧ vs.length < cap') ∧
      ∀ x, x < σ.nextFree → σ'.mem x ≠ σ.mem x → (p ≤ x ∧ x < p + 8) ∨ (r ≤ x ∧ x < r + 4)) := by
  refine (vecPush_grow hσ hr hv hw hfull ⟨hroom, hend⟩).mono ?_
  rintro _ σ' ⟨rfl, h1, h2, h3, h4, h5⟩
  refine ⟨rfl, h1.heap hσ fun x hx => ?_, ⟨_, _, h5, ?_⟩, fun x hx hne => ?_⟩
  · have k1 := hr.low
    have k2 := hr.cellLow
    unfold reserved at k1 k2
    rcases hx with ⟨a, b⟩ | ⟨a, b⟩ <;> omega
  · have := h5.at_.le
    simp at this
    omega
  · by_contra hc
    exact hne (h1.mem x hx fun hb => hc hb)

/-- Removing the last element: it is returned, the others stay. -/
theorem C44_pop (hσ : Heap σ) (hr : VecRef σ R t (vs ++ [v]) cap p r) :
    (vecPop E t).Calls [r] σ (fun res σ' => (∃ w, res = [w] ∧ Mv.Rep σ'.mem R t v w) ∧ VecRef σ' R t vs cap p r ∧ Heap σ' ∧
      ∀ x, x < σ.nextFree → σ'.mem x ≠ σ.mem x → p ≤ x ∧ x < p + 4) := by
  refine (vecPop_spec hσ hr).mono ?_
  rintro _ σ' ⟨⟨w, rfl, -, h1⟩, h2, -, h3⟩
  refine ⟨⟨w, rfl, h1⟩, h3, h2.heap hσ fun x hx => ?_, fun x hx hne => ?_⟩
  · have := hx.1; have := hr.low; unfold reserved at this; omega
  · by_contra hc
    exact hne (h2.mem x hx fun hb => hc hb)

/-- Removing from the empty vector aborts, or traps if there is no memory behind the header. -/
theorem C44_pop_empty (hE : E.Valid) (hσ : Heap σ) (hr : VecRef σ R t [] cap p r) :
    (p + 8 + t.size ≤ σ.size → Fails (vecPop E t) [r] σ (E .outOfBounds)) ∧
    (σ.size < p + 8 + t.size → (vecPop E t).Traps [r] σ) :=
  ⟨vecPop_fails hE hσ hr, vecPop_traps hσ hr⟩

/-- Borrowing element `i`: the reference designates it. -/
theorem C44_borrow (hσ : Heap σ) (hroom : Room σ 4) (hr : VecRef σ R t vs cap p r) {i : Nat} (hi : i < vs.length) :
    (borrowF E t).Calls [r, i] σ (fun res σ' => ∃ q, res = [q] ∧ VecRef σ' R t vs cap p r ∧ Heap σ' ∧
      RefTo σ'.mem (fun x => R x ∨ vecBlock t cap p x ∨ Between σ.nextFree σ'.nextFree x) t vs[i] q ∧
      (t.scalar = true → q = σ.nextFree ∧ leNat σ'.mem q 4 = p + 8 + i * t.size) ∧ (t.scalar = false → q = p + 8 + i * t.size) ∧
      ∀ x, x < σ.nextFree → σ'.mem x = σ.mem x) := by
  refine (borrow_spec hσ hroom hr hi).mono ?_
  rintro _ σ' ⟨q, rfl, h1, h2, h3⟩
  refine ⟨q, rfl, hr.extends h1, h1.heap hσ, h3, fun ht => ?_, fun ht => ?_, h1.mem⟩
  · rw [if_pos ht] at h2; exact ⟨h2.1, h2.2.2⟩
  · rw [if_neg (by simp [ht])] at h2; exact h2.1

/-- Borrowing an element that does not exist aborts. -/
theorem C44_borrow_bad (hE : E.Valid) (hσ : Heap σ) (hr : VecRef σ R t vs cap p r) {i : Nat} (hi : vs.length ≤ i) (hi' : i < 2 ^ 64) :
    Fails (borrowF E t) [r, i] σ (E .outOfBounds) := borrow_fails hE hσ hr hi hi'

/-- Writing through a reference to element `i` replaces it and leaves the other elements alone. -/
theorem C44_borrow_write {R' : Nat → Prop} {q i : Nat} (hr : VecRef σ R t vs cap p r) (hi : i < vs.length)
    (hq : if t.scalar then leNat σ.mem q 4 = p + 8 + i * t.size else q = p + 8 + i * t.size)
    (h : WritePre σ R' S t vs[i] v' w q) (hS : ∀ x, S x → ¬ vecBlock t cap p x ∧ ¬ Between r (r + 4) x)
    (hown : ∀ j (hj : j < vs.length), j ≠ i →
      Mv.Rep σ.mem (fun x => R x ∧ ¬ Place σ.mem t q x) t vs[j] (leNat σ.mem (p + 8 + j * t.size) t.size)) :
    (writeRefF t).Calls [w, q] σ (fun res σ' => res = [] ∧ VecRef σ' (fun x => R x ∨ S x) t (vs.set i v') cap p r) := by
  refine (elem_write hr hi hq h hS hown).mono ?_
  rintro _ σ' ⟨rfl, -, -, h⟩
  exact ⟨rfl, h⟩

/-- Exchanging two elements. -/
theorem C44_swap (hσ : Heap σ) (hr : VecRef σ R t vs cap p r) {i j : Nat} (hi : i < vs.length) (hj : j < vs.length) :
    (vecSwap E t).Calls [r, i, j] σ (fun res σ' => res = [] ∧ VecRef σ' R t ((vs.set i vs[j]).set j vs[i]) cap p r ∧ Heap σ' ∧
      ∀ x, x < σ.nextFree → σ'.mem x ≠ σ.mem x → p ≤ x ∧ x < p + (8 + cap * t.size)) := by
  refine (vecSwap_spec hσ hr hi hj).mono ?_
  rintro _ σ' ⟨rfl, h1, -, h3⟩
  refine ⟨rfl, h3, h1.heap hσ fun x hx => ?_, fun x hx hne => ?_⟩
  · have := hx.1; have := hr.low; unfold reserved at this; omega
  · by_contra hc
    exact hne (h1.mem x hx fun hb => hc hb)

/-- Exchanging with an element that does not exist aborts.  Missing: two equal indices beyond the end of a non-empty
vector, for which `C44_false` shows that the call succeeds. -/
theorem C44_swap_bad_partial (hE : E.Valid) (hσ : Heap σ) (hr : VecRef σ R t vs cap p r) {i j : Nat} (hi : i < 2 ^ 64) (hj : j < 2 ^ 64)
    (hbad : vs.length ≤ i ∨ vs.length ≤ j) (hne : i ≠ j ∨ vs = [] ∨ 2 ^ 32 ≤ i) :
    Fails (vecSwap E t) [r, i, j] σ (E .outOfBounds) := vecSwap_fails hE hσ hr hi hj hbad hne

/-- Swapping element 5 of `[7, 9]` with itself does not abort. -/
theorem C44_false : ∃ (σ : Store) (R : Nat → Prop) (vs : List Val) (cap p r i : Nat), Heap σ ∧ VecRef σ R .u32 vs cap p r ∧ vs.length ≤ i ∧
    (vecSwap E0 .u32).Calls [r, i, i] σ (fun res σ' => res = [] ∧ errWord σ' = 0) := by
  refine ⟨storeW wsV, _, _, _, _, _, 5, heapV, refV, by decide, ?_⟩
  refine Fn.Calls.of_run 100 rfl ?_
  have : (match run 100 [(vecSwap E0 .u32).call] [5, 5, 580] [] (storeW wsV) with
    | .ok r l σ' => (r, l, errWord σ')
    | _ => ([0], [0], 1)) = ([], [], 0) := by decide +kernel
  show (match run 100 [(vecSwap E0 .u32).call] [5, 5, 580] [] (storeW wsV) with
    | .ok r [] σ' => r = [] ∧ errWord σ' = 0
    | _ => False)
  revert this
  generalize run 100 [(vecSwap E0 .u32).call] [5, 5, 580] [] (storeW wsV) = x
  intro this
  cases x <;> simp at this
  obtain ⟨rfl, rfl, h⟩ := this
  exact ⟨rfl, h⟩

example : (vecPush E .u32).Calls [580, 4] (storeW wsV) (fun res σ' => res = [] ∧
    VecRef σ' (fun _ => False) .u32 [.num 7, .num 9, .num 4] 3 600 580) :=
  (C44_push heapV refV ⟨rfl, by decide⟩ (by decide) (by decide)).mono fun _ _ h => ⟨h.1, h.2.1⟩

example : (vecSwap E .u32).Calls [580, 0, 1] (storeW wsV) (fun res σ' => res = [] ∧
    VecRef σ' (fun _ => False) .u32 [.num 9, .num 7] 3 600 580) :=
  (C44_swap heapV refV (by decide) (by decide)).mono fun _ _ h => ⟨h.1, h.2.1⟩

example : (vecPop E .u32).Calls [580] (storeW wsV) (fun _ σ' => VecRef σ' (fun _ => False) .u32 [.num 7] 3 600 580) :=
  (C44_pop (vs := [.num 7]) heapV refV).mono fun _ _ h => h.2.1

example : Fails (borrowF E0 .u32) [580, 2] (storeW wsV) (E0 .outOfBounds) := C44_borrow_bad E0_valid heapV refV (by decide) (by decide)
example : Fails (vecSwap E0 .u32) [580, 1, 2] (storeW wsV) (E0 .outOfBounds) :=
  C44_swap_bad_partial E0_valid heapV refV (by decide) (by decide) (by decide) (by decide)

/-- A full vector `[7]` held by the variables at 580 and 584, and an empty one held by the variable at 588. -/
def wsF : List (Nat × Nat) := [(580, 600), (584, 600), (588, 620), (600, 1), (604, 1), (608, 7), (620, 0), (624, 0)]

theorem heapF : Heap (storeW wsF) := storeW_heap _ (by decide)

theorem refF : VecRef (storeW wsF) (fun _ => False) .u32 [.num 7] 1 600 580 := by
  refine ⟨by decide +kernel, by decide, by decide, by decide, by decide, by decide, ⟨by decide +kernel, by decide +kernel, by decide, ?_⟩,
    fun _ h => h.elim, fun _ h => h.elim⟩
  intro i hi
  obtain rfl : i = 0 := by simpa using hi
  have e3 : leNat (storeW wsF).mem (600 + 8 + 0 * Ty.u32.size) Ty.u32.size = 7 := by decide +kernel
  rw [e3]
  exact ⟨rfl, by decide⟩

theorem refE : VecRef (storeW wsF) (fun _ => False) .u32 [] 0 620 588 :=
  ⟨by decide +kernel, by decide, by decide, by decide, by decide, by decide, ⟨by decide +kernel, by decide +kernel, by decide,
    fun i hi => by simp at hi⟩, fun _ h => h.elim, fun _ h => h.elim⟩

example : (vecPush E .u32).Calls [580, 4] (storeW wsF) (fun _ σ' =>
    ∃ R' cap', VecRef σ' R' .u32 [.num 7, .num 4] cap' 1000 580 ∧ 1 < cap') :=
  (C44_push_full_partial heapF refF ⟨rfl, by decide⟩ (by decide) rfl (storeW_room (by decide)) (by simp [Ty.spills, Ty.size])).mono
    fun _ _ h => h.2.2.1

example : Fails (vecPop E0 .u32) [588] (storeW wsF) (E0 .outOfBounds) := (C44_pop_empty E0_valid heapF refE).1 (by decide)

example : (borrowF E .u32).Calls [580, 1] (storeW wsV) (fun res σ' => ∃ q, res = [q] ∧ leNat σ'.mem q 4 = 612) :=
  (C44_borrow heapV (storeW_room (by decide)) refV (i := 1) (by decide)).mono fun _ _ ⟨q, h, _, _, _, h', _⟩ => ⟨q, h, (h' rfl).2⟩

/-! ## References -/

/-- A write through a reference: the reference then designates the new value, and only the place it designates changes. -/
theorem C58_write (h : WritePre σ R S t v v' w r) :
    (writeRefF t).Calls [w, r] σ (fun res σ' => res = [] ∧ RefTo σ'.mem (fun x => R x ∨ S x) t v' r ∧
      ∀ x, x < σ.nextFree → ¬ Place σ.mem t r x → σ'.mem x = σ.mem x) := by
  refine (writeRef_spec h).mono ?_
  rintro _ σ' ⟨rfl, k⟩
  exact ⟨rfl, k.ref, k.alters.mem⟩

/-- What is read after a write is what was written. -/
theorem C58_read_after_write (h : WritePre σ R S t v v' w r) (hlow : ∀ x, R x → reserved ≤ x)
    (hroom : Room σ (cost t v')) (hend : t.spills = true → σ.nextFree + cost t v' + 3 ≤ σ.size) :
    (writeRefF t).Calls [w, r] σ (fun _ σ1 => (readRef E t).Calls [r] σ1 (fun res σ' => ∃ w', res = [w'] ∧
      Mv.Rep σ'.mem (fun x => σ.nextFree ≤ x ∧ x < σ'.nextFree) t v' w')) := by
  refine (writeRef_spec h).mono ?_
  rintro _ σ1 ⟨rfl, k⟩
  have hplace : ∀ x, Place σ.mem t r x → R x := by
    have hc := h.ref.cell
    have hrep := h.ref.rep
    have ho := h.ref.own
    cases t with
    | bool | u8 | u16 | u32 | u64 => exact fun x hx => ho rfl x hx.1 hx.2
    | vec _ | struct _ | object _ | enum _ => exact fun x hx => hc x hx.1 hx.2
    | u128 | u256 | address =>
      simp only [Ty.scalar, Bool.false_eq_true, if_false, Mv.Rep] at hrep
      exact fun x hx => hrep.2 x hx.1 hx.2
  have hheap : Heap σ1 := k.alters.heap h.heap fun x hx => by
    have := hlow x (hplace x hx); unfold reserved at this; omega
  have e1 := k.nextFree
  refine (readRef_spec hheap ⟨⟨hroom.1, ?_⟩, ?_⟩ (fun x hx => ?_) k.ref).mono ?_
  · rw [e1, k.alters.maxPages]; exact hroom.2
  · intro hs; have := hend hs; have := k.alters.size; omega
  · rw [e1]; exact h.below x hx
  · rintro _ σ' ⟨w', rfl, hc⟩
    refine ⟨w', rfl, ?_⟩
    have := hc.rep
    rw [e1] at this
    exact this

/-- A reference at 520 to the number 7 at 540, one at 524 to the `u128` at 560 and the number 3 at 580. -/
def wsR : List (Nat × Nat) := [(520, 540), (524, 560), (540, 7), (560, 7), (564, 1), (580, 3), (584, 8)]

example : (writeRefF .u16).Calls [9, 520] (storeW wsR) (fun _ σ1 => (readRef E .u16).Calls [520] σ1 (fun res _ => res = [9])) := by
  have e1 : leNat (storeW wsR).mem 520 4 = 540 := by decide +kernel
  have e2 : leNat (storeW wsR).mem 540 2 = 7 := by decide +kernel
  refine (C58_read_after_write (E := E) (R := Between 500 600) (S := fun _ => False) (v := .num 7) (v' := .num 9) ⟨storeW_heap _ (by decide), ⟨?_, ?_, ?_⟩, ?_, by decide, ?_, ?_, ?_⟩ ?_
    (storeW_room (by decide)) (by simp [Ty.spills])).mono ?_
  · exact fun x h1 h2 => ⟨by omega, by omega⟩
  · intro _; rw [e1]; exact fun x h1 h2 => ⟨by omega, by simp [Ty.size] at h2; omega⟩
  · simp only [Ty.scalar, if_true, e1, Ty.size, e2]; exact ⟨rfl, by decide⟩
  · exact ⟨rfl, by decide⟩
  · rintro x (h | h)
    · exact Nat.lt_trans h.2 (by decide)
    · exact h.elim
  · exact fun _ _ h => h
  · intro _ x h1 h2
    simp only [Place, e1] at h1
    have := h1.1; have := h2.2; omega
  · exact fun x h => Nat.le_trans (by decide) h.1
  · rintro _ σ1 h
    refine h.mono ?_
    rintro _ σ' ⟨w', rfl, hw⟩
    simp only [Mv.Rep, Val.num.injEq] at hw
    rw [hw.1]

example : (writeRefF .u128).Calls [580, 524] (storeW wsR) (fun _ σ1 => RefTo σ1.mem (fun x => Between 500 576 x ∨ Between 580 600 x) .u128 (.num (3 + 8 * 2 ^ 32)) 524) := by
  have e1 : leNat (storeW wsR).mem 524 4 = 560 := by decide +kernel
  have e2 : leNat (storeW wsR).mem 560 16 = 7 + 2 ^ 32 := by decide +kernel
  have e3 : leNat (storeW wsR).mem 580 16 = 3 + 8 * 2 ^ 32 := by decide +kernel
  refine (C58_write (R := Between 500 576) (S := Between 580 600) (v := .num (7 + 2 ^ 32)) (v' := .num (3 + 8 * 2 ^ 32)) ⟨storeW_heap _ (by decide), ⟨?_, ?_, ?_⟩, ?_, by decide, ?_, ?_, ?_⟩).mono fun _ _ h => h.2.1
  · exact fun x h1 h2 => ⟨by omega, by omega⟩
  · simp [Ty.scalar]
  · simp only [Ty.scalar, Bool.false_eq_true, if_false, Mv.Rep, e1, e2]; exact ⟨trivial, fun x h1 h2 => ⟨by omega, by omega⟩⟩
  · simp only [Mv.Rep, e3]; exact ⟨trivial, fun x h1 h2 => ⟨by omega, by omega⟩⟩
  · rintro x (h | h)
    · exact Nat.lt_trans h.2 (by decide)
    · exact Nat.lt_trans h.2 (by decide)
  · intro x h1 h2
    simp only [Place, e1] at h1
    have := h1.2; have := h2.1; omega
  · intro _ x h1 h2
    simp only [Place, e1] at h1
    have := h1.1; have := h2.2; omega

/-- Writing 5 to the only element of the vector at 600 through a reference at 560 to it. -/
def wsB : List (Nat × Nat) := [(560, 608), (580, 600), (600, 1), (604, 1), (608, 7)]

example : (writeRefF .u32).Calls [5, 560] (storeW wsB) (fun _ σ' => ∃ R', VecRef σ' R' .u32 [.num 5] 1 600 580) := by
  have e1 : leNat (storeW wsB).mem 560 4 = 608 := by decide +kernel
  have e2 : leNat (storeW wsB).mem (600 + 8 + 0 * Ty.u32.size) Ty.u32.size = 7 := by decide +kernel
  have e3 : leNat (storeW wsB).mem 608 4 = 7 := by decide +kernel
  have hr : VecRef (storeW wsB) (fun _ => False) .u32 [.num 7] 1 600 580 := by
    refine ⟨by decide +kernel, by decide, by decide, by decide, by decide, by decide, ⟨by decide +kernel, by decide +kernel, by decide, ?_⟩,
      fun _ h => h.elim, fun _ h => h.elim⟩
    intro i hi
    obtain rfl : i = 0 := by simpa using hi
    rw [e2]
    exact ⟨rfl, by decide⟩
  refine (C44_borrow_write (R' := Between 560 612) (S := fun _ => False) (v' := .num 5) hr (i := 0) (by decide) e1
    ⟨storeW_heap _ (by decide), ⟨fun x h1 h2 => ⟨by omega, by omega⟩, ?_, ?_⟩, ⟨rfl, by decide⟩, by decide, ?_, fun _ _ h => h, ?_⟩
    (fun _ h => h.elim) ?_).mono fun _ _ h => ⟨_, h.2⟩
  · intro _; rw [e1]; exact fun x h1 h2 => ⟨by omega, by simp [Ty.size] at h2; omega⟩
  · simp only [Ty.scalar, if_true, e1, Ty.size, e3]; exact ⟨rfl, by decide⟩
  · rintro x (h | h)
    · exact Nat.lt_trans h.2 (by decide)
    · exact h.elim
  · intro _ x h1 h2
    simp only [Place, e1] at h1
    have := h1.1; have := h2.2; omega
  · intro j hj hne
    obtain rfl : j = 0 := by simpa using hj
    exact absurd rfl hne

/-! ## Forwarded vectors -/

/-- Refreshing a reference: whatever the number of times the vector has moved, the reference is made to designate
its present block. -/
theorem C45_chain {a b n : Nat} (hs : σ.size < 2 ^ 32) (hr : r + 4 ≤ σ.size) (hb : b + 8 ≤ σ.size) (hbr : r + 4 ≤ b ∨ b + 8 ≤ r)
    (h : Fwd σ.mem (fun x => r + 4 ≤ x ∨ x + 8 ≤ r) b n a) (ha : leNat σ.mem r 4 = a) :
    vecUpdateRef.Calls [r] σ (fun res σ' => res = [] ∧ leNat σ'.mem r 4 = b ∧ ∀ x, x < r ∨ r + 4 ≤ x → σ'.mem x = σ.mem x) := by
  refine (vecUpdateRef_spec hs hr hb hbr h ha).mono ?_
  rintro _ σ' ⟨rfl, rfl⟩
  exact ⟨rfl, by rw [setMem_mem, leNat_putLe_same, Nat.mod_eq_of_lt (by omega)], fun x hx => putLe_out hx⟩

/-- Appending through one reference: another reference to the vector, however stale, still leads to it ... -/
theorem C45_push {a r' : Nat} (hσ : Heap σ) (h : Tracks σ R t vs cap p r a r') (hv : Mv.Rep σ.mem R t v w) (hw : w < 256 ^ t.size)
    (hfit : vs.length = cap → Fit σ (Ty.vec t).spills (vecCost t vs 2)) (hd : vs.length + 1 ≠ deadBeef) :
    (vecPush E t).Calls [r, w] σ (fun res σ' => res = [] ∧ Heap σ' ∧ ∃ R' cap' p', Tracks σ' R' t (vs ++ [v]) cap' p' r a r') :=
  h.push hσ hv hw hfit hd

/-- ... also after removing ... -/
theorem C45_pop {a r' : Nat} (hσ : Heap σ) (h : Tracks σ R t (vs ++ [v]) cap p r a r') (hd : vs.length ≠ deadBeef) :
    (vecPop E t).Calls [r] σ (fun _ σ' => Heap σ' ∧ Tracks σ' R t vs cap p r a r') := by
  refine (vecPop_spec hσ h.ref).mono ?_
  rintro _ σ' ⟨-, h2, -, h3⟩
  refine ⟨h2.heap hσ fun x hx => ?_, h.alter (h2.mono fun x _ hx => ⟨hx.1, by have := hx.2; omega⟩) h3 hd⟩
  have := hx.1; have := h.ref.low; unfold reserved at this; omega

/-- ... and exchanging elements ... -/
theorem C45_swap {a r' : Nat} (hσ : Heap σ) (h : Tracks σ R t vs cap p r a r') {i j : Nat} (hi : i < vs.length) (hj : j < vs.length)
    (hd : vs.length ≠ deadBeef) :
    (vecSwap E t).Calls [r, i, j] σ (fun _ σ' => Heap σ' ∧ Tracks σ' R t ((vs.set i vs[j]).set j vs[i]) cap p r a r') := by
  refine (vecSwap_spec hσ h.ref hi hj).mono ?_
  rintro _ σ' ⟨-, h2, -, h3⟩
  refine ⟨h2.heap hσ fun x hx => ?_, h.alter h2 h3 (by simpa using hd)⟩
  have := hx.1; have := h.ref.low; unfold reserved at this; omega

/-- ... and refreshing it makes it designate the vector. -/
theorem C45_refresh {a r' : Nat} (hσ : Heap σ) (h : Tracks σ R t vs cap p r a r') :
    vecUpdateRef.Calls [r'] σ (fun res σ' => res = [] ∧ VecRef σ' R t vs cap p r' ∧ VecRef σ' R t vs cap p r ∧
      ∀ x, x < σ.nextFree → ¬ Between r' (r' + 4) x → σ'.mem x = σ.mem x) := by
  refine (h.update hσ).mono ?_
  rintro _ σ' ⟨rfl, h1, -, h3, h4⟩
  exact ⟨rfl, h3, h4, h1.mem⟩

/-- The variable at 584 holds the vector that grows through the variable at 580. -/
example : (vecPush E .u32).Calls [580, 4] (storeW wsF) (fun _ σ1 => vecUpdateRef.Calls [584] σ1 (fun _ σ' =>
    ∃ R' cap' p', VecRef σ' R' .u32 [.num 7, .num 4] cap' p' 584)) := by
  have ht : Tracks (storeW wsF) (fun _ => False) .u32 [.num 7] 1 600 580 600 584 :=
    Tracks.start refF (by decide +kernel) (by decide) (by decide) (by decide) (by decide) (fun _ h => h.elim) (by decide)
  refine (C45_push heapF ht ⟨rfl, by decide⟩ (by decide) (fun _ => ⟨storeW_room (by decide), by simp [Ty.spills, Ty.size]⟩) (by decide)).mono ?_
  rintro _ σ1 ⟨-, hσ, R', cap', p', h⟩
  exact (C45_refresh hσ h).mono fun _ _ h => ⟨_, _, _, h.2.1⟩

end Props
