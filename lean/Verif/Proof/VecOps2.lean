import Verif.Proof.VecOps
import Verif.Proof.Unpack6

/-! Removing, exchanging and borrowing elements; forwarded vectors. -/

namespace Rt
open Wasm Mv

variable {σ σ' : Store} {E : ErrPtrs} {t : Ty} {R : Nat → Prop} {vs : List Val} {v : Val} {cap p r w : Nat}

theorem not_between {a b x : Nat} (h : ¬ Between a b x) : x < a ∨ b ≤ x := by
  by_cases h1 : a ≤ x
  · exact .inr (Nat.le_of_not_lt fun h2 => h ⟨h1, h2⟩)
  · omega

/-! ### Length -/

theorem vecLen_spec (hσ : Heap σ) (hr : VecRef σ R t vs cap p r) {s l is Q} (h : wp is (vs.length :: s) l σ Q) :
    wp (vecLen ++ is) (r :: s) l σ Q := by
  have h1 := hσ.alloc.nextFree_le
  have h2 := hσ.alloc.size_lt
  have g1 := hr.inside
  have g2 := hr.cellIn
  have g3 := hr.cell
  have g4 := hr.at_.len
  unfold vecLen
  wstep
  rw [g3]
  rwa [g4]

/-! ### Pop -/

theorem vecDec_spec (hs : σ.size < 2 ^ 32) (hp : p + 4 ≤ σ.size) (h0 : leNat σ.mem p 4 ≠ 0) :
    (vecDec E).Calls [p] σ (fun r σ' => r = [] ∧ σ' = σ.setMem (putLe σ.mem p 4 (leNat σ.mem p 4 - 1))) := by
  have hl := leNat_lt4 σ.mem p
  refine ⟨rfl, ?_⟩
  unfold vecDec
  unerr
  wstep

theorem vecDec_fails (hs : σ.size < 2 ^ 32) (h1 : 260 ≤ σ.size) (hp : p + 4 ≤ σ.size) (h0 : leNat σ.mem p 4 = 0) :
    (vecDec E).Calls [p] σ (fun r σ' => r = [] ∧ σ' = errStore σ (E .outOfBounds)) := by
  refine ⟨rfl, ?_⟩
  unfold vecDec
  unerr
  wstep

/-- Removing the last element. -/
theorem vecPop_spec (hσ : Heap σ) (hr : VecRef σ R t (vs ++ [v]) cap p r) :
    (vecPop E t).Calls [r] σ (fun res σ' => (∃ w, res = [w] ∧ w < 256 ^ t.size ∧ Mv.Rep σ'.mem R t v w) ∧
      Alters (Between p (p + 4)) σ σ' ∧ σ'.nextFree = σ.nextFree ∧ VecRef σ' R t vs cap p r) := by
  have h1 := hσ.alloc.nextFree_le
  have h2 := hσ.alloc.size_lt
  have g1 := hr.inside
  have g2 := hr.cellIn
  have g3 := hr.cell
  have g4 := hr.at_.len
  have hle := hr.at_.le
  have hp := t.size_pos
  have hlow := hr.low
  simp only [List.length_append, List.length_cons, List.length_nil] at g4 hle
  have hlt : vs.length < cap := by omega
  have hsl := slot_le (t := t) hlt
  have hlv := hr.at_.elems vs.length (by simp)
  simp only [List.getElem_append_right (Nat.le_refl _), Nat.sub_self, List.getElem_cons_zero] at hlv
  have hl4 := leNat_lt4 σ.mem p
  refine ⟨rfl, ?_⟩
  unfold vecPop
  simp only [List.cons_append, List.nil_append]
  wstep
  rw [g3, g4]
  refine wp_call1 (vecDec_spec (p := p) h2 (by omega) (by omega)) ?_
  rintro _ σ1 ⟨rfl, rfl⟩
  wstep
  rw [g4, Nat.zero_add, Nat.add_sub_cancel]
  have e1 : leNat (putLe σ.mem p 4 vs.length) p 4 = vs.length := by
    rw [leNat_putLe_same, Nat.mod_eq_of_lt (by omega)]
  rw [e1]
  unfold vecElemPtr skipVecHeader
  have hc1 : cap ≤ cap * t.size := Nat.le_mul_of_pos_right _ hp
  wstep
  have hout : ∀ x, ¬ Between p (p + 4) x → putLe σ.mem p 4 vs.length x = σ.mem x := fun x hx => by
    have := not_between hx
    rw [putLe_out (by omega)]
  have hR : ∀ x, R x → putLe σ.mem p 4 vs.length x = σ.mem x := fun x hx =>
    hout x fun h => (hr.sep x hx).1 ⟨h.1, by have := h.2; omega⟩
  refine ⟨⟨_, rfl, leNat_lt _ _ _, ?_⟩, ?_, ?_⟩
  · rw [leNat_putLe_disj (by omega)]
    exact Rep.change hR (fun _ h => h) t hlv
  · exact hσ.refl.alters.write (fun x _ hx => hout x hx) fun x hx => by
      rw [hout x fun h => by have := h.2; omega]; exact hσ.fresh x hx
  · refine ⟨?_, hr.cellLow, hr.cellIn, hr.low, hr.inside, hr.apart, ?_, hr.below, hr.sep⟩
    · refine Eq.trans ?_ g3
      exact leNat_congr fun x a b => hout x fun h => by have := h.1; have := h.2; have := hr.apart; omega
    · refine hr.at_.change hR (fun _ h => h) e1 ?_ (by omega) fun i hi => ?_
      · exact leNat_putLe_disj (by omega)
      · have := hr.at_.elems i (by simp; omega)
        rw [List.getElem_append_left hi] at this
        have hd : leNat (putLe σ.mem p 4 vs.length) (p + 8 + i * t.size) t.size = leNat σ.mem (p + 8 + i * t.size) t.size :=
          leNat_putLe_disj (by omega)
        rwa [← hd] at this

/-- Removing from the empty vector. -/
theorem vecPop_fails (hE : E.Valid) (hσ : Heap σ) (hr : VecRef σ R t [] cap p r) (hroom : p + 8 + t.size ≤ σ.size) :
    Fails (vecPop E t) [r] σ (E .outOfBounds) := by
  have h1 := hσ.alloc.nextFree_le
  have h2 := hσ.alloc.size_lt
  have h3 := hσ.base
  have g1 := hr.inside
  have g2 := hr.cellIn
  have g3 := hr.cell
  have g4 := hr.at_.len
  have hlow := hr.low
  have hp8 := t.size_le
  unfold reserved at hlow h3
  refine ⟨rfl, ?_⟩
  unfold vecPop
  simp only [List.cons_append, List.nil_append]
  wstep
  rw [g3, g4]
  refine wp_call1 (vecDec_fails (p := p) h2 (by omega) (by omega) g4) ?_
  rintro _ σ1 ⟨rfl, rfl⟩
  have e1 : leNat (errStore σ (E .outOfBounds)).mem p 4 = 0 := by
    unfold errStore
    rw [setMem_mem, leNat_putLe_disj (by unfold abortPtr; omega)]; exact g4
  have e2 : (errStore σ (E .outOfBounds)).size = σ.size := rfl
  wstep
  rw [e1]
  unfold vecElemPtr skipVecHeader
  wstep
  exact ⟨errWord_ptr hE _, by omega⟩

/-- At the very end of memory the read of the missing element traps. -/
theorem vecPop_traps (hσ : Heap σ) (hr : VecRef σ R t [] cap p r) (hroom : σ.size < p + 8 + t.size) :
    (vecPop E t).Traps [r] σ := by
  have h1 := hσ.alloc.nextFree_le
  have h2 := hσ.alloc.size_lt
  have h3 := hσ.base
  have g1 := hr.inside
  have g2 := hr.cellIn
  have g3 := hr.cell
  have g4 := hr.at_.len
  have hlow := hr.low
  have hp8 := t.size_le
  unfold reserved at hlow h3
  refine ⟨rfl, ?_⟩
  unfold vecPop
  simp only [List.cons_append, List.nil_append]
  wstep
  rw [g3, g4]
  refine wp_call1 (vecDec_fails (p := p) h2 (by omega) (by omega) g4) ?_
  rintro _ σ1 ⟨rfl, rfl⟩
  have e1 : leNat (errStore σ (E .outOfBounds)).mem p 4 = 0 := by
    unfold errStore
    rw [setMem_mem, leNat_putLe_disj (by unfold abortPtr; omega)]; exact g4
  have e2 : (errStore σ (E .outOfBounds)).size = σ.size := rfl
  wstep
  rw [e1]
  unfold vecElemPtr skipVecHeader
  wstep
  have hn : ¬ p + 8 + 0 + t.size ≤ (errStore σ (E .outOfBounds)).size := by rw [e2]; omega
  simp [wp_op, Op.exec, hn]

/-! ### Swap -/

/-- The part of `vec_swap_function` after the conversions of the indices. -/
theorem swap_tail (hs : σ.size < 2 ^ 32) (h0 : 260 ≤ σ.size) {i j a b : Nat} (ha : a < 2 ^ 32) (hb : b < 2 ^ 32) {Q : Res → Prop} {f : Fn}
    (hf : f = vecSwap E t) (hcap : leNat σ.mem p 4 = vs.length) (hle : vs.length ≤ cap)
    (hr : r + 4 ≤ σ.size) (hrp : leNat σ.mem r 4 = p) (hp : p + (8 + cap * t.size) ≤ σ.size)
    (hi : i < 2 ^ 64) (hj : j < 2 ^ 64)
    (hbad : vs.length = 0 ∨ i ≠ j ∧ (vs.length ≤ a ∨ vs.length ≤ b) → Q (.ret [] (errStore σ (E .outOfBounds))))
    (hsame : 0 < vs.length → i = j → ∀ l, Q (.ok [] l σ))
    (hswap : i ≠ j → a < vs.length → b < vs.length → ∀ l, Q (.ok [] l (σ.setMem
      (putLe (putLe σ.mem (p + 8 + a * t.size) t.size (leNat σ.mem (p + 8 + b * t.size) t.size))
        (p + 8 + b * t.size) t.size (leNat σ.mem (p + 8 + a * t.size) t.size))))) :
    wp (f.body.drop 6) [] [r, i, j, b, a, 0, 0, 0, 0, 0, 0, 0] σ Q := by
  subst hf
  unfold vecSwap
  unerr
  simp only [List.drop_succ_cons, List.drop_zero]
  wstep
  rw [hrp, hcap]
  have hts := t.size_pos
  have hc1 : cap ≤ cap * t.size := Nat.le_mul_of_pos_right _ hts
  unfold negate swapCheck vecElemPtr skipVecHeader
  unerr
  wstep
  refine .intro (fun h => ?_) (fun h => hbad (.inl (by omega)))
  refine .intro (fun h' => ?_) (fun h' => ?_)
  · exact hsame (by omega) h' _
  refine .intro (fun h1 => hbad (.inr ⟨h', .inl h1⟩)) (fun h1 => ?_)
  refine .intro (fun h2 => hbad (.inr ⟨h', .inr h2⟩)) (fun h2 => ?_)
  have k1 := slot_le (t := t) (show a < cap by omega)
  have k2 := slot_le (t := t) (show b < cap by omega)
  have k3 := t.size_le
  have k4 : t.size % 4294967296 = t.size := Nat.mod_eq_of_lt (by omega)
  rw [k4, Nat.mod_eq_of_lt (a := a * t.size) (by omega), Nat.mod_eq_of_lt (a := b * t.size) (by omega),
    Nat.mod_eq_of_lt (a := p + 8 + a * t.size) (by omega), Nat.mod_eq_of_lt (a := p + 8 + b * t.size) (by omega)]
  wstep
  exact hswap h' (by omega) (by omega) _

theorem downcast_any {a : Nat} (ha : a < 2 ^ 64) (hs : 65536 ≤ σ.size) :
    (downcast64to32 E).Calls [a] σ (fun r σ' => ∃ b, r = [b] ∧ b < 2 ^ 32 ∧
      (a < 2 ^ 32 ∧ b = a ∧ σ' = σ ∨ 2 ^ 32 ≤ a ∧ σ' = errStore σ (E .outOfBounds))) := by
  refine ⟨rfl, ?_⟩
  unfold downcast64to32
  unerr
  wstep
  refine .intro (fun h => ?_) (fun h => ?_)
  · exact ⟨_, rfl, by decide, .inr (by omega)⟩
  · exact ⟨_, rfl, by omega, .inl (by omega)⟩

/-- The conversions of the indices of `vec_swap_function`. -/
theorem swap_head {i j : Nat} (hi : i < 2 ^ 64) (hj : j < 2 ^ 64) (hs : 65536 ≤ σ.size) (Q : Res → Prop)
    (h : ∀ a b σ', a < 2 ^ 32 → b < 2 ^ 32 →
      ((i < 2 ^ 32 ∧ j < 2 ^ 32 ∧ a = i ∧ b = j ∧ σ' = σ) ∨
        ((2 ^ 32 ≤ i ∨ 2 ^ 32 ≤ j) ∧ errWord σ' = E .outOfBounds % 2 ^ 32 ∧ σ'.size = σ.size ∧ ∀ x, 260 ≤ x → σ'.mem x = σ.mem x)) →
      wp ((vecSwap E t).body.drop 6) [] [r, i, j, b, a, 0, 0, 0, 0, 0, 0, 0] σ' Q) :
    wp (vecSwap E t).body [] [r, i, j, 0, 0, 0, 0, 0, 0, 0, 0, 0] σ Q := by
  rw [← List.take_append_drop 6 (vecSwap E t).body]
  generalize (vecSwap E t).body.drop 6 = D at h
  have : (vecSwap E t).body.take 6 = code[Op.lget 1, (downcast64to32 E).call, Op.lset 4,
   Op.lget 2, (downcast64to32 E).call, Op.lset 3] := rfl
  rw [this]
  simp only [List.cons_append, List.nil_append]
  wstep
  refine wp_call1 (downcast_any (E := E) hi hs) ?_
  rintro _ σ1 ⟨a, rfl, ha, h1⟩
  have hs1 : σ1.size = σ.size := by rcases h1 with ⟨_, _, rfl⟩ | ⟨_, rfl⟩ <;> rfl
  wstep
  refine wp_call1 (downcast_any (E := E) hj (by omega)) ?_
  rintro _ σ2 ⟨b, rfl, hb, h2⟩
  wstep
  refine h a b σ2 ha hb ?_
  have hout : ∀ (τ : Store) x, 260 ≤ x → (errStore τ (E .outOfBounds)).mem x = τ.mem x := fun τ x hx => by
    unfold errStore; rw [setMem_mem, putLe_out (by unfold abortPtr; omega)]
  rcases h1 with ⟨h1, rfl, rfl⟩ | ⟨h1, rfl⟩ <;> rcases h2 with ⟨h2, rfl, rfl⟩ | ⟨h2, rfl⟩
  · exact .inl ⟨h1, h2, rfl, rfl, rfl⟩
  · exact .inr ⟨.inr h2, errWord_errStore, rfl, fun x hx => hout _ x hx⟩
  · exact .inr ⟨.inl h1, errWord_errStore, rfl, fun x hx => hout _ x hx⟩
  · exact .inr ⟨.inl h1, errWord_errStore, rfl, fun x hx => by rw [hout _ x hx, hout _ x hx]⟩

/-- Exchanging two elements. -/
theorem vecSwap_spec (hσ : Heap σ) (hr : VecRef σ R t vs cap p r) {i j : Nat} (hi : i < vs.length) (hj : j < vs.length) :
    (vecSwap E t).Calls [r, i, j] σ (fun res σ' => res = [] ∧ Alters (vecBlock t cap p) σ σ' ∧
      σ'.nextFree = σ.nextFree ∧ VecRef σ' R t ((vs.set i vs[j]).set j vs[i]) cap p r) := by
  have h1 := hσ.alloc.nextFree_le
  have h2 := hσ.alloc.size_lt
  have h3 := hσ.ready.size
  have g1 := hr.inside
  have g2 := hr.cellIn
  have g3 := hr.cell
  have g4 := hr.at_.len
  have g5 := hr.at_.le
  have hp := t.size_pos
  have hlow := hr.low
  have hc1 : cap ≤ cap * t.size := Nat.le_mul_of_pos_right _ hp
  refine ⟨rfl, ?_⟩
  refine swap_head (E := E) (t := t) (by omega) (by omega) h3 _ ?_
  rintro a b σ' ha hb (⟨-, -, rfl, rfl, he⟩ | ⟨hbad, -⟩)
  swap
  · omega
  subst σ'
  refine swap_tail (E := E) h2 (by omega) ha hb rfl g4 g5 (by omega) g3 (by omega) (by omega) (by omega) ?_ ?_ ?_
  · omega
  · rintro - rfl l
    wstep
    refine ⟨hσ.refl.alters, ?_⟩
    simpa using hr
  · intro hne _ _ l
    wstep
    have k1 := slot_le (t := t) (show a < cap by omega)
    have k2 := slot_le (t := t) (show b < cap by omega)
    have hd : a * t.size + t.size ≤ b * t.size ∨ b * t.size + t.size ≤ a * t.size := by
      rcases Nat.lt_or_gt_of_ne hne with h | h
      · exact .inl (slot_disj h)
      · exact .inr (slot_disj h)
    generalize hm : putLe (putLe _ _ _ _) _ _ _ = m
    have hout : ∀ x, x < p + 8 ∨ p + (8 + cap * t.size) ≤ x → m x = σ.mem x := fun x hx => by
      rw [← hm, putLe_out (by omega), putLe_out (by omega)]
    have hR : ∀ x, R x → m x = σ.mem x := fun x hx => hout x (by have := not_between (hr.sep x hx).1; omega)
    refine ⟨hσ.refl.alters.write (fun x _ hx => hout x (by have := not_between hx; omega)) fun x hx => ?_, ?_⟩
    · rw [hout x (by omega)]; exact hσ.fresh x hx
    refine ⟨?_, hr.cellLow, hr.cellIn, hr.low, hr.inside, hr.apart, ?_, hr.below, hr.sep⟩
    · refine Eq.trans ?_ g3
      exact leNat_congr fun x k k' => hout x (by have := hr.apart; omega)
    · refine hr.at_.change hR (fun _ h => h) ?_ ?_ (by simpa using g5) fun k hk => ?_
      · rw [List.length_set, List.length_set, ← g4]
        exact leNat_congr fun x k k' => hout x (by omega)
      · exact leNat_congr fun x k k' => hout x (by omega)
      · simp only [List.length_set] at hk
        have k3 := slot_le (t := t) (show k < cap by omega)
        simp only [setMem_mem, ← hm]
        by_cases e1 : k = b
        · subst e1
          rw [leNat_putLe_same, Nat.mod_eq_of_lt (leNat_lt _ _ _)]
          simpa using hr.at_.elems a hi
        have d1 : k * t.size + t.size ≤ b * t.size ∨ b * t.size + t.size ≤ k * t.size := by
          rcases Nat.lt_or_gt_of_ne e1 with h | h
          · exact .inl (slot_disj h)
          · exact .inr (slot_disj h)
        rw [leNat_putLe_disj (by omega)]
        by_cases e2 : k = a
        · subst e2
          rw [leNat_putLe_same, Nat.mod_eq_of_lt (leNat_lt _ _ _)]
          simpa [List.getElem_set, Ne.symm e1] using hr.at_.elems b hj
        have d2 : k * t.size + t.size ≤ a * t.size ∨ a * t.size + t.size ≤ k * t.size := by
          rcases Nat.lt_or_gt_of_ne e2 with h | h
          · exact .inl (slot_disj h)
          · exact .inr (slot_disj h)
        rw [leNat_putLe_disj (by omega)]
        simpa [List.getElem_set, Ne.symm e1, Ne.symm e2] using hr.at_.elems k hk

/-- Exchanging elements of which one does not exist. -/
theorem vecSwap_fails (hE : E.Valid) (hσ : Heap σ) (hr : VecRef σ R t vs cap p r) {i j : Nat} (hi : i < 2 ^ 64) (hj : j < 2 ^ 64)
    (hbad : vs.length ≤ i ∨ vs.length ≤ j) (hne : i ≠ j ∨ vs = [] ∨ 2 ^ 32 ≤ i) :
    Fails (vecSwap E t) [r, i, j] σ (E .outOfBounds) := by
  have h1 := hσ.alloc.nextFree_le
  have h2 := hσ.alloc.size_lt
  have h3 := hσ.ready.size
  have g1 := hr.inside
  have g2 := hr.cellIn
  have g3 := hr.cell
  have g4 := hr.at_.len
  have g5 := hr.at_.le
  have hp := t.size_pos
  have hlow := hr.low
  have hclow := hr.cellLow
  unfold reserved at hlow hclow
  have hE' := (hE .outOfBounds).2
  refine ⟨rfl, ?_⟩
  refine swap_head (E := E) (t := t) hi hj h3 _ ?_
  rintro a b σ' ha hb (⟨h32, h32', rfl, rfl, he⟩ | ⟨h32, e1, e2, e3⟩)
  · subst σ'
    refine swap_tail (E := E) h2 (by omega) ha hb rfl g4 g5 (by omega) g3 (by omega) (by omega) (by omega) ?_ ?_ ?_
    · intro _
      wstep
      exact ⟨rfl, errWord_ptr hE _, by show 260 ≤ σ.size; omega⟩
    · rintro hpos rfl
      rcases hne with h | rfl | h
      · exact absurd rfl h
      · simp at hpos
      · omega
    · omega
  · rw [Nat.mod_eq_of_lt hE'] at e1
    have e4 : ∀ q n, 260 ≤ q → leNat σ'.mem q n = leNat σ.mem q n := fun q n hq => leNat_congr fun x k _ => e3 x (by omega)
    refine swap_tail (E := E) (vs := vs) (cap := cap) (p := p) (by omega) (by omega) ha hb rfl (by rw [e4 _ _ (by omega), g4]) g5 (by omega)
      (by rw [e4 _ _ (by omega), g3]) (by omega) (by omega) (by omega) ?_ ?_ ?_
    · intro _
      wstep
      exact ⟨rfl, errWord_ptr hE _, by show 260 ≤ σ'.size; omega⟩
    · intro _ _ l
      wstep
      exact ⟨rfl, e1, by omega⟩
    · intro _ _ _ l
      wstep
      refine ⟨rfl, ?_, by omega⟩
      rw [← e1]
      unfold errWord
      rw [setMem_mem, leNat_putLe_disj (by unfold abortPtr; omega), leNat_putLe_disj (by unfold abortPtr; omega)]

end Rt
