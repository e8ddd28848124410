import Verif.Proof.VecEq

/-! Operations on vectors. -/

namespace Rt
open Wasm Mv

variable {σ σ' : Store} {E : ErrPtrs}

/-- The four bytes at `r` designate a vector: its block at `p` has capacity `cap`, its elements
are `vs` and live in `R`; the cell, the block and `R` are disjoint. -/
structure VecRef (σ : Store) (R : Nat → Prop) (t : Ty) (vs : List Val) (cap p r : Nat) : Prop where
  cell : leNat σ.mem r 4 = p
  cellLow : reserved ≤ r
  cellIn : r + 4 ≤ σ.nextFree
  low : reserved ≤ p
  inside : p + (8 + cap * t.size) ≤ σ.nextFree
  apart : r + 4 ≤ p ∨ p + (8 + cap * t.size) ≤ r
  at_ : VecAt σ.mem R t vs cap p
  below : ∀ x, R x → x < σ.nextFree
  sep : ∀ x, R x → ¬ vecBlock t cap p x ∧ ¬ Between r (r + 4) x

theorem slot_le {t : Ty} {cap i : Nat} (h : i < cap) : i * t.size + t.size ≤ cap * t.size := by
  rw [← Nat.succ_mul]; exact Nat.mul_le_mul_right _ h

theorem slot_disj {t : Ty} {i j : Nat} (h : i < j) : i * t.size + t.size ≤ j * t.size := slot_le h

theorem VecAt.change {f g : Bytes} {R S : Nat → Prop} {t : Ty} {vs ws : List Val} {cap p : Nat} (h : VecAt f R t vs cap p)
    (hg : ∀ x, R x → g x = f x) (hRS : ∀ x, R x → S x) (hlen : leNat g p 4 = ws.length)
    (hcap : leNat g (p + 4) 4 = leNat f (p + 4) 4)
    (hle : ws.length ≤ cap)
    (hel : ∀ i (hi : i < ws.length), Mv.Rep f R t ws[i] (leNat g (p + 8 + i * t.size) t.size)) :
    VecAt g S t ws cap p :=
  ⟨hlen, by rw [hcap, h.capa], hle, fun i hi => Rep.change hg hRS t (hel i hi)⟩

/-- A write to a free slot and to the length appends an element. -/
theorem VecAt.append {f : Bytes} {R : Nat → Prop} {t : Ty} {vs : List Val} {cap p w : Nat} {v : Val}
    (h : VecAt f R t vs cap p) (hsep : ∀ x, R x → ¬ vecBlock t cap p x) (hlt : vs.length < cap)
    (hn : vs.length + 1 < 2 ^ 32)
    (hv : Mv.Rep f R t v w) (hw : w < 256 ^ t.size) :
    VecAt (putLe (putLe f (p + 8 + vs.length * t.size) t.size w) p 4 (vs.length + 1)) R t (vs ++ [v]) cap p := by
  have hs := slot_le (t := t) hlt
  have hp := t.size_pos
  refine h.change (fun x hx => ?_) (fun _ h => h) ?_ ?_ ?_ ?_
  · have hx' := hsep x hx
    have : x < p ∨ p + (8 + cap * t.size) ≤ x := by
      by_cases h1 : p ≤ x
      · exact .inr (Nat.le_of_not_lt fun h2 => hx' ⟨h1, h2⟩)
      · omega
    rw [putLe_out (by omega), putLe_out (by omega)]
  · rw [leNat_putLe_same, Nat.mod_eq_of_lt (by omega)]; simp
  · rw [leNat_putLe_disj (by omega), leNat_putLe_disj (by omega)]
  · simp; omega
  · intro i hi
    simp only [List.length_append, List.length_cons, List.length_nil] at hi
    by_cases hiv : i < vs.length
    · have := slot_disj (t := t) hiv
      rw [leNat_putLe_disj (by omega), leNat_putLe_disj (by omega), List.getElem_append_left hiv]
      exact h.elems i hiv
    · obtain rfl : i = vs.length := by omega
      rw [leNat_putLe_disj (by omega), leNat_putLe_same, Nat.mod_eq_of_lt hw]
      simpa using hv

theorem vecInc_spec {p : Nat} (hs : σ.size < 2 ^ 32) (hp : p + 4 ≤ σ.size) :
    vecInc.Calls [p] σ (fun r σ' => r = [] ∧ σ' = σ.setMem (putLe σ.mem p 4 ((leNat σ.mem p 4 + 1) % 2 ^ 32))) := by
  refine ⟨rfl, ?_⟩
  unfold vecInc
  wstep

/-- The last part of `vec_push_back_function`: vec_ptr is `q`. -/
theorem push_tail {t : Ty} {R : Nat → Prop} {vs : List Val} {v : Val} {cap q w r x : Nat} {Q : Res → Prop}
    (hs : σ.size < 2 ^ 32) (hq : q + (8 + cap * t.size) ≤ σ.size) (hat : VecAt σ.mem R t vs cap q)
    (hsep : ∀ x, R x → ¬ vecBlock t cap q x) (hlt : vs.length < cap) (hv : Mv.Rep σ.mem R t v w) (hw : w < 256 ^ t.size)
    (h : VecAt (putLe (putLe σ.mem (q + 8 + vs.length * t.size) t.size w) q 4 (vs.length + 1)) R t (vs ++ [v]) cap q →
      ∀ l, Q (.ok [] l (σ.setMem (putLe (putLe σ.mem (q + 8 + vs.length * t.size) t.size w) q 4 (vs.length + 1))))) :
    wp (vecElemPtr 2 3 t.size ++ code[Op.lget 1, Op.store t.size 0, Op.lget 2, vecInc.call]) []
      [r, w, q, vs.length, x] σ Q := by
  have hsl := slot_le (t := t) hlt
  have hp := t.size_pos
  have hp8 := t.size_le
  have hc1 : cap ≤ cap * t.size := Nat.le_mul_of_pos_right _ hp
  unfold vecElemPtr skipVecHeader
  wstep
  refine wp_call1 (vecInc_spec (p := q) hs (by show _ ≤ σ.size; omega)) ?_
  rintro _ σ' ⟨rfl, rfl⟩
  wstep
  rw [leNat_putLe_disj (by omega), hat.len]
  exact h (hat.append hsep hlt (by omega) hv hw) _

/-- Appending to a vector with a free slot. -/
theorem vecPush_inplace {t : Ty} {R : Nat → Prop} {vs : List Val} {v : Val} {cap p r w : Nat} (hσ : Heap σ)
    (hr : VecRef σ R t vs cap p r) (hv : Mv.Rep σ.mem R t v w) (hw : w < 256 ^ t.size) (hlt : vs.length < cap) :
    (vecPush E t).Calls [r, w] σ (fun res σ' => res = [] ∧ Alters (vecBlock t cap p) σ σ' ∧
      σ'.nextFree = σ.nextFree ∧ VecRef σ' R t (vs ++ [v]) cap p r) := by
  have h1 := hσ.alloc.nextFree_le
  have h2 := hσ.alloc.size_lt
  have g1 := hr.inside
  have g2 := hr.cellIn
  have g3 := hr.cell
  have g4 := hr.at_.len
  have g5 := hr.at_.capa
  have hsl := slot_le (t := t) hlt
  have hp := t.size_pos
  have hlow := hr.low
  refine ⟨rfl, ?_⟩
  unfold vecPush
  simp only [List.cons_append, List.nil_append]
  wstep
  rw [g3]
  wstep
  rw [g4]
  refine push_tail (cap := cap) (R := R) h2 (by omega) hr.at_ (fun x hx => (hr.sep x hx).1) hlt hv hw fun hat l => ?_
  wstep
  have hout : ∀ x, ¬ vecBlock t cap p x →
      putLe (putLe σ.mem (p + 8 + vs.length * t.size) t.size w) p 4 (vs.length + 1) x = σ.mem x := by
    intro x hx
    have : x < p ∨ p + (8 + cap * t.size) ≤ x := by
      by_cases h1 : p ≤ x
      · exact .inr (Nat.le_of_not_lt fun h2 => hx ⟨h1, h2⟩)
      · omega
    rw [putLe_out (by omega), putLe_out (by omega)]
  refine ⟨hσ.refl.alters.write (fun x _ hx => hout x hx) (fun x hx => ?_), ?_⟩
  · rw [hout x fun hc => by have := hc.2; omega]
    exact hσ.fresh x hx
  · refine ⟨?_, hr.cellLow, hr.cellIn, hr.low, hr.inside, hr.apart, hat, hr.below, hr.sep⟩
    refine Eq.trans ?_ g3
    exact leNat_congr fun x a b => hout x fun hc => by
      have := hc.1; have := hc.2; have := hr.apart; omega

/-- Appending to a full vector moves it: the copy starts at the old end of the heap, and the old
block forwards to it. -/
theorem vecPush_grow {t : Ty} {R : Nat → Prop} {vs : List Val} {v : Val} {cap p r w : Nat} (hσ : Heap σ)
    (hr : VecRef σ R t vs cap p r) (hv : Mv.Rep σ.mem R t v w) (hw : w < 256 ^ t.size) (hfull : vs.length = cap)
    (hfit : Fit σ (Ty.vec t).spills (vecCost t vs 2)) :
    (vecPush E t).Calls [r, w] σ (fun res σ' => res = [] ∧
      Alters (fun x => Between p (p + 8) x ∨ Between r (r + 4) x) σ σ' ∧
      leNat σ'.mem p 4 = deadBeef ∧ leNat σ'.mem (p + 4) 4 = σ.nextFree ∧
      σ'.nextFree = σ.nextFree + vecCost t vs 2 ∧
      VecRef σ' (fun x => R x ∨ Between (σ.nextFree + (8 + copyCap vs.length 2 * t.size)) σ'.nextFree x) t (vs ++ [v])
        (copyCap vs.length 2) σ.nextFree r) := by
  have h1 := hσ.alloc.nextFree_le
  have h2 := hσ.alloc.size_lt
  have g1 := hr.inside
  have g2 := hr.cellIn
  have g3 := hr.cell
  have g4 := hr.at_.len
  have g5 := hr.at_.capa
  have hp := t.size_pos
  have hlow := hr.low
  have hap := hr.apart
  have hbase := hσ.base
  refine ⟨rfl, ?_⟩
  unfold vecPush
  simp only [List.cons_append, List.nil_append]
  wstep
  rw [g3]
  wstep
  rw [g4]
  refine wp_call2 (vecCopy_spec (R := fun x => R x ∨ vecBlock t cap p x) (vs := vs) (fun h => copyP_ok E t h) hσ
    (by omega) (by omega) hfit ?_ ?_) ?_
  · rintro x (hx | hx)
    · exact hr.below x hx
    · have := hx.2; omega
  · exact hr.at_.rep (fun _ h => .inr h) (fun _ h => .inl h)
  rintro _ σ1 ⟨rfl, hc⟩
  have c1 := hc.ext.nextFree
  have c2 := hc.ext.size
  have c3 := hc.nextFree
  have c4 := hc.ext.alloc.nextFree_le
  have c5 := hc.ext.alloc.size_lt
  unfold vecCost at c3
  have hcc : vs.length < copyCap vs.length 2 := by unfold copyCap; split <;> omega
  have hdb : deadBeef < 2 ^ 32 := by decide
  wstep
  generalize hm : putLe (putLe (putLe σ1.mem r 4 σ.nextFree) p 4 deadBeef) (p + 4) 4 σ.nextFree = m
  have hmo : ∀ x, ¬ Between p (p + 8) x → ¬ Between r (r + 4) x → m x = σ1.mem x := by
    intro x hx hx'
    have k1 : x < p ∨ p + 8 ≤ x := by
      by_cases h1 : p ≤ x
      · exact .inr (Nat.le_of_not_lt fun h2 => hx ⟨h1, h2⟩)
      · omega
    have k2 : x < r ∨ r + 4 ≤ x := by
      by_cases h1 : r ≤ x
      · exact .inr (Nat.le_of_not_lt fun h2 => hx' ⟨h1, h2⟩)
      · omega
    rw [← hm, putLe_out (by omega), putLe_out (by omega), putLe_out (by omega)]
  have hmR : ∀ x, R x → m x = σ.mem x := fun x hx => by
    have := hr.sep x hx
    have hb := hr.below x hx
    rw [hmo x (fun h => this.1 ⟨h.1, by have := h.2; omega⟩) this.2, hc.ext.mem x hb]
  have hmN : ∀ x, σ.nextFree ≤ x → m x = σ1.mem x := fun x hx =>
    hmo x (fun h => by have := h.2; omega) (fun h => by have := h.2; omega)
  have hsl := slot_le (t := t) hcc
  refine push_tail (cap := copyCap vs.length 2) (v := v)
    (R := fun x => R x ∨ Between (σ.nextFree + (8 + copyCap vs.length 2 * t.size)) σ1.nextFree x)
    (σ := σ1.setMem m) c5 (by show _ ≤ σ1.size; omega) ?_ ?_ hcc ?_ hw ?_
  · refine hc.at_.change (fun x hx => hmN x (by have := hx.1; omega)) (fun x hx => .inr hx) ?_ ?_ hc.at_.le ?_
    · rw [← hc.at_.len]; exact leNat_congr fun x a b => hmN x a
    · exact leNat_congr fun x a b => hmN x (by omega)
    · intro i hi
      have := hc.at_.elems i hi
      rwa [leNat_congr (f := (σ1.setMem m).mem) (g := σ1.mem) fun x a b => hmN x (by omega)]
  · rintro x (hx | hx) hb
    · have := hr.below x hx; have := hb.1; omega
    · have := hx.1; have := hb.2; omega
  · exact Rep.change hmR (fun _ h => .inl h) t hv
  · intro hat l
    wstep
    have hout : ∀ x, ¬ vecBlock t (copyCap vs.length 2) σ.nextFree x →
        putLe (putLe m (σ.nextFree + 8 + vs.length * t.size) t.size w) σ.nextFree 4 (vs.length + 1) x = m x := by
      intro x hx
      have : x < σ.nextFree ∨ σ.nextFree + (8 + copyCap vs.length 2 * t.size) ≤ x := by
        by_cases h1 : σ.nextFree ≤ x
        · exact .inr (Nat.le_of_not_lt fun h2 => hx ⟨h1, h2⟩)
        · omega
      rw [putLe_out (by omega), putLe_out (by omega)]
    refine ⟨(hc.ext.alters.write (fun x hx hx' => ?_) (fun x hx => ?_)), ?_, ?_, ?_⟩
    · rw [hout x fun h => by have := h.1; omega]
      exact hmo x (fun h => hx' (.inl h)) (fun h => hx' (.inr h))
    · rw [hout x fun h => by have := h.2; omega, hmN x (by omega)]
      exact hc.ext.fresh x hx
    · rw [leNat_congr (g := m) fun x a b => hout x fun h => by have := h.1; omega, ← hm, leNat_putLe_disj (by omega), leNat_putLe_same,
        Nat.mod_eq_of_lt (by simpa using hdb)]
    · rw [leNat_congr (g := m) fun x a b => hout x fun h => by have := h.1; omega, ← hm, leNat_putLe_same,
        Nat.mod_eq_of_lt (by simp; omega)]
    · refine ⟨hc.nextFree, ?_, hr.cellLow, by show _ ≤ σ1.nextFree; omega, hbase, by show _ ≤ σ1.nextFree; omega, by omega, hat, ?_, ?_⟩
      · show leNat (putLe _ _ _ _) r 4 = _
        rw [leNat_congr (g := m) fun x a b => hout x fun h => by have := h.1; omega, ← hm, leNat_putLe_disj (by omega),
          leNat_putLe_disj (by omega), leNat_putLe_same, Nat.mod_eq_of_lt (by simp; omega)]
      · rintro x (hx | hx)
        · have := hr.below x hx; show x < σ1.nextFree; omega
        · exact hx.2
      · rintro x (hx | hx)
        · exact ⟨fun h => by have := h.1; have := hr.below x hx; omega, (hr.sep x hx).2⟩
        · exact ⟨fun h => by have := h.2; have := hx.1; omega, fun h => by have := h.2; have := hx.1; omega⟩

end Rt
