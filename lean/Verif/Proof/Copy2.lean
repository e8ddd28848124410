import Verif.Proof.Copy

/-! Copies of vectors. -/

namespace Rt
open Wasm Mv

variable {σ σ' σ'' : Store} {E : ErrPtrs}

/-- The element part of the copy loop. -/
theorem wp_elemCopy {t : Ty} (ht : t.scalar = false → CopyOk E t) {R : Nat → Prop} {v : Val} {a : Nat}
    {s l : List Nat} {is : List Instr} {Q : Res → Prop} (ha : a + t.size ≤ σ.nextFree)
    (hp : CopyPre σ R t v (leNat σ.mem a t.size)) (hl : 8 + nlP t ≤ l.length)
    (h : ∀ σ' w' l', CopyOf σ σ' t v w' → l'.length = l.length → (∀ j, j < 6 → lget l' j = lget l j) →
      wp is (w' :: s) l' σ' Q) :
    wp (elemCopy t (copyP E t 8) ++ is) (a :: s) l σ Q := by
  have h1 := hp.heap.alloc.nextFree_le
  have h2 := hp.heap.alloc.size_lt
  have scal : t.scalar = true → elemCopy t (copyP E t 8) = code[Op.load t.size 0] →
      wp (elemCopy t (copyP E t 8) ++ is) (a :: s) l σ Q := by
    intro hs hc
    rw [hc]
    wstep
    obtain ⟨e1, e2, e3⟩ := hp.rep.scalar hs
    refine h σ _ l ⟨hp.heap.refl, ?_, e3 _ _, e2⟩ rfl (fun _ _ => rfl)
    cases t <;> simp only [Ty.scalar, Bool.false_eq_true] at hs <;> simp only [cost, Nat.add_zero]
  have big : ∀ n, (t = .u128 ∧ n = 16 ∨ t = .u256 ∧ n = 32 ∨ t = .address ∧ n = 32) →
      elemCopy t (copyP E t 8) = code[Op.load 4 0, Op.lset 6, Op.c32 n, alloc.call, Op.ltee 7,
        Op.lget 6, Op.c32 n, Op.memCopy, Op.lget 7] →
      wp (elemCopy t (copyP E t 8) ++ is) (a :: s) l σ Q := by
    intro n hn hc
    have h4 : t.size = 4 := by rcases hn with ⟨rfl, rfl⟩ | ⟨rfl, rfl⟩ | ⟨rfl, rfl⟩ <;> rfl
    have hcost : cost t v = n := by rcases hn with ⟨rfl, rfl⟩ | ⟨rfl, rfl⟩ | ⟨rfl, rfl⟩ <;> simp only [cost]
    have hrep := hp.rep
    rw [h4] at hrep ha
    have hbd := heap_bound hn hrep hp.below
    have hn' : n < 4294967296 := by omega
    have hr := hp.fit.1
    rw [hcost] at hr
    rw [hc]
    wstep
    refine wp_allocR hp.heap hr (Nat.le_refl _) fun σ1 a1 => ?_
    have b2 := a1.inside
    have b3 := a1.nextFree
    have b4 := a1.size
    wstep
    refine h _ _ _ (a1.copied.of hn hrep) (by simp only [lset_length]) ?_
    intro j hj
    rw [lget_lset_ne (by omega), lget_lset_ne (by omega)]
  have deep : t.scalar = false → elemCopy t (copyP E t 8) = code[Op.load 4 0] ++ copyP E t 8 →
      wp (elemCopy t (copyP E t 8) ++ is) (a :: s) l σ Q := by
    intro hs hc
    have h4 := Ty.size_ptr hs
    have hp' := hp
    rw [h4] at hp' ha
    rw [hc]
    wstep
    exact ht hs σ R v _ 8 s l is Q hp' hl fun σ' w' l' h1 h2 h3 => h σ' w' l' h1 h2 fun j hj => h3 j (by omega)
  cases t with
  | bool | u8 | u16 | u32 | u64 => exact scal rfl rfl
  | u128 => exact big 16 (.inl ⟨rfl, rfl⟩) rfl
  | u256 => exact big 32 (.inr (.inl ⟨rfl, rfl⟩)) rfl
  | address => exact big 32 (.inr (.inr ⟨rfl, rfl⟩)) rfl
  | vec t => exact deep rfl rfl
  | struct fs => exact deep rfl rfl
  | object fs => exact deep rfl rfl
  | enum vs => exact deep rfl rfl

/-- A block holding the vector `vs` of type `t` and capacity `cap` at `p`; its elements occupy the region
`R`. -/
structure VecAt (f : Bytes) (R : Nat → Prop) (t : Ty) (vs : List Val) (cap p : Nat) : Prop where
  len : leNat f p 4 = vs.length
  capa : leNat f (p + 4) 4 = cap
  le : vs.length ≤ cap
  elems : ∀ i (h : i < vs.length), Mv.Rep f R t vs[i] (leNat f (p + 8 + i * t.size) t.size)

/-- The memory of a vector block. -/
def vecBlock (t : Ty) (cap p : Nat) : Nat → Prop := Between p (p + (8 + cap * t.size))

theorem VecAt.rep {f : Bytes} {R S : Nat → Prop} {t : Ty} {vs : List Val} {cap p : Nat} (h : VecAt f R t vs cap p)
    (hb : ∀ x, vecBlock t cap p x → S x) (hR : ∀ x, R x → S x) : Mv.Rep f S (.vec t) (.vec vs) p := by
  simp only [Mv.Rep]
  refine ⟨vs, rfl, h.len, by rw [h.capa]; exact h.le, ?_, fun i hi => Rep.change (fun _ _ => rfl) hR t (h.elems i hi)⟩
  rw [h.capa]
  exact fun x h1 h2 => hb x ⟨h1, h2⟩

theorem vecAt_of_rep {f : Bytes} {R : Nat → Prop} {t : Ty} {v : Val} {p : Nat} (h : Mv.Rep f R (.vec t) v p) :
    ∃ vs, v = .vec vs ∧ VecAt f R t vs (leNat f (p + 4) 4) p ∧ ∀ x, vecBlock t (leNat f (p + 4) 4) p x → R x := by
  simp only [Mv.Rep] at h
  obtain ⟨vs, h1, h2, h3, h4, h5⟩ := h
  exact ⟨vs, h1, ⟨h2, rfl, h3, h5⟩, fun x hx => h4 x hx.1 hx.2⟩

theorem copyStore_le (t : Ty) : t.size ≤ copyStore t := by cases t <;> simp [Ty.size, copyStore]
theorem copyStore_spill (t : Ty) : copyStore t = t.size ∨
    t.size < 4 ∧ t.scalar = true ∧ copyStore t ≤ t.size + 3 := by
  cases t <;> simp [Ty.size, copyStore, Ty.scalar]

theorem cost_scalar {t : Ty} (h : t.scalar = true) (v : Val) : cost t v = 0 := by
  cases t <;> simp only [Ty.scalar, Bool.false_eq_true] at h <;> simp only [cost]

/-- Memory used by a copy of a vector with capacity multiplier `m`. -/
def vecCost (t : Ty) (vs : List Val) (m : Nat) : Nat :=
  8 + copyCap vs.length m * t.size + (vs.map fun v => cost t v).sum

/-- What a copy of a vector achieves. -/
structure VecCopyOf (σ σ' : Store) (t : Ty) (vs : List Val) (m : Nat) : Prop where
  ext : Extends σ σ'
  nextFree : σ'.nextFree = σ.nextFree + vecCost t vs m
  at_ : VecAt σ'.mem (Between (σ.nextFree + (8 + copyCap vs.length m * t.size)) σ'.nextFree) t vs
    (copyCap vs.length m) σ.nextFree

theorem vecCopy_spec {t : Ty} (ht : t.scalar = false → CopyOk E t) {R : Nat → Prop} {vs : List Val} {w m : Nat}
    (hσ : Heap σ) (hm : 0 < m) (hm' : m < 2 ^ 32) (hfit : Fit σ (Ty.vec t).spills (vecCost t vs m)) (hR : ∀ x, R x → x < σ.nextFree)
    (hr : Mv.Rep σ.mem R (.vec t) (.vec vs) w) :
    (vecCopy E t).Calls [w, m] σ (fun r σ' => r = [σ.nextFree] ∧ VecCopyOf σ σ' t vs m) := by
  have hts := t.size_pos
  have hts8 := t.size_le
  have hts32 : t.size < 4294967296 := by omega
  have hfitr := hfit.1.1
  simp only [Mv.Rep] at hr
  obtain ⟨vs', hvs, g1, g2, g3, g4⟩ := hr
  injection hvs with hvs
  subst hvs
  have gb := g3.lt hR (by omega)
  have b1 := hσ.alloc.nextFree_le
  have b2 := hσ.alloc.size_lt
  have hcs : copyCap vs.length m ≤ copyCap vs.length m * t.size := Nat.le_mul_of_pos_right _ hts
  have hlc : vs.length ≤ copyCap vs.length m := by
    unfold copyCap; split
    · omega
    · exact Nat.le_mul_of_pos_right _ hm
  have hcost : vecCost t vs m = 8 + copyCap vs.length m * t.size + (vs.map fun v => cost t v).sum := rfl
  -- the capacity
  have hcapN : vs.length ≠ 0 → copyCap vs.length m = vs.length * m := fun h => if_neg h
  have hcapZ : vs.length = 0 → copyCap vs.length m = 1 := fun h => if_pos h
  generalize hcap : copyCap vs.length m = cap at *
  -- after the capacity has been computed
  have main : ∀ l : List Nat, l.length = 8 + nlP t → lget l 0 = w → lget l 4 = vs.length →
      wp (code[allocVec.call, Op.lset 2,
       Op.c32 0, Op.lset 3,
       .block 0
         code[Op.lget 4, Op.un .eqz, .brIf 0,
          .loop 0
            (vecElemPtr 2 3 t.size ++ vecElemPtr 0 3 t.size ++ elemCopy t (copyP E t 8) ++
             code[Op.store (copyStore t) 0,
              Op.lget 3, Op.c32 1, Op.bin .w32 .add, Op.ltee 3, Op.lget 4, Op.bin .w32 .ltU, .brIf 0])],
       Op.lget 2]) [t.size, cap, vs.length] l σ
        (retK (vecCopy E t).nr (fun r σ' => r = [σ.nextFree] ∧ VecCopyOf σ σ' t vs m)) := by
    intro l hl0 hlw hln
    refine wp_call3 (allocVec_spec hσ hlc (hfit.1.mono (by omega))) ?_
    rintro r σ1 ⟨rfl, x1, n1, m1⟩
    have s1 := x1.alloc.nextFree_le
    have s2 := x1.alloc.size_lt
    have hlen1 : leNat σ1.mem σ.nextFree 4 = vs.length := by
      rw [m1, leNat_putLe_disj (by omega), leNat_putLe_same, Nat.mod_eq_of_lt (by omega)]
    have hcap1 : leNat σ1.mem (σ.nextFree + 4) 4 = cap := by
      rw [m1, leNat_putLe_same, Nat.mod_eq_of_lt (by omega)]
    wstep
    rw [hln]
    refine .intro (fun h0 => ?_) (fun h0 => ?_)
    · have : vs = [] := List.length_eq_zero_iff.mp h0
      subst this
      have hcap' := hcap
      simp only [List.length_nil] at hcap'
      refine ⟨rfl, x1, by rw [n1, hcost]; simp, ?_⟩
      simp only [List.length_nil, hcap']
      exact ⟨hlen1, hcap1, by simp, fun i hi => absurd hi (by simp)⟩
    · refine wp_loop (fun k l σ' => ∃ i, k + i + 1 = vs.length ∧ l.length = 8 + nlP t ∧
        lget l 0 = w ∧ lget l 2 = σ.nextFree ∧ lget l 3 = i ∧ lget l 4 = vs.length ∧
        Extends σ σ' ∧
        σ'.nextFree = σ.nextFree + (8 + cap * t.size) + ((vs.take i).map (fun v => cost t v)).sum ∧
        leNat σ'.mem σ.nextFree 4 = vs.length ∧ leNat σ'.mem (σ.nextFree + 4) 4 = cap ∧
        (∀ j (hj : j < vs.length), j < i → Mv.Rep σ'.mem (Between (σ.nextFree + (8 + cap * t.size)) σ'.nextFree) t
          vs[j] (leNat σ'.mem (σ.nextFree + 8 + j * t.size) t.size)))
        (vs.length - 1) ⟨0, by omega, by simp only [lset_length]; exact hl0, ?_, ?_, ?_, ?_, x1, by rw [n1]; simp, hlen1, hcap1,
          fun j _ hj => absurd hj (by omega)⟩ ?_
      · rw [lget_lset_ne (by omega), lget_lset_ne (by omega), hlw]
      · rw [lget_lset_ne (by omega), lget_lset_same (by omega)]
      · rw [lget_lset_same (by rw [lset_length]; omega)]
      · rw [lget_lset_ne (by omega), lget_lset_ne (by omega), hln]
      rintro k l σ2 ⟨i, hi, hl2, e0, e2, e3, e4, x2, n2, hlen2, hcap2, hrep2⟩
      have hiv : i < vs.length := by omega
      have hi1 : (i + 1) * t.size ≤ cap * t.size := Nat.mul_le_mul_right _ (by omega)
      have hi1' : (i + 1) * t.size ≤ leNat σ.mem (w + 4) 4 * t.size := Nat.mul_le_mul_right _ (by omega)
      have e5 : (i + 1) * t.size = i * t.size + t.size := Nat.succ_mul _ _
      have hh2 := x2.heap hσ
      have s3 := hh2.alloc.nextFree_le
      have s4 := hh2.alloc.size_lt
      have hmap : (vs.map (fun v => cost t v)).sum = ((vs.take i).map (fun v => cost t v)).sum + (cost t vs[i] +
          ((vs.drop (i + 1)).map (fun v => cost t v)).sum) := by
        conv_lhs => rw [← List.take_append_drop i vs, List.drop_eq_getElem_cons hiv]
        rw [List.map_append, List.sum_append, List.map_cons, List.sum_cons]
      have htake : ((vs.take (i + 1)).map (fun v => cost t v)).sum =
          ((vs.take i).map (fun v => cost t v)).sum + cost t vs[i] := by
        rw [List.take_succ_eq_append_getElem hiv, List.map_append, List.sum_append]; simp
      have hx2 := x2.nextFree
      have hpre : CopyPre σ2 R t vs[i] (leNat σ2.mem (w + 8 + i * t.size) t.size) := by
        refine ⟨hh2, ?_, fun x hx => Nat.lt_of_lt_of_le (hR x hx) hx2, ?_⟩
        · refine hfit.after (k := 8 + cap * t.size + ((vs.take i).map (fun v => cost t v)).sum) (by omega)
            (by omega) x2.maxPages x2.size ?_
          intro hsp; simp [Ty.spills, hsp]
        · rw [x2.leNat (by omega)]
          exact Rep.change (fun x hx => x2.mem x (hR x hx)) (fun _ h => h) t (g4 i hiv)
      unfold vecElemPtr skipVecHeader
      simp only [List.cons_append, List.nil_append]
      wstep
      rw [e0, e2, e3]
      wstep
      refine wp_elemCopy ht (a := w + 8 + i * t.size) (by omega) hpre (by omega) ?_
      intro σ3 w' l3 hc hl3 hloc
      have n3 := hc.nextFree
      have x3 := x2.trans hc.ext
      have hh3 := x3.heap hσ
      have s5 := hh3.alloc.nextFree_le
      have s6 := hh3.alloc.size_lt
      have hcl := copyStore_le t
      -- the store of the element fits
      have hst : σ.nextFree + 8 + i * t.size + copyStore t ≤ σ3.size := by
        rcases copyStore_spill t with h | ⟨h, _, h'⟩
        · omega
        · have := hfit.2 (by simp [Ty.spills, h])
          have := x3.size
          omega
      -- bytes above the element are zero
      have hzero : ∀ x, σ.nextFree + 8 + i * t.size + t.size ≤ x → x < σ.nextFree + 8 + i * t.size + copyStore t →
          putLe σ3.mem (σ.nextFree + 8 + i * t.size) (copyStore t) w' x = 0 := by
        intro x h1 h2
        rw [putLe_in (by omega) h2, Nat.div_eq_of_lt]
        · rfl
        · exact Nat.lt_of_lt_of_le hc.lt (Nat.pow_le_pow_right (by omega) (by omega))
      have hlow : ∀ x, x < σ.nextFree + 8 + i * t.size →
          putLe σ3.mem (σ.nextFree + 8 + i * t.size) (copyStore t) w' x = σ2.mem x := by
        intro x hx
        rw [putLe_out (by omega)]
        exact hc.ext.mem x (by omega)
      have hx4 : Extends σ (σ3.setMem (putLe σ3.mem (σ.nextFree + 8 + i * t.size) (copyStore t) w')) := by
        refine ⟨x3.nextFree, x3.size, ?_, ?_, x3.alloc.setMem, x3.maxPages, x3.reader, x3.host⟩
        · intro x hx
          rw [setMem_mem, hlow x (by omega), x2.mem x hx]
        · intro x hx
          replace hx : σ3.nextFree ≤ x := hx
          rw [setMem_mem]
          by_cases hx' : x < σ.nextFree + 8 + i * t.size + copyStore t
          · exact hzero x (by omega) hx'
          · rw [putLe_out (by omega), x3.fresh x hx]
      have hlen4 : leNat (putLe σ3.mem (σ.nextFree + 8 + i * t.size) (copyStore t) w') σ.nextFree 4 = vs.length := by
        rw [← hlen2]; exact leNat_congr fun x _ h => hlow x (by omega)
      have hcap4 : leNat (putLe σ3.mem (σ.nextFree + 8 + i * t.size) (copyStore t) w') (σ.nextFree + 4) 4 = cap := by
        rw [← hcap2]; exact leNat_congr fun x _ h => hlow x (by omega)
      have hel : leNat (putLe σ3.mem (σ.nextFree + 8 + i * t.size) (copyStore t) w') (σ.nextFree + 8 + i * t.size) t.size
          = w' := by
        have := leNat_putLe_in (f := σ3.mem) (a := σ.nextFree + 8 + i * t.size) (n := copyStore t) (v := w')
          (b := σ.nextFree + 8 + i * t.size) (m := t.size) (by omega) (by omega)
        rw [this, Nat.sub_self, Nat.pow_zero, Nat.div_one, Nat.mod_eq_of_lt hc.lt]
      have hrep4 : ∀ j (hj : j < vs.length), j < i + 1 →
          Mv.Rep (putLe σ3.mem (σ.nextFree + 8 + i * t.size) (copyStore t) w')
            (Between (σ.nextFree + (8 + cap * t.size)) σ3.nextFree) t vs[j]
            (leNat (putLe σ3.mem (σ.nextFree + 8 + i * t.size) (copyStore t) w') (σ.nextFree + 8 + j * t.size) t.size) := by
        intro j hj hji
        have hnew : t.scalar = false → ∀ x, σ.nextFree + (8 + cap * t.size) ≤ x →
            putLe σ3.mem (σ.nextFree + 8 + i * t.size) (copyStore t) w' x = σ3.mem x := by
          intro hs x hx
          rcases copyStore_spill t with h | ⟨_, h, _⟩
          · exact putLe_out (by omega)
          · rw [h] at hs; exact absurd hs (by simp)
        by_cases hje : j = i
        · subst hje
          rw [hel]
          by_cases hs : t.scalar = true
          · exact (hc.rep.scalar hs).2.2 _ _
          · refine Rep.change (fun x hx => ?_) (fun x hx => ⟨by have := hx.1; omega, hx.2⟩) t hc.rep
            exact hnew (by simpa using hs) x (by have := hx.1; omega)
        · have hj1 : (j + 1) * t.size ≤ i * t.size := Nat.mul_le_mul_right _ (by omega)
          have hj2 : (j + 1) * t.size = j * t.size + t.size := Nat.succ_mul _ _
          rw [leNat_congr (g := σ2.mem) fun x _ h => hlow x (by omega)]
          have hold := hrep2 j hj (by omega)
          by_cases hs : t.scalar = true
          · exact (hold.scalar hs).2.2 _ _
          · refine Rep.change (fun x hx => ?_) (fun x hx => ⟨hx.1, by have := hx.2; omega⟩) t hold
            rw [hnew (by simpa using hs) x hx.1]
            exact hc.ext.mem x hx.2
      wstep
      rw [hloc 3 (by omega), hloc 4 (by omega), e3, e4]
      wstep
      refine .intro (fun hlt => ?_) (fun hlt => ?_)
      · refine ⟨k - 1, by omega, i + 1, by omega, by rw [lset_length]; omega, ?_, ?_, rfl, hx4, ?_, hlen4, hcap4, hrep4⟩
        · rw [hloc 0 (by omega), e0]
        · rw [hloc 2 (by omega), e2]
        · rw [htake]; omega
      · have hlast : i + 1 = vs.length := by omega
        rw [hloc 2 (by omega), e2]
        refine ⟨rfl, hx4, ?_, ?_⟩
        · show σ3.nextFree = _; rw [hcost, n3, n2, hmap, List.drop_eq_nil_of_le (by omega)]; simp; omega
        · rw [hcap]
          exact ⟨hlen4, hcap4, hlc, fun j hj => hrep4 j hj (by omega)⟩
  refine ⟨rfl, ?_⟩
  show wp (vecCopyF t (copyP E t 8) (nlP t)).body [] ([w, m] ++ List.replicate (6 + nlP t) 0) σ _
  have hrepl : List.replicate (6 + nlP t) 0 = [0, 0, 0, 0, 0, 0] ++ List.replicate (nlP t) 0 := by
    rw [List.replicate_add]; rfl
  rw [hrepl]
  simp only [vecCopyF, List.cons_append, List.nil_append]
  wstep
  rw [g1]
  refine .intro (fun h0 => ?_) (fun h0 => ?_)
  · obtain rfl := hcapZ h0
    refine main _ ?_ ?_ ?_
    · simp only [List.length_cons, List.length_replicate]; omega
    · rfl
    · rfl
  · have := hcapN h0
    have hlm : vs.length * m < 4294967296 := by rw [← this]; omega
    rw [Nat.mod_eq_of_lt hlm]
    subst this
    refine main _ ?_ ?_ ?_
    · simp only [List.length_cons, List.length_replicate]; omega
    · rfl
    · rfl

theorem copyVecP_ok {t : Ty} (ht : t.scalar = false → CopyOk E t) : CopyOk E (.vec t) := by
  intro σ R v w k s l is Q hp hl h
  obtain ⟨vs, rfl, _, _⟩ := vecAt_of_rep hp.rep
  have hcost : cost (.vec t) (.vec vs) = vecCost t vs 1 := by simp only [cost, vecCost]
  have hfit := hp.fit
  rw [hcost] at hfit
  simp only [copyP]
  wstep
  refine wp_call2 (vecCopy_spec ht hp.heap (by omega) (by omega) hfit hp.below hp.rep) ?_
  rintro r σ' ⟨rfl, hc⟩
  have := hc.ext.alloc.size_lt
  have h1 := hc.ext.alloc.nextFree_le
  have h2 := hc.nextFree
  unfold vecCost at h2
  refine h σ' _ l ⟨hc.ext, by rw [hcost]; exact hc.nextFree, hc.at_.rep (fun x hx => ⟨hx.1, ?_⟩)
    (fun x hx => ⟨?_, hx.2⟩), by show _ < 256 ^ 4; omega⟩ rfl (fun _ _ => rfl)
  · have := hx.2; omega
  · have := hx.1; omega

end Rt
