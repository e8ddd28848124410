import Verif.Proof.VecOps3

/-! Vectors that have moved. -/

namespace Rt
open Wasm Mv

variable {σ σ' : Store} {E : ErrPtrs} {t : Ty} {R : Nat → Prop} {vs : List Val} {v v' : Val} {cap p r w : Nat}

/-- From the block at `a` a chain of `n` forwarding headers, each at a higher address than the one before, leads to
the block at `b`; the headers satisfy `P`. -/
inductive Fwd (f : Bytes) (P : Nat → Prop) (b : Nat) : Nat → Nat → Prop
  | done : leNat f b 4 ≠ deadBeef → Fwd f P b 0 b
  | step {n a : Nat} : P a → a + 8 ≤ b → leNat f a 4 = deadBeef → Fwd f P b n (leNat f (a + 4) 4) → Fwd f P b (n + 1) a

theorem Fwd.congr {f g : Bytes} {P P' : Nat → Prop} {a b n : Nat} (h : Fwd f P b n a)
    (hg : ∀ x, x ≤ b → (x = b ∨ (P x ∧ x + 8 ≤ b)) → leNat g x 4 = leNat f x 4 ∧ leNat g (x + 4) 4 = leNat f (x + 4) 4)
    (hP : ∀ x, P x → x + 8 ≤ b → P' x) : Fwd g P' b n a := by
  induction h with
  | done h => exact .done (by rw [(hg b (Nat.le_refl _) (.inl rfl)).1]; exact h)
  | step h1 h2 h3 h4 ih =>
    have := hg _ (by omega) (.inr ⟨h1, h2⟩)
    exact .step (hP _ h1 h2) h2 (by rw [this.1]; exact h3) (by rw [this.2]; exact ih)

/-- Extending a chain: the last block now forwards to `c`. -/
theorem Fwd.extend {f g : Bytes} {P P' : Nat → Prop} {a b c n : Nat} (h : Fwd f P b n a) (hbc : b + 8 ≤ c)
    (hg : ∀ x, P x → x + 8 ≤ b → leNat g x 4 = leNat f x 4 ∧ leNat g (x + 4) 4 = leNat f (x + 4) 4)
    (hP : ∀ x, P x → x + 8 ≤ b → P' x) (hb : P' b) (h1 : leNat g b 4 = deadBeef) (h2 : leNat g (b + 4) 4 = c)
    (h3 : leNat g c 4 ≠ deadBeef) : Fwd g P' c (n + 1) a := by
  induction h with
  | done h => exact .step hb hbc h1 (by rw [h2]; exact .done h3)
  | step k1 k2 k3 k4 ih =>
    have := hg _ k1 k2
    exact .step (hP _ k1 k2) (by omega) (by rw [this.1]; exact k3) (by rw [this.2]; exact ih)

/-- `vec_update_mut_ref_function`: the cell at `r` is made to designate the end of the chain. -/
theorem vecUpdateRef_spec {a b n : Nat} (hs : σ.size < 2 ^ 32) (hr : r + 4 ≤ σ.size) (hb : b + 8 ≤ σ.size)
    (hbr : r + 4 ≤ b ∨ b + 8 ≤ r)
    (h : Fwd σ.mem (fun x => r + 4 ≤ x ∨ x + 8 ≤ r) b n a) (ha : leNat σ.mem r 4 = a) :
    vecUpdateRef.Calls [r] σ (fun res σ' => res = [] ∧ σ' = σ.setMem (putLe σ.mem r 4 b)) := by
  have hb32 : b < 2 ^ 32 := by omega
  refine ⟨rfl, ?_⟩
  unfold vecUpdateRef
  refine wp_loop (fun m l σ' => ∃ a', Fwd σ.mem (fun x => r + 4 ≤ x ∨ x + 8 ≤ r) b m a' ∧ l = [r] ∧
    σ' = σ.setMem (putLe σ.mem r 4 a')) n ⟨a, h, rfl, ?_⟩ ?_
  · rw [← ha, putLe_self]; rfl
  · rintro m l σ' ⟨a', h', rfl, rfl⟩
    have ha' : a' + 8 ≤ σ.size ∧ (r + 4 ≤ a' ∨ a' + 8 ≤ r) := by
      cases h' with
      | done _ => exact ⟨hb, hbr⟩
      | step k1 k2 k3 k4 => exact ⟨by omega, k1⟩
    have e1 : leNat (putLe σ.mem r 4 a') r 4 = a' := by rw [leNat_putLe_same, Nat.mod_eq_of_lt (by omega)]
    have e2 : leNat (putLe σ.mem r 4 a') a' 4 = leNat σ.mem a' 4 := leNat_putLe_disj (by omega)
    have e3 : leNat (putLe σ.mem r 4 a') (a' + 4) 4 = leNat σ.mem (a' + 4) 4 := leNat_putLe_disj (by omega)
    wstep
    rw [e1, e2]
    have hdb : deadBeef % 4294967296 = deadBeef := by decide
    rw [hdb, e3]
    refine .intro (fun hd => ?_) (fun hd => ?_)
    · cases h' with
      | done k => exact absurd hd k
      | step k1 k2 k3 k4 =>
        refine ⟨_, Nat.lt_succ_self _, _, k4, ?_⟩
        congr 1
        funext x
        by_cases hx : r ≤ x ∧ x < r + 4
        · rw [putLe_in hx.1 hx.2, putLe_in hx.1 hx.2]
        · rw [putLe_out (by omega), putLe_out (by omega), putLe_out (by omega)]
    · cases h' with
      | done k => rfl
      | step k1 k2 k3 k4 => exact absurd k3 hd

/-- The cell at `r` designates a vector, as `VecRef` says, and the cell at `r'` still holds the address `a` of an old
block of the same vector, from which forwarding headers lead to the present one. -/
structure Tracks (σ : Store) (R : Nat → Prop) (t : Ty) (vs : List Val) (cap p r a r' : Nat) : Prop where
  ref : VecRef σ R t vs cap p r
  cell : leNat σ.mem r' 4 = a
  cellLow : reserved ≤ r'
  cellIn : r' + 4 ≤ σ.nextFree
  apart : r' + 4 ≤ p ∨ p + (8 + cap * t.size) ≤ r'
  cells : r + 4 ≤ r' ∨ r' + 4 ≤ r
  sep : ∀ x, R x → ¬ Between r' (r' + 4) x
  chain : ∃ n, Fwd σ.mem (fun x => (r + 4 ≤ x ∨ x + 8 ≤ r) ∧ (r' + 4 ≤ x ∨ x + 8 ≤ r')) p n a

/-- A second reference to the same vector. -/
theorem Tracks.start {r' : Nat} (h : VecRef σ R t vs cap p r) (hc : leNat σ.mem r' 4 = p) (h1 : reserved ≤ r') (h2 : r' + 4 ≤ σ.nextFree)
    (h3 : r' + 4 ≤ p ∨ p + (8 + cap * t.size) ≤ r') (h4 : r + 4 ≤ r' ∨ r' + 4 ≤ r) (h5 : ∀ x, R x → ¬ Between r' (r' + 4) x)
    (hd : vs.length ≠ deadBeef) : Tracks σ R t vs cap p r p r' :=
  ⟨h, hc, h1, h2, h3, h4, h5, 0, .done (by rw [h.at_.len]; exact hd)⟩

/-- Operations on the vector that do not move it. -/
theorem Tracks.alter {vs' : List Val} {a r' : Nat} (h : Tracks σ R t vs cap p r a r') (ha : Alters (vecBlock t cap p) σ σ')
    (hr : VecRef σ' R t vs' cap p r) (hd : vs'.length ≠ deadBeef) : Tracks σ' R t vs' cap p r a r' := by
  have g1 := h.ref.inside
  have g2 := h.apart
  have g3 := h.cellIn
  have g4 := ha.nextFree
  refine ⟨hr, ?_, h.cellLow, by omega, h.apart, h.cells, h.sep, ?_⟩
  · rw [ha.leNat g3 fun x k1 k2 hx => ?_]
    · exact h.cell
    · obtain ⟨l1, l2⟩ := hx; omega
  · obtain ⟨n, hn⟩ := h.chain
    have key : ∀ x, x + 8 ≤ p → leNat σ'.mem x 4 = leNat σ.mem x 4 ∧ leNat σ'.mem (x + 4) 4 = leNat σ.mem (x + 4) 4 := by
      intro x hx
      exact ⟨ha.leNat (by omega) fun y k1 k2 hy => by have := hy.1; omega,
        ha.leNat (by omega) fun y k1 k2 hy => by have := hy.1; omega⟩
    have hl := hr.at_.len
    rw [← hl] at hd
    refine ⟨n, ?_⟩
    clear * - hn key hd
    induction hn with
    | done _ => exact .done hd
    | step k1 k2 k3 k4 ih => exact .step k1 k2 (by rw [(key _ k2).1]; exact k3) (by rw [(key _ k2).2]; exact ih)

/-- Appending: the other reference still leads to the vector. -/
theorem Tracks.push {a r' : Nat} (hσ : Heap σ) (h : Tracks σ R t vs cap p r a r') (hv : Mv.Rep σ.mem R t v w) (hw : w < 256 ^ t.size)
    (hfit : vs.length = cap → Fit σ (Ty.vec t).spills (vecCost t vs 2)) (hd : vs.length + 1 ≠ deadBeef) :
    (vecPush E t).Calls [r, w] σ (fun res σ' => res = [] ∧ Heap σ' ∧ ∃ R' cap' p', Tracks σ' R' t (vs ++ [v]) cap' p' r a r') := by
  have hle := h.ref.at_.le
  by_cases hfull : vs.length < cap
  · refine (vecPush_inplace hσ h.ref hv hw hfull).mono ?_
    rintro _ σ' ⟨rfl, k1, k2, k3⟩
    refine ⟨rfl, k1.heap hσ fun x hx => ?_, R, cap, p, h.alter k1 k3 (by simpa using hd)⟩
    have := hx.1; have := h.ref.low; unfold reserved at this; omega
  · have hfull : vs.length = cap := by omega
    refine (vecPush_grow hσ h.ref hv hw hfull (hfit hfull)).mono ?_
    rintro _ σ' ⟨rfl, k1, k2, k3, k4, k5⟩
    refine ⟨rfl, k1.heap hσ fun x hx => ?_, _, _, _, k5, ?_, h.cellLow, ?_, ?_, h.cells, ?_, ?_⟩
    · have k1 := h.ref.low
      have k2 := h.ref.cellLow
      unfold reserved at k1 k2
      rcases hx with ⟨a, b⟩ | ⟨a, b⟩ <;> omega
    · have := h.apart
      have := h.cells
      rw [k1.leNat h.cellIn fun x l1 l2 hx => ?_]
      · exact h.cell
      · rcases hx with ⟨m1, m2⟩ | ⟨m1, m2⟩
        · omega
        · omega
    · have := k1.nextFree; have := h.cellIn; omega
    · exact .inl h.cellIn
    · rintro x (hx | hx) hb
      · exact h.sep x hx hb
      · have := hx.1; have := hb.2; have := h.cellIn; omega
    · obtain ⟨n, hn⟩ := h.chain
      have g1 := h.ref.inside
      refine ⟨n + 1, hn.extend (by omega) ?_ (fun _ h _ => h) ?_ k2 k3 ?_⟩
      · rintro x ⟨l1, l2⟩ l3
        exact ⟨k1.leNat (by omega) fun y m1 m2 hy => by rcases hy with ⟨n1, n2⟩ | ⟨n1, n2⟩ <;> omega,
          k1.leNat (by omega) fun y m1 m2 hy => by rcases hy with ⟨n1, n2⟩ | ⟨n1, n2⟩ <;> omega⟩
      · have := h.apart; have := h.ref.apart; omega
      · rw [k5.at_.len]; simpa using hd

/-- Following the chain makes the other reference designate the vector too. -/
theorem Tracks.update {a r' : Nat} (hσ : Heap σ) (h : Tracks σ R t vs cap p r a r') :
    vecUpdateRef.Calls [r'] σ (fun res σ' => res = [] ∧ Alters (Between r' (r' + 4)) σ σ' ∧ σ'.nextFree = σ.nextFree ∧
      VecRef σ' R t vs cap p r' ∧ VecRef σ' R t vs cap p r) := by
  have h1 := hσ.alloc.nextFree_le
  have h2 := hσ.alloc.size_lt
  have g1 := h.ref.inside
  have g2 := h.cellIn
  have g3 := h.apart
  have g4 := h.cells
  have hp := t.size_pos
  have hle := h.ref.at_.le
  obtain ⟨n, hn⟩ := h.chain
  refine (vecUpdateRef_spec (b := p) h2 (by omega) (by omega) (by omega)
    (hn.congr (fun _ _ _ => ⟨rfl, rfl⟩) (fun _ h _ => h.2)) h.cell).mono ?_
  rintro _ σ' ⟨rfl, rfl⟩
  have hat : VecAt (putLe σ.mem r' 4 p) R t vs cap p := by
    refine h.ref.at_.change (fun x hx => putLe_out (by have := not_between (h.sep x hx); omega)) (fun _ h => h) ?_ ?_ hle fun i hi => ?_
    · rw [leNat_putLe_disj (by omega)]; exact h.ref.at_.len
    · rw [leNat_putLe_disj (by omega)]
    · have := slot_le (t := t) (show i < cap by omega)
      rw [leNat_putLe_disj (by omega)]; exact h.ref.at_.elems i hi
  refine ⟨rfl, hσ.refl.alters.write (fun x _ hx => putLe_out (by have := not_between hx; omega)) fun x hx => ?_, rfl, ?_, ?_⟩
  · rw [putLe_out (by omega)]; exact hσ.fresh x hx
  · exact ⟨by rw [setMem_mem, leNat_putLe_same, Nat.mod_eq_of_lt (by omega)], h.cellLow, g2, h.ref.low, g1, g3, hat, h.ref.below,
      fun x hx => ⟨(h.ref.sep x hx).1, h.sep x hx⟩⟩
  · exact ⟨by rw [setMem_mem, leNat_putLe_disj (by omega)]; exact h.ref.cell, h.ref.cellLow, h.ref.cellIn, h.ref.low, g1, h.ref.apart,
      hat, h.ref.below, h.ref.sep⟩

end Rt
