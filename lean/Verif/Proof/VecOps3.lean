import Verif.Proof.VecOps2

/-! References: reading, writing, borrowing elements; forwarded vectors. -/

namespace Rt
open Wasm Mv

variable {σ σ' : Store} {E : ErrPtrs} {t : Ty} {R : Nat → Prop} {vs : List Val} {v v' : Val} {cap p r w : Nat}

/-- The reference `r` designates the value `v` of type `t`. -/
structure RefTo (f : Bytes) (R : Nat → Prop) (t : Ty) (v : Val) (r : Nat) : Prop where
  cell : Within R r 4
  own : t.scalar = true → Within R (leNat f r 4) t.size
  rep : Mv.Rep f R t v (if t.scalar then leNat f (leNat f r 4) t.size else leNat f r 4)

/-- The bytes a write through the reference `r` changes. -/
def Place (f : Bytes) (t : Ty) (r : Nat) : Nat → Prop :=
  match t with
  | .bool | .u8 | .u16 | .u32 | .u64 => Between (leNat f r 4) (leNat f r 4 + t.size)
  | .u128 => Between (leNat f r 4) (leNat f r 4 + 16)
  | .u256 | .address => Between (leNat f r 4) (leNat f r 4 + 32)
  | _ => Between r (r + 4)

theorem within_lt {a n m : Nat} (h : Within R a n) (hR : ∀ x, R x → x < m) (hn : 0 < n) : a + n ≤ m := by
  have := hR _ (h (a + n - 1) (by omega) (by omega)); omega

/-- Reading through a reference yields a copy. -/
theorem readRef_spec (hσ : Heap σ) (hfit : Fit σ t.spills (cost t v)) (hR : ∀ x, R x → x < σ.nextFree)
    (hr : RefTo σ.mem R t v r) :
    (readRef E t).Calls [r] σ (fun res σ' => ∃ w, res = [w] ∧ CopyOf σ σ' t v w) := by
  have h1 := hσ.alloc.nextFree_le
  have h2 := hσ.alloc.size_lt
  have hc := within_lt hr.cell hR (by omega)
  have hp := t.size_pos
  refine ⟨rfl, ?_⟩
  unfold readRef
  simp only [List.cons_append, List.nil_append]
  wstep
  have hrep := hr.rep
  by_cases ht : t.scalar = true
  · have ho := within_lt (hr.own ht) hR hp
    rw [if_pos ht] at hrep ⊢
    wstep
    refine ⟨_, rfl, hσ.refl, by rw [cost_scalar ht]; rfl, ?_, leNat_lt _ _ _⟩
    exact (hrep.scalar ht).2.2 _ _
  · rw [if_neg ht] at hrep ⊢
    have hk := copyP_ok E t (by simpa using ht) σ R v (leNat σ.mem r 4) 1 [] (r :: List.replicate (nlP t) 0) []
      (retK 1 (fun res σ' => ∃ w, res = [w] ∧ CopyOf σ σ' t v w)) ⟨hσ, hfit, hR, hrep⟩ (by simp; omega) ?_
    · simpa using hk
    · intro σ' w' l' hc _ _
      wstep
      exact ⟨w', rfl, hc⟩

theorem copyBytes_step {f : Bytes} {d w n N : Nat} (hd : d + N ≤ w ∨ w + N ≤ d) (hn : n + 8 ≤ N) :
    putLe (copyBytes f d w n) (d + n) 8 (leNat (copyBytes f d w n) (w + n) 8) = copyBytes f d w (n + 8) := by
  rw [leNat_copyBytes_disj (by omega)]
  funext x
  by_cases h1 : d + n ≤ x ∧ x < d + n + 8
  · have := leNat_inj (f := putLe (copyBytes f d w n) (d + n) 8 (leNat f (w + n) 8)) (g := f) (a := d + n) (b := w + n) (n := 8)
      (by rw [leNat_putLe_same, Nat.mod_eq_of_lt (leNat_lt _ _ _)]) (x - (d + n)) (by omega)
    rw [show d + n + (x - (d + n)) = x by omega] at this
    rw [this, copyBytes_in (by omega) (by omega)]
    congr 1; omega
  · rw [putLe_out (by omega)]
    unfold copyBytes
    by_cases h2 : d ≤ x ∧ x < d + n
    · rw [if_pos h2, if_pos (by omega)]
    · rw [if_neg h2, if_neg (by omega)]

theorem wp_writeChunk {m : Bytes} {d n N k : Nat} {l is s Q} (hs : σ.size < 2 ^ 32) (hd : d + N ≤ w ∨ w + N ≤ d) (hn : n + 8 ≤ N)
    (h1 : d + N ≤ σ.size) (h2 : w + N ≤ σ.size) (hl : lget l (k + 1) = d) (hl' : lget l k = w)
    (h : wp is s l (σ.setMem (copyBytes m d w (n + 8))) Q) :
    wp (writeChunk k n ++ is) s l (σ.setMem (copyBytes m d w n)) Q := by
  unfold writeChunk
  simp only [List.cons_append, List.nil_append]
  wstep
  rw [hl, hl']
  rwa [copyBytes_step hd hn]

/-- What a write through a reference needs: the new value `v'`, given by `w`, lives in `S`, apart from what is
overwritten, and what is overwritten is not the reference itself. -/
structure WritePre (σ : Store) (R S : Nat → Prop) (t : Ty) (v v' : Val) (w r : Nat) : Prop where
  heap : Heap σ
  ref : RefTo σ.mem R t v r
  rep : Mv.Rep σ.mem S t v' w
  lt : w < 256 ^ t.size
  below : ∀ x, R x ∨ S x → x < σ.nextFree
  apart : ∀ x, Place σ.mem t r x → ¬ S x
  cell : (t.scalar = true ∨ t = .u128 ∨ t = .u256 ∨ t = .address) → ∀ x, Place σ.mem t r x → ¬ Between r (r + 4) x

/-- The value of type `t` is a wide number, written in place. -/
def Wide (t : Ty) : Prop := t = .u128 ∨ t = .u256 ∨ t = .address

/-- What a write through a reference achieves: the reference designates the new value, and only its place changes. -/
structure Written (σ σ' : Store) (R S : Nat → Prop) (t : Ty) (v' : Val) (r : Nat) : Prop where
  alters : Alters (Place σ.mem t r) σ σ'
  nextFree : σ'.nextFree = σ.nextFree
  ref : RefTo σ'.mem (fun x => R x ∨ S x) t v' r
  rep : Mv.Rep σ'.mem (fun x => S x ∨ Wide t ∧ Place σ.mem t r x) t v'
    (if t.scalar then leNat σ'.mem (leNat σ'.mem r 4) t.size else leNat σ'.mem r 4)

theorem between_disj {a b c d : Nat} (h : ∀ x, Between a b x → ¬ Between c d x) (h1 : a < b) (h2 : c < d) : b ≤ c ∨ d ≤ a := by
  by_cases hac : a ≤ c
  · refine .inl (Nat.le_of_not_lt fun hh => h c ⟨hac, hh⟩ ⟨Nat.le_refl _, h2⟩)
  · refine .inr (Nat.le_of_not_lt fun hh => h a ⟨Nat.le_refl _, h1⟩ ⟨by omega, hh⟩)

theorem within_disj {S : Nat → Prop} {a b c n : Nat} (h : ∀ x, Between a b x → ¬ S x) (hS : Within S c n) (h1 : a < b) (h2 : 0 < n) :
    b ≤ c ∨ c + n ≤ a :=
  between_disj (d := c + n) (fun x hx hx' => h x hx (hS x hx'.1 hx'.2)) h1 (by omega)

theorem writeRef_wide {R S : Nat → Prop} {n : Nat} (ht : t = .u128 ∧ n = 16 ∨ t = .u256 ∧ n = 32 ∨ t = .address ∧ n = 32)
    (h : WritePre σ R S t v v' w r) :
    (writeRefF t).Calls [w, r] σ (fun res σ' => res = [] ∧ Written σ σ' R S t v' r) := by
  have h1 := h.heap.alloc.nextFree_le
  have h2 := h.heap.alloc.size_lt
  have hc := within_lt h.ref.cell (fun x hx => h.below x (.inl hx)) (by omega)
  have hw4 : w < 2 ^ 32 := by
    have := h.lt
    rcases ht with ⟨rfl, rfl⟩ | ⟨rfl, rfl⟩ | ⟨rfl, rfl⟩ <;> simpa [Ty.size] using this
  have hpl : Place σ.mem t r = Between (leNat σ.mem r 4) (leNat σ.mem r 4 + n) := by
    rcases ht with ⟨rfl, rfl⟩ | ⟨rfl, rfl⟩ | ⟨rfl, rfl⟩ <;> rfl
  have hsc : t.scalar = false := by rcases ht with ⟨rfl, rfl⟩ | ⟨rfl, rfl⟩ | ⟨rfl, rfl⟩ <;> rfl
  have hin : Within R (leNat σ.mem r 4) n := by
    have := h.ref.rep
    rcases ht with ⟨rfl, rfl⟩ | ⟨rfl, rfl⟩ | ⟨rfl, rfl⟩ <;> simp [Ty.scalar, Mv.Rep] at this <;> exact this.2
  have hsrc : Within S w n := by
    have := h.rep
    rcases ht with ⟨rfl, rfl⟩ | ⟨rfl, rfl⟩ | ⟨rfl, rfl⟩ <;> simp [Mv.Rep] at this <;> exact this.2
  have hn0 : 0 < n := by omega
  have hap := h.apart
  have hce := h.cell (by rcases ht with ⟨rfl, rfl⟩ | ⟨rfl, rfl⟩ | ⟨rfl, rfl⟩ <;> simp)
  rw [hpl] at hap hce
  have hwt : Wide t := by rcases ht with ⟨rfl, rfl⟩ | ⟨rfl, rfl⟩ | ⟨rfl, rfl⟩ <;> simp [Wide]
  generalize hd : leNat σ.mem r 4 = d at *
  have hdn := within_lt hin (fun x hx => h.below x (.inl hx)) hn0
  have hwn := within_lt hsrc (fun x hx => h.below x (.inr hx)) hn0
  have hdis := within_disj hap hsrc (by omega) hn0
  have hdis' := between_disj hce (by omega) (by omega)
  have hend : Written σ (σ.setMem (copyBytes σ.mem d w n)) R S t v' r := by
    have e1 : leNat (copyBytes σ.mem d w n) r 4 = d := by rw [leNat_copyBytes_disj (by omega), hd]
    have hrp : ∀ S' : Nat → Prop, Within S' d n → Mv.Rep (copyBytes σ.mem d w n) S' t v' d := by
      intro S' hS'
      have hrp := h.rep
      have hbe : beNat (copyBytes σ.mem d w n) d n = beNat σ.mem w n := beNat_ext fun i hi => by
        rw [copyBytes_in (by omega) (by omega)]; congr 1; omega
      have hle := leNat_copyBytes_same σ.mem d w n
      rcases ht with ⟨rfl, rfl⟩ | ⟨rfl, rfl⟩ | ⟨rfl, rfl⟩ <;>
        simp only [Mv.Rep, hbe, hle] at hrp ⊢ <;> exact ⟨hrp.1, hS'⟩
    refine ⟨h.heap.refl.alters.write (fun x _ hx => ?_) fun x hx => ?_, rfl, ⟨?_, ?_, ?_⟩, ?_⟩
    · rw [hpl] at hx; exact copyBytes_out (by have := not_between hx; omega)
    · rw [copyBytes_out (by omega)]; exact h.heap.fresh x hx
    · exact h.ref.cell.mono fun _ h => .inl h
    · rw [hsc]; simp
    · rw [hsc, setMem_mem, e1]
      exact hrp _ (hin.mono fun _ h => .inl h)
    · rw [hsc, setMem_mem, e1, hpl]
      exact hrp _ fun x k1 k2 => .inr ⟨hwt, k1, k2⟩
  refine ⟨rfl, ?_⟩
  have hz : σ = σ.setMem (copyBytes σ.mem d w 0) := by
    have : copyBytes σ.mem d w 0 = σ.mem := funext fun x => copyBytes_out (by omega)
    rw [this]; rfl
  unfold writeRefF
  rcases ht with ⟨rfl, rfl⟩ | ⟨rfl, rfl⟩ | ⟨rfl, rfl⟩ <;> simp only [writeRef, List.cons_append, List.nil_append, List.append_assoc] <;> wstep <;>
    rw [hd]
  · conv => arg 4; rw [hz]
    refine wp_writeChunk (N := 16) h2 (by omega) (by omega) (by omega) (by omega) (by simp [lget]) (by simp [lget]) ?_
    refine wp_writeChunk (N := 16) (is := []) h2 (by omega) (by omega) (by omega) (by omega) (by simp [lget]) (by simp [lget]) ?_
    wstep
    exact hend
  all_goals
    conv => arg 4; rw [hz]
    refine wp_writeChunk (N := 32) h2 (by omega) (by omega) (by omega) (by omega) (by simp [lget]) (by simp [lget]) ?_
    refine wp_writeChunk (N := 32) h2 (by omega) (by omega) (by omega) (by omega) (by simp [lget]) (by simp [lget]) ?_
    refine wp_writeChunk (N := 32) h2 (by omega) (by omega) (by omega) (by omega) (by simp [lget]) (by simp [lget]) ?_
    refine wp_writeChunk (N := 32) (is := []) h2 (by omega) (by omega) (by omega) (by omega) (by simp [lget]) (by simp [lget]) ?_
    wstep
    exact hend

theorem writeRef_scalar {R S : Nat → Prop} (ht : t.scalar = true) (h : WritePre σ R S t v v' w r) :
    (writeRefF t).Calls [w, r] σ (fun res σ' => res = [] ∧ Written σ σ' R S t v' r) := by
  have h1 := h.heap.alloc.nextFree_le
  have h2 := h.heap.alloc.size_lt
  have hc := within_lt h.ref.cell (fun x hx => h.below x (.inl hx)) (by omega)
  have hp := t.size_pos
  have hpl : Place σ.mem t r = Between (leNat σ.mem r 4) (leNat σ.mem r 4 + t.size) := by
    cases t <;> simp [Ty.scalar] at ht <;> rfl
  have hco : writeRef t 2 = code[Op.load 4 0] ++ swap 3 2 ++ code[Op.store t.size 0] := by
    cases t <;> simp [Ty.scalar] at ht <;> rfl
  have hce := h.cell (.inl ht)
  have hin := h.ref.own ht
  have hlt := h.lt
  rw [hpl] at hce
  generalize hd : leNat σ.mem r 4 = d at *
  have hdn := within_lt hin (fun x hx => h.below x (.inl hx)) hp
  have hdis := between_disj hce (by omega) (by omega)
  refine ⟨rfl, ?_⟩
  unfold writeRefF
  simp only [hco, swap, List.cons_append, List.nil_append, List.append_assoc]
  wstep
  rw [hd]
  have e1 : leNat (putLe σ.mem d t.size w) r 4 = d := by rw [leNat_putLe_disj (by omega), hd]
  refine ⟨h.heap.refl.alters.write (fun x _ hx => ?_) fun x hx => ?_, rfl, ⟨?_, ?_, ?_⟩, ?_⟩
  · rw [hpl] at hx; exact putLe_out (by have := not_between hx; omega)
  · rw [putLe_out (by omega)]; exact h.heap.fresh x hx
  · exact h.ref.cell.mono fun _ h => .inl h
  · intro _; rw [setMem_mem, e1]; exact hin.mono fun _ h => .inl h
  · rw [if_pos ht, setMem_mem, e1, leNat_putLe_same, Nat.mod_eq_of_lt hlt]
    exact (h.rep.scalar ht).2.2 _ _
  · rw [if_pos ht, setMem_mem, e1, leNat_putLe_same, Nat.mod_eq_of_lt hlt]
    exact (h.rep.scalar ht).2.2 _ _

theorem writeRef_boxed {R S : Nat → Prop} (ht : Place σ.mem t r = Between r (r + 4)) (hs : t.scalar = false)
    (hco : writeRef t 2 = swap 3 2 ++ code[Op.store 4 0])
    (h : WritePre σ R S t v v' w r) :
    (writeRefF t).Calls [w, r] σ (fun res σ' => res = [] ∧ Written σ σ' R S t v' r) := by
  have h1 := h.heap.alloc.nextFree_le
  have h2 := h.heap.alloc.size_lt
  have hc := within_lt h.ref.cell (fun x hx => h.below x (.inl hx)) (by omega)
  have hlt := h.lt
  rw [Ty.size_ptr hs] at hlt
  have hap := h.apart
  rw [ht] at hap
  refine ⟨rfl, ?_⟩
  unfold writeRefF
  simp only [hco, swap, List.cons_append, List.nil_append, List.append_assoc]
  wstep
  have hrp : ∀ S' : Nat → Prop, (∀ x, S x → S' x) → Mv.Rep (putLe σ.mem r 4 w) S' t v' w := by
    refine fun S' hS' => Rep.change (fun x hx => ?_) hS' t h.rep
    rw [putLe_out]
    have := not_between fun hb => hap x hb hx
    omega
  refine ⟨h.heap.refl.alters.write (fun x _ hx => ?_) fun x hx => ?_, rfl, ⟨?_, ?_, ?_⟩, ?_⟩
  · rw [ht] at hx; exact putLe_out (by have := not_between hx; omega)
  · rw [putLe_out (by omega)]; exact h.heap.fresh x hx
  · exact h.ref.cell.mono fun _ h => .inl h
  · rw [hs]; simp
  · rw [hs, setMem_mem, leNat_putLe_same, Nat.mod_eq_of_lt (by omega)]
    exact hrp _ fun _ h => .inr h
  · rw [hs, setMem_mem, leNat_putLe_same, Nat.mod_eq_of_lt (by omega)]
    exact hrp _ fun _ h => .inl h

/-- Writing through a reference: the reference then designates the new value, and nothing else changes. -/
theorem writeRef_spec {R S : Nat → Prop} (h : WritePre σ R S t v v' w r) :
    (writeRefF t).Calls [w, r] σ (fun res σ' => res = [] ∧ Written σ σ' R S t v' r) := by
  cases t with
  | bool | u8 | u16 | u32 | u64 => exact writeRef_scalar rfl h
  | u128 => exact writeRef_wide (.inl ⟨rfl, rfl⟩) h
  | u256 => exact writeRef_wide (.inr (.inl ⟨rfl, rfl⟩)) h
  | address => exact writeRef_wide (.inr (.inr ⟨rfl, rfl⟩)) h
  | vec _ | struct _ | object _ | enum _ => exact writeRef_boxed rfl rfl rfl h

/-! ### Borrowing elements -/

theorem vecBorrow_heap (hσ : Heap σ) (hr : VecRef σ R t vs cap p r) {i : Nat} (hi : i < vs.length) (ht : t.size = 4) :
    (vecBorrow E).Calls [r, i, 1, 4] σ (fun res σ' => res = [p + 8 + i * 4] ∧ σ' = σ) := by
  have h1 := hσ.alloc.nextFree_le
  have h2 := hσ.alloc.size_lt
  have g1 := hr.inside
  have g2 := hr.cellIn
  have g3 := hr.cell
  have g4 := hr.at_.len
  have g5 := hr.at_.le
  rw [ht] at g1
  refine ⟨rfl, ?_⟩
  unfold vecBorrow vecElemPtrDyn skipVecHeader
  unerr
  wstep
  rw [g3, g4]
  wstep

theorem vecBorrow_scalar (hσ : Heap σ) (hroom : Room σ 4) (hr : VecRef σ R t vs cap p r) {i : Nat} (hi : i < vs.length) :
    (vecBorrow E).Calls [r, i, 0, t.size] σ (fun res σ' => res = [σ.nextFree] ∧ Extends σ σ' ∧ σ'.nextFree = σ.nextFree + 4 ∧
      leNat σ'.mem σ.nextFree 4 = p + 8 + i * t.size) := by
  have h1 := hσ.alloc.nextFree_le
  have h2 := hσ.alloc.size_lt
  have g1 := hr.inside
  have g2 := hr.cellIn
  have g3 := hr.cell
  have g4 := hr.at_.len
  have g5 := hr.at_.le
  have hp := t.size_pos
  have hp8 := t.size_le
  have hc1 : cap ≤ cap * t.size := Nat.le_mul_of_pos_right _ hp
  have hsl := slot_le (t := t) (show i < cap by omega)
  refine ⟨rfl, ?_⟩
  unfold vecBorrow vecElemPtrDyn skipVecHeader
  unerr
  wstep
  rw [g3, g4]
  wstep
  refine wp_allocR hσ hroom (Nat.le_refl _) fun σ1 a1 => ?_
  have k1 := a1.inside
  have k2 := a1.nextFree
  have k3 := a1.size
  wstep
  have k4 := a1.heap.alloc.nextFree_le
  refine ⟨a1.extends.write (fun x hx => putLe_out (by omega)) fun x hx => ?_, k2, ?_⟩
  · exact putLe_out (by omega)
  · rw [leNat_putLe_same, Nat.mod_eq_of_lt (by omega)]

theorem vecBorrow_fails (hE : E.Valid) (hσ : Heap σ) (hr : VecRef σ R t vs cap p r) {i b n : Nat} (hi : vs.length ≤ i) (hi' : i < 2 ^ 32) :
    Fails (vecBorrow E) [r, i, b, n] σ (E .outOfBounds) := by
  have h1 := hσ.alloc.nextFree_le
  have h2 := hσ.alloc.size_lt
  have h3 := hσ.ready.size
  have g1 := hr.inside
  have g2 := hr.cellIn
  have g3 := hr.cell
  have g4 := hr.at_.len
  refine ⟨rfl, ?_⟩
  unfold vecBorrow vecElemPtrDyn skipVecHeader
  unerr
  wstep
  rw [g3, g4]
  wstep
  exact ⟨errWord_ptr hE _, by omega⟩

/-- Borrowing an element: the reference designates it. -/
theorem borrow_spec (hσ : Heap σ) (hroom : Room σ 4) (hr : VecRef σ R t vs cap p r) {i : Nat} (hi : i < vs.length) :
    (borrowF E t).Calls [r, i] σ (fun res σ' => ∃ q, res = [q] ∧ Extends σ σ' ∧
      (if t.scalar then q = σ.nextFree ∧ σ'.nextFree = σ.nextFree + 4 ∧ leNat σ'.mem q 4 = p + 8 + i * t.size
        else q = p + 8 + i * t.size ∧ σ' = σ) ∧
      RefTo σ'.mem (fun x => R x ∨ vecBlock t cap p x ∨ Between σ.nextFree σ'.nextFree x) t vs[i] q) := by
  have h1 := hσ.alloc.nextFree_le
  have h2 := hσ.alloc.size_lt
  have h3 := hσ.ready.size
  have g1 := hr.inside
  have g2 := hr.cellIn
  have g3 := hr.cell
  have g4 := hr.at_.len
  have g5 := hr.at_.le
  have hp := t.size_pos
  have hp8 := t.size_le
  have hlow := hr.low
  have hc1 : cap ≤ cap * t.size := Nat.le_mul_of_pos_right _ hp
  have hsl := slot_le (t := t) (show i < cap by omega)
  have hel := hr.at_.elems i hi
  have hcast : Spec.cast 32 i = some i := by unfold Spec.cast; rw [if_pos (by omega)]
  refine ⟨rfl, ?_⟩
  unfold borrowF borrowCode callF
  simp only [List.cons_append, List.nil_append, List.append_assoc]
  wstep
  have hd := downcast64to32_spec (E := E) (a := i) (by omega) h3
  rw [hcast] at hd
  refine wp_callF_ok (args := [i]) (ty := .i32) hd ?_
  rintro _ σ1 ⟨rfl, rfl⟩
  refine ⟨by omega, hσ.ready.noErr, ?_⟩
  wstep
  by_cases ht : t.scalar = true
  · simp only [ht, if_true]
    refine wp_callF_ok (args := [r, i, 0, t.size]) (ty := .i32) (vecBorrow_scalar hσ hroom hr hi) ?_
    rintro _ σ2 ⟨rfl, k1, k2, k3⟩
    have k4 := (k1.heap hσ).ready
    refine ⟨by have := k4.size; omega, k4.noErr, ?_⟩
    wstep
    refine ⟨_, rfl, k1, ⟨rfl, k2, k3⟩, ?_, ?_, ?_⟩
    · exact fun x a b => .inr (.inr ⟨a, by omega⟩)
    · intro _ x a b
      rw [k3] at a b
      exact .inr (.inl ⟨by omega, by omega⟩)
    · rw [if_pos ht, k3, k1.leNat (by omega)]
      exact (hel.scalar ht).2.2 _ _
  · simp only [ht]
    have hs4 := Ty.size_ptr (t := t) (by simpa using ht)
    simp only [hs4] at hel hsl ⊢
    refine wp_callF_ok (args := [r, i, 1, 4]) (ty := .i32) (vecBorrow_heap hσ hr hi hs4) ?_
    rintro _ σ2 ⟨rfl, rfl⟩
    refine ⟨by omega, hσ.ready.noErr, ?_⟩
    wstep
    refine ⟨_, rfl, hσ.refl, rfl, ?_, ?_, ?_⟩
    · intro x a b
      refine .inr (.inl ⟨by omega, ?_⟩)
      rw [hs4]; omega
    · simp [ht]
    · simp only [ht]
      exact Rep.change (fun _ _ => rfl) (fun _ h => .inl h) t hel

/-- Borrowing an element that does not exist. -/
theorem borrow_fails (hE : E.Valid) (hσ : Heap σ) (hr : VecRef σ R t vs cap p r) {i : Nat} (hi : vs.length ≤ i) (hi' : i < 2 ^ 64) :
    Fails (borrowF E t) [r, i] σ (E .outOfBounds) := by
  have h3 := hσ.ready.size
  have hne : E .outOfBounds ≠ 0 := by have := (hE .outOfBounds).1; omega
  refine ⟨rfl, ?_⟩
  unfold borrowF borrowCode callF
  simp only [List.cons_append, List.nil_append, List.append_assoc]
  wstep
  refine wp_callF (args := [i]) (ty := .i32) (downcast_any (E := E) hi' h3) ?_
  rintro _ σ1 ⟨b, rfl, hb, ⟨h1, rfl, rfl⟩ | ⟨h1, rfl⟩⟩
  · refine ⟨by omega, ?_⟩
    rw [IfP.pos hσ.ready.noErr]
    wstep
    refine wp_callF_err (args := [r, b, _, t.size % 4294967296]) (ty := .i32) (s := []) (vecBorrow_fails hE hσ hr hi h1) ?_
    rintro res σ2 ⟨k1, k2, k3⟩
    refine ⟨k3, by rw [k2]; exact hne, ?_⟩
    wstep
    exact ⟨rfl, k2, k3⟩
  · refine ⟨by show 260 ≤ σ.size; omega, ?_⟩
    rw [IfP.neg (by rw [errWord_ptr hE]; exact hne)]
    wstep
    exact ⟨rfl, errWord_ptr hE _, by show 260 ≤ σ.size; omega⟩

theorem VecRef.extends (hr : VecRef σ R t vs cap p r) (h : Extends σ σ') : VecRef σ' R t vs cap p r := by
  have h1 := h.nextFree
  have g1 := hr.inside
  have g2 := hr.cellIn
  refine ⟨by rw [h.leNat g2]; exact hr.cell, hr.cellLow, by omega, hr.low, by omega, hr.apart, ?_, fun x hx => by
    have := hr.below x hx; omega, hr.sep⟩
  have hp := t.size_pos
  refine hr.at_.change (fun x hx => h.mem x (hr.below x hx)) (fun _ h => h) (by rw [h.leNat (by omega)]; exact hr.at_.len)
    (h.leNat (by omega)) hr.at_.le fun i hi => ?_
  have := slot_le (t := t) (show i < cap by have := hr.at_.le; omega)
  rw [h.leNat (by omega)]
  exact hr.at_.elems i hi

/-- Writing through a reference to element `i` replaces that element and no other, provided that the others do not
share the memory of a wide number with it. -/
theorem elem_write {R' S : Nat → Prop} {q i : Nat} (hr : VecRef σ R t vs cap p r) (hi : i < vs.length)
    (hq : if t.scalar then leNat σ.mem q 4 = p + 8 + i * t.size else q = p + 8 + i * t.size)
    (h : WritePre σ R' S t vs[i] v' w q) (hS : ∀ x, S x → ¬ vecBlock t cap p x ∧ ¬ Between r (r + 4) x)
    (hown : ∀ j (hj : j < vs.length), j ≠ i →
      Mv.Rep σ.mem (fun x => R x ∧ ¬ Place σ.mem t q x) t vs[j] (leNat σ.mem (p + 8 + j * t.size) t.size)) :
    (writeRefF t).Calls [w, q] σ (fun res σ' => res = [] ∧ Alters (Place σ.mem t q) σ σ' ∧ σ'.nextFree = σ.nextFree ∧
      VecRef σ' (fun x => R x ∨ S x) t (vs.set i v') cap p r) := by
  have g1 := hr.inside
  have g2 := hr.cellIn
  have g3 := hr.cell
  have g4 := hr.at_.len
  have g5 := hr.at_.le
  have hp := t.size_pos
  have hap := hr.apart
  have hsl := slot_le (t := t) (show i < cap by omega)
  refine (writeRef_spec h).mono ?_
  rintro _ σ' ⟨rfl, k⟩
  refine ⟨rfl, k.alters, k.nextFree, ?_⟩
  have hP : (¬ Wide t ∧ ∀ x, Place σ.mem t q x → Between (p + 8 + i * t.size) (p + 8 + i * t.size + t.size) x) ∨
      (Wide t ∧ ∀ x, Place σ.mem t q x → R x) := by
    have hel := hr.at_.elems i hi
    cases t with
    | bool | u8 | u16 | u32 | u64 =>
      simp only [Ty.scalar, if_true] at hq
      exact .inl ⟨by simp [Wide], fun x hx => by simpa only [Place, hq] using hx⟩
    | vec _ | struct _ | object _ | enum _ =>
      simp only [Ty.scalar, Bool.false_eq_true, if_false] at hq
      exact .inl ⟨by simp [Wide], fun x hx => by simpa only [Place, hq, Ty.size] using hx⟩
    | u128 | u256 | address =>
      simp only [Ty.scalar, Bool.false_eq_true, if_false, Ty.size] at hq
      simp only [Mv.Rep, Ty.size] at hel
      refine .inr ⟨by simp [Wide], fun x hx => ?_⟩
      simp only [Place, hq] at hx
      exact hel.2 x hx.1 hx.2
  have hPb : ∀ x, Place σ.mem t q x → ¬ Between r (r + 4) x ∧ ¬ Between p (p + 8) x ∧
      ∀ j, j < cap → j ≠ i → ¬ Between (p + 8 + j * t.size) (p + 8 + j * t.size + t.size) x := by
    intro x hx
    rcases hP with ⟨_, hP⟩ | ⟨_, hP⟩
    · obtain ⟨k1, k2⟩ := hP x hx
      refine ⟨fun hb => ?_, fun hb => ?_, fun j hj hne hb => ?_⟩
      · obtain ⟨l1, l2⟩ := hb; omega
      · obtain ⟨l1, l2⟩ := hb; omega
      · obtain ⟨l1, l2⟩ := hb
        rcases Nat.lt_or_gt_of_ne hne with hlt | hlt
        · have := slot_disj (t := t) hlt; omega
        · have := slot_disj (t := t) hlt; omega
    · obtain ⟨k1, k2⟩ := hr.sep x (hP x hx)
      refine ⟨k2, fun hb => k1 ⟨hb.1, by have := hb.2; omega⟩, fun j hj hne hb => k1 ⟨by have := hb.1; omega, ?_⟩⟩
      have := slot_le (t := t) hj
      have := hb.2; omega
  have hslot : (if t.scalar then leNat σ'.mem (leNat σ'.mem q 4) t.size else leNat σ'.mem q 4) =
      leNat σ'.mem (p + 8 + i * t.size) t.size := by
    by_cases ht : t.scalar = true
    · simp only [ht, if_true] at hq ⊢
      have := within_lt h.ref.cell (fun x hx => h.below x (.inl hx)) (by omega)
      rw [k.alters.leNat this fun x a b hx => h.cell (.inl ht) x hx ⟨a, b⟩, hq]
    · simp only [ht] at hq ⊢
      have hs4 := Ty.size_ptr (t := t) (by simpa using ht)
      simp only [Bool.false_eq_true, if_false] at hq ⊢
      rw [hs4] at *
      rw [hq]
  have hkr := k.rep
  rw [hslot] at hkr
  have hnf := k.nextFree
  refine ⟨?_, hr.cellLow, by omega, hr.low, by omega, hr.apart, ⟨?_, ?_, ?_, ?_⟩, ?_, ?_⟩
  · rw [k.alters.leNat g2 fun x a b hx => (hPb x hx).1 ⟨a, b⟩]; exact g3
  · rw [k.alters.leNat (by omega) fun x a b hx => (hPb x hx).2.1 ⟨a, by omega⟩, List.length_set]; exact g4
  · rw [k.alters.leNat (by omega) fun x a b hx => (hPb x hx).2.1 ⟨by omega, by omega⟩]; exact hr.at_.capa
  · simpa using g5
  · intro j hj
    rw [List.length_set] at hj
    by_cases hji : j = i
    · subst hji
      rw [List.getElem_set_self]
      refine Rep.change (fun _ _ => rfl) (fun x hx => ?_) t hkr
      rcases hx with hx | ⟨hw, hx⟩
      · exact .inr hx
      · rcases hP with ⟨hP, _⟩ | ⟨_, hP⟩
        · exact absurd hw hP
        · exact .inl (hP x hx)
    · rw [List.getElem_set_ne (Ne.symm hji)]
      have := slot_le (t := t) (show j < cap by omega)
      rw [k.alters.leNat (by omega) fun x a b hx => (hPb x hx).2.2 j (by omega) hji ⟨a, b⟩]
      exact Rep.change (fun x hx => k.alters.mem x (hr.below x hx.1) hx.2) (fun x hx => .inl hx.1) t (hown j hj hji)
  · rintro x (hx | hx)
    · have := hr.below x hx; omega
    · have := h.below x (.inr hx); omega
  · rintro x (hx | hx)
    · exact hr.sep x hx
    · exact hS x hx

end Rt
