import Verif.Proof.StorageRt

/-! Where an enum in storage ends. -/

namespace Rt
open Wasm Abi Slots Mv Layout

variable {σ σ' σ'' : Store} {E : ErrPtrs}

theorem wp_divS32 {a is s l Q} (ha : a < 2147483648) :
    wp (.op (.bin .w32 .divS) :: is) (32 :: a :: s) l σ Q ↔ wp is (a / 32 :: s) l σ Q := by
  have h1 : toSigned .w32 32 = ((32 : Nat) : Int) := toSigned32_nonneg (by omega)
  have h2 := toSigned32_nonneg ha
  rw [wp_op]
  have e : BinOp.eval .w32 a 32 .divS = some (a / 32) := by
    unfold BinOp.eval
    simp only [h1, h2]
    rw [if_neg (by omega), if_neg (by omega), show Int.tdiv (a : Int) ((32 : Nat) : Int) = ((a / 32 : Nat) : Int) from rfl]
    congr 1
    unfold ofSigned
    simp only [W.mod]
    omega
  simp only [Op.exec, e]

theorem wp_remS32 {a is s l Q} (ha : a < 2147483648) :
    wp (.op (.bin .w32 .remS) :: is) (32 :: a :: s) l σ Q ↔ wp is (a % 32 :: s) l σ Q := by
  have h1 : toSigned .w32 32 = ((32 : Nat) : Int) := toSigned32_nonneg (by omega)
  have h2 := toSigned32_nonneg ha
  rw [wp_op]
  have e : BinOp.eval .w32 a 32 .remS = some (a % 32) := by
    unfold BinOp.eval
    simp only [h1, h2]
    rw [if_neg (by omega), show Int.tmod (a : Int) ((32 : Nat) : Int) = ((a % 32 : Nat) : Int) from rfl]
    congr 1
    unfold ofSigned
    simp only [W.mod]
    omega
  simp only [Op.exec, e]

/-- The table of sizes of an enum. -/
def sizeTable (x : Nat) : Prop := 260 ≤ x ∧ x < 388

theorem wp_table {f : Nat → Nat} {L : List Nat} {is s l Q} (hs : 388 ≤ σ.size) (hL : ∀ i ∈ L, i < 32)
    (h : ∀ σ', Touches sizeTable σ σ' →
      (∀ i, i ∈ L ∨ leNat σ.mem (260 + 4 * i) 4 = f i % 4294967296 → leNat σ'.mem (260 + 4 * i) 4 = f i % 4294967296) →
      wp is s l σ' Q) :
    wp (L.flatMap (fun i => code[Op.c32 260, Op.c32 (f i), Op.store 4 (4 * i)]) ++ is) s l σ Q := by
  induction L generalizing σ with
  | nil =>
    simp only [List.flatMap_nil, List.nil_append]
    exact h σ (Touches.refl _ _) fun i hi => by simpa using hi
  | cons j L ih =>
    have hj := hL j List.mem_cons_self
    simp only [List.flatMap_cons, List.append_assoc]
    wstep
    refine ih (by simp only [setMem_size]; omega) (fun i hi => hL i (List.mem_cons_of_mem _ hi)) fun σ' t hσ' => ?_
    refine h σ' ((Touches.set fun x hx => putLe_out ?_).trans t) fun i hi => hσ' i ?_
    · unfold sizeTable at hx; omega
    · by_cases e : i = j
      · subst e
        right
        rw [setMem_mem, leNat_putLe_same]
      · rcases hi with hi | hi
        · left
          rcases List.mem_cons.mp hi with h | h
          · exact absurd h e
          · exact h
        · right
          rw [setMem_mem, leNat_putLe_disj (by omega), hi]

theorem storageSize_spec {vss : List (List Ty)} {off : Nat} (hs : 388 ≤ σ.size) :
    (storageSize vss).Calls [off] σ (fun r σ' => r = [enumSize vss (off % 32) % 4294967296] ∧ Touches sizeTable σ σ') := by
  refine ⟨rfl, ?_⟩
  unfold storageSize
  refine wp_table hs (fun i hi => List.mem_range.mp hi) fun σ' t hσ' => ?_
  have hz := t.size
  wstep
  have := hσ' (off % 32) (.inl (List.mem_range.mpr (by omega)))
  rw [Nat.mul_comm] at this
  exact ⟨by rw [this], t⟩

theorem leNat_fresh {n : Nat} (h : Heap σ) {a : Nat} (ha : σ.nextFree ≤ a) : leNat σ.mem a n = 0 :=
  leNat_zero_of fun x h1 _ => h.fresh x (by omega)

/-- A four-byte number in zeroed memory. -/
theorem leNat_low4 {f : Bytes} {a n v : Nat} (h : ∀ x, a + 4 ≤ x → x < a + 4 + n → f x = 0) (hv : v < 2 ^ 32) :
    leNat (putLe f a 4 v) a (4 + n) = v := by
  rw [leNat_split _ _ _ 4 (by omega), leNat_putLe_same, leNat_zero_of fun x h1 h2 => by rw [putLe_out (by omega)]; exact h x (by omega) (by omega)]
  rw [Nat.mod_eq_of_lt (by norm_num; omega)]; simp

theorem tailPos_spec {vss : List (List Ty)} {p off : Nat} (hσ : Heap σ) (hst : Statics σ) (hr : Room σ 68)
    (hp : p + 32 ≤ σ.nextFree) (hp' : p = 128 ∨ 468 ≤ p) (ho : off ≤ 32) (hn : enumSize vss (off % 32) < 2 ^ 31)
    (hq : (next (.enum vss) (beNat σ.mem p 32, off)).1 < 2 ^ 256) :
    (tailPos E vss).Calls [p, off] σ (fun r σ' => r = [σ.nextFree] ∧ Later sizeTable σ σ' ∧ σ'.host = σ.host ∧
      σ.nextFree + 36 ≤ σ'.nextFree ∧ σ'.nextFree ≤ σ.nextFree + 68 ∧
      beNat σ'.mem σ.nextFree 32 = (next (.enum vss) (beNat σ.mem p 32, off)).1 ∧
      leNat σ'.mem (σ.nextFree + 32) 4 = (next (.enum vss) (beNat σ.mem p 32, off)).2) := by
  have s1 := hσ.alloc.nextFree_le
  have s2 := hσ.alloc.size_lt
  have s3 := hσ.ready.size
  have s4 := hσ.base
  unfold reserved at s4
  rw [enumSize_eq vss (p := (beNat σ.mem p 32, off)) ho] at hq ⊢
  unfold lin at hq ⊢
  simp only at hq ⊢
  refine ⟨rfl, ?_⟩
  unfold tailPos
  wstep
  refine wp_call1 (storageSize_spec (by omega)) ?_
  rintro r σ1 ⟨rfl, t1⟩
  rw [Nat.mod_eq_of_lt (by omega)]
  generalize enumSize vss (off % 32) = n at hn hq
  have l1 : Later sizeTable σ σ1 := t1.later hσ fun x hx => by unfold sizeTable at hx; omega
  have hσ1 := l1.heap
  have n1 := t1.nextFree
  have z1 := t1.size
  have st1 : Statics σ1 := t1.statics hst fun x hx => by unfold sizeTable; omega
  have b1 : beNat σ1.mem p 32 = beNat σ.mem p 32 := t1.beNat fun x h1 h2 => by unfold sizeTable; omega
  have r1 : Room σ1 68 := hr.after (k := 0) (by omega) t1.maxPages
  wstep
  refine wp_allocR hσ1 r1 (by omega) fun σ2 a2 => ?_
  have c2 := a2.nextFree; have d2 := a2.inside; have e2 := a2.size; have f2 := a2.heap.alloc.size_lt
  wstep
  have r2 : Room (σ2.setMem (copyBytes σ2.mem σ1.nextFree p 32)) 32 :=
    (hr.mono (k := 36 + 32) (by omega)).after (by simp only [setMem_nextFree]; omega)
      (by simp only [setMem_maxPages]; rw [a2.maxPages, t1.maxPages])
  have l2 : Later sizeTable σ (σ2.setMem (copyBytes σ2.mem σ1.nextFree p 32)) := by
    refine (l1.trans (a2.later _)).write ?_ ?_ ?_
    · exact fun x _ h2 => copyBytes_out (by omega)
    · exact fun x _ h2 => copyBytes_out (by omega)
    · exact fun x _ => copyBytes_out (by omega)
  have hb2 : beNat (copyBytes σ2.mem σ1.nextFree p 32) σ1.nextFree 32 = beNat σ.mem p 32 := by
    rw [beNat_copy, a2.mem, b1]
  refine .intro (fun hg => ?_) (fun hg => ?_)
  · -- the enum ends in a later slot
    refine wp_allocR l2.heap r2 (by omega) fun σ3 a3 => ?_
    have c3 := a3.nextFree; have d3 := a3.inside; have e3 := a3.size; have f3 := a3.heap.alloc.size_lt
    simp only [setMem_nextFree, setMem_size] at c3 e3
    have m3 : σ3.mem = copyBytes σ2.mem σ1.nextFree p 32 := a3.mem
    wstep
    rw [wp_divS32 (by omega)]
    wstep
    rw [m3]
    refine wp_call2 (swapBytes4_spec (by simp only [setMem_size]; omega) (by simp only [setMem_size]; omega)) ?_
    rintro r σ4 ⟨rfl, rfl⟩
    wstep
    have hB : beNat (putLe (copyBytes σ2.mem σ1.nextFree p 32) σ2.nextFree 4 ((n - (32 - off)) / 32 + 1)) σ1.nextFree 32 =
        beNat σ.mem p 32 := by
      rw [← hb2]; exact beNat_congr fun x h1 h2 => putLe_out (by omega)
    rw [hB]
    have hbl := beNat_lt σ.mem p 32
    have e256 : (256 : Nat) ^ (8 * 4) = 2 ^ 256 := by norm_num
    have e256' : (256 : Nat) ^ 32 = 2 ^ 256 := by norm_num
    have hz4 : ∀ x, σ2.nextFree + 4 ≤ x → (copyBytes σ2.mem σ1.nextFree p 32) x = 0 := fun x hx => by
      rw [copyBytes_out (by omega)]; exact a2.heap.fresh x (by omega)
    generalize hf4 : putLe (putLe (copyBytes σ2.mem σ1.nextFree p 32) σ2.nextFree 4 ((n - (32 - off)) / 32 + 1)) σ1.nextFree 32
      (beNat σ.mem p 32) = f4
    have v1 : leNat f4 σ2.nextFree 32 = (n - (32 - off)) / 32 + 1 := by
      rw [← hf4, leNat_putLe_disj (by omega)]
      exact leNat_low4 (n := 28) (fun x h1 _ => hz4 x (by omega)) (by omega)
    have v2 : leNat f4 σ1.nextFree 32 = beNat σ.mem p 32 := by
      rw [← hf4, leNat_putLe_same, Nat.mod_eq_of_lt hbl]
    have hsum : (n - (32 - off)) / 32 + 1 + beNat σ.mem p 32 = (32 * beNat σ.mem p 32 + off + n) / 32 := by omega
    have spec := (heapAdd_spec E (σ := σ3.setMem f4) (p1 := σ2.nextFree) (p2 := σ1.nextFree) (p := σ1.nextFree) (k := 4)
      (by simp only [setMem_size]; omega) (by simp only [setMem_size]; omega)
      (by simp only [setMem_size]; omega) (by simp only [setMem_size]; omega) (by simp only [setMem_size]; omega)
      (by unfold Rt.Apart; omega) (by unfold Rt.Apart; omega)).1
    simp only [setMem_mem, Nat.reduceMul, v1, v2] at spec
    refine wp_call4 (spec (by rw [e256']; omega)) ?_
    rintro r σ5 ⟨rfl, rfl⟩
    wstep
    refine wp_call2 (swapBytes4_spec (by simp only [setMem_size]; omega) (by simp only [setMem_size]; omega)) ?_
    rintro r σ6 ⟨rfl, rfl⟩
    wstep
    rw [wp_remS32 (by omega)]
    wstep
    rw [hsum, beNat_putLe_same, Nat.mod_eq_of_lt (show _ < 256 ^ 32 by rw [e256']; exact hq), putLe_bswap, n1]
    refine ⟨rfl, ?_, ?_, by omega, by omega, ?_, ?_⟩
    · refine (l2.trans (a3.later _)).write ?_ ?_ ?_
      · intro x _ hx
        rw [putLe_out (by omega), putBe_out (by omega), putLe_out (by omega), m3, ← hf4, putLe_out (by omega), putLe_out (by omega)]
      · intro x hx _
        rw [putLe_out (by omega), putBe_out (by omega), putLe_out (by omega), m3, ← hf4, putLe_out (by omega), putLe_out (by omega)]
      · intro x hx
        rw [putLe_out (by omega), putBe_out (by omega), putLe_out (by omega), m3, ← hf4, putLe_out (by omega), putLe_out (by omega)]
    · rw [a3.host, setMem_host, a2.host, t1.host]
    · rw [beNat_congr fun x h1 h2 => putLe_out (by omega), beNat_putBe_same, Nat.mod_eq_of_lt (by rw [e256']; exact hq)]
    · rw [leNat_putLe_same, Nat.mod_eq_of_lt (by norm_num; omega)]; omega
  · rw [n1] at hb2 ⊢
    refine ⟨rfl, ?_, ?_, by omega, by omega, ?_, ?_⟩
    · rw [n1] at l2
      have := l2.write (f := putLe (copyBytes σ2.mem σ.nextFree p 32) (σ.nextFree + 32) 4 (off + n))
      simp only [setMem_mem, setMem_setMem, setMem_nextFree] at this
      exact this (fun x _ hx => putLe_out (by omega)) (fun x hx _ => putLe_out (by omega)) (fun x hx => putLe_out (by omega))
    · rw [a2.host, t1.host]
    · rw [beNat_congr fun x h1 h2 => putLe_out (by omega), hb2]; omega
    · rw [leNat_putLe_same, Nat.mod_eq_of_lt (by norm_num; omega)]; omega

end Rt
