import Verif.Tac
import Verif.Rt.Alloc

/-! Proofs about the allocator. -/

namespace Rt
open Wasm

variable {σ : Store} {n : Nat}

theorem wp_memGrow {is s l Q} : wp (.op .memGrow :: is) (n :: s) l σ Q ↔
    IfP (σ.size / 65536 + n ≤ σ.maxPages)
      (wp is (σ.size / 65536 :: s) l { σ with
        size := σ.size + n * 65536
        mem := fun x => if x < σ.size then σ.mem x else 0 } Q)
      (wp is (4294967295 :: s) l σ Q) := by
  rw [wp_op, IfP_iff]; simp only [Op.exec]
  split_ifs <;> rfl

/-- A successful allocation. -/
theorem alloc_calls (h : AllocOk σ) (hc : CanAlloc σ n) :
    alloc.Calls [n] σ (fun r σ' => r = [σ.nextFree] ∧ σ' = allocated σ n) := by
  obtain ⟨hn, hc⟩ := hc
  have h1 := h.sum; have h2 := h.page; have h3 := h.first; have h4 := h.limit; have h5 := h.max
  have h6 := h.small
  unfold alloc allocated
  by_cases hle : n ≤ σ.avail
  · have hs : toSigned .w32 (W.sub .w32 n σ.avail) ≤ toSigned .w32 0 := by
      rw [toSigned32_nonneg (a := 0) (by omega), W.sub32_def]
      by_cases he : n = σ.avail
      · rw [he, show (σ.avail + (4294967296 - σ.avail)) % 4294967296 = 0 by omega]
        exact Int.le_of_eq (toSigned32_nonneg (by omega))
      · rw [toSigned32_neg (by omega)]; omega
    rw [if_pos hle]
    wstep
  · have hd : W.sub .w32 n σ.avail = n - σ.avail := W.sub32 (by omega) (by omega)
    have hs : ¬ toSigned .w32 (n - σ.avail) ≤ toSigned .w32 0 := by
      rw [toSigned32_nonneg (by omega), toSigned32_nonneg (by omega)]; omega
    have hc' := hc.resolve_left hle
    have hs2 : toSigned .w32 0 < toSigned .w32 (σ.size / 65536) := by
      rw [toSigned32_nonneg (by omega), toSigned32_nonneg (by omega)]; omega
    rw [if_neg hle]
    wstep
    rw [wp_memGrow, IfP.pos hc']
    wstep
    rw [Nat.add_comm σ.avail]

/-- When memory cannot grow enough the allocator traps. -/
theorem alloc_traps (h : AllocOk σ) (hn : n < 2 ^ 31) (hc : ¬ CanAlloc σ n) :
    alloc.Traps [n] σ := by
  have hc : ¬ (n ≤ σ.avail ∨ σ.size / 65536 + ((n - σ.avail) / 65536 + 1) ≤ σ.maxPages) :=
    fun h => hc ⟨hn, h⟩
  have hle : ¬ n ≤ σ.avail := fun h => hc (.inl h)
  have hc' : ¬ σ.size / 65536 + ((n - σ.avail) / 65536 + 1) ≤ σ.maxPages := fun h => hc (.inr h)
  have h1 := h.sum; have h2 := h.page; have h3 := h.first; have h4 := h.limit; have h5 := h.max
  have h6 := h.small
  refine ⟨rfl, ?_⟩
  have hs : ¬ toSigned .w32 (n - σ.avail) ≤ toSigned .w32 0 := by
    rw [toSigned32_nonneg (by omega), toSigned32_nonneg (by omega)]; omega
  have hs2 : ¬ toSigned .w32 0 < toSigned .w32 4294967295 := by
    rw [toSigned32_nonneg (by omega), toSigned32_neg (by omega)]; omega
  unfold alloc
  wstep
  rw [wp_memGrow, IfP.neg hc']
  wstep

/-! ### Facts about `allocated` -/

theorem allocated_ok (h : AllocOk σ) (hc : CanAlloc σ n) : AllocOk (allocated σ n) := by
  obtain ⟨hn, hc⟩ := hc
  have h1 := h.sum; have h2 := h.page; have h3 := h.first; have h4 := h.limit; have h5 := h.max
  have h6 := h.small
  unfold allocated
  by_cases hle : n ≤ σ.avail
  · rw [if_pos hle]; constructor <;> dsimp only <;> omega
  · have hc' := hc.resolve_left hle
    rw [if_neg hle]; constructor <;> dsimp only <;> omega

theorem allocated_nextFree : (allocated σ n).nextFree = σ.nextFree + n := by
  unfold allocated; split_ifs <;> rfl
theorem allocated_maxPages : (allocated σ n).maxPages = σ.maxPages := by
  unfold allocated; split_ifs <;> rfl
theorem allocated_reader : (allocated σ n).reader = σ.reader := by
  unfold allocated; split_ifs <;> rfl
theorem allocated_host : (allocated σ n).host = σ.host := by
  unfold allocated; split_ifs <;> rfl
theorem allocated_size_le : σ.size ≤ (allocated σ n).size := by
  unfold allocated; split_ifs
  · exact Nat.le_refl _
  · dsimp only; omega
theorem allocated_mem_lt {x : Nat} (hx : x < σ.size) : (allocated σ n).mem x = σ.mem x := by
  unfold allocated; split_ifs
  · rfl
  · dsimp only; rw [if_pos hx]
theorem allocated_mem_ge {x : Nat} (hx : σ.size ≤ x) (h : x < (allocated σ n).size) :
    (allocated σ n).mem x = 0 := by
  unfold allocated at h ⊢; split_ifs at h ⊢
  · dsimp only at h; omega
  · dsimp only; rw [if_neg (by omega)]

/-- The new block is inside memory. -/
theorem allocated_inside (h : AllocOk σ) (hc : CanAlloc σ n) :
    σ.nextFree + n ≤ (allocated σ n).size := by
  have := (allocated_ok h hc).sum
  rw [allocated_nextFree] at this
  omega

theorem allocated_size_bound (h : AllocOk σ) (hc : CanAlloc σ n) :
    (allocated σ n).size ≤ 2 ^ 32 - 65536 := by
  have := allocated_ok h hc
  have h1 := this.limit; have h2 := this.max
  omega

end Rt
