import Verif.Proof.Dynamic2

/-! Keys of dynamic fields with empty vectors. -/

namespace Rt
open Wasm Slots Mv
open Abi (word)

variable {σ σ' σ'' : Store} {E : ErrPtrs}

/-- An allocation, which may fail. -/
theorem wp_allocT {n : Nat} {is s l Q} (hσ : AllocOk σ) (hn : n < 2 ^ 31) (ht : Q .trap)
    (h : ∀ σ1, AllocOk σ1 → σ1.nextFree = σ.nextFree + n → σ1.mem = (allocated σ n).mem → wp is (σ.nextFree :: s) l σ1 Q) :
    wp (alloc.call :: is) (n :: s) l σ Q := by
  by_cases hc : CanAlloc σ n
  · refine wp_call1 (alloc_calls hσ hc) ?_
    rintro r σ' ⟨rfl, rfl⟩
    exact h _ (allocated_ok hσ hc) allocated_nextFree rfl
  · exact wp_call_trap (args := [n]) (alloc_traps hσ hn hc) ht

theorem wp_loadT {k off a is s l Q} (ht : Q .trap) (h : a + off + k ≤ σ.size → wp is (leNat σ.mem (a + off) k :: s) l σ Q) :
    wp (.op (.load k off) :: is) (a :: s) l σ Q := by
  by_cases hc : a + off + k ≤ σ.size
  · rw [wp_load hc]; exact h hc
  · rw [wp_op]; simpa [Op.exec, hc] using ht

/-- Types of values without parts. -/
def keyPrim : Ty → Bool
  | .vec _ => false
  | .struct _ => false
  | .object _ => false
  | .enum _ => false
  | _ => true

theorem keyPrim_grows {t : Ty} (hp : keyPrim t = true) {d k : Nat} {is s l Q} (hσ : AllocOk σ) (ht : Q .trap)
    (h : ∀ σ', AllocOk σ' → σ.nextFree + 1 ≤ σ'.nextFree → wp is s l σ' Q) : wp (copyKey d t k ++ is) s l σ Q := by
  have num : ∀ n, (n = 1 ∨ n = 2 ∨ n = 4 ∨ n = 8) → wp (code[Op.c32 n, alloc.call, Op.lget d, Op.store n 0] ++ is) s l σ Q := by
    intro n hn
    have e : n % 4294967296 = n := by omega
    simp only [List.cons_append, List.nil_append]
    refine wp_c32.mpr (wp_allocT hσ (by omega) ht fun σ1 a1 a2 _ => ?_)
    rw [e] at a2
    have := a1.nextFree_le
    obtain ⟨I, hI⟩ : ∃ I, I = is := ⟨_, rfl⟩
    rw [← hI]
    wstep
    rw [hI]
    exact h _ a1.setMem (by rw [setMem_nextFree]; omega)
  have cpy : ∀ n, (n = 16 ∨ n = 32) → wp (code[Op.c32 n, alloc.call, Op.lget d, Op.c32 n, Op.memCopy] ++ is) s l σ Q := by
    intro n hn
    have e : n % 4294967296 = n := by omega
    simp only [List.cons_append, List.nil_append]
    refine wp_c32.mpr (wp_allocT hσ (by omega) ht fun σ1 a1 a2 _ => ?_)
    rw [e] at a2
    have := a1.nextFree_le
    obtain ⟨I, hI⟩ : ∃ I, I = is := ⟨_, rfl⟩
    rw [← hI]
    by_cases hc : lget l d + n ≤ σ1.size
    · wstep
      rw [hI]
      exact h _ a1.setMem (by rw [setMem_nextFree]; omega)
    · wstep
      rw [wp_op]
      simpa [Op.exec, hc] using ht
  cases t <;> simp [keyPrim] at hp <;> simp only [copyKey]
  all_goals first
    | exact num _ (by omega)
    | exact cpy _ (by omega)

/-- The loop over an empty vector does not end. -/
theorem keyVec_traps {t : Ty} (hp : keyPrim t = true) {d k w : Nat} {is s l Q} (hσ : AllocOk σ) (ht : Q .trap)
    (hd : lget l d = w) (hdk : d < k) (hlen : k + 3 ≤ l.length) (hw : w + 8 ≤ σ.size) (h0 : leNat σ.mem w 4 = 0) :
    wp (copyKey d (.vec t) k ++ is) s l σ Q := by
  have f3 := hσ.size_lt
  simp only [copyKey, skipVecHeader, List.append_assoc]
  wstep
  rw [hd, h0]
  obtain ⟨L, hL⟩ : ∃ L, L = lset (lset (lset l k 0) (k + 1) 0) d (w + 8) := ⟨_, rfl⟩
  have eL : L.length = l.length := by subst hL; lsimp
  have d0 : lget L k = 0 := by subst hL; lsimp
  have d1 : lget L (k + 1) = 0 := by subst hL; lsimp
  rw [← hL]
  refine wp_loop (fun m l' σ' => ∃ i, m + i = 4294967295 ∧ l'.length = l.length ∧ lget l' k = 0 ∧ lget l' (k + 1) = i ∧
    AllocOk σ' ∧ i ≤ σ'.nextFree) 4294967295 ⟨0, by omega, eL, d0, d1, hσ, by omega⟩ ?_
  rintro m l1 σ1 ⟨i, hm, hl1, p0, p1, h1, hi⟩
  obtain ⟨X, hX⟩ : ∃ X, X = code[Op.lget (k + 1), Op.lget k, Op.c32 1, Op.bin .w32 .sub, Op.bin .w32 .eq, .brIf 1,
           Op.lget (k + 1), Op.c32 1, Op.bin .w32 .add, Op.lset (k + 1), .br 0] := ⟨_, rfl⟩
  rw [← hX]
  obtain ⟨Y, hY⟩ : ∃ Y, Y = copyKey (k + 2) t (k + 3) ++ X := ⟨_, rfl⟩
  rw [← hY]
  wstep
  refine wp_loadT ht fun hb => ?_
  wstep
  rw [hY]
  refine keyPrim_grows hp h1 ht fun σ2 h2 hn => ?_
  have := h2.nextFree_le
  have := h2.size_lt
  rw [hX]
  wstep
  rw [p0, p1]
  refine .intro (fun hlast => ?_) (fun hlast => ?_)
  · exfalso
    have : W.w32.sub 0 1 = 4294967295 := by decide
    omega
  · exact ⟨m - 1, by omega, i + 1, by omega, by rw [lset_length, lset_length]; omega, rfl, rfl, h2, by omega⟩

theorem hashKey_trapsVec {t : Ty} (hp : keyPrim t = true) {p w : Nat} {name : List UInt8} (hσ : Heap σ) (hw : w + 8 ≤ σ.nextFree)
    (hpb : p + 32 ≤ σ.nextFree) (h0 : leNat σ.mem w 4 = 0) : (hashKey (.vec t) name).Traps [p, w] σ := by
  have f1 := hσ.alloc.nextFree_le
  refine ⟨rfl, ?_⟩
  obtain ⟨X, hX⟩ : ∃ X, X = code[Op.lget 2, Op.c32 0, alloc.call, Op.lget 2, Op.bin .w32 .sub,
   Op.c32 32, alloc.call, Op.ltee 3, Op.host .keccak, Op.lget 3] := ⟨_, rfl⟩
  obtain ⟨Y, hY⟩ : ∃ Y, Y = copyKey 1 (.vec t) 4 ++ (copyName name ++ X) := ⟨_, rfl⟩
  unfold hashKey
  simp only [List.append_assoc]
  rw [← hX, ← hY]
  obtain ⟨L, hL⟩ : ∃ L, L = [p, w] ++ List.replicate (2 + nlKey (.vec t)) 0 := ⟨_, rfl⟩
  have L0 : lget L 0 = p := by rw [hL]; rfl
  have L1 : lget L 1 = w := by rw [hL]; rfl
  have L2 : L.length = 7 + nlKey t := by rw [hL]; simp [nlKey]; omega
  rw [← hL]
  simp only [List.cons_append, List.nil_append]
  refine wp_c32.mpr (wp_allocT hσ.alloc (by omega) rfl fun σ1 a1 a2 a3 => ?_)
  rw [hσ.allocated_mem] at a3
  have g1 := a1.nextFree_le
  have g3 := a1.size_lt
  have a2 : σ1.nextFree = σ.nextFree + 32 := a2
  wstep
  rw [hY, L0]
  refine keyVec_traps hp a1.setMem rfl (w := w) (by rw [lget_lset_ne (by omega), L1]) (by omega) (by rw [lset_length]; omega)
    (by rw [setMem_size]; omega) ?_
  rw [setMem_mem, ← h0]
  exact leNat_congr fun x _ hx => by rw [copyBytes_out (by omega), a3]

theorem hashKey_trapsStruct {t : Ty} (hp : keyPrim t = true) {p w : Nat} {name : List UInt8} (hσ : Heap σ) (hw4 : w + 4 ≤ σ.nextFree)
    (hw : leNat σ.mem w 4 + 8 ≤ σ.nextFree) (hpb : p + 32 ≤ σ.nextFree) (h0 : leNat σ.mem (leNat σ.mem w 4) 4 = 0) :
    (hashKey (.struct [.vec t]) name).Traps [p, w] σ := by
  have f1 := hσ.alloc.nextFree_le
  refine ⟨rfl, ?_⟩
  obtain ⟨X, hX⟩ : ∃ X, X = code[Op.lget 2, Op.c32 0, alloc.call, Op.lget 2, Op.bin .w32 .sub,
   Op.c32 32, alloc.call, Op.ltee 3, Op.host .keccak, Op.lget 3] := ⟨_, rfl⟩
  obtain ⟨Y, hY⟩ : ∃ Y, Y = copyKey 4 (.vec t) 6 ++ (copyName name ++ X) := ⟨_, rfl⟩
  unfold hashKey
  simp only [copyKey.eq_9, copyKeyFs, Ty.scalar, Ty.size, Bool.false_eq_true, if_false, show ¬ (4 : Nat) = 8 by omega, List.append_assoc, List.nil_append]
  rw [← hX, ← hY]
  obtain ⟨L, hL⟩ : ∃ L, L = [p, w] ++ List.replicate (2 + nlKey (.struct [.vec t])) 0 := ⟨_, rfl⟩
  have L0 : lget L 0 = p := by rw [hL]; rfl
  have L1 : lget L 1 = w := by rw [hL]; rfl
  have L2 : L.length = 9 + nlKey t := by rw [hL]; simp [nlKey, nlKeyFs]; omega
  rw [← hL]
  simp only [List.cons_append, List.nil_append]
  refine wp_c32.mpr (wp_allocT hσ.alloc (by omega) rfl fun σ1 a1 a2 a3 => ?_)
  rw [hσ.allocated_mem] at a3
  have g1 := a1.nextFree_le
  have g3 := a1.size_lt
  have a2 : σ1.nextFree = σ.nextFree + 32 := a2
  have e : ∀ a n, a + n ≤ σ.nextFree → leNat (copyBytes σ1.mem σ.nextFree p 32) a n = leNat σ.mem a n := fun a n h =>
    leNat_congr fun x _ hx => by rw [copyBytes_out (by omega), a3]
  wstep
  rw [hY, L0, L1, e w 4 (by omega)]
  refine keyVec_traps hp a1.setMem rfl (w := leNat σ.mem w 4) (by rw [lget_lset_same (by rw [lset_length]; omega)]) (by omega) (by rw [lset_length, lset_length]; omega)
    (by rw [setMem_size]; omega) ?_
  rw [setMem_mem, e _ _ (by omega), h0]

end Rt
