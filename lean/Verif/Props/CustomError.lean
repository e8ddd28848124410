import Verif.Rt.CustomError
import Verif.Proof.Pack4
import Verif.Proof.Event
import Verif.Proof.Router2
import Verif.Props.Pack

/-!
# C83: the revert data of a custom error
-/

namespace Rt
open Wasm Abi
variable {σ σ' : Store} {E : ErrPtrs}

theorem wp_selStores {p a : Nat} : ∀ {bs : List UInt8} {off : Nat} {σ : Store} {is : List Instr} {s l : List Nat} {Q : Res → Prop},
    lget l p = a → a + off + bs.length ≤ σ.size → wp is s l (σ.setMem (wrBytes σ.mem (a + off) bs)) Q →
    wp (selStores p off bs ++ is) s l σ Q := by
  intro bs
  induction bs with
  | nil => intro off σ is s l Q hp hs h; rw [wrBytes_nil] at h; exact h
  | cons b bs ih =>
    intro off σ is s l Q hp hs h
    simp only [List.length_cons] at hs
    have hb := b.toNat_lt
    rw [selStores, List.append_assoc]
    simp only [List.cons_append, List.nil_append]
    rw [wp_lget, wp_c32, wp_store (by omega), hp]
    refine ih hp (by rw [setMem_size]; omega) ?_
    have e : wrBytes σ.mem (a + off) (b :: bs) =
        wrBytes (putLe σ.mem (a + off) 1 (b.toNat % 2 ^ 32)) (a + (off + 1)) bs := by
      have := wrBytes_append σ.mem (a + off) [b] bs
      rw [List.cons_append, List.nil_append] at this
      rw [this, List.length_singleton, Nat.add_assoc a off 1, Nat.mod_eq_of_lt (by omega)]
      congr 1
      have h1 := wrBytes_snoc σ.mem (a + off) [b] (i := 0) (by simp)
      simpa [wrBytes_nil] using h1
    rw [setMem_mem]
    rw [e] at h
    exact h

theorem wp_fieldLoads {q b : Nat} : ∀ {ts : List MTy} {vs : List Val} {i lim : Nat} {is : List Instr} {s l : List Nat} {Q : Res → Prop},
    lget l q = b → RepFs σ.mem lim ts vs (b + i * 4) → lim ≤ σ.size →
    (∀ ws, RepAll σ.mem lim (ts.map .val) vs ws → wp is (ws.reverse ++ s) l σ Q) →
    wp (fieldLoads q i ts ++ is) s l σ Q := by
  intro ts
  induction ts with
  | nil =>
    intro vs i lim is s l Q hq hr hl h
    cases vs with
    | nil => exact h [] trivial
    | cons v vs => simp [RepFs] at hr
  | cons t ts ih =>
    intro vs i lim is s l Q hq hr hl h
    cases vs with
    | nil => simp [RepFs] at hr
    | cons v vs =>
    rw [RepFs] at hr
    obtain ⟨h1, h2, h3, h4⟩ := hr
    rw [fieldLoads, List.append_assoc, List.append_assoc]
    simp only [List.cons_append, List.nil_append]
    rw [wp_lget, hq, wp_load (by omega)]
    have next : ∀ w, Rep σ.mem lim t v w → wp (fieldLoads q (i + 1) ts ++ is) (w :: s) l σ Q := by
      intro w hw
      refine ih hq (by rw [Nat.succ_mul, ← Nat.add_assoc]; exact h4) hl fun ws hws => ?_
      have := h (w :: ws) ⟨hw, hws⟩
      rwa [List.reverse_cons, List.append_assoc] at this
    cases hsc : t.isScalar
    · rw [hsc] at h3
      exact next _ h3
    · rw [hsc] at h3
      have h2 := h2 hsc
      simp only [if_true, List.cons_append, List.nil_append] at h3 ⊢
      rw [wp_load (by omega)]
      exact next _ h3

/-- The revert data of an error: the message at the pending abort. -/
theorem revert_calls {sel : List UInt8} {ts : List MTy} {vs : List Val} {p : Nat} (hsel : sel.length = 4) (hσ : Heap σ)
    (hr : Rep σ.mem σ.nextFree (.struct ts) (.tuple vs) p) (hroom : Room σ (8 + (encTuple vs).length)) :
    (revertFn E sel ts).Calls [p] σ (fun r σ' => r = [] ∧ ∃ q n, 468 ≤ q ∧ errWord σ' = q ∧ leNat σ'.mem q 4 = n ∧
      rdBytes σ'.mem (q + 4) n = sel ++ encTuple vs ∧ q + 4 + n ≤ σ'.size ∧ σ'.size < 2 ^ 32 ∧
      (∀ x, x < σ.nextFree → ¬ (abortPtr ≤ x ∧ x < abortPtr + 4) → σ'.mem x = σ.mem x) ∧ σ'.host = σ.host) := by
  rw [Rep] at hr
  obtain ⟨hp, hr⟩ := hr
  refine ⟨rfl, ?_⟩
  have f1 := hσ.alloc.nextFree_le
  have hb := hσ.base
  unfold reserved at hb
  have hr1 := hroom.1
  show wp (customErrorMessage E sel ts ++ (code[Op.lget 1] ++ handleError .none (ts.length + 6))) [] _ σ _
  have hlen : ([p] ++ List.replicate (revertFn E sel ts).nl 0).length = ts.length + 7 := by simp [revertFn]
  have h0 : lget ([p] ++ List.replicate (revertFn E sel ts).nl 0) 0 = p := rfl
  generalize [p] ++ List.replicate (revertFn E sel ts).nl 0 = l at *
  have hnl : (revertFn E sel ts).nr = 0 := rfl
  rw [hnl]
  unfold customErrorMessage
  simp only [List.append_assoc]
  simp only [List.cons_append, List.nil_append]
  refine wp_c32.mpr (wp_allocR hσ hroom (by omega) fun σ1 a1 => ?_)
  have g1 := a1.nextFree
  have g2 := a1.inside
  rw [wp_lset]
  obtain ⟨A, hA⟩ : ∃ A, A = σ.nextFree := ⟨_, rfl⟩
  rw [← hA]
  refine wp_selStores (a := A) (lget_lset_same (by omega)) (by omega) ?_
  have hx : Extends σ (σ1.setMem (wrBytes σ1.mem (A + 4) sel)) :=
    a1.extends.write (fun x hx => wrBytes_out (by omega)) (fun x hx => wrBytes_out (by omega))
  have hm2 : rdBytes (σ1.setMem (wrBytes σ1.mem (A + 4) sel)).mem (A + 4) 4 = sel := by
    rw [setMem_mem, ← hsel]; exact rdBytes_wr _ _ _
  have e1 : (σ1.setMem (wrBytes σ1.mem (A + 4) sel)).nextFree = A + 8 := by rw [setMem_nextFree, g1, hA]
  have e2 := hx.maxPages
  have hh := hx.heap hσ
  have hrm : Room (σ1.setMem (wrBytes σ1.mem (A + 4) sel)) (encTuple vs).length :=
    Room.after hroom (Nat.le_of_eq (by rw [e1, ← hA])) e2
  generalize σ1.setMem (wrBytes σ1.mem (A + 4) sel) = σ2 at *
  have hr2 := RepFs.congr (g := σ2.mem) (fun x hx' => hx.mem x (by omega)) _ hr
  refine wp_fieldLoads (vs := vs) (b := p) (lim := A + 8) (i := 0) (by rw [lget_lset_ne (by omega), h0]) ?_ ?_ ?_
  · rw [Nat.zero_mul, Nat.add_zero]; exact RepFs.mono (by omega) _ hr2
  · have := hh.alloc.nextFree_le; omega
  intro ws hws
  rw [← e1] at hws
  refine packAll_ok (propagate_ok _) (propagate_ok _) hh hws hrm (by rw [lset_length, List.length_map, hlen]; omega) ?_
  intro σ3 l3 k1 k2 k3 k4 k5 k6 k7
  obtain ⟨n, hn⟩ : ∃ n, n = (encTuple vs).length := ⟨_, rfl⟩
  rw [← hn] at k3 k4 k6 hr1
  have j1 := k2.alloc.nextFree_le
  have j2 := k2.alloc.size_lt
  have k8 : lget l3 1 = A := by rw [k7 1 (by omega), lget_lset_same (by omega)]
  rw [wp_lget, wp_lget, k6, k8, wp_c32, wp_add, W.mod32, wp_store (by omega), wp_lget, k8,
    Nat.mod_eq_of_lt (show 4 < 4294967296 by decide), Nat.mod_eq_of_lt (by omega), Nat.add_zero]
  unfold handleError badPush abortPtr
  simp only [List.cons_append, List.nil_append]
  rw [wp_lset, wp_c32, wp_lget, lget_lset_same (by rw [k1, lset_length]; omega), wp_store (by rw [setMem_size]; simp; omega),
    wp_ret, retK_ret]
  simp only [setMem_mem, setMem_setMem, Nat.reduceMod, Nat.add_zero]
  have hmem : ∀ x, 260 ≤ x → (x < A ∨ A + 4 ≤ x) → putLe (putLe σ3.mem A 4 (n + 4)) 256 4 A x = σ3.mem x := by
    intro x h1 h2
    rw [putLe_out (by omega), putLe_out (by omega)]
  refine ⟨rfl, A, 4 + n, by omega, ?_, ?_, ?_, ?_, ?_, ?_, ?_⟩
  · unfold errWord abortPtr
    rw [setMem_mem, leNat_putLe_same]
    exact Nat.mod_eq_of_lt (by omega)
  · rw [leNat_putLe_disj (by omega), leNat_putLe_same, Nat.add_comm]
    exact Nat.mod_eq_of_lt (by omega)
  · rw [rdBytes_append]
    congr 1
    · rw [rdBytes_congr (g := σ2.mem) (fun x h1 h2 => by rw [hmem x (by omega) (by omega), k2.mem x (by omega)]), hm2]
    · rw [rdBytes_congr (g := σ3.mem) (fun x h1 h2 => hmem x (by omega) (by omega)), Nat.add_assoc, ← e1]
      exact k3
  · rw [setMem_size]; omega
  · rw [setMem_size]; omega
  · intro x h1 h2
    rw [putLe_out (by omega), putLe_out (by omega), k2.mem x (by omega), hx.mem x (by omega)]
  · exact k2.host.trans hx.host

end Rt

namespace Props
open Wasm Rt Abi
variable {σ : Store}

/-- A public function that reverts with the error at its argument, up to the end of the call: the native, and what the entry
point does when the function has returned to it. -/
def revertEntry (C : Contract) (sel : List UInt8) (ts : List MTy) : Fn := ⟨1, 1, 9,
  code[Op.lget 0, (revertFn C.E sel ts).call] ++ routerExit C⟩

/-- C83.  A call that reverts with an error struct fails, its data are the selector of the error followed by the ABI encoding of
the fields, and no storage is written. -/
theorem C83_revert {C : Contract} {sel : List UInt8} {ts : List MTy} {vs : List Val} {p : Nat} (hsel : sel.length = 4) (hσ : Heap σ)
    (hr : Rep σ.mem σ.nextFree (.struct ts) (.tuple vs) p) (hroom : Room σ (8 + (encTuple vs).length)) :
    (revertEntry C sel ts).Calls [p] σ (fun r σ' => r = [1] ∧ σ'.host.result = some (sel ++ encTuple vs) ∧
      σ'.host.storage = σ.host.storage ∧ σ'.host.committed = σ.host.committed ∧ σ'.host.logs = σ.host.logs) := by
  refine ⟨rfl, ?_⟩
  show wp (code[Op.lget 0, (revertFn C.E sel ts).call] ++ routerExit C) [] ([p] ++ List.replicate 9 0) σ _
  simp only [List.cons_append, List.nil_append]
  rw [wp_lget]
  refine wp_call1 (revert_calls (E := C.E) hsel hσ hr hroom) ?_
  rintro r σ' ⟨rfl, q, n, h1, h2, h3, h4, h5, h6, h7, h8⟩
  have hb := hσ.base
  unfold reserved at hb
  refine exit_abort h6 h2 (by omega) h3 h5 (by omega) (by simp) ?_
  refine ⟨rfl, ?_, ?_⟩
  · show some (rdBytes σ'.mem (q + 4) n) = _
    rw [h4]
  · show σ'.host.storage = _ ∧ σ'.host.committed = _ ∧ σ'.host.logs = _
    rw [h8]
    exact ⟨rfl, rfl, rfl⟩

/-- An error with a vector of bytes, `[5, 6]`. -/
example : (revertEntry ⟨E0, [], noSave⟩ [0xde, 0xad, 0xbe, 0xef] [.vec .u8]).Calls [540] storeV (fun r σ' => r = [1] ∧
    σ'.host.result = some ([0xde, 0xad, 0xbe, 0xef] ++ encTuple [.array [.word 5, .word 6]]) ∧
      σ'.host.storage = storeV.host.storage ∧ σ'.host.committed = storeV.host.committed ∧ σ'.host.logs = storeV.host.logs) := by
  have e : encTuple [.array [.word 5, .word 6]] = Abi.word 32 ++ (Abi.word 2 ++ Abi.word 5 ++ Abi.word 6) := by
    simp [encTuple, enc, heads, tails, headLen, dyn, List.append_assoc]
  refine C83_revert rfl (store2_heap _ _) ?_ ⟨?_, ?_⟩
  · rw [Rep, RepFs, RepFs]
    refine ⟨by decide, by decide, by simp [MTy.isScalar], ?_, trivial⟩
    simp only [MTy.isScalar, Bool.false_eq_true, if_false]
    rw [Rep]
    refine ⟨by decide, by decide, ?_⟩
    intro i hi
    have : i = 0 ∨ i = 1 := by simp at hi; omega
    rcases this with rfl | rfl
    · show Rep _ _ .u8 (.word 5) _
      rw [Rep]; decide
    · show Rep _ _ .u8 (.word 6) _
      rw [Rep]; decide
  · rw [e]; simp [word_length]
  · rw [e]; simp [word_length, storeV, store2, store0, Store.setMem]

end Props
