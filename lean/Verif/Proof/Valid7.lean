import Verif.Proof.Valid5
import Verif.Proof.Unroll

/-!
# The copies of recursive functions pass the verifier
-/

namespace Move
open Wasm Rt

variable {P Q : Prog} {F : MFun} {o : Nat}

/-- The functions of `P` have copies with the same arguments and results at `o`. -/
def SameSig (P Q : Prog) (o : Nat) : Prop :=
  Q.consts = P.consts ∧ ∀ f G, P.funs[f]? = some G → ∃ H, Q.funs[o + f]? = some H ∧ H.args = G.args ∧ H.rets = G.rets

theorem check_shift (h : SameSig P Q o) {b : Bc} {ts ts' : List Ty} (hc : b.check P F ts = some ts') :
    (b.shift o).check Q (F.shift o) ts = some ts' := by
  cases b with
  | call f =>
    simp only [Bc.check, Bc.shift] at hc ⊢
    split at hc
    case h_2 => cases hc
    rename_i G hG
    obtain ⟨H, hH, e1, e2⟩ := h.2 f G hG
    rw [hH]
    simp only [e1, e2]
    exact hc
  | ldConst i =>
    simp only [Bc.check, Bc.shift] at hc ⊢
    rw [h.1]
    exact hc
  | _ => exact hc

theorem blockTys_shift (h : SameSig P Q o) : ∀ (bs : List Bc) {ts : List Ty}, blockTys P F bs ts = true →
    blockTys Q (F.shift o) (bs.map (Bc.shift o)) ts = true
  | [], ts, hb => hb
  | b :: bs, ts, hb => by
    simp only [blockTys, List.map_cons] at hb ⊢
    split at hb
    case h_2 => cases hb
    rename_i ts' hc
    rw [check_shift h hc]
    exact blockTys_shift h bs hb

theorem checked_shift (h : SameSig P Q o) : ∀ (flow : Flow), flow.checked P F = true → flow.checked Q (F.shift o) = true
  | .simple label len br im nx, hc => by
    simp only [Flow.checked, Bool.and_eq_true] at hc ⊢
    refine ⟨⟨⟨?_, checked_shift h im hc.1.1.2⟩, checked_shift h nx hc.1.2⟩, hc.2⟩
    have := blockTys_shift h _ hc.1.1.1
    simpa only [MFun.shift, List.map_take, List.map_drop] using this
  | .loop id inner nx, hc => by
    simp only [Flow.checked, Bool.and_eq_true] at hc ⊢
    exact ⟨⟨⟨checked_shift h inner hc.1.1.1, checked_shift h nx hc.1.1.2⟩, hc.1.2⟩, hc.2⟩
  | .ifElse a b, hc => by
    simp only [Flow.checked, Bool.and_eq_true] at hc ⊢
    exact ⟨⟨⟨checked_shift h a hc.1.1.1, checked_shift h b hc.1.1.2⟩, hc.1.2⟩, hc.2⟩
  | .empty, _ => rfl

theorem same_copy {k l : Nat} (h : l < k) : SameSig P (P.unroll k) (l * P.funs.length) := by
  refine ⟨rfl, fun f G hG => ?_⟩
  cases l with
  | zero =>
    refine ⟨G.stub, ?_, rfl, rfl⟩
    have hp := copies_prefix (P := P) (Nat.zero_le k)
    obtain ⟨q, hq⟩ := hp
    have hf := (List.getElem?_eq_some_iff.mp hG).1
    show (P.copies k)[0 * P.funs.length + f]? = _
    rw [← hq, Nat.zero_mul, Nat.zero_add, List.getElem?_append_left (by simpa [Prog.copies] using hf), Prog.copies, List.getElem?_map, hG]
    rfl
  | succ l => exact ⟨_, copies_get (by omega) hG, rfl, rfl⟩

theorem checked_stub (F : MFun) : Flow.checked Q F.stub (.simple 0 2 [] .empty .empty) = true := by
  simp [Flow.checked, MFun.stub, blockTys, Bc.check, Flow.isIf]

theorem checked_copies {flows : List Flow} (hl : flows.length = P.funs.length) (hck : ∀ z ∈ P.funs.zip flows, z.2.checked P z.1 = true)
    {k : Nat} : ∀ l ≤ k, ∀ z ∈ (P.copies l).zip (copyFlows P flows l), z.2.checked (P.unroll k) z.1 = true
  | 0, _ => by
    intro z hz
    simp only [Prog.copies, copyFlows, List.zip_map', List.mem_map] at hz
    obtain ⟨F, -, rfl⟩ := hz
    exact checked_stub F
  | l + 1, hlk => by
    intro z hz
    rw [Prog.copies, copyFlows, List.zip_append (copyFlows_length hl l).symm, List.mem_append] at hz
    rcases hz with hz | hz
    · exact checked_copies hl hck l (by omega) z hz
    · rw [List.zip_map_left, List.mem_map] at hz
      obtain ⟨⟨F, fl⟩, hy, rfl⟩ := hz
      exact checked_shift (same_copy (by omega)) fl (hck _ hy)

end Move
