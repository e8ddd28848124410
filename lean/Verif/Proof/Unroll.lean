import Verif.Rt.Unroll
import Verif.Proof.MoveProg

/-!
# Unrolled programs run as the recursive ones do
-/

namespace Move
open Wasm Rt

variable {P : Prog} {F : MFun} {o : Nat}

theorem copies_length : ∀ k, (P.copies k).length = (k + 1) * P.funs.length
  | 0 => by simp [Prog.copies]
  | k + 1 => by rw [Prog.copies, List.length_append, copies_length k, List.length_map]; ring

theorem copies_prefix {k l : Nat} (h : l ≤ k) : P.copies l <+: P.copies k := by
  induction k with
  | zero => rw [Nat.le_zero.mp h]
  | succ k ih =>
    by_cases e : l = k + 1
    · rw [e]
    · exact (ih (by omega)).trans (List.prefix_append _ _)

/-- The copy of function `f` for depth `l + 1`. -/
theorem copies_get {k l f : Nat} (h : l < k) (hf : P.funs[f]? = some F) :
    (P.copies k)[(l + 1) * P.funs.length + f]? = some (F.shift (l * P.funs.length)) := by
  have hp := copies_prefix (P := P) (show l + 1 ≤ k from h)
  have h1 : (P.copies (l + 1))[(l + 1) * P.funs.length + f]? = some (F.shift (l * P.funs.length)) := by
    rw [Prog.copies, List.getElem?_append_right (by rw [copies_length]; omega), copies_length, Nat.add_sub_cancel_left,
      List.getElem?_map, hf]
    rfl
  obtain ⟨t, ht⟩ := hp
  rw [← ht, List.getElem?_append_left ((List.getElem?_eq_some_iff.mp h1).1)]
  exact h1

theorem target_shift (b : Bc) : (b.shift o).target = b.target := by cases b <;> rfl

theorem isTarget_shift (pc : Nat) : (F.shift o).isTarget pc = F.isTarget pc := by
  unfold MFun.isTarget MFun.shift
  rw [List.any_map]
  congr 1
  funext b
  simp only [Function.comp, target_shift]

theorem code_shift (pc : Nat) : (F.shift o).code[pc]? = (F.code[pc]?).map (Bc.shift o) := by
  unfold MFun.shift
  rw [List.getElem?_map]

theorem excluded_shift {c : Cfg} : Excluded (F.shift o) c ↔ Excluded F c := by
  unfold Excluded
  rw [code_shift]
  cases F.code[c.pc]? with
  | none => rfl
  | some b => cases b <;> rfl

theorem work_shift {c : Cfg} : work (F.shift o) c = work F c := by
  unfold work
  rw [code_shift]
  cases F.code[c.pc]? with
  | none => rfl
  | some b => cases b <;> rfl

/-- Instructions other than calls. -/
theorem exec_shift {Q : Prog} (hQ : Q.consts = P.consts) (hA : Q.answer = P.answer) {c : Cfg} {b : Bc} (hb : ∀ f, b ≠ .call f) :
    exec Q (F.shift o) c (b.shift o) = exec P F c b := by
  cases b <;> first
    | rfl
    | (simp only [Bc.shift, exec, hQ]; done)
    | (simp only [Bc.shift, exec, hA]; done)
    | exact absurd rfl (hb _)

theorem step_shift {Q : Prog} (hQ : Q.consts = P.consts) (hA : Q.answer = P.answer) {c : Cfg} {a : Act} (h : step P F c = some a) (ha : ∀ f args c', a ≠ .call f args c') :
    step Q (F.shift o) c = some a := by
  unfold step at h ⊢
  rw [isTarget_shift, code_shift]
  split_ifs at h with h0
  rw [if_neg h0]
  cases hb : F.code[c.pc]? with
  | none => rw [hb] at h; cases h
  | some b =>
    rw [hb] at h
    dsimp only [Option.map_some] at h ⊢
    rw [exec_shift (P := P) hQ hA, h]
    rintro f rfl
    simp only [exec] at h
    split at h
    · split_ifs at h
      cases h
      exact ha _ _ _ rfl
    · cases h

theorem step_shift_call {Q : Prog} {c c' : Cfg} {f : Nat} {args : List Opd} {G H : MFun} (h : step P F c = some (.call f args c'))
    (hG : P.funs[f]? = some G) (hH : Q.funs[o + f]? = some H) (he : H.args = G.args) : step Q (F.shift o) c = some (.call (o + f) args c') := by
  unfold step at h ⊢
  rw [isTarget_shift, code_shift]
  split_ifs at h with h0
  rw [if_neg h0]
  cases hb : F.code[c.pc]? with
  | none => rw [hb] at h; cases h
  | some b =>
    rw [hb] at h
    dsimp only [Option.map_some] at h ⊢
    obtain ⟨rfl, G', hG', rfl, h1, rfl⟩ := exec_call h
    rw [hG] at hG'
    cases hG'
    simp only [Bc.shift, exec, hH, he]
    rw [if_pos h1]

theorem runs_pos {A : MFun → Cfg → Prop} {c : Cfg} {n : Nat} {h : Halt} (hr : Runs P A F c n h) : 1 ≤ n := by
  cases hr with
  | next => have := work_pos (F := F) (c := c); omega
  | halt => exact work_pos
  | call => omega
  | callHalt => omega

/-- A run of the program is a run of the unrolled program, if it is unrolled far enough. -/
theorem runs_unroll {A B : MFun → Cfg → Prop} (hAB : ∀ F c o, A F c → B (F.shift o) c) {k : Nat} {F : MFun} {c : Cfg} {n : Nat} {h : Halt}
    (hr : Runs P A F c n h) : ∀ {l : Nat}, l < k → n ≤ l + 1 → Runs (P.unroll k) B (F.shift (l * P.funs.length)) c n h := by
  induction hr with
  | next a s r ih =>
    intro l hl hn
    rename_i F c _ _ _
    rw [← work_shift (o := l * P.funs.length)]
    exact .next (hAB _ _ _ a) (step_shift (P := P) (Q := P.unroll k) rfl rfl s (by simp)) (ih hl (by omega))
  | halt a s =>
    intro l hl hn
    rw [← work_shift (o := l * P.funs.length)]
    exact .halt (hAB _ _ _ a) (step_shift (P := P) (Q := P.unroll k) rfl rfl s (by simp))
  | call a s hG r1 r2 ih1 ih2 =>
    intro l hl hn
    have p1 := runs_pos r1
    have p2 := runs_pos r2
    obtain ⟨l, rfl⟩ : ∃ j, l = j + 1 := ⟨l - 1, by omega⟩
    have hH := copies_get (k := k) (l := l) (by omega) hG
    exact .call (hAB _ _ _ a) (step_shift_call (Q := P.unroll k) s hG hH rfl) hH (ih1 (by omega) (by omega)) (ih2 hl (by omega))
  | callHalt a s hG r1 hne ih1 =>
    intro l hl hn
    have p1 := runs_pos r1
    obtain ⟨l, rfl⟩ : ∃ j, l = j + 1 := ⟨l - 1, by omega⟩
    have hH := copies_get (k := k) (l := l) (by omega) hG
    exact .callHalt (hAB _ _ _ a) (step_shift_call (Q := P.unroll k) s hG hH rfl) hH (ih1 (by omega) (by omega)) hne

/-! ### The control flow of the copies -/

theorem isJump_shift (b : Bc) : (b.shift o).isJump = b.isJump := by cases b <;> rfl

theorem jumpOk_shift {fs br im K pc} (b : Bc) : jumpOk fs br im K pc (b.shift o) = jumpOk fs br im K pc b := by cases b <;> rfl

theorem blockOk_shift {fs br im K} : ∀ (bs : List Bc) (pc : Nat),
    blockOk (F.shift o) fs br im K (bs.map (Bc.shift o)) pc = blockOk F fs br im K bs pc
  | [], pc => by simp only [List.map_nil, blockOk, isTarget_shift]
  | b :: bs, pc => by
    simp only [List.map_cons, blockOk, isJump_shift, jumpOk_shift, List.isEmpty_map, blockOk_shift bs]

theorem ok_shift : ∀ (flow : Flow) (fs : List Frame) (K : Option Nat), flow.ok (F.shift o) fs K = flow.ok F fs K
  | .simple label len br im nx, fs, K => by
    simp only [Flow.ok, ok_shift im, ok_shift nx]
    congr 2
    rw [← blockOk_shift (F := F) (o := o) ((F.code.drop label).take len)]
    simp only [MFun.shift, List.map_take, List.map_drop]
  | .loop id inner nx, fs, K => by simp only [Flow.ok, ok_shift inner, ok_shift nx]
  | .ifElse a b, fs, K => by simp only [Flow.ok, ok_shift a, ok_shift b]
  | .empty, _, _ => rfl

theorem fits_shift (flow : Flow) : flow.fits (F.shift o) = flow.fits F := by
  unfold Flow.fits
  rw [ok_shift]

theorem fits_stub (F : MFun) : Flow.fits F.stub (.simple 0 2 [] .empty .empty) = true := by
  simp [Flow.fits, Flow.ok, Flow.entry, MFun.stub, blockOk, Bc.isJump, jumpOk, Flow.label?]

theorem copyFlows_length {flows : List Flow} (hl : flows.length = P.funs.length) : ∀ k, (copyFlows P flows k).length = (P.copies k).length
  | 0 => by simp [copyFlows, Prog.copies]
  | k + 1 => by simp [copyFlows, Prog.copies, copyFlows_length hl k, hl]

theorem fits_copies {flows : List Flow} (hl : flows.length = P.funs.length) (hfit : ∀ z ∈ P.funs.zip flows, z.2.fits z.1 = true) :
    ∀ k, ∀ z ∈ (P.copies k).zip (copyFlows P flows k), z.2.fits z.1 = true
  | 0 => by
    intro z hz
    simp only [Prog.copies, copyFlows, List.zip_map', List.mem_map] at hz
    obtain ⟨F, -, rfl⟩ := hz
    exact fits_stub F
  | k + 1 => by
    intro z hz
    rw [Prog.copies, copyFlows, List.zip_append (copyFlows_length hl k).symm, List.mem_append] at hz
    rcases hz with hz | hz
    · exact fits_copies hl hfit k z hz
    · rw [List.zip_map_left, List.mem_map] at hz
      obtain ⟨⟨F, fl⟩, hy, rfl⟩ := hz
      exact (fits_shift _).trans (hfit _ hy)

theorem unit_copies {U : Nat} (hF : ∀ F ∈ P.funs, 64 * F.args.length ≤ U ∧ tupleSize F.rets ≤ U) :
    ∀ k, ∀ F ∈ P.copies k, 64 * F.args.length ≤ U ∧ tupleSize F.rets ≤ U
  | 0 => by
    intro F h
    obtain ⟨G, hG, rfl⟩ := List.mem_map.mp h
    exact hF G hG
  | k + 1 => by
    intro F h
    rcases List.mem_append.mp h with h | h
    · exact unit_copies hF k F h
    · obtain ⟨G, hG, rfl⟩ := List.mem_map.mp h
      exact hF G hG

end Move
