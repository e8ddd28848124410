import Verif.Props.Vector
import Verif.Proof.VecPack

/-! Constants and vector literals (C92, C93). -/

namespace Props
open Wasm Rt Mv Bcs

variable {σ σ' : Store} {E : ErrPtrs} {t : Ty} {R : Nat → Prop} {vs : List Val} {v : Val} {w : Nat}

/-- A constant of the constant pool, given there in BCS: the compiler accepts the bytes, and the code yields the value in
newly allocated memory, changing nothing else. -/
theorem C92 (h : IsConst t v) : ∃ f, constFn t (enc t v) = some f ∧
    ∀ σ, Heap σ → Room σ (space t v) → f.Calls [] σ (fun r σ' => ∃ w, r = [w] ∧
      (∀ x, x < σ.nextFree → σ'.mem x = σ.mem x) ∧ Extends σ σ' ∧ σ'.nextFree = σ.nextFree + space t v ∧
      Mv.Rep σ'.mem (Between σ.nextFree σ'.nextFree) t v w) := by
  obtain ⟨is, k, e, _, hm⟩ := constOk h [] 0
  rw [List.append_nil] at e
  refine ⟨⟨0, 1, k, is⟩, by rw [constFn, e], fun σ hσ hr => ⟨rfl, ?_⟩⟩
  show wp is [] _ σ _
  rw [← List.append_nil is]
  refine hm σ [] _ [] _ hσ hr (by simp) fun σ' w l' hmade _ _ => ?_
  wstep
  exact ⟨w, rfl, hmade.ext.mem, hmade.ext, hmade.nextFree, hmade.rep⟩

/-- `vector[vector[0x123, 7], vector[]]` of `vector<vector<u256>>`. -/
example : IsConst (.vec (.vec .u256)) (.vec [.vec [.num 0x123, .num 7], .vec []]) := by
  refine .vec (by norm_num) fun v hv => ?_
  simp only [List.mem_cons, List.not_mem_nil, or_false] at hv
  rcases hv with rfl | rfl
  · refine .vec (by norm_num) fun v hv => ?_
    simp only [List.mem_cons, List.not_mem_nil, or_false] at hv
    rcases hv with rfl | rfl <;> exact .u256 (by norm_num)
  · exact .vec (by norm_num) fun v hv => absurd hv (by simp)

/-- A vector literal has the elements written in it, in their order; the elements themselves are not touched. -/
theorem C93 {ws : List Nat} (hσ : Heap σ) (hroom : Room σ (8 + ws.length * t.size)) (hR : ∀ x, R x → x < σ.nextFree)
    (hlen : vs.length = ws.length) (hw : ∀ w ∈ ws, w < 256 ^ t.size)
    (hrep : ∀ i (h : i < vs.length) (h' : i < ws.length), Mv.Rep σ.mem R t vs[i] ws[i]) :
    (vecLit t vs.length).Calls ws σ (fun r σ' => ∃ w, r = [w] ∧ Extends σ σ' ∧
      Mv.Rep σ'.mem (fun x => R x ∨ Between σ.nextFree σ'.nextFree x) (.vec t) (.vec vs) w) := by
  refine ⟨hlen.symm, ?_⟩
  unfold vecLit
  rw [hlen]
  simp only
  rw [← List.append_nil (vecPack _ _ _)]
  refine lgets_wp (by simp) ?_
  rw [List.take_left]
  refine vecPack_wp hσ hroom hw (by simp) fun σ' l' hx hn hl hc he => ?_
  wstep
  refine ⟨_, rfl, hx, ?_⟩
  simp only [Mv.Rep]
  refine ⟨vs, rfl, by rw [hl, hlen], by rw [hc, hlen], ?_, fun i hi => ?_⟩
  · intro x h1 h2
    refine .inr ⟨h1, ?_⟩
    rw [hc] at h2
    omega
  · rw [he i (by omega)]
    exact Rep.change (fun x hx' => hx.mem x (hR x hx')) (fun x hx' => .inl hx') t (hrep i hi (by omega))

/-- `vector[5, 6, 7]` of `vector<u64>`. -/
example : (vecLit .u64 3).Calls [5, 6, 7] store0 (fun r σ' => ∃ w, r = [w] ∧ Extends store0 σ' ∧
    Mv.Rep σ'.mem (fun x => False ∨ Between store0.nextFree σ'.nextFree x) (.vec .u64) (.vec [.num 5, .num 6, .num 7]) w) := by
  refine C93 (R := fun _ => False) (vs := [.num 5, .num 6, .num 7]) store0_heap (storeW_room (ws := []) (by decide)) (fun _ h => h.elim) rfl
    (by decide) ?_
  intro i h h'
  match i, h with
  | 0, _ => simp [Mv.Rep]
  | 1, _ => simp [Mv.Rep]
  | 2, _ => simp [Mv.Rep]

/-- `vector::destroy_empty` does nothing to an empty vector and raises `VectorNotEmpty` for any other. -/
theorem C93_destroy (hσ : Heap σ) (hR : ∀ x, R x → x < σ.nextFree) (hr : Mv.Rep σ.mem R (.vec t) (.vec vs) w) :
    (vs = [] → (destroyEmpty E t).Calls [w] σ (fun r σ' => r = [] ∧ σ' = σ)) ∧
    (vs ≠ [] → (destroyEmpty E t).Calls [w] σ (fun r σ' => r = [] ∧ σ' = errStore σ (E .vectorNotEmpty))) := by
  have h1 := hσ.alloc.nextFree_le
  have h2 := hσ.alloc.size_lt
  simp only [Mv.Rep] at hr
  obtain ⟨vs', hv, hl, hc, hwin, -⟩ := hr
  cases hv
  have hb : w + 8 ≤ σ.nextFree := by
    have := hR _ (hwin (w + 7) (by omega) (by omega))
    omega
  have hlt : vs.length < 4294967296 := by rw [← hl]; exact leNat_lt _ _ _
  refine ⟨fun hv => ⟨rfl, ?_⟩, fun hv => ⟨rfl, ?_⟩⟩
  · subst hv
    unfold destroyEmpty vecUnpack
    wstep
    refine wp_loop_unfold ?_
    wstep
  · unfold destroyEmpty vecUnpack
    wstep
    refine .intro (fun h => absurd (List.length_eq_zero_iff.1 (hl ▸ h)) hv) fun _ => ?_
    have hb' := hσ.base
    unfold reserved at hb'
    unerr
    wstep

/-- A vector with the one element 7. -/
example : Mv.Rep (storeW [(500, 1), (504, 1), (508, 7)]).mem (fun x => 500 ≤ x ∧ x < 512) (.vec .u32) (.vec [.num 7]) 500 := by
  simp only [Mv.Rep]
  refine ⟨_, rfl, by decide, by decide, fun x h1 h2 => ⟨h1, ?_⟩, fun i h => ?_⟩
  · have : leNat (storeW [(500, 1), (504, 1), (508, 7)]).mem (500 + 4) 4 = 1 := by decide
    rw [this] at h2
    exact h2
  · obtain rfl : i = 0 := by simpa using h
    refine ⟨?_, by decide⟩
    exact congrArg Val.num (by decide : 7 = leNat (storeW [(500, 1), (504, 1), (508, 7)]).mem 508 4)

end Props
