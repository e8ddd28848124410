import Verif.Proof.Consts

/-! Vector literals and `destroy_empty`. -/

namespace Rt
open Wasm Mv

variable {σ σ' σ'' : Store} {t : Ty}

/-- The stores of a vector literal, the last element first. -/
def packStores (t : Ty) (k : Nat) : Nat → List Instr
  | 0 => []
  | m + 1 => code[Op.lget k, Op.lset k, Op.lset (k + 2), Op.lget k, Op.lget (k + 2), Op.store t.size (8 + m * t.size)] ++ packStores t k m

theorem packStores_eq (t : Ty) (k n : Nat) :
    (List.range n).flatMap (fun i =>
      code[Op.lget k, Op.lset k, Op.lset (k + 2), Op.lget k, Op.lget (k + 2), Op.store t.size (8 + (n - 1 - i) * t.size)]) = packStores t k n := by
  induction n with
  | zero => rfl
  | succ n ih =>
    rw [List.range_succ_eq_map, List.flatMap_cons, packStores, ← ih]
    congr 1
    rw [List.flatMap_map]
    refine List.flatMap_congr fun i _ => ?_
    rw [show n + 1 - 1 - (i + 1) = n - 1 - i by omega]

theorem packStores_wp {k : Nat} : ∀ {ws : List Nat} {p : Nat} {s l : List Nat} {is : List Instr} {Q : Res → Prop} {σ : Store},
    (∀ w ∈ ws, w < 256 ^ t.size) → lget l k = p → k + 3 ≤ l.length → σ.size < 4294967296 → p + 8 + ws.length * t.size ≤ σ.size →
    (∀ f l', l'.length = l.length → lget l' k = p → (∀ x, x < p + 8 ∨ p + 8 + ws.length * t.size ≤ x → f x = σ.mem x) →
      (∀ i (h : i < ws.length), leNat f (p + 8 + i * t.size) t.size = ws[i]) → wp is s l' (σ.setMem f) Q) →
    wp (packStores t k ws.length ++ is) (ws.reverse ++ s) l σ Q := by
  intro ws
  induction ws using List.reverseRecOn with
  | nil =>
    intro p s l is Q σ _ hp hl _ _ h
    exact h σ.mem l rfl hp (fun _ _ => rfl) fun i hi => absurd hi (by simp)
  | append_singleton ws w ih =>
    intro p s l is Q σ hw hp hl hr hb h
    simp only [List.length_append, List.length_singleton] at hb h ⊢
    rw [packStores, List.reverse_append, List.reverse_singleton, List.singleton_append]
    have e : (ws.length + 1) * t.size = ws.length * t.size + t.size := Nat.succ_mul _ _
    have hsp := t.size_pos
    simp only [List.cons_append, List.nil_append]
    wstep
    rw [hp]
    refine ih (p := p) (fun w hw' => hw w (by simp [hw'])) ?_ (by simp only [lset_length]; omega) hr (show _ ≤ σ.size by omega) ?_
    · rw [lget_lset_ne (by omega), lget_lset_same (by omega)]
    · intro f l' hl' hp' hout hin
      refine h f l' (by rw [hl']; simp only [lset_length]) hp' (fun x hx => ?_) fun i hi => ?_
      · rw [hout x (by omega), setMem_mem, putLe_out (by omega)]
      · by_cases hi' : i < ws.length
        · rw [hin i hi', List.getElem_append_left hi']
        · have : i = ws.length := by omega
          subst this
          rw [List.getElem_append_right (by omega)]
          simp only [Nat.sub_self, List.getElem_singleton]
          rw [leNat_congr (g := putLe σ.mem (p + (8 + ws.length * t.size)) t.size w) fun x h1 h2 => hout x (by omega),
            show p + 8 + ws.length * t.size = p + (8 + ws.length * t.size) by omega, leNat_putLe_same,
            Nat.mod_eq_of_lt (hw w (by simp))]

/-- A vector literal: the elements are on the stack, the last one on top. -/
theorem vecPack_wp {k : Nat} {ws : List Nat} {s l : List Nat} {is : List Instr} {Q : Res → Prop} (hσ : Heap σ)
    (hroom : Room σ (8 + ws.length * t.size)) (hw : ∀ w ∈ ws, w < 256 ^ t.size) (hl : k + 3 ≤ l.length)
    (h : ∀ σ' l', Extends σ σ' → σ'.nextFree = σ.nextFree + (8 + ws.length * t.size) → leNat σ'.mem σ.nextFree 4 = ws.length →
      leNat σ'.mem (σ.nextFree + 4) 4 = ws.length →
      (∀ i (h : i < ws.length), leNat σ'.mem (σ.nextFree + 8 + i * t.size) t.size = ws[i]) → wp is (σ.nextFree :: s) l' σ' Q) :
    wp (vecPack t ws.length k ++ is) (ws.reverse ++ s) l σ Q := by
  have hr1 := hroom.1
  have hsz := t.size_le
  have hsp := t.size_pos
  have hlen : ws.length < 4294967296 := by
    have := Nat.le_mul_of_pos_right ws.length hsp
    omega
  unfold vecPack
  rw [packStores_eq]
  simp only [List.append_assoc, List.cons_append, List.nil_append]
  wstep
  refine wp_call3 (allocVec_spec (len := ws.length) (cap := ws.length) (size := t.size) hσ (Nat.le_refl _) hroom) ?_
  rintro r σ1 ⟨rfl, hx, hn, hm⟩
  have a1 := hx.alloc.nextFree_le
  have a2 := hx.alloc.size_lt
  have hb := hσ.base
  wstep
  refine packStores_wp (p := σ.nextFree) hw ?_ (by simp only [lset_length]; omega) (by omega) (by omega) ?_
  · rw [lget_lset_same (by simp only [lset_length]; omega)]
  intro f l' hl' hp hout hin
  wstep
  rw [hp]
  refine h _ l' ?_ hn ?_ ?_ hin
  · refine hx.write (fun x hx' => hout x (by omega)) fun x hx' => ?_
    rw [hout x (by omega), hx.fresh x hx']
  · rw [setMem_mem, leNat_congr (g := σ1.mem) fun x h1 h2 => hout x (by omega), hm, leNat_putLe_disj (by omega), leNat_putLe_same,
      Nat.mod_eq_of_lt (by omega)]
  · rw [setMem_mem, leNat_congr (g := σ1.mem) fun x h1 h2 => hout x (by omega), hm, leNat_putLe_same, Nat.mod_eq_of_lt (by omega)]

theorem lget_eq : ∀ {l : List Nat} {n : Nat} (h : n < l.length), lget l n = l[n]
  | _ :: _, 0, _ => rfl
  | _ :: _, _ + 1, h => lget_eq (Nat.lt_of_succ_lt_succ h)

theorem lgets_wp {is : List Instr} {Q : Res → Prop} {s l : List Nat} : ∀ {n : Nat}, n ≤ l.length →
    wp is ((l.take n).reverse ++ s) l σ Q → wp ((List.range n).map (fun i => (Op.lget i : Instr)) ++ is) s l σ Q := by
  intro n
  induction n generalizing is with
  | zero => intro _ h; simpa using h
  | succ n ih =>
    intro hn h
    rw [List.range_succ, List.map_append, List.append_assoc]
    refine ih (by omega) ?_
    simp only [List.map_cons, List.map_nil, List.singleton_append]
    rw [wp_op]
    simp only [Op.exec]
    rw [List.take_add_one, List.reverse_append] at h
    simpa [lget_eq (show n < l.length by omega), List.getElem?_eq_getElem (show n < l.length by omega)] using h

end Rt
