import Verif.Rt.Enums
import Verif.Proof.VecPack
import Verif.Proof.Copy3

/-! Enums: building them, matching on them, taking them apart. -/

namespace Rt
open Wasm Mv

variable {σ σ' σ'' : Store} {t : Ty}

/-- Memory for the numbers among the fields. -/
def fieldCells : List Ty → Nat
  | [] => 0
  | t :: ts => (if t.scalar then t.size else 0) + fieldCells ts

theorem fieldCells_append : ∀ (ts us : List Ty), fieldCells (ts ++ us) = fieldCells ts + fieldCells us
  | [], us => by simp [fieldCells]
  | t :: ts, us => by simp only [List.cons_append, fieldCells, fieldCells_append ts us]; omega

/-- The cell of a field at `a`: a pointer to a new cell with the number, or the pointer that is the value. -/
def FieldAt (lo hi : Nat) (f : Bytes) (t : Ty) (w a : Nat) : Prop :=
  if t.scalar then lo ≤ leNat f a 4 ∧ leNat f a 4 + t.size ≤ hi ∧ leNat f (leNat f a 4) t.size = w else leNat f a 4 = w

theorem FieldAt.mono {lo hi lo' hi' : Nat} {f g : Bytes} {w a : Nat} (h : FieldAt lo hi f t w a) (h1 : lo' ≤ lo) (h2 : hi ≤ hi')
    (h3 : ∀ x, a ≤ x → x < a + 4 → g x = f x) (h4 : ∀ x, lo ≤ x → x < hi → g x = f x) : FieldAt lo' hi' g t w a := by
  unfold FieldAt at h ⊢
  have e : leNat g a 4 = leNat f a 4 := leNat_congr h3
  rw [e]
  split_ifs at h ⊢ with hs
  · obtain ⟨a1, a2, a3⟩ := h
    refine ⟨by omega, by omega, ?_⟩
    rw [leNat_congr (g := f) fun x g1 g2 => h4 x (by omega) (by omega), a3]
  · exact h

theorem packVarFields_wp {k p : Nat} {σ0 : Store} (h0 : Heap σ0) (hp0 : σ0.nextFree ≤ p) : ∀ {ts : List Ty} {ws : List Nat} {j : Nat}
    {s l : List Nat} {is : List Instr} {Q : Res → Prop} {σ : Store}, ts.length = ws.length →
    (∀ i (h : i < ts.length) (h' : i < ws.length), ws[i] < 256 ^ ts[i].size) → lget l k = p → k + 2 ≤ j → j + ts.length ≤ l.length →
    Extends σ0 σ → Room σ (fieldCells ts) → p + 4 + 4 * ts.length ≤ σ.nextFree →
    (∀ σ' l', Extends σ0 σ' → σ'.nextFree = σ.nextFree + fieldCells ts → l'.length = l.length → lget l' k = p →
      (∀ x, x < σ.nextFree → x < p + 4 ∨ p + 4 + 4 * ts.length ≤ x → σ'.mem x = σ.mem x) →
      (∀ i (h : i < ts.length) (h' : i < ws.length), FieldAt σ.nextFree σ'.nextFree σ'.mem ts[i] ws[i] (p + 4 + 4 * i)) → wp is s l' σ' Q) →
    wp (packVarFields k ts.reverse j ts.length ++ is) (ws.reverse ++ s) l σ Q := by
  intro ts
  induction ts using List.reverseRecOn with
  | nil =>
    intro ws j s l is Q σ hlen hw hp hk hl hx hr hb h
    obtain rfl : ws = [] := List.length_eq_zero_iff.1 hlen.symm
    exact h σ l hx (by simp [fieldCells]) rfl hp (fun _ _ _ => rfl) fun i hi => absurd hi (by simp)
  | append_singleton ts t ih =>
    intro ws j s l is Q σ hlen hw hp hk hl hx hr hb h
    induction ws using List.reverseRecOn with
    | nil => simp at hlen
    | append_singleton ws w _ =>
    clear * - ih hlen hw hp hk hl hx hr hb h h0 hp0
    simp only [List.length_append, List.length_singleton, Nat.add_right_cancel_iff] at hlen hl hb
    have hwt : w < 256 ^ t.size := by
      have := hw ts.length (by simp) (by simp [hlen])
      simpa [List.getElem_append_right, hlen] using this
    have hws : ∀ i (h : i < ts.length) (h' : i < ws.length), ws[i] < 256 ^ ts[i].size := fun i h1 h2 => by
      have := hw i (by simp; omega) (by simp; omega)
      simpa [List.getElem_append_left, h1, h2] using this
    rw [fieldCells_append] at hr
    simp only [fieldCells, Nat.add_zero] at hr
    have hσ := hx.heap h0
    have hn0 := hx.nextFree
    -- the pointer stored, and the rest
    have main : ∀ l1 j1 σ1 q, k + 2 ≤ j1 → j1 + ts.length ≤ l1.length → l1.length = l.length → lget l1 k = p → lget l1 (k + 1) = q →
        q < 2 ^ 32 → Extends σ σ1 → σ1.nextFree = σ.nextFree + (if t.scalar then t.size else 0) →
        (if t.scalar then q = σ.nextFree ∧ leNat σ1.mem q t.size = w else q = w) →
        wp (code[Op.lget k, Op.lget (k + 1), Op.store 4 (4 * (ts.length + 1))] ++ (packVarFields k ts.reverse j1 ts.length ++ is))
          (ws.reverse ++ s) l1 σ1 Q := by
      intro l1 j1 σ1 q hj1 hl1 hll hp1 hq hq32 hx1 hn1 hq1
      have a1 := (hx1.heap hσ).alloc.nextFree_le
      have a2 := (hx1.heap hσ).alloc.size_lt
      have hn1' := hx1.nextFree
      simp only [List.cons_append, List.nil_append, wp_lget, hp1, hq]
      rw [wp_store (by omega)]
      have hx2 := (hx.trans hx1).putLe (p := p + 4 * (ts.length + 1)) (n := 4) (v := q) (by omega) (by omega)
      refine ih (j := j1) hlen hws hp1 hj1 hl1 hx2 ?_ (by simp only [setMem_nextFree]; omega) ?_
      · refine Room.after (σ := σ) (k := if t.scalar then t.size else 0) ?_ (by simp only [setMem_nextFree]; omega) hx1.maxPages
        rwa [Nat.add_comm]
      · intro σ' l' g1 g2 g3 g4 g5 g6
        simp only [setMem_nextFree, setMem_mem] at g2 g5 g6
        have hcell : ∀ x, p + 4 + 4 * ts.length ≤ x → x < p + 4 + 4 * ts.length + 4 →
            σ'.mem x = putLe σ1.mem (p + 4 * (ts.length + 1)) 4 q x := fun x h1 h2 => g5 x (by omega) (.inr h1)
        refine h σ' l' g1 ?_ (g3.trans hll) g4 ?_ ?_
        · rw [g2, hn1, fieldCells_append]; simp only [fieldCells]; omega
        · intro x h1 h2
          simp only [List.length_append, List.length_singleton] at h2
          rw [g5 x (by omega) (by omega), putLe_out (by omega), hx1.mem x h1]
        · intro i h1 h2
          simp only [List.length_append, List.length_singleton] at h1 h2
          by_cases hi : i < ts.length
          · rw [List.getElem_append_left hi, List.getElem_append_left (by omega)]
            exact (g6 i hi (by omega)).mono (by omega) (Nat.le_refl _) (fun _ _ _ => rfl) fun _ _ _ => rfl
          · obtain rfl : i = ts.length := by omega
            rw [List.getElem_append_right (by omega), List.getElem_append_right (by omega)]
            have e : ts.length - ws.length = 0 := by omega
            simp only [e, Nat.sub_self, List.getElem_singleton]
            have e1 : leNat σ'.mem (p + 4 + 4 * ts.length) 4 = q := by
              rw [leNat_congr (g := putLe σ1.mem (p + 4 * (ts.length + 1)) 4 q) fun x b1 b2 => hcell x b1 b2,
                show p + 4 + 4 * ts.length = p + 4 * (ts.length + 1) by omega, leNat_putLe_same, Nat.mod_eq_of_lt (by omega)]
            unfold FieldAt
            rw [e1]
            split_ifs at hq1 hn1 ⊢ with hs
            · refine ⟨by omega, by omega, ?_⟩
              rw [← hq1.2]
              refine leNat_congr fun x b1 b2 => ?_
              rw [g5 x (by omega) (.inr (by omega)), putLe_out (by omega)]
            · exact hq1
    rw [List.reverse_append, List.reverse_append, List.reverse_singleton, List.reverse_singleton, List.length_append,
      List.length_singleton]
    simp only [List.singleton_append, List.cons_append, packVarFields, Nat.add_sub_cancel, List.append_assoc]
    have a1 := hσ.alloc.nextFree_le
    have a2 := hσ.alloc.size_lt
    have hsz := t.size_le
    have hsp := t.size_pos
    by_cases hs : t.scalar = true
    · simp only [hs, if_true, List.cons_append, List.nil_append] at hr main ⊢
      rw [wp_lset, wp_c32, Nat.mod_eq_of_lt (by omega)]
      refine wp_allocR hσ hr (by omega) fun σ1 b1 => ?_
      have n1 := b1.nextFree
      have i1 := b1.inside
      have hlt1 := b1.heap.alloc.size_lt
      rw [wp_ltee, wp_lget, lget_lset_ne (by omega), lget_lset_same (by omega), wp_store (by omega)]
      simp only [Nat.add_zero]
      refine main _ (j + 1) _ σ.nextFree (by omega) (by simp only [lset_length]; omega) (by simp only [lset_length]) ?_ ?_ (by omega)
        (b1.extends.putLe (by omega) (by omega)) (by simp only [setMem_nextFree]; exact n1) ⟨rfl, ?_⟩
      · rw [lget_lset_ne (by omega), lget_lset_ne (by omega), hp]
      · rw [lget_lset_same (by simp only [lset_length]; omega)]
      · rw [setMem_mem, leNat_putLe_same, Nat.mod_eq_of_lt hwt]
    · have hs' : t.scalar = false := by simpa using hs
      simp only [hs', Bool.false_eq_true, if_false, List.cons_append, List.nil_append] at hr main ⊢
      rw [wp_lset]
      have hsz4 : t.size = 4 := by cases t <;> simp [Ty.scalar, Ty.size] at hs' ⊢
      rw [hsz4] at hwt
      refine main _ j σ w hk (by simp only [lset_length]; omega) (by simp only [lset_length]) ?_ ?_ hwt hσ.refl rfl rfl
      · rw [lget_lset_ne (by omega), hp]
      · rw [lget_lset_same (by omega)]

/-- Fields whose cells are given one by one. -/
theorem repFs_of_cells {f : Bytes} {R : Nat → Prop} {lo hi : Nat} : ∀ {ts : List Ty} {vs : List Val} {ws : List Nat} {p : Nat},
    ts.length = vs.length → ts.length = ws.length → (∀ x, lo ≤ x → x < hi → R x) → Within R p (4 * ts.length) →
    (∀ i (h : i < ts.length) (h' : i < ws.length), FieldAt lo hi f ts[i] ws[i] (p + 4 * i)) →
    (∀ i (h : i < ts.length) (h1 : i < vs.length) (h' : i < ws.length), Mv.Rep f R ts[i] vs[i] ws[i]) → Mv.RepFs f R ts vs p
  | [], vs, ws, p, h1, _, _, _, _, _ => by
    obtain rfl : vs = [] := List.length_eq_zero_iff.1 h1.symm
    simp [Mv.RepFs]
  | t :: ts, [], ws, p, h1, _, _, _, _, _ => by simp at h1
  | t :: ts, v :: vs, [], p, _, h2, _, _, _, _ => by simp at h2
  | t :: ts, v :: vs, w :: ws, p, h1, h2, hR, hp, hc, hr => by
    simp only [List.length_cons, Nat.add_right_cancel_iff] at h1 h2 hp
    have c0 := hc 0 (by simp) (by simp)
    have r0 := hr 0 (by simp) (by simp) (by simp)
    simp only [List.getElem_cons_zero, Nat.mul_zero, Nat.add_zero] at c0 r0
    simp only [Mv.RepFs]
    unfold FieldAt at c0
    refine ⟨v, vs, rfl, fun x a b => hp x a (by omega), ?_, ?_, ?_⟩
    · intro hs
      rw [if_pos hs] at c0
      exact fun x a b => hR x (by omega) (by omega)
    · split_ifs at c0 ⊢ with hs
      · rw [c0.2.2]; exact r0
      · rw [c0]; exact r0
    · refine repFs_of_cells (ws := ws) (p := p + 4) h1 h2 hR (fun x a b => hp x (by omega) (by omega)) (fun i a b => ?_) fun i a b c => ?_
      · have := hc (i + 1) (by simp; omega) (by simp; omega)
        simpa [Nat.mul_add, Nat.add_assoc, Nat.add_comm 4] using this
      · exact hr (i + 1) (by simp; omega) (by simp; omega) (by simp; omega)

theorem repVar_iff {f : Bytes} {R : Nat → Prop} : ∀ {vss : List (List Ty)} {i : Nat} {vs : List Val} {p : Nat},
    Mv.RepVar f R vss i vs p ↔ ∃ fs, vss[i]? = some fs ∧ Mv.RepFs f R fs vs p
  | [], i, vs, p => by simp [Mv.RepVar]
  | fs :: vss, 0, vs, p => by simp [Mv.RepVar]
  | fs :: vss, i + 1, vs, p => by simp [Mv.RepVar, repVar_iff (vss := vss)]

/-- A variant is built from the operands. -/
theorem packVariant_wp {k i : Nat} {vss : List (List Ty)} {fs : List Ty} {ws : List Nat} {vs : List Val} {R : Nat → Prop} {s l : List Nat}
    {is : List Instr} {Q : Res → Prop} (hσ : Heap σ) (hroom : Room σ (enumHeap vss + fieldCells fs)) (hR : ∀ x, R x → x < σ.nextFree)
    (hi : vss[i]? = some fs) (hi32 : i < 2 ^ 32) (hl1 : fs.length = vs.length) (hl2 : fs.length = ws.length)
    (hw : ∀ i (h : i < fs.length) (h' : i < ws.length), ws[i] < 256 ^ fs[i].size)
    (hr : ∀ i (h : i < fs.length) (h1 : i < vs.length) (h' : i < ws.length), Mv.Rep σ.mem R fs[i] vs[i] ws[i])
    (hl : k + 2 + fs.length ≤ l.length)
    (h : ∀ σ' l', Extends σ σ' → σ'.nextFree = σ.nextFree + (enumHeap vss + fieldCells fs) →
      Mv.Rep σ'.mem (fun x => R x ∨ Between σ.nextFree σ'.nextFree x) (.enum vss) (.variant i vs) σ.nextFree →
      wp is (σ.nextFree :: s) l' σ' Q) :
    wp (packVariant vss i fs k ++ is) (ws.reverse ++ s) l σ Q := by
  have hge := enumHeap_ge hi
  have hr1 := hroom.1
  have hb := hσ.base
  unfold packVariant
  simp only [List.append_assoc, List.cons_append, List.nil_append]
  rw [wp_c32, Nat.mod_eq_of_lt (by omega)]
  refine wp_allocR hσ hroom (by omega) fun σ1 a1 => ?_
  have n1 := a1.nextFree
  have i1 := a1.inside
  have s1 := a1.heap.alloc.size_lt
  rw [wp_lset, wp_lget, lget_lset_same (by omega), wp_c32, Nat.mod_eq_of_lt (show i < 4294967296 from hi32), wp_store (by omega)]
  simp only [Nat.add_zero]
  have hx1 : Extends σ (σ1.setMem (putLe σ1.mem σ.nextFree 4 i)) := a1.extends.putLe (by omega) (by omega)
  refine packVarFields_wp (p := σ.nextFree) hσ (Nat.le_refl _) hl2 hw (lget_lset_same (by omega)) (Nat.le_refl _)
    (by simp only [lset_length]; omega) hx1 ?_ (by simp only [setMem_nextFree]; omega) ?_
  · exact Room.after (σ := σ) hroom (by simp only [setMem_nextFree]; omega) hx1.maxPages
  · intro σ' l' g1 g2 g3 g4 g5 g6
    simp only [setMem_nextFree, setMem_mem] at g2 g5 g6
    rw [wp_lget, g4]
    have e0 : leNat σ'.mem σ.nextFree 4 = i := by
      rw [leNat_congr (g := putLe σ1.mem σ.nextFree 4 i) fun x b1 b2 => g5 x (by omega) (.inl (by omega)), leNat_putLe_same,
        Nat.mod_eq_of_lt (by omega)]
    refine h σ' l' g1 (by omega) ?_
    simp only [Mv.Rep]
    rw [e0]
    refine ⟨vs, rfl, fun x b1 b2 => .inr ⟨b1, by omega⟩, repVar_iff.2 ⟨fs, hi, ?_⟩⟩
    refine repFs_of_cells (lo := σ1.nextFree) (hi := σ'.nextFree) hl1 hl2 (fun x b1 b2 => .inr ⟨by omega, b2⟩)
      (fun x b1 b2 => .inr ⟨by omega, by omega⟩) g6 fun j c1 c2 c3 => ?_
    exact Rep.change (fun x hx => g1.mem x (hR x hx)) (fun x hx => .inl hx) _ (hr j c1 c2 c3)

/-- The fields are pushed. -/
theorem unpackVarFs_wp {k p : Nat} {R : Nat → Prop} {l : List Nat} {Q : Res → Prop} {is : List Instr} (hσ : Heap σ)
    (hR : ∀ x, R x → x < σ.nextFree) (hp : lget l k = p) : ∀ {fs : List Ty} {vs : List Val} {off : Nat} {s : List Nat},
    Mv.RepFs σ.mem R fs vs (p + off) →
    (∀ ws : List Nat, fs.length = ws.length → (∀ i (h : i < fs.length) (h1 : i < vs.length) (h' : i < ws.length), Mv.Rep σ.mem R fs[i] vs[i] ws[i]) →
      wp is (ws.reverse ++ s) l σ Q) → wp (unpackVarFs k fs off ++ is) s l σ Q
  | [], vs, off, s, _, h => h [] rfl fun i hi => absurd hi (by simp)
  | t :: ts, vs, off, s, hr, h => by
    simp only [Mv.RepFs] at hr
    obtain ⟨v, vs', rfl, h1, h2, h3, h4⟩ := hr
    have a1 := hσ.alloc.nextFree_le
    have hb := hR _ (h1 (p + off + 3) (by omega) (by omega))
    have hsp := t.size_pos
    simp only [unpackVarFs, List.append_assoc, List.cons_append, List.nil_append, wp_lget, hp]
    rw [wp_load (by omega)]
    have rest : ∀ w, Mv.Rep σ.mem R t v w → wp (unpackVarFs k ts (off + 4) ++ is) (w :: s) l σ Q := by
      intro w hw
      refine unpackVarFs_wp hσ hR hp (vs := vs') (by rwa [← Nat.add_assoc]) fun ws hl hws => ?_
      have := h (w :: ws) (by simp [hl]) ?_
      · simpa using this
      · intro i c1 c2 c3
        match i with
        | 0 => exact hw
        | i + 1 => simpa using hws i (by simpa using c1) (by simpa using c2) (by simpa using c3)
    by_cases hs : t.scalar = true
    · simp only [hs, if_true, List.cons_append, List.nil_append] at h3 ⊢
      have hb' := hR _ (h2 hs (leNat σ.mem (p + off) 4 + t.size - 1) (by omega) (by omega))
      rw [wp_load (by omega)]
      exact rest _ h3
    · simp only [hs, Bool.false_eq_true, if_false, List.nil_append] at h3 ⊢
      exact rest _ h3

/-- References to the fields are pushed. -/
theorem refFs_wp {k p : Nat} {l : List Nat} {Q : Res → Prop} {is : List Instr} (hp : lget l k = p) : ∀ {fs : List Ty} {off : Nat} {s : List Nat},
    p + off + 4 * fs.length < 2 ^ 32 → wp is (((List.range fs.length).map fun i => p + off + 4 * i).reverse ++ s) l σ Q →
    wp (refFs k fs off ++ is) s l σ Q
  | [], off, s, _, h => by simpa [refFs] using h
  | t :: ts, off, s, hlt, h => by
    simp only [List.length_cons] at hlt
    simp only [refFs, List.cons_append, List.nil_append, wp_lget, hp]
    rw [wp_c32, Nat.mod_eq_of_lt (by omega)]
    wstep
    refine refFs_wp hp (by omega) ?_
    rw [List.length_cons, List.range_succ_eq_map] at h
    simp only [List.map_cons, List.map_map, List.reverse_cons, List.append_assoc, List.singleton_append, Nat.mul_zero, Nat.add_zero] at h
    have e : ((fun i => p + off + 4 * i) ∘ Nat.succ) = fun i => p + (off + 4) + 4 * i := by
      funext i
      simp only [Function.comp_apply]
      omega
    rw [e] at h
    exact h

/-- One field. -/
theorem repFs_get {f : Bytes} {R : Nat → Prop} : ∀ {fs : List Ty} {vs : List Val} {p : Nat}, Mv.RepFs f R fs vs p →
    fs.length = vs.length ∧ ∀ i (h : i < fs.length) (h1 : i < vs.length), Mv.RepFs f R [fs[i]] [vs[i]] (p + 4 * i)
  | [], vs, p, h => by simp only [Mv.RepFs] at h; subst h; simp
  | t :: ts, vs, p, h => by
    simp only [Mv.RepFs] at h
    obtain ⟨v, vs', rfl, h1, h2, h3, h4⟩ := h
    obtain ⟨e, ih⟩ := repFs_get h4
    refine ⟨by simp [e], fun i c1 c2 => ?_⟩
    match i with
    | 0 =>
      simp only [Mv.RepFs, List.getElem_cons_zero, Nat.mul_zero, Nat.add_zero]
      exact ⟨v, [], rfl, h1, h2, h3, rfl⟩
    | i + 1 =>
      have := ih i (by simpa using c1) (by simpa using c2)
      simpa [Nat.mul_add, Nat.add_assoc, Nat.add_comm 4] using this

theorem brTable_wp {k i t : Nat} {l : List Nat} {σ : Store} {Q : Res → Prop} : ∀ (ts : List Nat) (j : Nat), lget l k = i → j ≤ i → i < 2 ^ 32 →
    ts[i - j]? = some t → Q (.br t [] l σ) → wp (brTable k j ts) [] l σ Q
  | [], _, _, _, _, h, _ => by simp at h
  | t' :: ts, j, hk, hj, hi, h, hQ => by
    unfold brTable
    wstep
    rw [hk]
    by_cases e : i = j
    · subst e
      simp only [Nat.sub_self, List.getElem?_cons_zero, Option.some.injEq] at h
      subst h
      rw [IfP.pos rfl]
      exact hQ
    · rw [IfP.neg e]
      refine brTable_wp ts (j + 1) hk (by omega) hi ?_ hQ
      rwa [show i - j = i - (j + 1) + 1 by omega, List.getElem?_cons_succ] at h

theorem mapM_get {α β : Type} {f : α → Option β} : ∀ {xs : List α} {ys : List β}, xs.mapM f = some ys → ∀ {i : Nat} {x : α},
    xs[i]? = some x → ∃ y, ys[i]? = some y ∧ f x = some y
  | [], _, _, _, _, h => by simp at h
  | x' :: xs, ys, e, i, x, h => by
    rw [List.mapM_cons] at e
    cases e1 : f x' with
    | none => simp [e1] at e
    | some y =>
      cases e2 : xs.mapM f with
      | none => simp [e1, e2] at e
      | some ys' =>
        simp only [e1, e2, Option.pure_def, Option.bind_eq_bind, Option.bind_some, Option.some.injEq] at e
        subst e
        cases i with
        | zero =>
          simp only [List.getElem?_cons_zero, Option.some.injEq] at h
          subst h
          exact ⟨y, rfl, e1⟩
        | succ i => exact mapM_get e2 (i := i) (by simpa using h)

theorem mapM_isSome {α β : Type} {f : α → Option β} : ∀ {xs : List α}, (∀ x ∈ xs, (f x).isSome) → (xs.mapM f).isSome
  | [], _ => rfl
  | x :: xs, h => by
    obtain ⟨y, e1⟩ := Option.isSome_iff_exists.1 (h x (by simp))
    obtain ⟨ys, e2⟩ := Option.isSome_iff_exists.1 (mapM_isSome fun x' hx => h x' (List.mem_cons_of_mem _ hx))
    simp [List.mapM_cons, e1, e2]

theorem openCases_wp {tbl : List Nat} {k i o : Nat} {l : List Nat} {σ : Store} {P : List Nat → Store → Prop} (hk : lget l k = i) (hi : i < 2 ^ 32)
    (ho : tbl[i]? = some o) : ∀ (cs : List (Nat × List Instr)) (seen : List Nat) (is : List Instr) (b : Nat) (Q : Res → Prop),
    openCases tbl k seen cs = some is →
    (∀ d, seen.idxOf? o = some d → (∀ c ∈ cs, c.1 ≠ o) → Q (.br d [] l σ)) →
    (∀ l' σ', P l' σ' → Q (.br b [] l' σ')) →
    (∀ p (h : p < cs.length), cs[p].1 = o → ∀ Q' : Res → Prop, (∀ l' σ', P l' σ' → Q' (.br (b + p) [] l' σ')) → wp cs[p].2 [] l σ Q') →
    wp is [] l σ Q
  | [], seen, is, b, Q, e, hs, _, _ => by
    unfold openCases at e
    obtain ⟨ts, e1, rfl⟩ := Option.map_eq_some_iff.1 e
    obtain ⟨t, h1, h2⟩ : ∃ t, ts[i]? = some t ∧ seen.idxOf? o = some t := by
      exact mapM_get e1 ho
    rw [wp_block]
    refine brTable_wp (t := t + 1) _ 0 hk (Nat.zero_le _) hi (by simp [h1]) ?_
    exact hs t h2 (by simp)
  | (o', body) :: cs, seen, is, b, Q, e, hs, hP, hb => by
    unfold openCases at e
    obtain ⟨inner, e1, rfl⟩ := Option.map_eq_some_iff.1 e
    rw [wp_block]
    refine openCases_wp hk hi ho cs (o' :: seen) inner (b + 1) _ e1 (fun d hd hn => ?_) (fun l' σ' h => hP l' σ' h) fun p h hp Q' hQ' => ?_
    · by_cases eo : o' = o
      · simp only [List.idxOf?_cons, eo, BEq.rfl, if_true, Option.some.injEq] at hd
        subst hd
        exact hb 0 (by simp) eo Q fun l' σ' h => by simpa using hP l' σ' h
      · simp only [List.idxOf?_cons, beq_iff_eq, eo, if_false, Option.map_eq_some_iff] at hd
        obtain ⟨d', hd', rfl⟩ := hd
        exact hs d' hd' (by simpa [eo] using hn)
    · refine hb (p + 1) (by simpa using h) hp Q' fun l' σ' h' => ?_
      rw [show b + (p + 1) = b + 1 + p by omega]
      exact hQ' l' σ' h'

end Rt
