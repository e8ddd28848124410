import Verif.Rt.MoveRep
import Verif.Proof.Heap
import Verif.Proof.Copy3

/-! Values and places of the Move machine in linear memory: what they own, and what keeps them. -/

namespace Move
open Wasm Rt

variable {σ σ' : Store}

/-! ### Bytes of cells -/

theorem ind_pos {p n x : Nat} : ind p n x ≠ 0 ↔ p ≤ x ∧ x < p + n := by
  unfold ind; split <;> simp_all

theorem ind_in {p n x : Nat} (h1 : p ≤ x) (h2 : x < p + n) : ind p n x = 1 := if_pos ⟨h1, h2⟩

theorem ind_le {p n x : Nat} : ind p n x ≤ 1 := by unfold ind; split <;> omega

theorem STy.size_pos (t : STy) : 0 < t.size := by unfold STy.size; split <;> omega
theorem STy.bytes_pos (t : STy) : 0 < t.bytes := by
  have := t.size_pos
  unfold STy.bytes STy.heapSize; split <;> [skip; split] <;> omega
theorem STy.bytes_le (t : STy) : t.bytes ≤ 32 := by
  rcases t with _ | (r | _ | _) | _ <;> [skip; cases r; skip; skip; skip] <;> decide
theorem STy.size_le (t : STy) : t.size ≤ 8 := by
  rcases t with _ | (r | _ | _) | _ <;> [skip; cases r; skip; skip; skip] <;> decide

theorem Cell.bound {v : MVal} {q : Nat} (h : Cell σ v q) : q + v.ty.bytes ≤ σ.nextFree := by
  unfold Cell at h
  unfold STy.bytes
  split at h
  · rename_i hr; rw [if_pos hr]; exact h.1
  · rename_i hr
    rw [if_neg hr]
    obtain ⟨t, n⟩ := v
    rcases t with _ | (r | _ | _) | _ <;> simp_all [RepV, STy.isReg, STy.heapSize]

theorem RepV.change {v : MVal} {w : Nat} (h : RepV σ v w) (hn : σ.nextFree ≤ σ'.nextFree)
    (hm : v.ty.isReg = false → ∀ x, ind w v.ty.bytes x ≠ 0 → σ'.mem x = σ.mem x) : RepV σ' v w := by
  obtain ⟨t, n⟩ := v
  rcases t with _ | (r | _ | _) | _
  · exact h
  · exact h
  all_goals
    simp only [RepV, STy.isReg, STy.bytes, STy.heapSize, ind_pos, forall_const] at h hm ⊢
    refine ⟨h.1, by omega, ?_⟩
    rw [← h.2.2]
  · exact leNat_congr fun x h1 h2 => hm x ⟨h1, h2⟩
  · exact leNat_congr fun x h1 h2 => hm x ⟨h1, h2⟩
  · exact beNat_congr fun x h1 h2 => hm x ⟨h1, h2⟩

theorem Cell.change {v : MVal} {q : Nat} (h : Cell σ v q) (hn : σ.nextFree ≤ σ'.nextFree)
    (hm : ∀ x, ind q v.ty.bytes x ≠ 0 → σ'.mem x = σ.mem x) : Cell σ' v q := by
  unfold Cell at h ⊢
  by_cases hr : v.ty.isReg = true
  · rw [if_pos hr] at h ⊢
    simp only [STy.bytes, hr, if_true, ind_pos] at hm
    refine ⟨by have := h.1; omega, ?_⟩
    rw [leNat_congr (f := σ'.mem) (g := σ.mem) fun x h1 h2 => hm x ⟨h1, h2⟩]
    exact h.2.change hn (fun h0 => by rw [hr] at h0; cases h0)
  · rw [if_neg hr] at h ⊢
    exact h.change hn fun _ => hm

/-! ### Cells of the memory -/

theorem live_nil {ρ : List Nat} {x : Nat} : live ρ [] x = 0 := by cases ρ <;> rfl

theorem live_append {ρ ρ' : List Nat} {M M' : Mem} {x : Nat} (h : ρ.length = M.length) :
    live (ρ ++ ρ') (M ++ M') x = live ρ M x + live ρ' M' x := by
  induction ρ generalizing M with
  | nil => cases M <;> simp_all [live]
  | cons q ρ ih =>
    cases M with
    | nil => simp at h
    | cons o M =>
      have := ih (M := M) (by simpa using h)
      cases o <;> simp only [List.cons_append, live, this] <;> omega

theorem live_take {ρ : List Nat} {M : Mem} {l q x : Nat} {v : MVal} (hM : M[l]? = some (some v))
    (hq : ρ[l]? = some q) : live ρ M x = live ρ (M.set l none) x + ind q v.ty.bytes x := by
  induction ρ generalizing M l with
  | nil => simp at hq
  | cons a ρ ih =>
    cases M with
    | nil => simp at hM
    | cons o M =>
      cases l with
      | zero =>
        simp only [List.getElem?_cons_zero, Option.some.injEq] at hM hq
        subst hM hq
        simp only [List.set_cons_zero, live]; omega
      | succ l =>
        have := ih (M := M) (l := l) (by simpa using hM) (by simpa using hq)
        cases o <;> simp only [List.set_cons_succ, live] <;> omega

theorem live_put {ρ : List Nat} {M : Mem} {l x : Nat} {u v : MVal} (hM : M[l]? = some (some u))
    (ht : u.ty = v.ty) : live ρ (M.set l (some v)) x = live ρ M x := by
  induction ρ generalizing M l with
  | nil => simp [live]
  | cons a ρ ih =>
    cases M with
    | nil => simp at hM
    | cons o M =>
      cases l with
      | zero =>
        simp only [List.getElem?_cons_zero, Option.some.injEq] at hM
        subst hM
        simp only [List.set_cons_zero, live, ht]
      | succ l =>
        have := ih (M := M) (l := l) (by simpa using hM)
        cases o <;> simp only [List.set_cons_succ, live] <;> omega

theorem live_ge {ρ : List Nat} {M : Mem} {l q x : Nat} {v : MVal} (hM : M[l]? = some (some v))
    (hq : ρ[l]? = some q) : ind q v.ty.bytes x ≤ live ρ M x := by
  rw [live_take hM hq]; omega

/-- Different cells share nothing. -/
theorem live_ne {ρ : List Nat} {M : Mem} {l l' q q' x : Nat} {v v' : MVal} (hM : M[l]? = some (some v))
    (hq : ρ[l]? = some q) (hM' : M[l']? = some (some v')) (hq' : ρ[l']? = some q') (hne : l ≠ l')
    (h1 : live ρ M x ≤ 1) (hx : ind q v.ty.bytes x ≠ 0) : ind q' v'.ty.bytes x = 0 := by
  rw [live_take hM hq] at h1
  have h2 : ind q' v'.ty.bytes x ≤ live ρ (M.set l none) x :=
    live_ge (l := l') (by rw [List.getElem?_set_ne hne]; exact hM') hq'
  omega

/-! ### What keeps values and places -/

theorem Within.change {P Q : Nat → Prop} {a n : Nat} (h : Mv.Within P a n) (hP : ∀ x, P x → Q x) : Mv.Within Q a n :=
  fun x h1 h2 => hP x (h x h1 h2)

theorem Within.leNat4 {P : Nat → Prop} {a n : Nat} (h : Mv.Within P a n) (hP : ∀ x, P x → σ'.mem x = σ.mem x) :
    leNat σ'.mem a n = leNat σ.mem a n := leNat_congr fun x h1 h2 => hP x (h x h1 h2)

mutual
theorem Holds.change {Fz Fz' : Nat → Prop} (hn : σ.nextFree ≤ σ'.nextFree) (hF : ∀ x, Fz x → Fz' x)
    (hm : ∀ x, Fz x → σ'.mem x = σ.mem x) : ∀ {d : Data} {q : Nat} {m : Nat → Nat},
    (∀ x, m x ≠ 0 → σ'.mem x = σ.mem x) → Holds σ Fz d q m → Holds σ' Fz' d q m
  | .num _, _, _, hx, h => by
    simp only [Holds] at h ⊢
    exact ⟨h.1.change hn fun x hi => hx x (by rw [h.2 x]; exact hi), h.2⟩
  | .struct _ _, _, _, hx, h => by
    simp only [Holds] at h ⊢
    exact ⟨Nat.le_trans h.1 hn, HoldsFs.change hn hF hm hx h.2⟩
theorem HoldsFs.change {Fz Fz' : Nat → Prop} (hn : σ.nextFree ≤ σ'.nextFree) (hF : ∀ x, Fz x → Fz' x)
    (hm : ∀ x, Fz x → σ'.mem x = σ.mem x) : ∀ {ds : List Data} {p : Nat} {m : Nat → Nat},
    (∀ x, m x ≠ 0 → σ'.mem x = σ.mem x) → HoldsFs σ Fz ds p m → HoldsFs σ' Fz' ds p m
  | [], _, _, _, h => by simpa only [HoldsFs] using h
  | d :: ds, p, m, hx, h => by
    simp only [HoldsFs] at h ⊢
    obtain ⟨m1, m2, ⟨h1, h2⟩, h3, h4⟩ := h
    refine ⟨m1, m2, ⟨Within.change h1 hF, ?_⟩, HoldsFs.change hn hF hm (fun x h => hx x (by rw [h4]; omega)) h3, h4⟩
    rw [Within.leNat4 h1 hm]
    exact Holds.change hn hF hm (fun x h => hx x (by rw [h4]; omega)) h2
end

theorem prefix_get {ρ ρ' : List Nat} {l q : Nat} (hp : ρ <+: ρ') (h : ρ[l]? = some q) : ρ'[l]? = some q := by
  obtain ⟨qs, rfl⟩ := hp
  have := (List.getElem?_eq_some_iff.mp h).1
  rw [List.getElem?_append_left this]; exact h

mutual
theorem PlaceAt.change {Fz Fz' : Nat → Prop} {ρ ρ' : List Nat} (hn : σ.nextFree ≤ σ'.nextFree)
    (hF : ∀ x, Fz x → Fz' x) (hm : ∀ x, Fz x → σ'.mem x = σ.mem x) (hp : ρ <+: ρ') : ∀ {p : Place} {q : Nat},
    PlaceAt σ Fz ρ p q → PlaceAt σ' Fz' ρ' p q
  | .leaf _, _, h => by
    simp only [PlaceAt] at h ⊢
    exact prefix_get hp h
  | .node _ _, _, h => by
    simp only [PlaceAt] at h ⊢
    exact ⟨Nat.le_trans h.1 hn, PlacesAt.change hn hF hm hp h.2⟩
theorem PlacesAt.change {Fz Fz' : Nat → Prop} {ρ ρ' : List Nat} (hn : σ.nextFree ≤ σ'.nextFree)
    (hF : ∀ x, Fz x → Fz' x) (hm : ∀ x, Fz x → σ'.mem x = σ.mem x) (hp : ρ <+: ρ') : ∀ {ps : List Place} {a : Nat},
    PlacesAt σ Fz ρ ps a → PlacesAt σ' Fz' ρ' ps a
  | [], _, _ => by simp only [PlacesAt]
  | p :: ps, a, h => by
    simp only [PlacesAt] at h ⊢
    obtain ⟨⟨h1, h2⟩, h3⟩ := h
    refine ⟨⟨Within.change h1 hF, ?_⟩, PlacesAt.change hn hF hm hp h3⟩
    rw [Within.leNat4 h1 hm]
    exact PlaceAt.change hn hF hm hp h2
end

theorem SlotAt.change {Fz Fz' : Nat → Prop} {ρ ρ' : List Nat} (hn : σ.nextFree ≤ σ'.nextFree)
    (hF : ∀ x, Fz x → Fz' x) (hm : ∀ x, Fz x → σ'.mem x = σ.mem x) (hp : ρ <+: ρ') {p : Place} {a : Nat}
    (h : SlotAt σ Fz ρ p a) : SlotAt σ' Fz' ρ' p a := by
  unfold SlotAt at h ⊢
  refine ⟨Within.change h.1 hF, ?_⟩
  rw [Within.leNat4 h.1 hm]
  exact h.2.change hn hF hm hp

theorem OpdRep.change {Fz Fz' : Nat → Prop} {ρ ρ' : List Nat} (hn : σ.nextFree ≤ σ'.nextFree)
    (hF : ∀ x, Fz x → Fz' x) (hm : ∀ x, Fz x → σ'.mem x = σ.mem x) (hp : ρ <+: ρ') {o : Opd} {w : Nat}
    {m : Nat → Nat} (hx : ∀ x, m x ≠ 0 → σ'.mem x = σ.mem x) (h : OpdRep σ Fz ρ o w m) : OpdRep σ' Fz' ρ' o w m := by
  rcases o with (v | ⟨id, ds⟩) | r
  · simp only [OpdRep] at h ⊢
    refine ⟨h.1.change hn fun hr x hi => hx x ?_, h.2⟩
    rw [h.2 x, if_neg (by simp [hr])]; exact hi
  · exact Holds.change hn hF hm hx h
  · exact ⟨h.1.change hn hF hm hp, h.2⟩

theorem OpdsRep.change {Fz Fz' : Nat → Prop} {ρ ρ' : List Nat} (hn : σ.nextFree ≤ σ'.nextFree)
    (hF : ∀ x, Fz x → Fz' x) (hm : ∀ x, Fz x → σ'.mem x = σ.mem x) (hp : ρ <+: ρ') : ∀ {os : List Opd} {ws : List Nat}
    {m : Nat → Nat}, (∀ x, m x ≠ 0 → σ'.mem x = σ.mem x) → OpdsRep σ Fz ρ os ws m → OpdsRep σ' Fz' ρ' os ws m
  | [], [], _, _, h => h
  | _ :: _, _ :: _, _, hx, h => by
    obtain ⟨m1, m2, h1, h2, h3⟩ := h
    exact ⟨m1, m2, h1.change hn hF hm hp fun x h => hx x (by rw [h3]; omega),
      OpdsRep.change hn hF hm hp (fun x h => hx x (by rw [h3]; omega)) h2, h3⟩

theorem ArgRep.change {Fz Fz' : Nat → Prop} {ρ ρ' : List Nat} (hn : σ.nextFree ≤ σ'.nextFree)
    (hF : ∀ x, Fz x → Fz' x) (hm : ∀ x, Fz x → σ'.mem x = σ.mem x) (hp : ρ <+: ρ') {o : Opd} {w : Nat}
    {m : Nat → Nat} (hx : ∀ x, m x ≠ 0 → σ'.mem x = σ.mem x) (h : ArgRep σ Fz ρ o w m) : ArgRep σ' Fz' ρ' o w m := by
  rcases o with d | r
  · exact OpdRep.change (o := .data d) hn hF hm hp hx h
  · exact ⟨⟨h.1.1, h.1.2.change hn hF hm hp⟩, h.2⟩

theorem ArgsRep.change {Fz Fz' : Nat → Prop} {ρ ρ' : List Nat} (hn : σ.nextFree ≤ σ'.nextFree)
    (hF : ∀ x, Fz x → Fz' x) (hm : ∀ x, Fz x → σ'.mem x = σ.mem x) (hp : ρ <+: ρ') : ∀ {os : List Opd} {ws : List Nat}
    {m : Nat → Nat}, (∀ x, m x ≠ 0 → σ'.mem x = σ.mem x) → ArgsRep σ Fz ρ os ws m → ArgsRep σ' Fz' ρ' os ws m
  | [], [], _, _, h => h
  | _ :: _, _ :: _, _, hx, h => by
    obtain ⟨m1, m2, h1, h2, h3⟩ := h
    exact ⟨m1, m2, h1.change hn hF hm hp fun x h => hx x (by rw [h3]; omega),
      ArgsRep.change hn hF hm hp (fun x h => hx x (by rw [h3]; omega)) h2, h3⟩

/-! ### Lists of operands -/

theorem OpdsRep.length {Fz : Nat → Prop} {ρ : List Nat} : ∀ {os : List Opd} {ws : List Nat} {m : Nat → Nat},
    OpdsRep σ Fz ρ os ws m → os.length = ws.length
  | [], [], _, _ => rfl
  | _ :: _, _ :: _, _, h => by
    obtain ⟨m1, m2, _, h2, _⟩ := h
    simp [h2.length]

theorem OpdsRep.ext {Fz : Nat → Prop} {ρ : List Nat} {os : List Opd} {ws : List Nat} {m m' : Nat → Nat}
    (h : OpdsRep σ Fz ρ os ws m) (hm : ∀ x, m x = m' x) : OpdsRep σ Fz ρ os ws m' := (funext hm : m = m') ▸ h

theorem OpdsRep.append {Fz : Nat → Prop} {ρ : List Nat} {os' : List Opd} {ws' : List Nat} {m' : Nat → Nat}
    (h' : OpdsRep σ Fz ρ os' ws' m') : ∀ {os : List Opd} {ws : List Nat} {m : Nat → Nat},
    OpdsRep σ Fz ρ os ws m → OpdsRep σ Fz ρ (os ++ os') (ws ++ ws') (fun x => m x + m' x)
  | [], [], m, h => h'.ext fun x => by rw [h x]; omega
  | _ :: _, _ :: _, m, h => by
    obtain ⟨m1, m2, h1, h2, h3⟩ := h
    exact ⟨m1, _, h1, h'.append h2, fun x => by have := h3 x; show m x + m' x = _; omega⟩

theorem OpdsRep.split {Fz : Nat → Prop} {ρ : List Nat} {os' : List Opd} : ∀ {os : List Opd} {ws : List Nat}
    {m : Nat → Nat}, OpdsRep σ Fz ρ (os ++ os') ws m → ∃ ws1 ws2 m1 m2, ws = ws1 ++ ws2 ∧
      OpdsRep σ Fz ρ os ws1 m1 ∧ OpdsRep σ Fz ρ os' ws2 m2 ∧ ∀ x, m x = m1 x + m2 x
  | [], ws, m, h => ⟨[], ws, fun _ => 0, m, rfl, fun _ => rfl, h, fun x => by show m x = 0 + m x; omega⟩
  | _ :: _, w :: ws, m, h => by
    obtain ⟨m1, m2, h1, h2, h3⟩ := h
    obtain ⟨ws1, ws2, n1, n2, rfl, g1, g2, g3⟩ := h2.split
    exact ⟨w :: ws1, ws2, fun x => m1 x + n1 x, n2, rfl, ⟨m1, n1, h1, g1, fun _ => rfl⟩, g2,
      fun x => by rw [h3, g3]; show _ = m1 x + n1 x + n2 x; omega⟩

theorem OpdsRep.reverse {Fz : Nat → Prop} {ρ : List Nat} : ∀ {os : List Opd} {ws : List Nat} {m : Nat → Nat},
    OpdsRep σ Fz ρ os ws m → OpdsRep σ Fz ρ os.reverse ws.reverse m
  | [], [], _, h => h
  | o :: os, w :: ws, m, h => by
    obtain ⟨m1, m2, h1, h2, h3⟩ := h
    rw [List.reverse_cons, List.reverse_cons]
    refine (OpdsRep.append (os' := [o]) (ws' := [w]) (m' := m1) ⟨m1, fun _ => 0, h1, fun _ => rfl, fun _ => rfl⟩
      h2.reverse).ext fun x => by rw [h3]; omega

theorem ArgsRep.length {Fz : Nat → Prop} {ρ : List Nat} : ∀ {os : List Opd} {ws : List Nat} {m : Nat → Nat},
    ArgsRep σ Fz ρ os ws m → os.length = ws.length
  | [], [], _, _ => rfl
  | _ :: _, _ :: _, _, h => by
    obtain ⟨m1, m2, _, h2, _⟩ := h
    simp [h2.length]

/-! ### Values become places and places become values -/

mutual
/-- A value that is put into new cells stays where it is. -/
theorem Holds.bind {Fz : Nat → Prop} : ∀ {d : Data} {q : Nat} {m : Nat → Nat} {ρ : List Nat} {M : Mem},
    Holds σ Fz d q m → ρ.length = M.length → ∃ qs news, (d.place M).2 = M ++ news ∧ qs.length = news.length ∧
      (∀ x, live qs news x = m x) ∧
      (∀ (l : Nat) v a, news[l]? = some (some v) → qs[l]? = some a → Cell σ v a) ∧
      PlaceAt σ Fz (ρ ++ qs) (d.place M).1 q
  | .num v, q, m, ρ, M, h, hl => by
    simp only [Holds] at h
    refine ⟨[q], [some v], rfl, rfl, fun x => ?_, fun l v' a h1 h2 => ?_, ?_⟩
    · simp only [live, Nat.add_zero, h.2]
    · cases l with
      | zero =>
        simp only [List.getElem?_cons_zero, Option.some.injEq] at h1 h2
        subst h1 h2; exact h.1
      | succ l => simp at h1
    · simp only [Data.place, PlaceAt, ← hl]
      simp
  | .struct id ds, q, m, ρ, M, h, hl => by
    simp only [Holds] at h
    obtain ⟨qs, news, h1, h2, h3, h4, h5⟩ := h.2.bind hl
    refine ⟨qs, news, h1, h2, h3, h4, ?_⟩
    simp only [Data.place, PlaceAt]
    exact ⟨h.1, h5⟩
theorem HoldsFs.bind {Fz : Nat → Prop} : ∀ {ds : List Data} {p : Nat} {m : Nat → Nat} {ρ : List Nat} {M : Mem},
    HoldsFs σ Fz ds p m → ρ.length = M.length → ∃ qs news, (Data.places ds M).2 = M ++ news ∧ qs.length = news.length ∧
      (∀ x, live qs news x = m x) ∧
      (∀ (l : Nat) v a, news[l]? = some (some v) → qs[l]? = some a → Cell σ v a) ∧
      PlacesAt σ Fz (ρ ++ qs) (Data.places ds M).1 p
  | [], p, m, ρ, M, h, hl => by
    simp only [HoldsFs] at h
    exact ⟨[], [], by simp [Data.places], rfl, fun x => (h x).symm, fun l v a h => by simp at h, by simp [Data.places, PlacesAt]⟩
  | d :: ds, p, m, ρ, M, h, hl => by
    simp only [HoldsFs] at h
    obtain ⟨m1, m2, ⟨h1, h2⟩, h3, h4⟩ := h
    obtain ⟨qs, news, e1, e2, e3, e4, e5⟩ := h2.bind hl
    obtain ⟨qs', news', f1, f2, f3, f4, f5⟩ := h3.bind (ρ := ρ ++ qs) (M := (d.place M).2) (by rw [e1]; simp [hl, e2])
    refine ⟨qs ++ qs', news ++ news', ?_, by simp [e2, f2], fun x => ?_, fun l v a g1 g2 => ?_, ?_⟩
    · simp only [Data.places]; rw [f1, e1, List.append_assoc]
    · rw [live_append e2, e3, f3, h4]
    · by_cases hlt : l < news.length
      · rw [List.getElem?_append_left hlt] at g1
        rw [List.getElem?_append_left (by omega)] at g2
        exact e4 l v a g1 g2
      · rw [List.getElem?_append_right (by omega)] at g1 g2
        rw [e2] at g2
        exact f4 _ v a g1 g2
    · simp only [Data.places, PlacesAt]
      rw [← List.append_assoc]
      exact ⟨⟨h1, e5.change (Nat.le_refl _) (fun _ h => h) (fun _ _ => rfl) (List.prefix_append ..)⟩, f5⟩
end

mutual
/-- The value at a place. -/
theorem PlaceAt.holds {Fz : Nat → Prop} {ρ : List Nat} {M : Mem}
    (hc : ∀ (l : Nat) v a, M[l]? = some (some v) → ρ[l]? = some a → Cell σ v a) : ∀ {p : Place} {q : Nat} {d : Data},
    PlaceAt σ Fz ρ p q → p.read M = some d → ∃ m, Holds σ Fz d q m
  | .leaf l, q, d, h, hr => by
    simp only [PlaceAt] at h
    simp only [Place.read] at hr
    split at hr
    · rename_i v hv
      obtain rfl := Option.some.inj hr
      exact ⟨ind q v.ty.bytes, by simp only [Holds, implies_true, and_true]; exact hc l v q hv h⟩
    · cases hr
  | .node id ps, q, d, h, hr => by
    simp only [PlaceAt] at h
    simp only [Place.read, Option.map_eq_some_iff] at hr
    obtain ⟨ds, hr, rfl⟩ := hr
    obtain ⟨m, hm⟩ := PlacesAt.holds hc h.2 hr
    exact ⟨m, by simp only [Holds]; exact ⟨h.1, hm⟩⟩
theorem PlacesAt.holds {Fz : Nat → Prop} {ρ : List Nat} {M : Mem}
    (hc : ∀ (l : Nat) v a, M[l]? = some (some v) → ρ[l]? = some a → Cell σ v a) : ∀ {ps : List Place} {a : Nat} {ds : List Data},
    PlacesAt σ Fz ρ ps a → Place.reads M ps = some ds → ∃ m, HoldsFs σ Fz ds a m
  | [], a, ds, h, hr => by
    simp only [Place.reads, Option.some.injEq] at hr
    subst hr
    exact ⟨fun _ => 0, by simp only [HoldsFs, implies_true]⟩
  | p :: ps, a, ds, h, hr => by
    simp only [PlacesAt] at h
    simp only [Place.reads] at hr
    split at hr
    · rename_i d ds' h1 h2
      obtain rfl := Option.some.inj hr
      obtain ⟨m1, hm1⟩ := PlaceAt.holds hc h.1.2 h1
      obtain ⟨m2, hm2⟩ := PlacesAt.holds hc h.2 h2
      exact ⟨fun x => m1 x + m2 x, by simp only [HoldsFs]; exact ⟨m1, m2, ⟨h.1.1, hm1⟩, hm2, fun _ => rfl⟩⟩
    · cases hr
end

mutual
/-- A value that is moved away takes its bytes with it. -/
theorem PlaceAt.taken {Fz : Nat → Prop} {ρ : List Nat} : ∀ {p : Place} {q : Nat} {M M' : Mem} {d : Data},
    (∀ (l : Nat) v a, M[l]? = some (some v) → ρ[l]? = some a → Cell σ v a) →
    PlaceAt σ Fz ρ p q → p.take M = some (d, M') → ∃ m, Holds σ Fz d q m ∧
      (∀ x, live ρ M x = live ρ M' x + m x) ∧ M'.length = M.length ∧
      (∀ (l : Nat) v, M'[l]? = some (some v) → M[l]? = some (some v))
  | .leaf l, q, M, M', d, hc, h, hr => by
    simp only [PlaceAt] at h
    simp only [Place.take] at hr
    split at hr
    · rename_i v hv
      simp only [Option.some.injEq, Prod.mk.injEq] at hr
      obtain ⟨rfl, rfl⟩ := hr
      refine ⟨ind q v.ty.bytes, by simp only [Holds, implies_true, and_true]; exact hc l v q hv h,
        fun x => live_take hv h, by simp, fun k u hu => ?_⟩
      by_cases hk : l = k
      · subst hk
        rw [List.getElem?_set_self (List.getElem?_eq_some_iff.mp hv).1] at hu
        simp at hu
      · rwa [List.getElem?_set_ne hk] at hu
    · cases hr
  | .node id ps, q, M, M', d, hc, h, hr => by
    simp only [PlaceAt] at h
    simp only [Place.take, Option.map_eq_some_iff, Prod.mk.injEq] at hr
    obtain ⟨⟨ds, M1⟩, hr, rfl, rfl⟩ := hr
    obtain ⟨m, hm, hm'⟩ := PlacesAt.taken hc h.2 hr
    exact ⟨m, by simp only [Holds]; exact ⟨h.1, hm⟩, hm'⟩
theorem PlacesAt.taken {Fz : Nat → Prop} {ρ : List Nat} : ∀ {ps : List Place} {a : Nat} {M M' : Mem} {ds : List Data},
    (∀ (l : Nat) v a, M[l]? = some (some v) → ρ[l]? = some a → Cell σ v a) →
    PlacesAt σ Fz ρ ps a → Place.takes ps M = some (ds, M') → ∃ m, HoldsFs σ Fz ds a m ∧
      (∀ x, live ρ M x = live ρ M' x + m x) ∧ M'.length = M.length ∧
      (∀ (l : Nat) v, M'[l]? = some (some v) → M[l]? = some (some v))
  | [], a, M, M', ds, hc, h, hr => by
    simp only [Place.takes, Option.some.injEq, Prod.mk.injEq] at hr
    obtain ⟨rfl, rfl⟩ := hr
    exact ⟨fun _ => 0, by simp only [HoldsFs, implies_true], fun _ => rfl, rfl, fun _ _ h => h⟩
  | p :: ps, a, M, M', ds, hc, h, hr => by
    simp only [PlacesAt] at h
    simp only [Place.takes] at hr
    split at hr
    · rename_i d M1 h1
      simp only [Option.map_eq_some_iff, Prod.mk.injEq] at hr
      obtain ⟨⟨ds', M2⟩, h2, rfl, rfl⟩ := hr
      obtain ⟨m1, a1, a2, a3, a4⟩ := PlaceAt.taken hc h.1.2 h1
      obtain ⟨m2, b1, b2, b3, b4⟩ := PlacesAt.taken (fun l v q g1 g2 => hc l v q (a4 l v g1) g2) h.2 h2
      exact ⟨fun x => m1 x + m2 x, by simp only [HoldsFs]; exact ⟨m1, m2, ⟨h.1.1, a1⟩, b1, fun _ => rfl⟩,
        fun x => by rw [a2, b2]; show live ρ M2 x + m2 x + m1 x = live ρ M2 x + (m1 x + m2 x); omega, by show M2.length = _; omega, fun l v g => a4 l v (b4 l v g)⟩
    · cases hr
end

/-! ### The memory as a whole -/

theorem Grows.refl {fr own own' : Nat → Nat} (h : Heap σ) (ho : ∀ x, x < σ.nextFree → own' x ≤ own x) :
    Grows fr σ own σ own' := ⟨h.refl.alters, ho⟩

theorem Grows.trans {σ'' : Store} {fr own own' own'' : Nat → Nat} (h : Grows fr σ own σ' own')
    (h' : Grows fr σ' own' σ'' own'') : Grows fr σ own σ'' own'' := by
  have n1 := h.alters.nextFree
  refine ⟨⟨Nat.le_trans n1 h'.alters.nextFree, Nat.le_trans h.alters.size h'.alters.size, fun x hx hr => ?_,
    h'.alters.fresh, h'.alters.alloc, h'.alters.maxPages.trans h.alters.maxPages,
    h'.alters.reader.trans h.alters.reader, h'.alters.host.trans h.alters.host⟩, fun x hx => ?_⟩
  · have := h.own x hx
    rw [h'.alters.mem x (by omega) (fun h0 => hr ⟨by omega, h0.2⟩), h.alters.mem x hx hr]
  · have := h.own x hx
    have := h'.own x (by omega)
    omega

/-- What nobody owns is kept. -/
theorem Grows.frozen {fr own own' : Nat → Nat} (h : Grows fr σ own σ' own') {x : Nat} (hx : Frozen σ own x) :
    Frozen σ' own' x ∧ σ'.mem x = σ.mem x := by
  have n1 := h.alters.nextFree
  have := h.own x hx.1
  have := hx.2
  exact ⟨⟨by have := hx.1; omega, by omega⟩, h.alters.mem x hx.1 fun h0 => h0.1 hx.2⟩

/-- What the calling functions own is kept. -/
theorem Grows.outer {fr own own' : Nat → Nat} (h : Grows fr σ own σ' own') {x : Nat} (hx : x < σ.nextFree)
    (hf : fr x ≠ 0) : σ'.mem x = σ.mem x := h.alters.mem x hx fun h0 => hf h0.2

theorem Grows.mono {fr fr' own own' : Nat → Nat} (h : Grows fr' σ own σ' own') (hf : ∀ x, fr x ≠ 0 → fr' x ≠ 0) :
    Grows fr σ own σ' own' :=
  ⟨h.alters.mono fun x _ h0 => ⟨h0.1, by have := hf x; have := h0.2; omega⟩, h.own⟩

theorem Grows.heap {fr own own' : Nat → Nat} (h : Grows fr σ own σ' own') (hσ : Heap σ)
    (hl : ∀ x, own x ≠ 0 → reserved ≤ x ∧ x < σ.nextFree) : Heap σ' :=
  h.alters.heap hσ fun x hx => by have := (hl x hx.1).1; unfold reserved at this; omega

/-! ### Operands are replaced by others -/

/-- From `σ` to `σ'` memory is only allocated; what was owned by `m` before is owned by `m'` now, and
`m'` may own new memory. -/
structure Trades (σ σ' : Store) (m m' : Nat → Nat) : Prop where
  ext : Extends σ σ'
  low : ∀ x, x < σ.nextFree → m' x ≤ m x
  high : ∀ x, σ.nextFree ≤ x → m' x ≤ 1 ∧ (m' x ≠ 0 → x < σ'.nextFree)

/-- New memory that is not owned. -/
def New (σ σ' : Store) (m' : Nat → Nat) (x : Nat) : Prop := σ.nextFree ≤ x ∧ x < σ'.nextFree ∧ m' x = 0

theorem Trades.refl {m m' : Nat → Nat} (hσ : Heap σ) (hm : ∀ x, m' x ≤ m x) (hl : ∀ x, m x ≠ 0 → x < σ.nextFree) :
    Trades σ σ m m' :=
  ⟨hσ.refl, fun x _ => hm x, fun x hx => by have := hm x; have := hl x; omega⟩

theorem Trades.made {m m' : Nat → Nat} (hx : Extends σ σ') (h1 : ∀ x, m' x ≤ 1)
    (h : ∀ x, m' x ≠ 0 → σ.nextFree ≤ x ∧ x < σ'.nextFree) : Trades σ σ' m m' :=
  ⟨hx, fun x hx => by have := h x; omega, fun x hx => ⟨h1 x, fun h0 => (h x h0).2⟩⟩

theorem World.high {ρ : List Nat} {M : Mem} {m fr : Nat → Nat} (h : World σ ρ M (Own ρ M m fr)) {x : Nat}
    (hx : σ.nextFree ≤ x) : live ρ M x = 0 ∧ m x = 0 ∧ fr x = 0 := by
  have := h.low x
  unfold Own at this
  omega

theorem World.trade {ρ : List Nat} {M : Mem} {m m1 m1' m2 fr : Nat → Nat} (h : World σ ρ M (Own ρ M m fr))
    (hm : ∀ x, m x = m1 x + m2 x) (t : Trades σ σ' m1 m1') :
    World σ' ρ M (Own ρ M (fun x => m1' x + m2 x) fr) ∧
    Grows (fun x => fr x + m2 x) σ (Own ρ M m fr) σ' (Own ρ M (fun x => m1' x + m2 x) fr) ∧
    ∀ x, New σ σ' m1' x → Frozen σ' (Own ρ M (fun x => m1' x + m2 x) fr) x := by
  have hb := h.heap.base
  have hle : ∀ x, x < σ.nextFree → Own ρ M (fun x => m1' x + m2 x) fr x ≤ Own ρ M m fr x := by
    intro x hx
    have := t.low x hx
    have := hm x
    unfold Own; dsimp only; omega
  have hhi : ∀ x, σ.nextFree ≤ x → Own ρ M (fun x => m1' x + m2 x) fr x = m1' x := by
    intro x hx
    obtain ⟨e1, e2, e3⟩ := h.high hx
    have := hm x
    unfold Own; dsimp only; omega
  have hn := t.ext.nextFree
  refine ⟨⟨t.ext.heap h.heap, h.len, fun l v q g1 g2 => ?_, fun x => ?_, fun x hx => ?_⟩,
    ⟨t.ext.alters, hle⟩, fun x hx => ⟨hx.2.1, by rw [hhi x hx.1]; exact hx.2.2⟩⟩
  · have hc := h.cells l v q g1 g2
    have := hc.bound
    exact hc.change hn fun x hi => by rw [ind_pos] at hi; exact t.ext.mem x (by omega)
  · by_cases hlt : x < σ.nextFree
    · exact Nat.le_trans (hle x hlt) (h.once x)
    · rw [hhi x (by omega)]; exact (t.high x (by omega)).1
  · by_cases hlt : x < σ.nextFree
    · have := hle x hlt
      have := h.low x (by omega)
      omega
    · rw [hhi x (by omega)] at hx
      have := (t.high x (by omega)).2 hx
      omega

/-- An operand becomes a local. -/
theorem World.bind {ρ : List Nat} {M : Mem} {m m1 m2 fr : Nat → Nat} {d : Data} {q : Nat} {Fz : Nat → Prop}
    (h : World σ ρ M (Own ρ M m fr)) (hm : ∀ x, m x = m1 x + m2 x) (hd : Holds σ Fz d q m1) :
    ∃ ρ', ρ <+: ρ' ∧ (∀ x, Own ρ' (d.place M).2 m2 fr x = Own ρ M m fr x) ∧
      World σ ρ' (d.place M).2 (Own ρ' (d.place M).2 m2 fr) ∧ PlaceAt σ Fz ρ' (d.place M).1 q := by
  obtain ⟨qs, news, e1, e2, e3, e4, e5⟩ := hd.bind h.len
  have he : ∀ x, Own (ρ ++ qs) (d.place M).2 m2 fr x = Own ρ M m fr x := by
    intro x
    unfold Own
    rw [e1, live_append h.len, e3, hm]; omega
  refine ⟨ρ ++ qs, List.prefix_append .., he, ⟨h.heap, by rw [e1]; simp [h.len, e2], fun l v a g1 g2 => ?_,
    fun x => by rw [he]; exact h.once x, fun x hx => h.low x (by rwa [he] at hx)⟩, e5⟩
  rw [e1] at g1
  have hl := h.len
  by_cases hlt : l < M.length
  · rw [List.getElem?_append_left hlt] at g1
    rw [List.getElem?_append_left (by omega)] at g2
    exact h.cells l v a g1 g2
  · rw [List.getElem?_append_right (by omega)] at g1 g2
    rw [hl] at g2
    exact e4 _ v a g1 g2

/-- A local becomes an operand. -/
theorem World.taken {ρ : List Nat} {M M' : Mem} {m fr : Nat → Nat} {d : Data} {p : Place} {q : Nat} {Fz : Nat → Prop}
    (h : World σ ρ M (Own ρ M m fr)) (hp : PlaceAt σ Fz ρ p q) (ht : p.take M = some (d, M')) :
    ∃ m1, Holds σ Fz d q m1 ∧ (∀ x, Own ρ M' (fun x => m1 x + m x) fr x = Own ρ M m fr x) ∧
      World σ ρ M' (Own ρ M' (fun x => m1 x + m x) fr) := by
  obtain ⟨m1, e1, e2, e3, e4⟩ := hp.taken h.cells ht
  have he : ∀ x, Own ρ M' (fun x => m1 x + m x) fr x = Own ρ M m fr x := by
    intro x
    unfold Own
    dsimp only
    rw [e2]; omega
  exact ⟨m1, e1, he, h.heap, by rw [e3]; exact h.len, fun l v a g1 g2 => h.cells l v a (e4 l v g1) g2,
    fun x => by rw [he]; exact h.once x, fun x hx => h.low x (by rwa [he] at hx)⟩

theorem World.shrink {ρ : List Nat} {M : Mem} {own own' : Nat → Nat} (h : World σ ρ M own)
    (ho : ∀ x, own' x ≤ own x) : World σ ρ M own' :=
  ⟨h.heap, h.len, h.cells, fun x => Nat.le_trans (ho x) (h.once x), fun x hx => h.low x (by have := ho x; omega)⟩

/-- A number is overwritten. -/
theorem World.put {ρ : List Nat} {M : Mem} {own : Nat → Nat} {l q : Nat} {u v : MVal} {f : Bytes}
    (h : World σ ρ M own) (ho : ∀ x, live ρ M x ≤ own x) (hM : M[l]? = some (some u)) (hq : ρ[l]? = some q)
    (hf : ∀ x, ind q u.ty.bytes x = 0 → f x = σ.mem x) (hc : Cell (σ.setMem f) v q) :
    World (σ.setMem f) ρ (M.set l (some v)) own := by
  have hcell := h.cells l u q hM hq
  have hb := hcell.bound
  have hlow : ∀ x, ind q u.ty.bytes x ≠ 0 → reserved ≤ x := fun x hx => by
    have h1 := live_ge (x := x) hM hq
    have h2 := ho x
    exact (h.low x (by omega)).1
  have ha : Alters (fun x => ind q u.ty.bytes x ≠ 0) σ (σ.setMem f) :=
    h.heap.refl.alters.write (fun x _ hx => hf x (by omega)) (fun x hx => by
      rw [hf x (by by_contra h0; rw [← ne_eq, ind_pos] at h0; omega)]; exact h.heap.fresh x hx)
  refine ⟨ha.heap h.heap fun x hx => by have := hlow x hx; unfold reserved at this; omega, by simp [h.len],
    fun k w a g1 g2 => ?_, h.once, h.low⟩
  by_cases hk : l = k
  · subst hk
    rw [List.getElem?_set_self (List.getElem?_eq_some_iff.mp hM).1] at g1
    rw [hq] at g2
    cases g1; cases g2
    exact hc
  · rw [List.getElem?_set_ne hk] at g1
    have hc' := h.cells k w a g1 g2
    refine hc'.change (Nat.le_refl _) fun x hi => hf x ?_
    by_contra h0
    exact hi (live_ne hM hq g1 g2 hk (Nat.le_trans (ho x) (h.once x)) h0)

/-! ### The values of the module `Verif.Rt.Values` -/

mutual
def Data.mv : Data → Mv.Val
  | .num v => .num v.n
  | .struct _ ds => .struct (Data.mvs ds)
def Data.mvs : List Data → List Mv.Val
  | [] => []
  | d :: ds => d.mv :: Data.mvs ds
end

/-- The value `v` is in the cell at `q`. -/
def MvAt (f : Bytes) (R : Nat → Prop) (t : Mv.Ty) (v : Mv.Val) (q : Nat) : Prop :=
  (t.scalar = true → Mv.Within R q t.size) ∧ Mv.Rep f R t v (if t.scalar then leNat f q t.size else q)

theorem STy.mv_scalar (t : STy) : t.mv.scalar = t.isReg := by
  rcases t with _ | (r | _ | _) | _ <;> [skip; cases r; skip; skip; skip] <;> rfl

theorem STy.mv_size (t : STy) : t.mv.size = t.size := by
  rcases t with _ | (r | _ | _) | _ <;> [skip; cases r; skip; skip; skip] <;> rfl

theorem RepV.mv {v : MVal} {w : Nat} (h : RepV σ v w) : Mv.Rep σ.mem (fun x => x < σ.nextFree) v.ty.mv (.num v.n) w := by
  obtain ⟨t, n⟩ := v
  rcases t with _ | (r | _ | _) | _
  · simp only [RepV, STy.mv, Mv.Rep, STy.bits] at h ⊢
    obtain ⟨h1, rfl⟩ := h
    exact ⟨rfl, by omega⟩
  · cases r <;> simp only [RepV, STy.mv, Mv.Rep, STy.bits, IntTy.bits, RegInt.bits] at h ⊢ <;>
      (obtain ⟨h1, rfl⟩ := h; exact ⟨rfl, h1⟩)
  all_goals
    simp only [RepV, STy.mv, Mv.Rep] at h ⊢
    exact ⟨by rw [h.2.2], fun x h1 h2 => by omega⟩

theorem Cell.mv {v : MVal} {q : Nat} (h : Cell σ v q) : MvAt σ.mem (fun x => x < σ.nextFree) v.ty.mv (.num v.n) q := by
  unfold Cell at h
  unfold MvAt
  rw [STy.mv_scalar, STy.mv_size]
  by_cases hr : v.ty.isReg = true
  · rw [if_pos hr] at h ⊢
    exact ⟨fun _ x h1 h2 => by have := h.1; omega, h.2.mv⟩
  · rw [if_neg hr] at h ⊢
    exact ⟨fun h0 => absurd h0 hr, h.mv⟩

mutual
theorem Holds.mv {Fz : Nat → Prop} (hF : ∀ x, Fz x → x < σ.nextFree) : ∀ {d : Data} {q : Nat} {m : Nat → Nat},
    Holds σ Fz d q m → MvAt σ.mem (fun x => x < σ.nextFree) d.ty.mv d.mv q
  | .num v, q, m, h => by
    simp only [Holds] at h
    exact h.1.mv
  | .struct id ds, q, m, h => by
    simp only [Holds] at h
    refine ⟨fun h0 => by simp [Data.ty, Ty.mv, Mv.Ty.scalar] at h0, ?_⟩
    simp only [Data.ty, Ty.mv, Mv.Ty.scalar, Bool.false_eq_true, if_false, Mv.Rep, Data.mv]
    exact ⟨_, rfl, HoldsFs.mv hF h.2⟩
theorem HoldsFs.mv {Fz : Nat → Prop} (hF : ∀ x, Fz x → x < σ.nextFree) : ∀ {ds : List Data} {p : Nat} {m : Nat → Nat},
    HoldsFs σ Fz ds p m → Mv.RepFs σ.mem (fun x => x < σ.nextFree) (Ty.mvs (Data.tys ds)) (Data.mvs ds) p
  | [], p, m, h => by simp only [Data.tys, Ty.mvs, Data.mvs, Mv.RepFs]
  | d :: ds, p, m, h => by
    simp only [HoldsFs] at h
    obtain ⟨m1, m2, ⟨h1, h2⟩, h3, h4⟩ := h
    simp only [Data.tys, Ty.mvs, Data.mvs, Mv.RepFs]
    obtain ⟨g1, g2⟩ := Holds.mv hF h2
    exact ⟨_, _, rfl, Within.change h1 hF, g1, g2, HoldsFs.mv hF h3⟩
end

end Move
