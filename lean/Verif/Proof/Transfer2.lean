import Verif.Proof.Transfer

/-! What removing objects does to storage, and that owners do not matter for saving. -/

namespace Layout
open Mv Rt

variable {K : List UInt8 → Nat} {T : Ty → Nat} {S S' : Nat → Nat}

/-! ### Cleared storage -/

theorem cleared_of {gs : List (Nat × Nat)} {x : Nat} {g : Nat × Nat} (hg : g ∈ gs) (h1 : g.1 ≤ x) (h2 : x ≤ g.2) : cleared gs S x = 0 :=
  if_pos (List.any_eq_true.mpr ⟨g, hg, by simp [h1, h2]⟩)

theorem cleared_off {gs : List (Nat × Nat)} {x : Nat} (h : Off gs x) : cleared gs S x = S x :=
  if_neg fun hc => by
    obtain ⟨g, hg, h1⟩ := List.any_eq_true.mp hc
    exact h g hg (by simpa using h1)

theorem cleared_nil : cleared [] S = S := by funext x; exact cleared_off (by simp [Off])

theorem cleared_append (gs hs : List (Nat × Nat)) : cleared (gs ++ hs) S = cleared hs (cleared gs S) := by
  funext x
  unfold cleared
  rw [List.any_append]
  cases gs.any (fun g => decide (g.1 ≤ x ∧ x ≤ g.2)) <;> cases hs.any (fun g => decide (g.1 ≤ x ∧ x ≤ g.2)) <;> simp

/-! ### Removing objects -/

/-- What storage must hold for an object to be removed. -/
structure Gone (K : List UInt8 → Nat) (S : Nat → Nat) (was : Kid → List Val) (k : Kid) : Prop where
  parent : k.pid ≠ none
  thawed : k.owner ≠ 2
  tidy : tidyFs k.fs = true
  lens : LensFs K S k.fs (was k) (k.home K, 8)

theorem dels_cleared {fs : List Ty} {vs : List Val} {c : Nat} (ht : tidyFs fs = true) (hl : LensFs K S fs vs (c, 8))
    (hap : (owned K fs vs c).Pairwise Apart) (hlt : ∀ g ∈ owned K fs vs c, g.2 < 2 ^ 256) :
    ∃ st, dels K fs ⟨S, c, 8, 0⟩ = some st ∧ st.wipe.stor = cleared (owned K fs vs c) S ∧ st.used = xcostFs fs vs := by
  have hap := List.pairwise_cons.mp hap
  obtain ⟨st', h1, h2⟩ := dels_ok (K := K) fs vs ⟨S, c, 8, 0⟩ (by simp only; omega) ht
    hl ⟨hap.2, hap.1⟩ (hlt _ (List.mem_cons_self ..)) (fun g hg => hlt g (List.mem_cons_of_mem _ hg))
  refine ⟨st', h1, ?_, by rw [h2.used]; exact Nat.zero_add _⟩
  have hsl : st'.slot = (nexts fs (c, 8)).1 := congrArg Prod.fst h2.pos
  funext x
  show upd st'.stor st'.slot 0 x = _
  rw [hsl]
  have hle : c ≤ (nexts fs (c, 8)).1 := (nexts_Le fs (p := (c, 8)) (by simp only; omega)).slot
  by_cases hx : ∃ g ∈ owned K fs vs c, g.1 ≤ x ∧ x ≤ g.2
  · obtain ⟨g, hg, x1, x2⟩ := hx
    rw [cleared_of hg x1 x2]
    unfold upd
    split
    · rfl
    · rcases List.mem_cons.mp hg with rfl | hg
      · exact h2.zero x x1 (by simp only at x2; show x < (nexts fs (c, 8)).1; omega)
      · exact h2.segs g hg x x1 x2
  · have hx : Off (owned K fs vs c) x := fun g hg h => hx ⟨g, hg, h⟩
    have hx0 := hx _ (List.mem_cons_self ..)
    simp only at hx0
    rw [cleared_off hx, upd_ne _ _ (by omega)]
    exact h2.frame x (by show x < c ∨ (nexts fs (c, 8)).1 < x; omega) fun g hg => hx g (List.mem_cons_of_mem _ hg)

theorem LensFs.cleared {fs : List Ty} {vs : List Val} {c : Nat} {gs : List (Nat × Nat)} (hl : LensFs K S fs vs (c, 8))
    (h : ∀ g ∈ gs, ∀ g' ∈ owned K fs vs c, Apart g g') : LensFs K (cleared gs S) fs vs (c, 8) := by
  have key : ∀ g' ∈ owned K fs vs c, ∀ x, g'.1 ≤ x → x ≤ g'.2 → Mv.cleared gs S x = S x := fun g' hg' x h1 h2 =>
    cleared_off fun g hg hx => by have := h g hg g' hg'; unfold Apart at this; omega
  refine LensFs.congr fs (by simp) hl (fun x h1 h2 _ => ?_) fun g hg x h1 h2 => ?_
  · exact key _ List.mem_cons_self x h1 h2
  · exact key g (List.mem_cons_of_mem _ hg) x h1 h2

theorem drops_ok {was : Kid → List Val} {ks : List Kid} (h : ∀ k ∈ ks, k.moves = true → Gone K S was k)
    (hap : (gone K was ks).Pairwise Apart) (hlt : ∀ g ∈ gone K was ks, g.2 < 2 ^ 256) :
    drops K ks S = some (cleared (gone K was ks) S, goneCost was ks) := by
  induction ks generalizing S with
  | nil => simp [drops, gone, goneCost, cleared_nil]
  | cons k ks ih =>
    by_cases hm : k.moves = true
    · have hk := h k List.mem_cons_self hm
      have eg : gone K was (k :: ks) = owned K k.fs (was k) (k.home K) ++ gone K was ks := by
        unfold gone; rw [List.filter_cons_of_pos hm, List.flatMap_cons]
      have ec : goneCost was (k :: ks) = xcostFs k.fs (was k) + goneCost was ks := by
        unfold goneCost; rw [List.filter_cons_of_pos hm, List.map_cons, List.sum_cons]
      rw [eg] at hap hlt ⊢
      obtain ⟨a1, a2, a3⟩ := List.pairwise_append.mp hap
      obtain ⟨st, d1, d2, d3⟩ := dels_cleared hk.tidy hk.lens a1 fun g hg => hlt g (List.mem_append_left _ hg)
      simp only [Kid.moves, Bool.and_eq_true, decide_eq_true_eq] at hm
      have hd : drop K k S = some (cleared (owned K k.fs (was k) (k.home K)) S, xcostFs k.fs (was k)) := by
        unfold drop
        rw [if_neg (by simp [hm.1, hm.2]), if_neg (by simp [hk.parent, hk.thawed])]
        unfold Kid.home at d1
        rw [d1, Option.map_some, d2, d3]
      rw [drops, hd, Option.bind_some, ih (fun k' hk' hm' => ?_) a2 fun g hg => hlt g (List.mem_append_right _ hg), Option.map_some,
        cleared_append, ec]
      have := h k' (List.mem_cons_of_mem _ hk') hm'
      refine ⟨this.parent, this.thawed, this.tidy, this.lens.cleared fun g hg g' hg' => a3 g hg g' ?_⟩
      exact List.mem_flatMap.mpr ⟨k', List.mem_filter.mpr ⟨hk', hm'⟩, hg'⟩
    · have eg : gone K was (k :: ks) = gone K was ks := by unfold gone; rw [List.filter_cons_of_neg hm]
      have ec : goneCost was (k :: ks) = goneCost was ks := by unfold goneCost; rw [List.filter_cons_of_neg hm]
      rw [eg] at hap hlt ⊢
      rw [ec]
      have hd : drop K k S = some (S, 0) := by
        unfold drop
        rw [if_pos]
        simp only [Kid.moves, Bool.and_eq_true, decide_eq_true_eq] at hm
        by_cases h0 : k.owner = 0
        · exact .inl h0
        · right; by_contra hc; exact hm ⟨h0, hc⟩
      rw [drops, hd, Option.bind_some, ih (fun k' hk' => h k' (List.mem_cons_of_mem _ hk')) hap hlt, Option.map_some, Nat.zero_add]

/-! ### Owners do not matter -/

theorem idOf_settle (pid : Option Nat) (v : Val) : idOf (settle pid uidTy v) = idOf v := by
  unfold uidTy
  cases v with
  | struct vs =>
    match vs with
    | [] => simp [settle, settleFs]
    | [v] =>
      cases v with
      | struct ws =>
        match ws with
        | [] => simp [settle, settleFs]
        | [w] => cases w <;> simp [settle, settleFs, idOf]
        | _ :: _ :: _ => simp [settle, settleFs, idOf]
      | _ => simp [settle, settleFs, idOf]
    | _ :: _ :: _ => simp [settle, settleFs, idOf]
  | _ => simp [settle]

theorem encEls_map {w : Nat} {f : Val → St → Option St} {g : Val → Val} (h : ∀ v s, f (g v) s = f v s) (vs : List Val) (st : St) :
    encEls w f (vs.map g) st = encEls w f vs st := by
  induction vs generalizing st with
  | nil => rfl
  | cons v vs ih =>
    simp only [List.map_cons, encEls, h]
    congr 1
    funext s1
    congr 1
    funext s2
    exact ih s2

mutual
theorem enc_settle (t : Ty) (hs : Storable t) (pid : Option Nat) (o : Nat) (v : Val) (st : St) :
    enc K T o t (settle pid t v) st = enc K T o t v st := by
  match t with
  | .bool | .u8 | .u16 | .u32 | .u64 | .u128 | .u256 | .address | .enum _ => cases v <;> simp only [settle]
  | .struct fs =>
    rw [Storable] at hs
    cases v with
    | struct vs => simp only [settle, enc, encs_settle fs hs.2]
    | _ => simp only [settle]
  | .object [] => rw [Storable] at hs; exact hs.elim
  | .object (u :: fs) =>
    rw [Storable] at hs
    obtain ⟨rfl, hs⟩ := hs
    cases v with
    | object ow vs =>
      match vs with
      | [] => simp only [settle, settleFs, enc]
      | uid :: vs => simp only [settle, settleFs, enc, idOf_settle, encs_settle fs hs]
    | _ => simp only [settle]
  | .vec t =>
    rw [Storable] at hs
    cases v with
    | vec vs =>
      by_cases hf : t.fielded = true
      · simp only [settle, hf, if_true, enc, List.length_map, List.isEmpty_map]
        simp only [encEls_map (f := fun v s => enc K T o t v s) (g := fun v => settle pid t v) fun v s => enc_settle t hs pid o v s]
      · simp only [settle, hf]; rfl
    | _ => simp only [settle]
theorem encs_settle (ts : List Ty) (hs : StorableFs ts) (pid : Option Nat) (o : Nat) (vs : List Val) (st : St) :
    encs K T o ts (settleFs pid ts vs) st = encs K T o ts vs st := by
  match ts, vs with
  | [], _ => simp only [settleFs]
  | _ :: _, [] => simp only [settleFs]
  | t :: ts, v :: vs =>
    rw [StorableFs] at hs
    simp only [settleFs, encs]
    congr 1
    funext s1
    rw [enc_settle t hs.1]
    congr 1
    funext s2
    exact encs_settle ts hs.2 pid o vs s2
end

mutual
theorem ecost_settle (t : Ty) (pid : Option Nat) (v : Val) : ecost t (settle pid t v) = ecost t v := by
  match t with
  | .bool | .u8 | .u16 | .u32 | .u64 | .u128 | .u256 | .address | .enum _ => cases v <;> simp only [settle]
  | .struct fs =>
    cases v with
    | struct vs => simp only [settle, ecost, ecosts_settle fs]
    | _ => simp only [settle]
  | .object [] => cases v <;> simp only [settle, settleFs, ecost]
  | .object (u :: fs) =>
    cases v with
    | object ow vs =>
      match vs with
      | [] => simp only [settle, settleFs, ecost]
      | uid :: vs => simp only [settle, settleFs, ecost, ecosts_settle fs]
    | _ => simp only [settle]
  | .vec t =>
    cases v with
    | vec vs =>
      by_cases hf : t.fielded = true
      · simp only [settle, hf, if_true, ecost, List.map_map, Function.comp_def, ecost_settle t]
      · simp only [settle, hf]; rfl
    | _ => simp only [settle]
theorem ecosts_settle (ts : List Ty) (pid : Option Nat) (vs : List Val) : ecostFs ts (settleFs pid ts vs) = ecostFs ts vs := by
  match ts, vs with
  | [], _ => simp only [settleFs]
  | _ :: _, [] => simp only [settleFs]
  | t :: ts, v :: vs => simp only [settleFs, ecostFs, ecost_settle t, ecosts_settle ts]
end

end Layout
