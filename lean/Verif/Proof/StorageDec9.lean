import Verif.Proof.StorageDec8

/-! Values in memory are well typed; types without enums are always read from the right slot. -/

namespace Rt
open Wasm Slots Mv Layout

mutual
theorem rep_typed {f : Bytes} {R : Nat → Prop} (t : Ty) (hs : Storable t) {v : Val} {w : Nat} (h : Mv.Rep f R t v w) : Typed t v := by
  match t with
  | .bool | .u8 | .u16 | .u32 | .u64 | .u128 | .u256 | .address =>
    simp only [Mv.Rep] at h
    rw [h.1]; simp [Typed]
    try exact h.2
  | .struct fs =>
    simp only [Mv.Rep] at h
    obtain ⟨vs, rfl, h⟩ := h
    rw [Storable] at hs
    rw [Typed]
    exact rep_typedFs fs hs.2 h
  | .enum vss =>
    simp only [Mv.Rep] at h
    obtain ⟨vs, rfl, -, h⟩ := h
    rw [Storable] at hs
    rw [Typed]
    exact rep_typedVar vss hs.2.2 h
  | .vec t =>
    simp only [Mv.Rep] at h
    obtain ⟨vs, rfl, -, -, -, h⟩ := h
    rw [Storable] at hs
    rw [Typed]
    intro v hv
    obtain ⟨i, hi, rfl⟩ := List.getElem_of_mem hv
    exact rep_typed t hs (h i hi)
  | .object [] => rw [Storable] at hs; exact hs.elim
  | .object (u :: fs) =>
    rw [Storable] at hs
    obtain ⟨rfl, hs⟩ := hs
    simp only [Mv.Rep] at h
    obtain ⟨vs, -, rfl, -, h⟩ := h
    obtain ⟨uid, vs', p1, p2, p, rfl, hu, h⟩ := uid_rep h
    rw [Typed]
    exact ⟨⟨_, hu.uid, Nat.lt_of_lt_of_eq (beNat_lt ..) (by norm_num)⟩, rep_typedFs fs hs h⟩
theorem rep_typedFs {f : Bytes} {R : Nat → Prop} (ts : List Ty) (hs : StorableFs ts) {vs : List Val} {w : Nat} (h : Mv.RepFs f R ts vs w) :
    TypedFs ts vs := by
  match ts with
  | [] => simp only [Mv.RepFs] at h; rw [h, TypedFs]; trivial
  | t :: ts =>
    simp only [Mv.RepFs] at h
    obtain ⟨v, vs', rfl, -, -, h1, h2⟩ := h
    rw [StorableFs] at hs
    rw [TypedFs]
    exact ⟨rep_typed t hs.1 h1, rep_typedFs ts hs.2 h2⟩
theorem rep_typedVar {f : Bytes} {R : Nat → Prop} (vss : List (List Ty)) (hs : StorableVs vss) {i : Nat} {vs : List Val} {w : Nat}
    (h : Mv.RepVar f R vss i vs w) : TypedVar vss i vs := by
  match vss, i with
  | [], _ => simp only [Mv.RepVar] at h
  | fs :: vss, 0 =>
    simp only [Mv.RepVar] at h
    rw [StorableVs] at hs
    rw [TypedVar]
    exact rep_typedFs fs hs.1 h
  | fs :: vss, i + 1 =>
    simp only [Mv.RepVar] at h
    rw [StorableVs] at hs
    rw [TypedVar]
    exact rep_typedVar vss hs.2 h
end

theorem place_32 {p : Pos} (h : p.2 ≤ 32) : (place p 32).2 = 32 := by
  have := @place_snd p 32; have := @place_le p 32 (by omega); omega

/-- The slot at hand is the current one, or it is full. -/
def Ok (b : Bool) (p : Pos) : Prop := p.2 ≤ 32 ∧ (b = true ∨ p.2 = 32)

theorem fresh_atom {t : Ty} {n : Nat} {p : Pos} {b : Bool} (ht : atom t = true) (h : Ok b p) :
    ∃ b', Layout.fresh t (.num n) p b = some b' ∧ Ok b' (next t p) := by
  have hw : 1 ≤ width t := by cases t <;> simp_all [atom, width]
  have hw2 : width t ≤ 32 := width_le t
  have hn : next t p = place p (width t) := next_placed hw p
  have hc : (b || decide ((place p (width t)).1 ≠ p.1)) = true := by
    rcases h.2 with rfl | h2
    · rfl
    · have : (place p (width t)).1 ≠ p.1 := by unfold place; rw [if_neg (by omega)]; simp
      simp [this]
  refine ⟨true, ?_, by rw [hn]; exact place_le hw2, .inl rfl⟩
  cases t <;> simp only [atom, Bool.false_eq_true] at ht <;> simp only [Layout.fresh] <;> rw [if_pos hc]

theorem freshEls_ok {f : Val → Pos → Bool → Option Bool} {nx : Pos → Pos} (vs : List Val)
    (hf : ∀ v ∈ vs, ∀ p b, Ok b p → ∃ b', f v p b = some b' ∧ Ok b' (nx p)) {p : Pos} {b : Bool} (h : Ok b p) :
    ∃ b', freshEls f nx vs p b = some b' := by
  induction vs generalizing p b with
  | nil => exact ⟨b, rfl⟩
  | cons v vs ih =>
    obtain ⟨b1, h1, h2⟩ := hf v (by simp) p b h
    obtain ⟨b2, h3⟩ := ih (fun v hv => hf v (by simp [hv])) h2
    exact ⟨b2, by rw [freshEls, h1, Option.bind_some, h3]⟩

mutual
theorem fresh_ok (t : Ty) (ht : noEnum t = true) {v : Val} (hv : Typed t v) {p : Pos} {b : Bool} (h : Ok b p) :
    ∃ b', Layout.fresh t v p b = some b' ∧ Ok b' (next t p) := by
  match t, v with
  | .bool, .num _ | .u8, .num _ | .u16, .num _ | .u32, .num _ | .u64, .num _ | .u128, .num _ | .u256, .num _ | .address, .num _ =>
    exact fresh_atom rfl h
  | .struct fs, .struct vs =>
    rw [noEnum] at ht
    rw [Typed] at hv
    rw [Layout.fresh, next]
    exact fresh_okFs fs ht hv h
  | .vec t, .vec vs =>
    rw [noEnum] at ht
    rw [Typed] at hv
    obtain ⟨b', hb⟩ := freshEls_ok vs (fun v hm p b hp => fresh_ok t ht (hv v hm) (p := p) (b := b) hp) (p := (0, 0)) (b := true) ⟨by simp, .inl rfl⟩
    refine ⟨false, by rw [Layout.fresh, hb]; rfl, ?_⟩
    rw [next_placed (by simp [Placed, width])]
    exact ⟨place_le (by simp [width]), .inr (place_32 h.1)⟩
  | .object (u :: fs), .object _ (uid :: vs) =>
    rw [noEnum, noEnumFs, Bool.and_eq_true] at ht
    rw [Typed] at hv
    obtain ⟨b', hb, -⟩ := fresh_okFs fs ht.2 hv.2 (p := (0, 8)) (b := true) ⟨by simp, .inl rfl⟩
    refine ⟨false, by rw [Layout.fresh, hb]; rfl, ?_⟩
    rw [next_placed (by simp [Placed, width])]
    exact ⟨place_le (by simp [width]), .inr (place_32 h.1)⟩
  | .enum _, _ => simp [noEnum] at ht
  | .object [], v => cases v <;> simp [Typed] at hv
  | .object (_ :: _), .object _ [] => simp [Typed] at hv
theorem fresh_okFs (ts : List Ty) (ht : noEnumFs ts = true) {vs : List Val} (hv : TypedFs ts vs) {p : Pos} {b : Bool} (h : Ok b p) :
    ∃ b', Layout.freshFs ts vs p b = some b' ∧ Ok b' (nexts ts p) := by
  match ts, vs with
  | [], [] => rw [Layout.freshFs, nexts]; exact ⟨b, rfl, h⟩
  | t :: ts, v :: vs =>
    rw [noEnumFs, Bool.and_eq_true] at ht
    rw [TypedFs] at hv
    obtain ⟨b1, h1, h2⟩ := fresh_ok t ht.1 hv.1 h
    obtain ⟨b2, h3, h4⟩ := fresh_okFs ts ht.2 hv.2 h2
    exact ⟨b2, by rw [Layout.freshFs, h1, Option.bind_some, h3], by rw [nexts]; exact h4⟩
  | [], _ :: _ => simp [TypedFs] at hv
  | _ :: _, [] => simp [TypedFs] at hv
end

/-- What is stored depends on the slots of the object only. -/
theorem _root_.Layout.Stored.congr {K : List UInt8 → Nat} {T : Ty → Nat} {S S' : Nat → Nat} {fs : List Ty} {uid : Val} {vs : List Val} {c : Nat}
    (h : Stored K T S fs uid vs c) (hS : ∀ x, ¬ Off (area K fs uid vs c) x → S' x = S x) : Stored K T S' fs uid vs c := by
  have hg : SameOn S S' (area K fs uid vs c) := fun g hg x h1 h2 => hS x fun h => h g hg ⟨h1, h2⟩
  have hl := nexts_Le fs (p := (c, 8)) (by simp)
  have h0 := hg _ List.mem_cons_self
  refine ⟨by rw [h0 c (Nat.le_refl _) hl.slot]; exact h.tag,
    HoldsFs.congr fs (by simp) h.fields ⟨fun x h1 h2 => h0 x h1 (by simp only; omega), fun j hj => by rw [h0 _ hl.slot (Nat.le_refl _)]⟩
      fun g hg' => hg g (List.mem_cons_of_mem _ hg')⟩

end Rt
