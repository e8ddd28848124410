import Verif.Layout
import Verif.Rt.Storage
import Mathlib.Tactic.Ring
import Mathlib.Tactic.Linarith

/-! Positions of fields in storage. -/

namespace Layout
open Mv Rt

theorem width_le (t : Ty) : width t ≤ 32 := by cases t <;> simp [width]

theorem fsize_eq (t : Ty) : fsize t = width t := by cases t <;> rfl

/-- The value has a place of its own. -/
def Placed (t : Ty) : Prop := 0 < width t

theorem next_placed {t : Ty} (h : Placed t) (p : Pos) : next t p = place p (width t) := by
  unfold Placed at h
  cases t <;> simp [width] at h <;> simp [next, width]

theorem place_le {p : Pos} {n : Nat} (hn : n ≤ 32) : (place p n).2 ≤ 32 := by
  unfold place; split <;> simp <;> omega

theorem place_zero {p : Pos} (hp : p.2 ≤ 32) : place p 0 = p := by
  unfold place; rw [if_pos (by omega)]; rfl

theorem place_fst {p : Pos} {n : Nat} : p.1 ≤ (place p n).1 ∧ (place p n).1 ≤ p.1 + 1 := by
  unfold place; split <;> simp

theorem place_lin {p : Pos} {n : Nat} (hp : p.2 ≤ 32) : lin p + n ≤ lin (place p n) := by
  unfold place lin; split <;> simp <;> omega

theorem place_snd {p : Pos} {n : Nat} : n ≤ (place p n).2 := by
  unfold place; split <;> simp

theorem place_one {p : Pos} (hp : p.2 ≤ 32) : lin (place p 1) = lin p + 1 := by
  unfold place lin; split <;> simp <;> omega

/-- A later position: at least as far, and not in an earlier slot. -/
structure Le (p q : Pos) : Prop where
  lin : lin p ≤ lin q
  slot : p.1 ≤ q.1
  off : q.2 ≤ 32

theorem Le.refl {p : Pos} (hp : p.2 ≤ 32) : Le p p := ⟨Nat.le_refl _, Nat.le_refl _, hp⟩
theorem Le.trans {p q r : Pos} (h : Le p q) (h' : Le q r) : Le p r :=
  ⟨h.lin.trans h'.lin, h.slot.trans h'.slot, h'.off⟩

theorem place_Le {p : Pos} {n : Nat} (hp : p.2 ≤ 32) (hn : n ≤ 32) : Le p (place p n) :=
  ⟨by have := @place_lin p n hp; omega, place_fst.1, place_le hn⟩

theorem lin_split (n : Nat) : lin (n / 32, n % 32) = n := by unfold lin; simp; omega

theorem furthest_ge (vss : List (List Ty)) (p : Pos) : lin p ≤ furthest vss p := by
  induction vss with
  | nil => rw [furthest]
  | cons fs vss ih => rw [furthest]; omega

theorem le_furthest {vss : List (List Ty)} {i : Nat} {fs : List Ty} (h : vss[i]? = some fs) (p : Pos) :
    lin (nexts fs p) ≤ furthest vss p := by
  induction vss generalizing i with
  | nil => simp at h
  | cons gs vss ih =>
    rw [furthest]
    cases i with
    | zero => simp at h; subst h; omega
    | succ i => have := ih (by simpa using h); omega

theorem furthest_mem {vss : List (List Ty)} (p : Pos) (h : vss ≠ []) (hp : ∀ fs ∈ vss, lin p ≤ lin (nexts fs p)) :
    ∃ fs ∈ vss, lin (nexts fs p) = furthest vss p := by
  induction vss with
  | nil => exact absurd rfl h
  | cons gs vss ih =>
    rw [furthest]
    by_cases hne : vss = []
    · subst hne
      have := hp gs (by simp)
      exact ⟨gs, by simp, by rw [furthest]; omega⟩
    · obtain ⟨fs, h1, h2⟩ := ih hne fun fs hfs => hp fs (by simp [hfs])
      rcases Nat.le_total (furthest vss p) (lin (nexts gs p)) with hc | hc
      · exact ⟨gs, by simp, by omega⟩
      · exact ⟨fs, by simp [h1], by omega⟩

theorem next_enum (vss : List (List Ty)) (p : Pos) :
    next (.enum vss) p = (furthest vss (place p 1) / 32, furthest vss (place p 1) % 32) := by rw [next]

/-- Behind the tag of an enum is before the end of the enum. -/
theorem tag_Le (vss : List (List Ty)) {p : Pos} (hp : p.2 ≤ 32) : Le (place p 1) (next (.enum vss) p) := by
  rw [next_enum]
  have h := furthest_ge vss (place p 1)
  have h1 := @place_snd p 1
  refine ⟨by rw [lin_split]; exact h, ?_, by simp; omega⟩
  unfold lin at h
  simp; omega

/-- Behind the fields of a variant is not behind the end of the enum. -/
theorem variant_Le {vss : List (List Ty)} {i : Nat} {fs : List Ty} (h : vss[i]? = some fs) (p : Pos) :
    Le (nexts fs (place p 1)) (next (.enum vss) p) := by
  rw [next_enum]
  have h := le_furthest h (place p 1)
  refine ⟨by rw [lin_split]; exact h, ?_, by simp; omega⟩
  unfold lin at h
  simp; omega

mutual
theorem next_Le (t : Ty) {p : Pos} (hp : p.2 ≤ 32) : Le p (next t p) := by
  match t with
  | .struct fs => rw [next]; exact nexts_Le fs hp
  | .enum vss => exact (place_Le hp (by omega)).trans (tag_Le vss hp)
  | .bool | .u8 | .u16 | .u32 | .u64 | .u128 | .u256 | .address | .vec _ | .object _ =>
    rw [next_placed (by simp [Placed, width])]; exact place_Le hp (width_le _)
theorem nexts_Le (ts : List Ty) {p : Pos} (hp : p.2 ≤ 32) : Le p (nexts ts p) := by
  match ts with
  | [] => rw [nexts]; exact Le.refl hp
  | t :: ts => rw [nexts]; exact (next_Le t hp).trans (nexts_Le ts (next_Le t hp).off)
end

theorem iter_Le {f : Pos → Pos} (hf : ∀ p, p.2 ≤ 32 → Le p (f p)) (n : Nat) {p : Pos} (hp : p.2 ≤ 32) :
    Le p (iter f n p) := by
  induction n generalizing p with
  | zero => exact Le.refl hp
  | succ n ih => rw [iter]; exact (hf p hp).trans (ih (hf p hp).off)

/-! ### The sizes computed by the compiler -/

/-- The compiler's offset describes position `p`: 0 and 32 are the same. -/
structure Tracks (p : Pos) (off : Nat) : Prop where
  pos : p.2 ≤ 32
  le : off ≤ 32
  eq : p.2 % 32 = off % 32

/-- A step of the compiler from `(n, off)` to `s` describes the step from `p` to `q`. -/
structure Moves (p q : Pos) (n : Nat) (s : Nat × Nat) : Prop where
  tracks : Tracks q s.2
  size : s.1 + lin p = n + lin q

theorem placed_moves {p : Pos} {off n w : Nat} (h : Tracks p off) (h0 : 0 < w) (h32 : w ≤ 32) :
    Moves p (place p w) n (if 32 - off < w then (n + (w + (32 - off) % 32), w) else (n + w, off + w)) := by
  have h1 := h.pos; have h2 := h.le; have h3 := h.eq
  unfold place
  constructor
  · constructor <;> (repeat' split) <;> simp <;> omega
  · unfold lin
    split <;> split <;> simp <;> omega

theorem object_moves {p : Pos} {off n : Nat} (h : Tracks p off) :
    Moves p (place p 32) n (n + (32 + (32 - off) % 32), 32) := by
  have h1 := h.pos; have h2 := h.le; have h3 := h.eq
  unfold place
  constructor
  · constructor <;> (repeat' split) <;> simp <;> omega
  · unfold lin
    split <;> simp <;> omega

theorem tag_tracks {p : Pos} {off : Nat} (h : Tracks p off) : Tracks (place p 1) ((off + 1) % 32) := by
  have h1 := h.pos; have h2 := h.le; have h3 := h.eq
  unfold place
  constructor <;> (repeat' split) <;> (try dsimp only) <;> omega

mutual
theorem sizeStep_moves (t : Ty) {p : Pos} {off : Nat} (n : Nat) (h : Tracks p off) :
    Moves p (next t p) n (sizeStep t (n, off)) := by
  match t with
  | .struct fs =>
    have := sizeSteps_moves fs 0 h
    rw [next, sizeStep]
    have h1 := this.size; have h2 := this.tracks.pos; have h3 := h.pos; have h4 := h.eq
    unfold lin at h1
    refine ⟨⟨h2, by simp; omega, ?_⟩, ?_⟩
    · simp only; omega
    · unfold lin; simp only; omega
  | .enum vss =>
    have := variantMax_eq vss (tag_tracks h)
    rw [next_enum, sizeStep]
    have e := @place_one p h.pos
    have h3 := h.pos; have h4 := h.eq
    unfold lin at e
    have e2 := lin_split (furthest vss (place p 1))
    refine ⟨⟨by simp; omega, by simp; omega, ?_⟩, ?_⟩
    · unfold lin at this; simp only; omega
    · rw [e2]; unfold lin at this ⊢; simp only; omega
  | .object _ => rw [next_placed (by simp [Placed, width]), sizeStep]; exact object_moves h
  | .bool | .u8 | .u16 | .u32 | .u64 | .u128 | .u256 | .address | .vec _ =>
    rw [next_placed (by simp [Placed, width])]
    simp only [sizeStep]
    exact placed_moves h (by simp [width]) (width_le _)
theorem sizeSteps_moves (ts : List Ty) {p : Pos} {off : Nat} (n : Nat) (h : Tracks p off) :
    Moves p (nexts ts p) n (sizeSteps ts (n, off)) := by
  match ts with
  | [] => rw [nexts, sizeSteps]; exact ⟨h, rfl⟩
  | t :: ts =>
    rw [nexts, sizeSteps]
    have h1 := sizeStep_moves t n h
    have h2 : Moves _ _ _ (sizeSteps ts (sizeStep t (n, off))) := sizeSteps_moves ts (sizeStep t (n, off)).1 h1.tracks
    exact ⟨h2.tracks, by have := h1.size; have := h2.size; omega⟩
theorem variantMax_eq (vss : List (List Ty)) {p : Pos} {off : Nat} (h : Tracks p off) :
    variantMax vss off + lin p = furthest vss p := by
  match vss with
  | [] => rw [variantMax, furthest]; omega
  | fs :: vss =>
    have h1 := (sizeSteps_moves fs 0 h).size
    have h2 := variantMax_eq vss h
    rw [variantMax, furthest]; omega
end

/-- The size of an enum computed by the compiler leads to the end of the enum. -/
theorem enumSize_eq (vss : List (List Ty)) {p : Pos} (hp : p.2 ≤ 32) :
    next (.enum vss) p = ((lin p + enumSize vss (p.2 % 32)) / 32, (lin p + enumSize vss (p.2 % 32)) % 32) := by
  have := variantMax_eq vss (tag_tracks (p := p) (off := p.2 % 32) ⟨hp, by omega, by omega⟩)
  have e := @place_one p hp
  have : furthest vss (place p 1) = lin p + enumSize vss (p.2 % 32) := by unfold enumSize; omega
  rw [next_enum, this]

end Layout
