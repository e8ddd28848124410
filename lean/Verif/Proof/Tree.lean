import Verif.Tree
import Verif.Proof.Delete3

/-! Lemmas about `Tree`. -/

namespace Mv
open Wasm

variable {f g : Bytes} {R S : Nat → Prop}

mutual
theorem Tree.rep {R : Nat → Prop} (t : Ty) {v : Val} {w : Nat} (h : Tree f R t v w) : Rep f R t v w := by
  match t with
  | .bool | .u8 | .u16 | .u32 | .u64 | .u128 | .u256 | .address | .enum _ => simpa only [Tree] using h
  | .vec t =>
    simp only [Tree] at h
    obtain ⟨vs, P, h1, h2, h3, h4, h5, -, h7⟩ := h
    simp only [Rep]
    exact ⟨vs, h1, h2, h3, h4, fun i hi => Rep.change (fun _ _ => rfl) (h5 i hi).1 t (Tree.rep t (h7 i hi))⟩
  | .struct fs =>
    simp only [Tree] at h
    obtain ⟨vs, h1, h2⟩ := h
    simp only [Rep]
    exact ⟨vs, h1, TreeFs.rep fs h2⟩
  | .object fs =>
    simp only [Tree] at h
    obtain ⟨vs, S, h1, h2, h3, h4, -, h6⟩ := h
    simp only [Rep]
    exact ⟨vs, h1, h2, h3, RepFs.change (fun _ _ => rfl) h4 fs (TreeFs.rep fs h6)⟩
theorem TreeFs.rep {R : Nat → Prop} (ts : List Ty) {vs : List Val} {p : Nat} (h : TreeFs f R ts vs p) : RepFs f R ts vs p := by
  match ts with
  | [] => simpa only [TreeFs, RepFs] using h
  | t :: ts =>
    simp only [TreeFs] at h
    obtain ⟨v, vs', A, B, h1, h2, h3, h4, h5, h6, h7, -⟩ := h
    simp only [RepFs]
    exact ⟨v, vs', h1, h2, fun hs => (h3 hs).mono h6, Rep.change (fun _ _ => rfl) h6 t (Tree.rep t h4),
      RepFs.change (fun _ _ => rfl) h7 ts (TreeFs.rep ts h5)⟩
end

mutual
/-- A value depends on the memory of its region only. -/
theorem Tree.change {R S : Nat → Prop} (h : ∀ x, R x → g x = f x) (hRS : ∀ x, R x → S x) (t : Ty) {v : Val} {w : Nat}
    (hr : Tree f R t v w) : Tree g S t v w := by
  match t with
  | .bool | .u8 | .u16 | .u32 | .u64 | .u128 | .u256 | .address | .enum _ =>
    simp only [Tree] at hr ⊢; exact Rep.change h hRS _ hr
  | .vec t =>
    simp only [Tree] at hr ⊢
    obtain ⟨vs, P, h1, h2, h3, h4, h5, h6, h7⟩ := hr
    have e1 : leNat g w 4 = leNat f w 4 := (h4.sub (Nat.le_refl _) (by omega)).leNat h
    have e2 : leNat g (w + 4) 4 = leNat f (w + 4) 4 := (h4.sub (by omega) (by omega)).leNat h
    refine ⟨vs, P, h1, by rw [e1, h2], by rw [e2]; exact h3, by rw [e2]; exact h4.mono hRS,
      fun i hi => ⟨fun x hx => hRS x ((h5 i hi).1 x hx), by rw [e2]; exact (h5 i hi).2⟩, h6, ?_⟩
    intro i hi
    have h6 : i * t.size + t.size ≤ leNat f (w + 4) 4 * t.size := by
      rw [← Nat.succ_mul]; exact Nat.mul_le_mul_right _ (by omega)
    rw [(h4.sub (b := w + 8 + i * t.size) (m := t.size) (by omega) (by omega)).leNat h]
    exact Tree.change (fun x hx => h x ((h5 i hi).1 x hx)) (fun _ h => h) t (h7 i hi)
  | .struct fs =>
    simp only [Tree] at hr ⊢
    obtain ⟨vs, h1, h2⟩ := hr
    exact ⟨vs, h1, TreeFs.change h hRS fs h2⟩
  | .object fs =>
    simp only [Tree] at hr ⊢
    obtain ⟨vs, T, h1, h2, h3, h4, h5, h6⟩ := hr
    exact ⟨vs, T, h1, by rw [h2, h3.beNat h], h3.mono hRS, fun x hx => hRS x (h4 x hx), h5,
      TreeFs.change (fun x hx => h x (h4 x hx)) (fun _ h => h) fs h6⟩
theorem TreeFs.change {R S : Nat → Prop} (h : ∀ x, R x → g x = f x) (hRS : ∀ x, R x → S x) (ts : List Ty) {vs : List Val} {p : Nat}
    (hr : TreeFs f R ts vs p) : TreeFs g S ts vs p := by
  match ts with
  | [] => simpa only [TreeFs] using hr
  | t :: ts =>
    simp only [TreeFs] at hr ⊢
    obtain ⟨v, vs', A, B, h1, h2, h3, h4, h5, h6, h7, h8, h9, h10⟩ := hr
    rw [h2.leNat h]
    refine ⟨v, vs', A, B, h1, h2.mono hRS, h3, ?_, TreeFs.change (fun x hx => h x (h7 x hx)) (fun _ h => h) ts h5,
      fun x hx => hRS x (h6 x hx), fun x hx => hRS x (h7 x hx), h8, h9, h10⟩
    have hA : ∀ x, A x → g x = f x := fun x hx => h x (h6 x hx)
    by_cases hs : t.scalar = true
    · rw [if_pos hs] at h4 ⊢
      rw [(h3 hs).leNat hA]; exact Tree.change hA (fun _ h => h) t h4
    · rw [if_neg hs] at h4 ⊢
      exact Tree.change hA (fun _ h => h) t h4
end

end Mv
