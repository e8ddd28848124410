import Verif.Proof.Slots
import Verif.Rt.Vector

/-! Lemmas about the representation of values. -/

namespace Mv
open Wasm

theorem Within.mono {R S : Nat → Prop} {a n : Nat} (h : Within R a n) (hRS : ∀ x, R x → S x) :
    Within S a n := fun x h1 h2 => hRS x (h x h1 h2)

theorem Within.sub {R : Nat → Prop} {a n b m : Nat} (h : Within R a n) (h1 : a ≤ b) (h2 : b + m ≤ a + n) :
    Within R b m := fun x h3 h4 => h x (by omega) (by omega)

theorem Within.leNat {f g : Bytes} {R : Nat → Prop} {a n : Nat} (h : Within R a n)
    (hfg : ∀ x, R x → g x = f x) : leNat g a n = leNat f a n :=
  leNat_congr fun x h1 h2 => hfg x (h x h1 h2)

theorem Within.beNat {f g : Bytes} {R : Nat → Prop} {a n : Nat} (h : Within R a n)
    (hfg : ∀ x, R x → g x = f x) : beNat g a n = beNat f a n :=
  beNat_congr fun x h1 h2 => hfg x (h x h1 h2)

theorem Within.lt {R : Nat → Prop} {a n m : Nat} (h : Within R a n) (hR : ∀ x, R x → x < m)
    (hn : 0 < n) : a + n ≤ m := by
  have := hR _ (h (a + n - 1) (by omega) (by omega))
  omega

theorem Ty.size_pos (t : Ty) : 0 < t.size := by cases t <;> simp [Ty.size]
theorem Ty.size_le (t : Ty) : t.size ≤ 8 := by cases t <;> simp [Ty.size]
theorem Ty.size_ptr {t : Ty} (h : t.scalar = false) : t.size = 4 := by
  cases t <;> simp_all [Ty.size, Ty.scalar]

section
variable {f g : Bytes} {R S : Nat → Prop}

mutual
/-- A value depends on the memory of its region only. -/
theorem Rep.change (h : ∀ x, R x → g x = f x) (hRS : ∀ x, R x → S x) (t : Ty) {v : Val} {w : Nat}
    (hr : Rep f R t v w) : Rep g S t v w := by
  match t with
  | .bool | .u8 | .u16 | .u32 | .u64 => simpa only [Rep] using hr
  | .u128 | .u256 =>
    simp only [Rep] at hr ⊢
    obtain ⟨h1, h2⟩ := hr
    exact ⟨by rw [h1, h2.leNat h], h2.mono hRS⟩
  | .address =>
    simp only [Rep] at hr ⊢
    obtain ⟨h1, h2⟩ := hr
    exact ⟨by rw [h1, h2.beNat h], h2.mono hRS⟩
  | .vec t =>
    simp only [Rep] at hr ⊢
    obtain ⟨vs, h1, h2, h3, h4, h5⟩ := hr
    have e1 : leNat g w 4 = leNat f w 4 := (h4.sub (Nat.le_refl _) (by omega)).leNat h
    have e2 : leNat g (w + 4) 4 = leNat f (w + 4) 4 := (h4.sub (by omega) (by omega)).leNat h
    refine ⟨vs, h1, by rw [e1, h2], by rw [e2]; exact h3, by rw [e2]; exact h4.mono hRS, ?_⟩
    intro i hi
    have h6 : i * t.size + t.size ≤ leNat f (w + 4) 4 * t.size := by
      rw [← Nat.succ_mul]; exact Nat.mul_le_mul_right _ (by omega)
    rw [(h4.sub (b := w + 8 + i * t.size) (m := t.size) (by omega) (by omega)).leNat h]
    exact Rep.change h hRS t (h5 i hi)
  | .struct fs =>
    simp only [Rep] at hr ⊢
    obtain ⟨vs, h1, h2⟩ := hr
    exact ⟨vs, h1, RepFs.change h hRS fs h2⟩
  | .object fs =>
    simp only [Rep] at hr ⊢
    obtain ⟨vs, h1, h2, h3, h4⟩ := hr
    exact ⟨vs, h1, by rw [h2, h3.beNat h], h3.mono hRS, RepFs.change h hRS fs h4⟩
  | .enum vss =>
    simp only [Rep] at hr ⊢
    obtain ⟨vs, h1, h2, h3⟩ := hr
    rw [h2.leNat h]
    exact ⟨vs, h1, h2.mono hRS, RepVar.change h hRS vss h3⟩
theorem RepFs.change (h : ∀ x, R x → g x = f x) (hRS : ∀ x, R x → S x) (ts : List Ty) {vs : List Val} {p : Nat}
    (hr : RepFs f R ts vs p) : RepFs g S ts vs p := by
  match ts with
  | [] => simpa only [RepFs] using hr
  | t :: ts =>
    simp only [RepFs] at hr ⊢
    obtain ⟨v, vs', h1, h2, h3, h4, h5⟩ := hr
    rw [h2.leNat h]
    refine ⟨v, vs', h1, h2.mono hRS, fun hs => (h3 hs).mono hRS, ?_, RepFs.change h hRS ts h5⟩
    by_cases hs : t.scalar = true
    · rw [if_pos hs] at h4 ⊢
      rw [(h3 hs).leNat h]; exact Rep.change h hRS t h4
    · rw [if_neg hs] at h4 ⊢
      exact Rep.change h hRS t h4
theorem RepVar.change (h : ∀ x, R x → g x = f x) (hRS : ∀ x, R x → S x) (vss : List (List Ty)) {i : Nat}
    {vs : List Val} {p : Nat} (hr : RepVar f R vss i vs p) : RepVar g S vss i vs p := by
  match vss, i with
  | [], _ => simp only [RepVar] at hr
  | fs :: _, 0 =>
    simp only [RepVar] at hr ⊢
    exact RepFs.change h hRS fs hr
  | _ :: vss, i + 1 =>
    simp only [RepVar] at hr ⊢
    exact RepVar.change h hRS vss hr
end

/-- Scalars do not live in memory. -/
theorem Rep.scalar {t : Ty} (ht : t.scalar = true) {v : Val} {w : Nat} (h : Rep f R t v w) :
    v = .num w ∧ w < 256 ^ t.size ∧ ∀ g S, Rep g S t v w := by
  cases t <;> simp only [Ty.scalar, Bool.false_eq_true] at ht <;> simp only [Rep] at h ⊢ <;>
    exact ⟨h.1, by simp only [Ty.size]; omega, fun _ _ => h⟩

theorem RepFs.length {ts : List Ty} {vs : List Val} {p : Nat} (h : RepFs f R ts vs p) :
    vs.length = ts.length := by
  induction ts generalizing vs p with
  | nil => simp only [RepFs] at h; simp [h]
  | cons t ts ih =>
    simp only [RepFs] at h
    obtain ⟨v, vs', rfl, _, _, _, h5⟩ := h
    simp [ih h5]

end
end Mv
