import Verif.Proof.Pack3

/-! Types and values without memory; packing seen as a function. -/

namespace Rt
open Wasm Abi

mutual
/-- What a pointer represents is a value of the type. -/
theorem Rep.hasTy {f : Bytes} {lim : Nat} (t : MTy) {v : Val} {w : Nat} (hr : Rep f lim t v w) :
    HasTy t v := by
  match t, v, hr with
  | .bool, .word n, hr => rw [Rep] at hr; rw [HasTy]; exact hr.2
  | .u8, .word n, hr => rw [Rep] at hr; rw [HasTy]; exact hr.2
  | .u16, .word n, hr => rw [Rep] at hr; rw [HasTy]; exact hr.2
  | .u32, .word n, hr => rw [Rep] at hr; rw [HasTy]; exact hr.2
  | .u64, .word n, hr => rw [Rep] at hr; rw [HasTy]; exact hr.2
  | .u128, .word n, hr => rw [Rep] at hr; rw [HasTy, ← hr.2]; exact leNat_lt f w 16
  | .u256, .word n, hr => rw [Rep] at hr; rw [HasTy, ← hr.2]; exact leNat_lt f w 32
  | .address, .word n, hr => rw [Rep] at hr; rw [HasTy, ← hr.2]; exact beNat_lt f w 32
  | .enum k, .word n, hr => rw [Rep] at hr; rw [HasTy]; exact hr.2.2
  | .vec t, .array vs, hr =>
    rw [Rep] at hr; rw [HasTy]
    intro v hv
    obtain ⟨i, hi, rfl⟩ := List.getElem_of_mem hv
    exact Rep.hasTy t (hr.2.2 i hi)
  | .struct fs, .tuple vs, hr => rw [Rep] at hr; rw [HasTy]; exact RepFs.hasTys fs hr.2
  | .string, .bytes bs, hr => rw [HasTy]; trivial
theorem RepFs.hasTys {f : Bytes} {lim : Nat} (ts : List MTy) {vs : List Val} {w : Nat}
    (hr : RepFs f lim ts vs w) : HasTys ts vs := by
  match ts, vs, hr with
  | [], [], hr => rw [HasTys]; trivial
  | t :: ts, v :: vs, hr =>
    rw [RepFs] at hr; rw [HasTys]
    exact ⟨Rep.hasTy t hr.2.2.1, RepFs.hasTys ts hr.2.2.2⟩
end

mutual
theorem HasTy.shape (t : MTy) {v : Val} (hr : HasTy t v) :
    dyn v = t.dyn ∧ (t.dyn = false → (enc v).length = t.encSize) := by
  match t, v, hr with
  | .bool, .word n, hr => simp [dyn, MTy.dyn, enc, MTy.encSize, word_length]
  | .u8, .word n, hr => simp [dyn, MTy.dyn, enc, MTy.encSize, word_length]
  | .u16, .word n, hr => simp [dyn, MTy.dyn, enc, MTy.encSize, word_length]
  | .u32, .word n, hr => simp [dyn, MTy.dyn, enc, MTy.encSize, word_length]
  | .u64, .word n, hr => simp [dyn, MTy.dyn, enc, MTy.encSize, word_length]
  | .u128, .word n, hr => simp [dyn, MTy.dyn, enc, MTy.encSize, word_length]
  | .u256, .word n, hr => simp [dyn, MTy.dyn, enc, MTy.encSize, word_length]
  | .address, .word n, hr => simp [dyn, MTy.dyn, enc, MTy.encSize, word_length]
  | .enum k, .word n, hr => simp [dyn, MTy.dyn, enc, MTy.encSize, word_length]
  | .vec t, .array vs, hr => simp [dyn, MTy.dyn]
  | .struct fs, .tuple vs, hr =>
    rw [HasTy] at hr
    obtain ⟨h1, h2, h3⟩ := HasTys.shape fs hr
    refine ⟨by rw [dyn, MTy.dyn, h1], fun h => ?_⟩
    rw [MTy.dyn] at h
    rw [enc, MTy.encSize, List.length_append, heads_length, h2, h3 h]
    rfl
  | .string, .bytes bs, hr => simp [dyn, MTy.dyn]
theorem HasTys.shape (ts : List MTy) {vs : List Val} (hr : HasTys ts vs) :
    anyDyn vs = MTy.dynFs ts ∧ headLen vs = MTy.encSizeFs ts ∧
      (MTy.dynFs ts = false → tails vs = []) := by
  match ts, vs, hr with
  | [], [], hr => simp [anyDyn, MTy.dynFs, headLen, MTy.encSizeFs, tails]
  | t :: ts, v :: vs, hr =>
    rw [HasTys] at hr
    obtain ⟨h1, h2⟩ := HasTy.shape t hr.1
    obtain ⟨h3, h4, h5⟩ := HasTys.shape ts hr.2
    refine ⟨by rw [anyDyn, MTy.dynFs, h1, h3], ?_, ?_⟩
    · rw [headLen, MTy.encSizeFs, h4, h1]
      cases hd : t.dyn
      · rw [h2 hd]
      · rfl
    · intro h
      rw [MTy.dynFs, Bool.or_eq_false_iff] at h
      rw [tails, h1, h.1, h5 h.2]; rfl
end

theorem rdBytes_congr {f g : Bytes} {a n : Nat} (h : ∀ x, a ≤ x → x < a + n → f x = g x) :
    rdBytes f a n = rdBytes g a n := by
  refine List.ext_getElem (by rw [rdBytes_length, rdBytes_length]) fun i h1 h2 => ?_
  rw [rdBytes_length] at h1
  rw [rdBytes_getElem, rdBytes_getElem, h _ (by omega) (by omega)]

theorem wp_propagateTo {ty d is s l σ Q} (hs : 260 ≤ σ.size) :
    wp (propagateTo ty (d + 1) :: is) s l σ Q ↔
      IfP (errWord σ = 0) (wp is s l σ Q) (Q (.br d (badStk ty) l σ)) := by
  unfold propagateTo errWord abortPtr
  cases ty <;> simp only [badPush] <;> wstep <;> rfl

theorem propagateTo_ok (ty : RetTy) (d : Nat) : PropOk (propagateTo ty (d + 1)) := by
  intro is s l σ Q h1 h2 h3
  rw [wp_propagateTo h1, IfP.pos h2]; exact h3

theorem lget_append {xs ys : List Nat} : ∀ {i : Nat} (h : i < xs.length), lget (xs ++ ys) i = xs[i] := by
  induction xs with
  | nil => intro i h; exact absurd h (by simp)
  | cons x xs ih =>
    intro i h
    cases i with
    | zero => rfl
    | succ i => exact ih (by simpa using h)

/-- Pushing consecutive locals. -/
theorem wp_pushes {n : Nat} : ∀ {k : Nat} {xs s l : List Nat} {σ : Store} {is : List Instr} {Q : Res → Prop},
    xs.length = n → (∀ i (h : i < xs.length), lget l (k + i) = xs[i]) →
    wp is (xs.reverse ++ s) l σ Q →
    wp ((List.range n).map (fun i => (Op.lget (k + i) : Instr)) ++ is) s l σ Q := by
  induction n with
  | zero =>
    intro k xs s l σ is Q h1 h2 h3
    have : xs = [] := List.length_eq_zero_iff.mp h1
    subst this
    exact h3
  | succ n ih =>
    intro k xs s l σ is Q h1 h2 h3
    cases xs with
    | nil => simp at h1
    | cons x xs =>
      rw [List.range_succ_eq_map, List.map_cons, List.map_map, List.cons_append, wp_lget]
      have e : ((fun i => (Instr.op (Op.lget (k + i)))) ∘ Nat.succ) =
          (fun i => (Instr.op (Op.lget (k + 1 + i)))) := by
        funext i
        simp only [Function.comp]
        congr 2; omega
      rw [e]
      have h0 := h2 0 (by simp)
      refine ih (k := k + 1) (xs := xs) (by simpa using h1) ?_ ?_
      · intro i hi
        have := h2 (i + 1) (by simpa using hi)
        rw [List.getElem_cons_succ] at this
        rw [← this]; congr 1; omega
      · rw [h0]
        simpa using h3

end Rt
