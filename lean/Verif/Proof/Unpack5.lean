import Verif.Proof.Unpack4

/-! Unpacking of the arguments of a function, and the canonical encoding. -/

namespace Rt
open Wasm Abi

variable {σ σ' σ'' : Store} {E : ErrPtrs}

/-! ### Arguments -/

/-- Memory taken by an argument. -/
def needA : PTy → Val → Nat
  | .val t, v => need t v
  | .ref t, v => if t.isScalar then t.size else need t v

/-- Memory taken by several arguments. -/
def needArgs : List PTy → List Val → Nat
  | t :: ts, v :: vs => needA t v + needArgs ts vs
  | _, _ => 0

/-- Strings end safely (`Fits`), for several arguments. -/
def FitsArgs (sz : Nat) : List PTy → List Val → Nat → Prop
  | t :: ts, v :: vs, a => Fits sz t.ty v a ∧ FitsArgs sz ts vs (a + needA t v)
  | _, _, _ => True

theorem FitsArgs.mono {sz sz' : Nat} (h : sz ≤ sz') : ∀ (ts : List PTy) {vs : List Val} {a : Nat},
    FitsArgs sz ts vs a → FitsArgs sz' ts vs a := by
  intro ts
  induction ts with
  | nil => intro vs a _; rw [FitsArgs]; trivial; all_goals simp
  | cons t ts ih =>
    intro vs a hf
    cases vs with
    | nil => rw [FitsArgs]; trivial; all_goals simp
    | cons v vs =>
      rw [FitsArgs] at hf ⊢
      exact ⟨Fits.mono h _ hf.1, ih hf.2⟩

/-- An argument laid out from `a` on. -/
def LaidA (f : Bytes) : PTy → Val → Nat → Nat → Prop
  | .val t, v, w, a => t.plain = true → (t.isScalar = false → w = a) ∧ Laid f t v w
  | .ref t, v, w, a => t.plain = true → w = a ∧ Laid f t v w

/-- An argument has been unpacked. -/
structure UnpackedA (σ σ' : Store) (t : PTy) (v : Val) (w r : Nat) : Prop where
  grows : Grows σ σ'
  reader : σ'.reader = r
  nextFree : σ'.nextFree = σ.nextFree + needA t v
  rep : ∀ g : Bytes, (∀ x, σ.nextFree ≤ x → x < σ'.nextFree → g x = σ'.mem x) →
    RepA g σ'.nextFree t v w ∧ LaidA g t v w σ.nextFree

set_option maxHeartbeats 1000000 in
theorem unpackRef_spec {t : MTy} (hE : E.Valid) (ht : t.isScalar = true) (he : EnumsOk t) {v : Val}
    {lim b p : Nat} (hσ : Heap σ) (hle : lim ≤ σ.nextFree) (hd : Dec σ.mem lim t v b p)
    (hroom : Room σ t.size) :
    (unpackRef E t).Calls [p, b] σ (fun r σ' => ∃ w, r = [w] ∧
      UnpackedA σ σ' (.ref t) v w (p + t.headSize)) := by
  refine ⟨rfl, ?_⟩
  have hsz := t.size_pos
  have hbd := hd.bound
  have h8 : t.size ≤ 8 := by cases t <;> simp [MTy.isScalar] at ht <;> simp [MTy.size]
  unfold unpackRef
  simp only [List.cons_append, List.nil_append, List.replicate, List.append_assoc]
  wstep
  have hc : CanAlloc σ t.size := hroom.canAlloc hσ.alloc (Nat.le_refl _)
  have hx := hσ.allocated hc
  refine wp_alloc hσ hc ?_
  wstep
  refine unpackT_ok hE (propagate_ok _) 0 1 t he v lim _ _ _ _ _ ⟨hx.heap hσ, ?_, ?_, ?_, ?_⟩ (by simp) ?_
  · exact hle.trans hx.nextFree
  · simp only [lget_zero, lget_succ]
    exact Dec.congr (fun x hx' => (hx.mem x (by omega))) t hd
  · rw [need_scalar ht]
    refine ⟨by omega, ?_⟩
    have h1 := hroom.2
    rw [hx.maxPages, allocated_nextFree]
    omega
  · cases t <;> simp [MTy.isScalar] at ht <;> rw [Fits] <;> simp
  · simp only [lget_zero, lget_succ]
    intro w σ' hu
    have hn := hu.nextFree
    rw [need_scalar ht, allocated_nextFree] at hn
    have hg : Grows σ σ' := hx.grows.trans hu.grows
    have hh := hg.heap hσ
    have h1 := hh.alloc.nextFree_le
    have hrep := hu.rep σ'.mem (fun _ _ _ => rfl)
    wstep
    refine ⟨_, rfl, ?_, hu.reader, ?_, ?_⟩
    · exact Extends.putLe hg (Nat.le_refl _) (by omega)
    · show σ'.nextFree = _
      rw [hn, needA, if_pos ht, Nat.add_zero]
    · intro g hgx
      refine ⟨?_, fun _ => ⟨rfl, by cases t <;> simp [MTy.isScalar] at ht <;> simp [Laid]⟩⟩
      rw [RepA, if_pos ht]
      refine ⟨?_, ?_⟩
      · show _ ≤ σ'.nextFree; omega
      rw [leNat_congr (g := putLe σ'.mem σ.nextFree t.size w) (fun x h1 h2 => hgx x h1 (by show x < σ'.nextFree; omega)),
        leNat_putLe_same]
      have hlt := hrep.lt (by have := hh.alloc.size_lt; omega)
      rw [Nat.mod_eq_of_lt hlt]
      cases t <;> simp [MTy.isScalar] at ht <;> cases v <;> simp only [Rep] at hrep ⊢ <;> exact hrep

/-- Specification of the code unpacking an argument. -/
theorem unpackP_ok (hE : E.Valid) {pc : Instr} (hpc : PropOk pc) (t : PTy) (ht : EnumsOk t.ty)
    {v : Val} {lim r b : Nat} {l s : List Nat} {is : List Instr} {Q : Res → Prop} (hσ : Heap σ)
    (hle : lim ≤ σ.nextFree) (hd : Dec σ.mem lim t.ty v (lget l b) (lget l r)) (hroom : Room σ (needA t v))
    (hfit : Fits σ.size t.ty v σ.nextFree) (hr : r < l.length)
    (hQ : ∀ w σ' l', UnpackedA σ σ' t v w (lget l r + t.ty.headSize) → l'.length = l.length →
      lget l' r = lget l r + t.ty.headSize → (∀ i, i ≠ r → lget l' i = lget l i) →
      wp is (w :: s) l' σ' Q) :
    wp (unpackP E pc r b t ++ is) s l σ Q := by
  cases t with
  | val t =>
    rw [unpackP]
    refine unpackT_ok hE hpc r b t ht v lim σ l s is Q ⟨hσ, hle, hd, hroom, hfit⟩ hr fun w σ' hu => ?_
    refine hQ w σ' _ ⟨hu.grows, hu.reader, hu.nextFree, fun g hg => ⟨hu.rep g hg, fun hp =>
      ⟨hu.at_ hp, hu.laid hp g hg⟩⟩⟩ lset_length (lget_lset_same hr)
      (fun i hi => lget_lset_ne hi)
  | ref t =>
    rw [unpackP]
    rw [needA] at hroom
    by_cases hs : t.isScalar = true
    · rw [if_pos hs] at hroom ⊢
      simp only [List.cons_append, List.nil_append]
      rw [wp_lget, wp_lget]
      refine wp_call2 (unpackRef_spec hE hs ht hσ hle hd hroom) ?_
      rintro rs σ' ⟨w, rfl, hu⟩
      have hh := hu.grows.heap hσ
      have := hh.ready.size
      refine hpc _ _ _ _ _ (by omega) hh.ready.noErr ?_
      rw [List.cons_append, List.nil_append, wp_gget, wp_lset, getGlob_reader, hu.reader]
      exact hQ w σ' _ hu lset_length (lget_lset_same hr) (fun i hi => lget_lset_ne hi)
    · rw [if_neg hs] at hroom ⊢
      rw [List.append_assoc]
      refine unpackT_ok hE hpc r b t ht v lim σ l s _ Q ⟨hσ, hle, hd, hroom, hfit⟩ hr fun w σ' hu => ?_
      simp only [List.cons_append, List.nil_append]
      rw [wp_gget, wp_lset, getGlob_reader, hu.reader]
      refine hQ w σ' _ ⟨hu.grows, hu.reader, ?_, ?_⟩ (by rw [lset_length, lset_length])
        (lget_lset_same (by rw [lset_length]; exact hr)) (fun i hi => by rw [lget_lset_ne hi, lget_lset_ne hi])
      · rw [needA, if_neg hs]; exact hu.nextFree
      · intro g hg
        rw [RepA, if_neg hs, LaidA]
        exact ⟨hu.rep g hg, fun hp => ⟨hu.at_ hp (by simpa using hs), hu.laid hp g hg⟩⟩

/-- All enums of the arguments. -/
def EnumsOkArgs (ts : List PTy) : Prop := ∀ t ∈ ts, EnumsOk t.ty

theorem RepA.mono {f : Bytes} {lim lim' : Nat} (h : lim ≤ lim') {t : PTy} {v : Val} {w : Nat}
    (hr : RepA f lim t v w) : RepA f lim' t v w := by
  cases t with
  | val t => exact Rep.mono h t hr
  | ref t =>
    rw [RepA] at hr ⊢
    split_ifs at hr ⊢ with hs
    · exact ⟨by omega, Rep.mono h t hr.2⟩
    · exact Rep.mono h t hr

/-- The list of arguments, from the address in local `r` on. -/
theorem unpackArgs_ok (hE : E.Valid) {pc : Instr} (hpc : PropOk pc) {lim r b : Nat} (hrb : r ≠ b)
    {is : List Instr} {Q : Res → Prop} (ts : List PTy) (ht : EnumsOkArgs ts) :
    ∀ {vs : List Val} {l s : List Nat} {σ : Store}, Heap σ →
    lim ≤ σ.nextFree → DecFs σ.mem lim (ts.map PTy.ty) vs (lget l b) (lget l r) →
    Room σ (needArgs ts vs) → FitsArgs σ.size ts vs σ.nextFree → r < l.length →
    (∀ ws σ' l', Grows σ σ' → σ'.nextFree = σ.nextFree + needArgs ts vs →
      (∀ g : Bytes, (∀ x, σ.nextFree ≤ x → x < σ'.nextFree → g x = σ'.mem x) →
        RepArgs g σ'.nextFree ts vs ws) →
      l'.length = l.length → (∀ i, i ≠ r → lget l' i = lget l i) →
      wp is (ws.reverse ++ s) l' σ' Q) →
    wp (ts.flatMap (unpackP E pc r b) ++ is) s l σ Q := by
  induction ts with
  | nil =>
    intro vs l s σ hσ hle hd hroom hfit hr hQ
    cases vs with
    | cons => rw [List.map_nil, DecFs] at hd; exact absurd hd id; all_goals simp
    | nil =>
      have := hQ [] σ l hσ.grows (by simp [needArgs]) (fun g _ => by rw [RepArgs]; trivial) rfl (fun _ _ => rfl)
      simpa using this
  | cons t ts ih =>
    intro vs l s σ hσ hle hd hroom hfit hr hQ
    cases vs with
    | nil => rw [List.map_cons, DecFs] at hd; exact absurd hd id; all_goals simp
    | cons v vs =>
      rw [List.map_cons, DecFs] at hd
      rw [needArgs] at hroom
      rw [FitsArgs] at hfit
      rw [List.flatMap_cons, List.append_assoc]
      have hr1 := hroom.1
      refine unpackP_ok hE hpc t (ht t (by simp)) hσ hle hd.1 (hroom.mono (by omega)) hfit.1 hr ?_
      intro w σ1 l1 hu hl1 hlr hlo
      have hg := hu.grows
      have hn := hu.nextFree
      refine ih (fun t' h' => ht t' (by simp [h'])) (hg.heap hσ) (by omega) ?_
        (hroom.after (Nat.le_of_eq hn) (by rw [hg.maxPages])) ?_ (by omega) ?_
      · rw [hlr, hlo b hrb.symm]
        refine DecFs.congr (fun x hx => hg.mem x ?_) _ hd.2
        show x < σ.nextFree
        omega
      · rw [hn]; exact FitsArgs.mono hg.size ts hfit.2
      · intro ws σ2 l2 hg2 hn2 hrep hl2 hlo2
        have := hQ (w :: ws) σ2 l2 (hg.trans hg2) (by rw [hn2, hn, needArgs, Nat.add_assoc]) ?_
          (by rw [hl2, hl1]) (fun i hi => by rw [hlo2 i hi, hlo i hi])
        · simpa using this
        · intro g hg'
          rw [RepArgs]
          refine ⟨(hu.rep g fun x h1 h2 => ?_).1.mono (by omega), hrep g fun x h1 h2 => hg' x (by omega) h2⟩
          rw [hg' x h1 (by omega)]
          exact hg2.mem x h2

/-- Specification of the code unpacking all arguments. -/
theorem unpackAll_ok (hE : E.Valid) {pc : Instr} (hpc : PropOk pc) {lim a r : Nat}
    {is : List Instr} {Q : Res → Prop} (ts : List PTy) (ht : EnumsOkArgs ts)
    {vs : List Val} {l s : List Nat} (hσ : Heap σ)
    (hle : lim ≤ σ.nextFree) (hd : DecFs σ.mem lim (ts.map PTy.ty) vs (lget l a) (lget l a))
    (hroom : Room σ (needArgs ts vs)) (hfit : FitsArgs σ.size ts vs σ.nextFree) (hr : r + 1 < l.length)
    (hQ : ∀ ws σ' l', Grows σ σ' → σ'.nextFree = σ.nextFree + needArgs ts vs →
      RepArgs σ'.mem σ'.nextFree ts vs ws →
      l'.length = l.length → (∀ i, i ≠ r → i ≠ r + 1 → lget l' i = lget l i) →
      wp is (ws.reverse ++ s) l' σ' Q) :
    wp (unpackAll E pc a r ts ++ is) s l σ Q := by
  unfold unpackAll
  simp only [List.cons_append, List.nil_append]
  rw [wp_lget, wp_ltee, wp_lset, wp_lget, wp_gset]
  have h1 : lget (lset (lset l r (lget l a)) (r + 1) (lget l a)) r = lget l a := by
    rw [lget_lset_ne (by omega), lget_lset_same (by omega)]
  have h2 : lget (lset (lset l r (lget l a)) (r + 1) (lget l a)) (r + 1) = lget l a :=
    lget_lset_same (by rw [lset_length]; omega)
  rw [h1]
  refine unpackArgs_ok hE hpc (lim := lim) (by omega) ts ht (vs := vs) hσ.setReader hle ?_ hroom hfit
    (by rw [lset_length, lset_length]; omega) ?_
  · rw [h1, h2]; exact hd
  · intro ws σ' l' hg hn hrep hl hlo
    refine hQ ws σ' l' ?_ hn (hrep _ fun _ _ _ => rfl) (by rw [hl, lset_length, lset_length]) ?_
    · exact Grows.ofReader hg
    · intro i h3 h4
      rw [hlo i h3, lget_lset_ne h4, lget_lset_ne h3]

end Rt
