import Verif.Proof.Unpack2

/-! ABI unpacking of vectors and structs. -/

namespace Rt
open Wasm Abi

variable {σ σ' σ'' : Store} {E : ErrPtrs}

mutual
/-- Decoding only depends on memory below the limit. -/
theorem Dec.congr {f g : Bytes} {lim : Nat} (h : ∀ x, x < lim → g x = f x)
    (t : MTy) {v : Val} {b p : Nat} (hd : Dec f lim t v b p) : Dec g lim t v b p := by
  have hb : ∀ a n, a + n ≤ lim → beNat g a n = beNat f a n :=
    fun a n ha => beNat_congr fun x _ hx => h x (by omega)
  match t, v, hd with
  | .bool, .word n, hd => rw [Dec] at hd ⊢; rwa [hb _ _ hd.1]
  | .u8, .word n, hd => rw [Dec] at hd ⊢; rwa [hb _ _ hd.1]
  | .u16, .word n, hd => rw [Dec] at hd ⊢; rwa [hb _ _ hd.1]
  | .u32, .word n, hd => rw [Dec] at hd ⊢; rwa [hb _ _ hd.1]
  | .u64, .word n, hd => rw [Dec] at hd ⊢; rwa [hb _ _ hd.1]
  | .u128, .word n, hd => rw [Dec] at hd ⊢; rwa [hb _ _ hd.1]
  | .u256, .word n, hd => rw [Dec] at hd ⊢; rwa [hb _ _ hd.1]
  | .address, .word n, hd => rw [Dec] at hd ⊢; rwa [hb _ _ hd.1]
  | .enum k, .word n, hd => rw [Dec] at hd ⊢; rwa [hb _ _ hd.1]
  | .vec t, .array vs, hd =>
    rw [Dec] at hd ⊢
    obtain ⟨q, ⟨h1, h2⟩, h3, h4, h5⟩ := hd
    exact ⟨q, ⟨h1, by rw [hb _ _ h1, h2]⟩, h3, by rw [hb _ _ h3, h4], fun i hi => Dec.congr h t (h5 i hi)⟩
  | .struct fs, .tuple vs, hd =>
    rw [Dec] at hd ⊢
    split_ifs at hd ⊢ with hdyn
    · obtain ⟨q, ⟨h1, h2⟩, h3⟩ := hd
      exact ⟨q, ⟨h1, by rw [hb _ _ h1, h2]⟩, DecFs.congr h fs h3⟩
    · exact DecFs.congr h fs hd
  | .string, .bytes bs, hd =>
    rw [Dec] at hd ⊢
    obtain ⟨q, ⟨h1, h2⟩, h3, h4, h5⟩ := hd
    refine ⟨q, ⟨h1, by rw [hb _ _ h1, h2]⟩, h3, by rw [hb _ _ (by omega), h4], Eq.trans ?_ h5⟩
    exact rdBytes_congr fun x hx1 hx2 => h x (by omega)
theorem DecFs.congr {f g : Bytes} {lim : Nat} (h : ∀ x, x < lim → g x = f x)
    (ts : List MTy) {vs : List Val} {b p : Nat} (hd : DecFs f lim ts vs b p) : DecFs g lim ts vs b p := by
  match ts, vs, hd with
  | [], [], hd => rw [DecFs] at hd ⊢; exact hd
  | t :: ts, v :: vs, hd =>
    rw [DecFs] at hd ⊢
    exact ⟨Dec.congr h t hd.1, DecFs.congr h ts hd.2⟩
end

mutual
/-- The head of an encoded value is below the limit. -/
theorem Dec.bound {f : Bytes} {lim : Nat} (t : MTy) {v : Val} {b p : Nat} (hd : Dec f lim t v b p) :
    p + t.headSize ≤ lim := by
  match t, v, hd with
  | .bool, .word n, hd => rw [Dec] at hd; exact hd.1
  | .u8, .word n, hd => rw [Dec] at hd; exact hd.1
  | .u16, .word n, hd => rw [Dec] at hd; exact hd.1
  | .u32, .word n, hd => rw [Dec] at hd; exact hd.1
  | .u64, .word n, hd => rw [Dec] at hd; exact hd.1
  | .u128, .word n, hd => rw [Dec] at hd; exact hd.1
  | .u256, .word n, hd => rw [Dec] at hd; exact hd.1
  | .address, .word n, hd => rw [Dec] at hd; exact hd.1
  | .enum k, .word n, hd => rw [Dec] at hd; exact hd.1
  | .vec t, .array vs, hd => rw [Dec] at hd; obtain ⟨q, ⟨h1, h2⟩, h3⟩ := hd; exact h1
  | .struct fs, .tuple vs, hd =>
    rw [Dec] at hd
    unfold MTy.headSize
    rw [MTy.dyn, MTy.encSize]
    split_ifs at hd ⊢ with hdyn
    · obtain ⟨q, ⟨h1, h2⟩, h3⟩ := hd
      exact h1
    · exact DecFs.bound fs hd
  | .string, .bytes bs, hd => rw [Dec] at hd; obtain ⟨q, ⟨h1, h2⟩, h3⟩ := hd; exact h1
theorem DecFs.bound {f : Bytes} {lim : Nat} (ts : List MTy) {vs : List Val} {b p : Nat}
    (hd : DecFs f lim ts vs b p) : p + MTy.encSizeFs ts ≤ lim := by
  match ts, vs, hd with
  | [], [], hd => rw [DecFs] at hd; rw [MTy.encSizeFs]; exact hd
  | t :: ts, v :: vs, hd =>
    rw [DecFs] at hd
    have := DecFs.bound ts hd.2
    rw [MTy.encSizeFs_cons]; omega
end

mutual
theorem Rep.mono {f : Bytes} {lim lim' : Nat} (h : lim ≤ lim') (t : MTy) {v : Val} {w : Nat}
    (hr : Rep f lim t v w) : Rep f lim' t v w := by
  match t, v, hr with
  | .bool, .word n, hr => rw [Rep] at hr ⊢; exact hr
  | .u8, .word n, hr => rw [Rep] at hr ⊢; exact hr
  | .u16, .word n, hr => rw [Rep] at hr ⊢; exact hr
  | .u32, .word n, hr => rw [Rep] at hr ⊢; exact hr
  | .u64, .word n, hr => rw [Rep] at hr ⊢; exact hr
  | .u128, .word n, hr => rw [Rep] at hr ⊢; exact ⟨by omega, hr.2⟩
  | .u256, .word n, hr => rw [Rep] at hr ⊢; exact ⟨by omega, hr.2⟩
  | .address, .word n, hr => rw [Rep] at hr ⊢; exact ⟨by omega, hr.2⟩
  | .enum k, .word n, hr => rw [Rep] at hr ⊢; exact ⟨by omega, hr.2⟩
  | .vec t, .array vs, hr =>
    rw [Rep] at hr ⊢
    exact ⟨by omega, hr.2.1, fun i hi => Rep.mono h t (hr.2.2 i hi)⟩
  | .struct fs, .tuple vs, hr => rw [Rep] at hr ⊢; exact ⟨by omega, RepFs.mono h fs hr.2⟩
  | .string, .bytes bs, hr => rw [Rep] at hr ⊢; exact ⟨by omega, by omega, hr.2.2⟩
theorem RepFs.mono {f : Bytes} {lim lim' : Nat} (h : lim ≤ lim') (ts : List MTy) {vs : List Val} {w : Nat}
    (hr : RepFs f lim ts vs w) : RepFs f lim' ts vs w := by
  match ts, vs, hr with
  | [], [], hr => rw [RepFs] at hr ⊢; exact hr
  | t :: ts, v :: vs, hr =>
    rw [RepFs] at hr ⊢
    exact ⟨by omega, fun hs => by have := hr.2.1 hs; omega, Rep.mono h t hr.2.2.1, RepFs.mono h ts hr.2.2.2⟩
end

/-- A representation fits the memory size of its type. -/
theorem Rep.lt {f : Bytes} {lim : Nat} {t : MTy} {v : Val} {w : Nat} (hr : Rep f lim t v w)
    (hlim : lim < 2 ^ 32) : w < 256 ^ t.size := by
  have e4 : (256 : Nat) ^ 4 = 2 ^ 32 := rfl
  cases t <;> cases v <;> simp only [Rep, MTy.size] at hr ⊢ <;> omega

mutual
theorem Fits.mono {sz sz' : Nat} (h : sz ≤ sz') (t : MTy) {v : Val} {a : Nat} (hf : Fits sz t v a) :
    Fits sz' t v a := by
  match t, v with
  | .vec t, .array vs => rw [Fits] at hf ⊢; exact fun i hi => Fits.mono h t (hf i hi)
  | .struct fs, .tuple vs => rw [Fits] at hf ⊢; exact FitsFs.mono h fs hf
  | .string, .bytes bs =>
    rw [Fits] at hf ⊢; unfold SafeEnd at hf ⊢; omega
  | .bool, _ | .u8, _ | .u16, _ | .u32, _ | .u64, _ | .u128, _ | .u256, _ | .address, _ | .enum _, _ => trivial
  | .vec _, .word _ | .vec _, .bytes _ | .vec _, .tuple _ => trivial
  | .struct _, .word _ | .struct _, .bytes _ | .struct _, .array _ => trivial
  | .string, .word _ | .string, .array _ | .string, .tuple _ => trivial
theorem FitsFs.mono {sz sz' : Nat} (h : sz ≤ sz') (ts : List MTy) {vs : List Val} {a : Nat}
    (hf : FitsFs sz ts vs a) : FitsFs sz' ts vs a := by
  match ts, vs with
  | t :: ts, v :: vs => rw [FitsFs] at hf ⊢; exact ⟨Fits.mono h t hf.1, FitsFs.mono h ts hf.2⟩
  | [], _ => trivial
  | _ :: _, [] => trivial
end

/-- When a value can be unpacked. -/
structure UnpackPre (σ : Store) (t : MTy) (v : Val) (lim b p : Nat) : Prop where
  heap : Heap σ
  le : lim ≤ σ.nextFree
  dec : Dec σ.mem lim t v b p
  room : Room σ (need t v)
  fits : Fits σ.size t v σ.nextFree

/-- Specification of the code unpacking values of type `t` from the address in local `r`, offsets
relative to local `b`. -/
def UnpackOk (t : MTy) (code : List Instr) (r b : Nat) : Prop :=
  ∀ (v : Val) (lim : Nat) (σ : Store) (l s : List Nat) (is : List Instr) (Q : Res → Prop),
    UnpackPre σ t v lim (lget l b) (lget l r) → r < l.length →
    (∀ w σ', Unpacked σ σ' t v w (lget l r + t.headSize) →
      wp is (w :: s) (lset l r (lget l r + t.headSize)) σ' Q) →
    wp (code ++ is) s l σ Q

/-- The function unpacking one value. -/
def UnpackFnOk (t : MTy) (f : Fn) : Prop := ∀ (v : Val) (lim b p : Nat) (σ : Store),
  UnpackPre σ t v lim b p →
  f.Calls [p, b] σ (fun r σ' => ∃ w, r = [w] ∧ Unpacked σ σ' t v w (p + t.headSize))

set_option maxHeartbeats 4000000 in
theorem unpackVec_spec {t : MTy} {inner : List Instr} (hE : E.Valid) (hin : UnpackOk t inner 2 7) :
    UnpackFnOk (.vec t) (unpackVec E t.size inner) := by
  intro v lim b p σ hpre
  obtain ⟨hσ, hlim, hd, hroom, hfit⟩ := hpre
  cases v with
  | word => rw [Dec] at hd; exact absurd hd id; all_goals simp
  | bytes => rw [Dec] at hd; exact absurd hd id; all_goals simp
  | tuple => rw [Dec] at hd; exact absurd hd id; all_goals simp
  | array vs =>
  rw [Dec] at hd
  obtain ⟨q, ⟨hp, hq⟩, hq1, hq2, hq3⟩ := hd
  rw [need] at hroom
  rw [Fits] at hfit
  have hr1 := hroom.1
  have hts := t.size_pos
  have hvl : vs.length ≤ vs.length * t.size := Nat.le_mul_of_pos_right _ (by omega)
  have hσr := hσ.setReader (r := p + 32)
  refine ⟨rfl, ?_⟩
  unfold unpackVec skipVecHeader
  simp only [List.append_assoc, List.cons_append, List.nil_append, List.replicate]
  refine wp_findData hE hσ (by omega) hq (by omega) hq2 (by omega) ?_
  have h1 := hσ.alloc.nextFree_le
  have h2 := hσ.alloc.size_lt
  have hroom' : Room { σ with reader := p + 32 } (8 + vs.length * t.size) := hroom.mono (by omega)
  wstep
  refine wp_call3 (allocVec_spec hσr (Nat.le_refl _) hroom') ?_
  rintro r σ1 ⟨rfl, hx1, hn1, hm1⟩
  have ha1 := hx1.alloc
  have hs1 := ha1.nextFree_le
  have hl1 := ha1.size_lt
  have hsz : σ.size ≤ σ1.size := hx1.size
  replace hn1 : σ1.nextFree = σ.nextFree + (8 + vs.length * t.size) := hn1
  replace hm1 : σ1.mem = putLe (putLe σ.mem σ.nextFree 4 vs.length) (σ.nextFree + 4) 4 vs.length := hm1
  have hlen1 : leNat σ1.mem σ.nextFree 4 = vs.length := by
    rw [hm1, leNat_putLe_disj (by omega), leNat_putLe_same, Nat.mod_eq_of_lt (by omega)]
  have hg1 : Grows σ σ1 := hx1.grows.ofReader
  have hmx : σ1.maxPages = σ.maxPages := hx1.maxPages
  -- the end
  have fin : ∀ (σ' : Store), Grows σ σ' → σ'.nextFree = σ.nextFree + 8 + vs.length * t.size + (vs.map (need t)).sum →
      leNat σ'.mem σ.nextFree 4 = vs.length →
      (∀ j (hj : j < vs.length) (g : Bytes), (∀ x, σ.nextFree ≤ x → x < σ'.nextFree → g x = σ'.mem x) →
        Rep g σ'.nextFree t vs[j] (leNat g (σ.nextFree + 8 + j * t.size) t.size)) →
      Unpacked σ { σ' with reader := p + 32 } (.vec t) (.array vs) σ.nextFree (p + (MTy.vec t).headSize) := by
    intro σ' h1 h2 h3 h4
    refine ⟨h1.setReader, rfl, ?_, ?_, fun h => absurd h (by simp [MTy.plain]), fun h => absurd h (by simp [MTy.plain])⟩
    · show σ'.nextFree = _; rw [h2, need]; omega
    · intro g hg
      replace hg : ∀ x, σ.nextFree ≤ x → x < σ'.nextFree → g x = σ'.mem x := hg
      show Rep g σ'.nextFree (.vec t) (.array vs) σ.nextFree
      rw [Rep]
      refine ⟨by omega, ?_, fun i hi => h4 i hi g hg⟩
      rw [← h3]
      exact leNat_congr fun x hx1 hx2 => hg x hx1 (by omega)
  wstep
  refine .intro (fun h0 => ?_) (fun h0 => ?_)
  · have : vs = [] := List.length_eq_zero_iff.mp h0
    subst this
    refine ⟨_, rfl, fin σ1 hg1 (by rw [hn1]; simp) hlen1 ?_⟩
    intro j hj; exact absurd hj (by simp)
  · refine wp_loop (fun m l σ' => ∃ i, m + i + 1 = vs.length ∧
      l = [p, b, q + 32 + i * t.headSize, vs.length, σ.nextFree, σ.nextFree + 8 + i * t.size, i, q + 32] ∧
      Grows σ σ' ∧
      σ'.nextFree = σ.nextFree + 8 + vs.length * t.size + ((vs.take i).map (need t)).sum ∧
      leNat σ'.mem σ.nextFree 4 = vs.length ∧
      (∀ j (hj : j < vs.length) (g : Bytes), j < i →
        (∀ x, σ.nextFree ≤ x → x < σ'.nextFree →
          x < σ.nextFree + 8 + i * t.size ∨ σ.nextFree + 8 + vs.length * t.size ≤ x → g x = σ'.mem x) →
        Rep g σ'.nextFree t vs[j] (leNat g (σ.nextFree + 8 + j * t.size) t.size)))
      (vs.length - 1) ⟨0, by omega, by simp, hg1, by rw [hn1]; simp; omega, hlen1, fun j _ _ hj => absurd hj (by omega)⟩ ?_
    rintro m l σ' ⟨i, hi, rfl, hg, hn, hln, hrep⟩
    have hiv : i < vs.length := by omega
    have hi1 : (i + 1) * t.size ≤ vs.length * t.size := Nat.mul_le_mul_right _ (by omega)
    have e3 : (i + 1) * t.size = i * t.size + t.size := Nat.succ_mul _ _
    have e4 : (i + 1) * t.headSize = i * t.headSize + t.headSize := Nat.succ_mul _ _
    have hh' := hg.heap hσ
    have hs' := hh'.alloc.nextFree_le
    have hsl' := hh'.alloc.size_lt
    have hdi := hq3 i hiv
    have hbd := hdi.bound
    have hmap : (vs.map (need t)).sum = ((vs.take i).map (need t)).sum + (need t vs[i] +
        ((vs.drop (i + 1)).map (need t)).sum) := by
      conv_lhs => rw [← List.take_append_drop i vs, List.drop_eq_getElem_cons hiv]
      rw [List.map_append, List.sum_append, List.map_cons, List.sum_cons]
    have htake : ((vs.take (i + 1)).map (need t)).sum = ((vs.take i).map (need t)).sum + need t vs[i] := by
      rw [List.take_succ_eq_append_getElem hiv, List.map_append, List.sum_append]; simp
    have hpre : UnpackPre σ' t vs[i] lim (q + 32) (q + 32 + i * t.headSize) := by
      refine ⟨hh', by omega, Dec.congr ?_ t hdi, ?_, ?_⟩
      · intro x hx
        exact hg.mem x (by exact Nat.lt_of_lt_of_le hx hlim)
      · refine Room.after (k := 8 + vs.length * t.size + ((vs.take i).map (need t)).sum) (σ := σ) (hroom.mono (by omega)) (by omega) ?_
        exact hg.maxPages
      · have := hfit i hiv
        rw [← hn] at this
        exact Fits.mono hg.size t this
    wstep
    refine hin vs[i] lim σ' _ _ _ _ (by simpa only [lget_zero, lget_succ] using hpre) (by simp) ?_
    intro w σ2 hu
    simp only [lget_zero, lget_succ, lset_zero, lset_succ] at hu ⊢
    have hn2 := hu.nextFree
    have hg2 := hg.trans hu.grows
    have hh2 := hg2.heap hσ
    have hs2 := hh2.alloc.nextFree_le
    have hsl2 := hh2.alloc.size_lt
    have hw : w < 256 ^ t.size := (hu.rep σ2.mem (fun _ _ _ => rfl)).lt (by omega)
    -- the state after storing the element
    have hg3 : Grows σ (σ2.setMem (putLe σ2.mem (σ.nextFree + 8 + i * t.size) t.size w)) := by
      refine Extends.putLe hg2 ?_ ?_
      · show σ.nextFree ≤ _; omega
      · omega
    have hln3 : leNat (putLe σ2.mem (σ.nextFree + 8 + i * t.size) t.size w) σ.nextFree 4 = vs.length := by
      rw [leNat_putLe_disj (by omega), ← hln]
      exact leNat_congr fun x _ hx => hu.grows.mem x (by show x < σ'.nextFree; omega)
    have hrep3 : ∀ j (hj : j < vs.length) (g : Bytes), j < i + 1 →
        (∀ x, σ.nextFree ≤ x → x < σ2.nextFree →
          x < σ.nextFree + 8 + (i + 1) * t.size ∨ σ.nextFree + 8 + vs.length * t.size ≤ x →
          g x = putLe σ2.mem (σ.nextFree + 8 + i * t.size) t.size w x) →
        Rep g σ2.nextFree t vs[j] (leNat g (σ.nextFree + 8 + j * t.size) t.size) := by
      intro j hj g hji hgx
      by_cases hje : j = i
      · subst hje
        have e1 : leNat g (σ.nextFree + 8 + j * t.size) t.size = w := by
          rw [leNat_congr (g := putLe σ2.mem (σ.nextFree + 8 + j * t.size) t.size w)
            (fun x h1 h2 => hgx x (by omega) (by omega) (by omega)), leNat_putLe_same, Nat.mod_eq_of_lt hw]
        rw [e1]
        refine hu.rep g fun x h1 h2 => ?_
        rw [hgx x (by omega) h2 (by omega), putLe_out (by omega)]
      · refine Rep.mono (by omega) t (hrep j hj g (by omega) ?_)
        intro x h1 h2 h3
        rw [hgx x h1 (by omega) (by omega), putLe_out (by omega)]
        exact hu.grows.mem x h2
    wstep
    refine .intro (fun hlt => ?_) (fun hlt => ?_)
    · exact ⟨m - 1, by omega, i + 1, by omega, by locs, hg3, by rw [htake]; omega, hln3, hrep3⟩
    · have hlast : i + 1 = vs.length := by omega
      refine ⟨_, rfl, fin _ hg3 ?_ hln3 ?_⟩
      · show σ2.nextFree = _; rw [hn2, hn, hmap, List.drop_eq_nil_of_le (by omega)]; simp; omega
      · intro j hj g hgx
        exact hrep3 j hj g (by omega) (fun x h1 h2 _ => hgx x h1 h2)

end Rt
