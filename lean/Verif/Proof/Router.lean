import Verif.Rt.Router
import Verif.Proof.Unpack6

/-! The wrapper of a public function. -/

namespace Rt
open Wasm Abi

variable {σ σ' σ'' : Store} {E : ErrPtrs}

/-! ### Vocabulary -/

/-- The parameters that come from the calldata. -/
def ATy.vals : List ATy → List PTy
  | [] => []
  | .val t :: ts => t :: ATy.vals ts
  | .txCtx :: ts => ATy.vals ts

/-- Actual arguments: `ws` are the WebAssembly arguments for the decoded values `vs`. -/
def RepActs (f : Bytes) (lim : Nat) : List ATy → List Val → List Nat → Prop
  | [], [], [] => True
  | .val t :: ts, v :: vs, w :: ws => RepA f lim t v w ∧ RepActs f lim ts vs ws
  | .txCtx :: ts, vs, w :: ws => w + 4 ≤ lim ∧ RepActs f lim ts vs ws
  | _, _, _ => False

/-- The actual arguments are laid out one after the other, from `a` on. -/
def LaidActs (f : Bytes) : List ATy → List Val → List Nat → Nat → Prop
  | .val t :: ts, v :: vs, w :: ws, a => LaidA f t v w a ∧ LaidActs f ts vs ws (a + needA t v)
  | .txCtx :: ts, vs, w :: ws, a => w = a ∧ LaidActs f ts vs ws (a + 4)
  | _, _, _, _ => True

/-- Memory taken by the arguments. -/
def needActs : List ATy → List Val → Nat
  | .val t :: ts, v :: vs => needA t v + needActs ts vs
  | .txCtx :: ts, vs => 4 + needActs ts vs
  | _, _ => 0

/-- Strings end safely (`Fits`). -/
def FitsActs (sz : Nat) : List ATy → List Val → Nat → Prop
  | .val t :: ts, v :: vs, a => Fits sz t.ty v a ∧ FitsActs sz ts vs (a + needA t v)
  | .txCtx :: ts, vs, a => FitsActs sz ts vs (a + 4)
  | _, _, _ => True

theorem FitsActs.mono {sz sz' : Nat} (h : sz ≤ sz') : ∀ (ts : List ATy) {vs : List Val} {a : Nat},
    FitsActs sz ts vs a → FitsActs sz' ts vs a := by
  intro ts
  induction ts with
  | nil => intro vs a _; rw [FitsActs]; trivial; all_goals simp
  | cons t ts ih =>
    intro vs a hf
    cases t with
    | txCtx => rw [FitsActs] at hf ⊢; exact ih hf
    | val t =>
      cases vs with
      | nil => rw [FitsActs]; trivial; all_goals simp
      | cons v vs =>
        rw [FitsActs] at hf ⊢
        exact ⟨Fits.mono h _ hf.1, ih hf.2⟩

theorem RepActs.length {f : Bytes} {lim : Nat} : ∀ {ts : List ATy} {vs : List Val} {ws : List Nat},
    RepActs f lim ts vs ws → ws.length = ts.length := by
  intro ts
  induction ts with
  | nil => intro vs ws h; cases vs <;> cases ws <;> simp_all [RepActs]
  | cons t ts ih =>
    intro vs ws h
    cases t with
    | txCtx =>
      cases ws with
      | nil => cases vs <;> simp [RepActs] at h
      | cons w ws => rw [RepActs] at h; simp [ih h.2]
    | val t =>
      cases vs with
      | nil => cases ws <;> simp [RepActs] at h
      | cons v vs =>
        cases ws with
        | nil => simp [RepActs] at h
        | cons w ws => rw [RepActs] at h; simp [ih h.2]

/-- The list of arguments, from the address in local `r` on. -/
theorem unpackActs_ok (hE : E.Valid) {pc : Instr} (hpc : PropOk pc) {lim r b : Nat} (hrb : r ≠ b)
    {is : List Instr} {Q : Res → Prop} (ts : List ATy) (ht : EnumsOkArgs (ATy.vals ts)) :
    ∀ {vs : List Val} {l s : List Nat} {σ : Store}, Heap σ →
    lim ≤ σ.nextFree → DecFs σ.mem lim ((ATy.vals ts).map PTy.ty) vs (lget l b) (lget l r) →
    Room σ (needActs ts vs) → FitsActs σ.size ts vs σ.nextFree → r < l.length → σ.reader = lget l r →
    (∀ ws σ' l', Grows σ σ' → σ'.nextFree = σ.nextFree + needActs ts vs →
      (∀ g : Bytes, (∀ x, σ.nextFree ≤ x → x < σ'.nextFree → g x = σ'.mem x) →
        RepActs g σ'.nextFree ts vs ws ∧ LaidActs g ts vs ws σ.nextFree) →
      l'.length = l.length → (∀ i, i ≠ r → lget l' i = lget l i) →
      wp is (ws.reverse ++ s) l' σ' Q) →
    wp (ts.flatMap (unpackA E pc r b) ++ is) s l σ Q := by
  induction ts with
  | nil =>
    intro vs l s σ hσ hle hd hroom hfit hr hrd hQ
    cases vs with
    | cons => rw [ATy.vals, List.map_nil, DecFs] at hd; exact absurd hd id; all_goals simp
    | nil =>
      have := hQ [] σ l hσ.grows (by simp [needActs]) (fun g _ => ⟨by rw [RepActs]; trivial, by simp [LaidActs]⟩) rfl (fun _ _ => rfl)
      simpa using this
  | cons t ts ih =>
    intro vs l s σ hσ hle hd hroom hfit hr hrd hQ
    cases t with
    | txCtx =>
      rw [ATy.vals] at hd ht
      rw [needActs] at hroom
      rw [FitsActs] at hfit
      have hr1 := hroom.1
      rw [List.flatMap_cons, List.append_assoc, unpackA]
      simp only [List.cons_append, List.nil_append]
      rw [wp_c32]
      have hc : CanAlloc σ 4 := hroom.canAlloc hσ.alloc (by omega)
      have hx := hσ.allocated hc
      refine wp_alloc hσ hc ?_
      rw [wp_gget, wp_lset, wp_gget, wp_lset, getGlob_reader, hx.reader, hrd]
      have hn : (allocated σ 4).nextFree = σ.nextFree + 4 := allocated_nextFree
      generalize allocated σ 4 = σ1 at *
      have hg := hx.grows
      have hl1 : (lset (lset l r (lget l r)) r (lget l r)).length = l.length := by
        rw [lset_length, lset_length]
      have hlr : lget (lset (lset l r (lget l r)) r (lget l r)) r = lget l r :=
        lget_lset_same (by rw [lset_length]; exact hr)
      have hlo : ∀ i, i ≠ r → lget (lset (lset l r (lget l r)) r (lget l r)) i = lget l i :=
        fun i hi => by rw [lget_lset_ne hi, lget_lset_ne hi]
      generalize lset (lset l r (lget l r)) r (lget l r) = l1 at *
      refine ih ht (hg.heap hσ) (by omega) ?_
        (hroom.after (Nat.le_of_eq hn) (by rw [hg.maxPages])) ?_ (by omega) (by rw [hx.reader, hrd, hlr]) ?_
      · rw [hlr, hlo b hrb.symm]
        exact DecFs.congr (fun x hx' => hx.mem x (by omega)) _ hd
      · rw [hn]; exact FitsActs.mono hg.size ts hfit
      · intro ws σ2 l2 hg2 hn2 hrep hl2 hlo2
        have := hQ (σ.nextFree :: ws) σ2 l2 (hg.trans hg2) (by rw [hn2, hn, needActs, Nat.add_assoc]) ?_
          (by rw [hl2, hl1]) (fun i hi => by rw [hlo2 i hi, hlo i hi])
        · simpa using this
        · intro g hg'
          rw [RepActs, LaidActs]
          have := hrep g fun x h1 h2 => hg' x (by omega) h2
          exact ⟨⟨by omega, this.1⟩, rfl, hn ▸ this.2⟩
    | val t =>
      rw [ATy.vals] at hd ht
      cases vs with
      | nil => rw [List.map_cons, DecFs] at hd; exact absurd hd id; all_goals simp
      | cons v vs =>
        rw [List.map_cons, DecFs] at hd
        rw [needActs] at hroom
        rw [FitsActs] at hfit
        rw [List.flatMap_cons, List.append_assoc]
        have hr1 := hroom.1
        refine unpackP_ok hE hpc t (ht t (by simp)) hσ hle hd.1 (hroom.mono (by omega)) hfit.1 hr ?_
        intro w σ1 l1 hu hl1 hlr hlo
        have hg := hu.grows
        have hn := hu.nextFree
        refine ih (fun t' h' => ht t' (by simp [h'])) (hg.heap hσ) (by omega) ?_
          (hroom.after (Nat.le_of_eq hn) (by rw [hg.maxPages])) ?_ (by omega) (by rw [hu.reader, hlr]) ?_
        · rw [hlr, hlo b hrb.symm]
          refine DecFs.congr (fun x hx => hg.mem x ?_) _ hd.2
          show x < σ.nextFree
          omega
        · rw [hn]; exact FitsActs.mono hg.size ts hfit.2
        · intro ws σ2 l2 hg2 hn2 hrep hl2 hlo2
          have := hQ (w :: ws) σ2 l2 (hg.trans hg2) (by rw [hn2, hn, needActs, Nat.add_assoc]) ?_
            (by rw [hl2, hl1]) (fun i hi => by rw [hlo2 i hi, hlo i hi])
          · simpa using this
          · intro g hg'
            rw [RepActs, LaidActs]
            have h1 := hrep g fun x h1 h2 => hg' x (by omega) h2
            have h2 := hu.rep g fun x h1 h2 => by
              rw [hg' x h1 (by omega)]
              exact hg2.mem x h2
            exact ⟨⟨h2.1.mono (by omega), h1.1⟩, h2.2, hn ▸ h1.2⟩

/-- Specification of the code unpacking all arguments. -/
theorem unpackActsAll_ok (hE : E.Valid) {pc : Instr} (hpc : PropOk pc) {lim a r : Nat}
    {is : List Instr} {Q : Res → Prop} (ts : List ATy) (ht : EnumsOkArgs (ATy.vals ts))
    {vs : List Val} {l s : List Nat} (hσ : Heap σ)
    (hle : lim ≤ σ.nextFree) (hd : DecFs σ.mem lim ((ATy.vals ts).map PTy.ty) vs (lget l a) (lget l a))
    (hroom : Room σ (needActs ts vs)) (hfit : FitsActs σ.size ts vs σ.nextFree) (hr : r + 1 < l.length)
    (hQ : ∀ ws σ' l', Grows σ σ' → σ'.nextFree = σ.nextFree + needActs ts vs →
      RepActs σ'.mem σ'.nextFree ts vs ws → LaidActs σ'.mem ts vs ws σ.nextFree →
      l'.length = l.length → (∀ i, i ≠ r → i ≠ r + 1 → lget l' i = lget l i) →
      wp is (ws.reverse ++ s) l' σ' Q) :
    wp (unpackActs E pc a r ts ++ is) s l σ Q := by
  unfold unpackActs
  simp only [List.cons_append, List.nil_append]
  rw [wp_lget, wp_ltee, wp_lset, wp_lget, wp_gset]
  have h1 : lget (lset (lset l r (lget l a)) (r + 1) (lget l a)) r = lget l a := by
    rw [lget_lset_ne (by omega), lget_lset_same (by omega)]
  have h2 : lget (lset (lset l r (lget l a)) (r + 1) (lget l a)) (r + 1) = lget l a :=
    lget_lset_same (by rw [lset_length]; omega)
  rw [h1]
  refine unpackActs_ok hE hpc (lim := lim) (by omega) ts ht (vs := vs) hσ.setReader hle ?_ hroom hfit
    (by rw [lset_length, lset_length]; omega) (by rw [h1]; rfl) ?_
  · rw [h1, h2]; exact hd
  · intro ws σ' l' hg hn hrep hl hlo
    refine hQ ws σ' l' ?_ hn (hrep _ fun _ _ _ => rfl).1 (hrep _ fun _ _ _ => rfl).2 (by rw [hl, lset_length, lset_length]) ?_
    · exact Grows.ofReader hg
    · intro i h3 h4
      rw [hlo i h3, lget_lset_ne h4, lget_lset_ne h3]

/-! ### Results of a function -/

/-- The tuple of results at `p`: the WebAssembly values `ws`, one after the other. -/
def RetTuple (f : Bytes) (lim : Nat) : List PTy → List Nat → Nat → Prop
  | [], [], p => p ≤ lim
  | t :: ts, w :: ws, p => leNat f p t.size = w ∧ RetTuple f lim ts ws (p + t.size)
  | _, _, _ => False

theorem RetTuple.le {f : Bytes} {lim : Nat} : ∀ {ts : List PTy} {ws : List Nat} {p : Nat},
    RetTuple f lim ts ws p → p ≤ lim := by
  intro ts
  induction ts with
  | nil => intro ws p h; cases ws <;> simp_all [RetTuple]
  | cons t ts ih =>
    intro ws p h
    cases ws with
    | nil => simp [RetTuple] at h
    | cons w ws => rw [RetTuple] at h; have := ih h.2; omega

theorem loadRets_ok {k : Nat} {l : List Nat} {is : List Instr} {Q : Res → Prop} {lim : Nat}
    (hlim : lim ≤ σ.size) : ∀ {ts : List PTy} {ws s : List Nat} {off : Nat},
    RetTuple σ.mem lim ts ws (lget l k + off) →
    wp is (ws.reverse ++ s) l σ Q → wp (loadRets k off ts ++ is) s l σ Q := by
  intro ts
  induction ts with
  | nil => intro ws s off h hQ; cases ws <;> simp_all [RetTuple, loadRets]
  | cons t ts ih =>
    intro ws s off h hQ
    cases ws with
    | nil => simp [RetTuple] at h
    | cons w ws =>
      rw [RetTuple] at h
      have := h.2.le
      rw [loadRets]
      simp only [List.cons_append, List.nil_append]
      rw [wp_lget, wp_load (by omega), h.1]
      exact ih (by rw [← Nat.add_assoc]; exact h.2) (by simpa using hQ)

/-- What a compiled function hands back for the results `vs`: nothing if it has none, else a pointer
to the tuple of results. -/
def Returned (σ : Store) (ts : List PTy) (vs : List Val) (r : List Nat) : Prop :=
  if ts = [] then r = [] ∧ vs = [] else
    ∃ p ws, r = [p] ∧ RetTuple σ.mem σ.nextFree ts ws p ∧ RepAll σ.mem σ.nextFree ts vs ws

/-! ### The wrapper -/

/-- What the wrapper needs to decode the arguments `vs`, which start at `p`. -/
structure Decodes (σ : Store) (f : PubFn) (vs : List Val) (p : Nat) : Prop where
  heap : Heap σ
  enums : EnumsOkArgs (ATy.vals f.args)
  dec : DecFs σ.mem σ.nextFree ((ATy.vals f.args).map PTy.ty) vs p p
  room : Room σ (needActs f.args vs)
  fits : FitsActs σ.size f.args vs σ.nextFree

/-- A function that has been called and has returned. -/
theorem wrap_call (hE : E.Valid) {f : PubFn} {vs : List Val} {d k : Nat} {l s : List Nat}
    {is : List Instr} {Q : Res → Prop} (hd : Decodes σ f vs (lget l 1)) (hk : k + 1 < l.length)
    {P : List Nat → Store → Prop}
    (hf : ∀ ws σ1, Grows σ σ1 → σ1.nextFree = σ.nextFree + needActs f.args vs →
      RepActs σ1.mem σ1.nextFree f.args vs ws → LaidActs σ1.mem f.args vs ws σ.nextFree → f.fn.Calls ws σ1 P)
    (hP : ∀ r σ2, P r σ2 → 260 ≤ σ2.size)
    (hok : ∀ r σ2 l', P r σ2 → errWord σ2 = 0 → l'.length = l.length → (∀ i, i < k → lget l' i = lget l i) →
      wp is (r ++ s) l' σ2 Q)
    (herr : ∀ r σ2 l', P r σ2 → errWord σ2 ≠ 0 → l'.length = l.length → (∀ i, i < k → lget l' i = lget l i) →
      Q (.br d [] l' σ2)) :
    wp (unpackActs E (propagateTo .i32 (d + 1)) 1 k f.args ++
      (code[f.fn.call, propagateTo .none (d + 1)] ++ is)) s l σ Q := by
  refine unpackActsAll_ok hE (propagateTo_ok _ _) f.args hd.enums hd.heap (Nat.le_refl _) hd.dec hd.room
    hd.fits hk ?_
  intro ws σ1 l1 hg hn hrep hlaid hl1 hlo
  simp only [List.cons_append, List.nil_append]
  refine wp_call (hf ws σ1 hg hn hrep hlaid) ?_
  intro r σ2 hp
  have hlo' : ∀ i, i < k → lget l1 i = lget l i := fun i hi => hlo i (by omega) (by omega)
  rw [wp_propagateTo (hP r σ2 hp)]
  exact .intro (fun h => hok r σ2 l1 hp h hl1 hlo') (fun h => herr r σ2 l1 hp h hl1 hlo')

/-- A call that succeeds leaves the encoded results. -/
theorem wrap_ok (hE : E.Valid) {f : PubFn} {vs rs : List Val} {d k : Nat} {l s : List Nat}
    {is : List Instr} {Q : Res → Prop} (hd : Decodes σ f vs (lget l 1)) (hk : k + f.locals ≤ l.length)
    {P : List Nat → Store → Prop}
    (hf : ∀ ws σ1, Grows σ σ1 → σ1.nextFree = σ.nextFree + needActs f.args vs →
      RepActs σ1.mem σ1.nextFree f.args vs ws → LaidActs σ1.mem f.args vs ws σ.nextFree → f.fn.Calls ws σ1 P)
    (hP : ∀ r σ2, P r σ2 → Heap σ2 ∧ Returned σ2 f.rets rs r ∧ Room σ2 (encTuple rs).length)
    (hQ : ∀ r σ2 σ3 l' ptr len, P r σ2 → Extends σ2 σ3 → l'.length = l.length →
      (∀ i, i < k → lget l' i = lget l i) → rdBytes σ3.mem ptr len = encTuple rs → ptr + len ≤ σ3.nextFree →
      wp is (len :: ptr :: s) l' σ3 Q) :
    wp (wrap E d k f ++ is) s l σ Q := by
  unfold PubFn.locals at hk
  unfold wrap
  simp only [List.append_assoc]
  refine wrap_call hE hd (by omega) hf (fun r σ2 hp => ?_) ?_ (fun r σ2 l' hp he => ?_)
  · have := (hP r σ2 hp).1.ready.size; omega
  · intro r σ2 l1 hp he hl1 hlo
    obtain ⟨hh, hret, hroom⟩ := hP r σ2 hp
    unfold Returned at hret
    cases hr : f.rets with
    | nil =>
      rw [hr, if_pos rfl] at hret
      obtain ⟨rfl, rfl⟩ := hret
      simp only [List.cons_append, List.nil_append]
      rw [wp_c32, wp_c32]
      exact hQ _ σ2 σ2 l1 0 0 hp hh.refl hl1 hlo rfl (by omega)
    | cons t ts =>
      rw [hr, if_neg (by simp)] at hret
      rw [hr] at hk
      obtain ⟨p, ws, rfl, htup, hrep⟩ := hret
      simp only [List.append_assoc, List.cons_append, List.nil_append]
      rw [wp_lset]
      refine loadRets_ok (lim := σ2.nextFree) hh.alloc.nextFree_le (ws := ws) ?_ ?_
      · rw [lget_lset_same (by omega)]; exact htup
      refine packAll_ok (propagate_ok _) (propagateTo_ok _ _) hh hrep hroom
        (by rw [lset_length]; simp only [List.length_cons] at hk ⊢; omega) ?_
      intro σ3 l3 hl3 hx hbs hn3 hptr hlen hlo3
      rw [wp_lget, wp_lget, hptr, hlen]
      refine hQ _ σ2 σ3 l3 _ _ hp hx (by rw [hl3, lset_length, hl1]) ?_ hbs (by omega)
      intro i hi
      rw [hlo3 i (by omega), lget_lset_ne (by omega), hlo i hi]
  · exact absurd (hP r σ2 hp).1.ready.noErr he

/-- A call that aborts leaves the return block with the abort pending. -/
theorem wrap_abort (hE : E.Valid) {f : PubFn} {vs : List Val} {d k : Nat} {l s : List Nat}
    {is : List Instr} {Q : Res → Prop} (hd : Decodes σ f vs (lget l 1)) (hk : k + f.locals ≤ l.length)
    {P : List Nat → Store → Prop}
    (hf : ∀ ws σ1, Grows σ σ1 → σ1.nextFree = σ.nextFree + needActs f.args vs →
      RepActs σ1.mem σ1.nextFree f.args vs ws → LaidActs σ1.mem f.args vs ws σ.nextFree → f.fn.Calls ws σ1 P)
    (hP : ∀ r σ2, P r σ2 → 260 ≤ σ2.size ∧ errWord σ2 ≠ 0)
    (hQ : ∀ r σ2 l', P r σ2 → l'.length = l.length → (∀ i, i < k → lget l' i = lget l i) → Q (.br d [] l' σ2)) :
    wp (wrap E d k f ++ is) s l σ Q := by
  unfold PubFn.locals at hk
  unfold wrap
  simp only [List.append_assoc]
  refine wrap_call hE hd (by omega) hf (fun r σ2 hp => (hP r σ2 hp).1) ?_ (fun r σ2 l' hp he => hQ r σ2 l' hp)
  intro r σ2 l1 hp he
  exact absurd he (hP r σ2 hp).2

end Rt
