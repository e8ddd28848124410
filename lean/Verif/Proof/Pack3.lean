import Verif.Proof.Pack2

/-! ABI packing of the results of a function. -/

namespace Rt
open Wasm Abi

variable {σ σ' : Store} {E : ErrPtrs}

theorem RepP.congr {f g : Bytes} {lim : Nat} (h : ∀ x, x < lim → g x = f x) {t : PTy} {v : Val} {w : Nat}
    (hr : RepP f lim t v w) : RepP g lim t v w := by
  cases t with
  | val t => exact Rep.congr h t hr
  | ref t => exact RepFs.congr h [t] hr

theorem RepAll.congr {f g : Bytes} {lim : Nat} (h : ∀ x, x < lim → g x = f x) :
    ∀ {ts : List PTy} {vs : List Val} {ws : List Nat}, RepAll f lim ts vs ws → RepAll g lim ts vs ws := by
  intro ts
  induction ts with
  | nil => intro vs ws hr; cases vs <;> cases ws <;> exact hr
  | cons t ts ih =>
    intro vs ws hr
    cases vs <;> cases ws <;> try exact hr
    exact ⟨hr.1.congr h, ih hr.2⟩

/-- The value behind a reference. -/
theorem RepP.rep {f : Bytes} {lim : Nat} {t : PTy} {v : Val} {w : Nat} (hr : RepP f lim t v w) :
    ∃ w', Rep f lim t.ty v w' := by
  cases t with
  | val t => exact ⟨w, hr⟩
  | ref t =>
    simp only [RepP, RepFs] at hr
    exact ⟨_, hr.2.2.1⟩

theorem RepP.hd_length {f : Bytes} {lim : Nat} {t : PTy} {v : Val} {w : Nat} (hr : RepP f lim t v w)
    (off : Nat) : (hd off v).length = t.ty.headSize := by
  obtain ⟨w', h⟩ := hr.rep
  exact h.hd_length off

theorem RepAll.headLen {f : Bytes} {lim : Nat} : ∀ {ts : List PTy} {vs : List Val} {ws : List Nat},
    RepAll f lim ts vs ws → headLen vs = (ts.map (fun t => t.ty.headSize)).sum := by
  intro ts
  induction ts with
  | nil => intro vs ws hr; cases vs <;> cases ws <;> first | (rw [Abi.headLen]; rfl) | exact absurd hr id
  | cons t ts ih =>
    intro vs ws hr
    cases vs <;> cases ws <;> try exact absurd hr id
    have := hr.1.hd_length 0
    rw [Rt.hd_length] at this
    rw [headLen_cons, this, ih hr.2]; rfl

theorem packRef_spec {t : MTy} {v : Val} {lim w p b : Nat} (hr : RepP σ.mem lim (.ref t) v w)
    (hp : PackPre σ lim p t.headSize b) (hroom : Room σ (tl v).length) :
    (packRef E t).Calls [w, p, b] σ (fun r σ' => r = [] ∧
      Packed σ σ' p (hd (σ.nextFree - b) v) (tl v)) := by
  simp only [RepP, RepFs] at hr
  obtain ⟨h1, h2, h3, -⟩ := hr
  have hs := hp.size
  have hlim := hp.lim
  unfold packRef
  cases hsc : t.isScalar with
  | true =>
    have h2' := h2 hsc
    rw [hsc] at h3
    refine ⟨rfl, ?_⟩
    simp only [if_true, List.cons_append, List.nil_append, List.replicate]
    wstep
    rw [← List.append_nil (packT _ _ _ _ _ _ _)]
    refine packT_ok t (propagate_ok .none) (propagate_ok .none) 3 1 2 v lim σ _ _ _ _ h3 hp hroom ?_
    intro σ' h
    wstep
    exact h
  | false =>
    rw [hsc] at h3
    refine ⟨rfl, ?_⟩
    simp only [Bool.false_eq_true, if_false, List.cons_append, List.nil_append, List.replicate]
    wstep
    rw [← List.append_nil (packT _ _ _ _ _ _ _)]
    refine packT_ok t (propagate_ok .none) (propagate_ok .none) 0 1 2 v lim σ _ _ _ _ h3 hp hroom ?_
    intro σ' h
    wstep
    exact h

/-- Packing one result. -/
theorem packP_ok {t : PTy} {pv pc : Instr} (hpv : PropOk pv) (hpc : PropOk pc) {il iw ib : Nat}
    (h1 : iw ≠ il) (h2 : ib ≠ il)
    {v : Val} {lim : Nat} {l s : List Nat} {is : List Instr} {Q : Res → Prop} (hil : il < l.length)
    (hr : RepP σ.mem lim t v (lget l il)) (hp : PackPre σ lim (lget l iw) t.ty.headSize (lget l ib))
    (hroom : Room σ (tl v).length)
    (hQ : ∀ σ' l', Packed σ σ' (lget l iw) (hd (σ.nextFree - lget l ib) v) (tl v) →
      l'.length = l.length → (∀ j, j ≠ il → lget l' j = lget l j) → wp is s l' σ' Q) :
    wp (packP E pv pc il iw ib t ++ is) s l σ Q := by
  have hs := hp.size
  have hlim := hp.lim
  cases t with
  | val t =>
    exact packT_ok t hpv hpc il iw ib v lim σ l s is Q hr hp hroom
      (fun σ' h => hQ σ' l h rfl (fun _ _ => rfl))
  | ref t =>
    by_cases hd : t.dyn = true
    · simp only [packP, if_pos hd]
      have hr' := hr
      simp only [RepP, RepFs] at hr'
      have hsc : t.isScalar = false := by cases t <;> simp_all [MTy.dyn, MTy.isScalar]
      rw [hsc] at hr'
      simp only [List.cons_append, List.nil_append]
      wstep
      have e1 := lget_lset_ne (l := l) (i := il) (j := iw) (v := leNat σ.mem (lget l il) 4) h1
      have e2 := lget_lset_ne (l := l) (i := il) (j := ib) (v := leNat σ.mem (lget l il) 4) h2
      have e3 := lget_lset_same (v := leNat σ.mem (lget l il) 4) hil
      refine packT_ok t hpv hpc il iw ib v lim σ _ s is Q (by rw [e3]; exact hr'.2.2.1)
        (by rw [e1, e2]; exact hp) hroom ?_
      intro σ' h
      rw [e1, e2] at h
      exact hQ σ' _ h lset_length (fun j hj => lget_lset_ne hj)
    · simp only [packP, if_neg hd]
      simp only [List.cons_append, List.nil_append]
      wstep
      refine wp_call3 (packRef_spec hr hp hroom) ?_
      rintro r σ' ⟨rfl, h⟩
      have hh := h.heap hp.heap hp.res (by rw [RepP.hd_length hr]; exact hp.fits)
      exact hpc _ _ _ _ _ (by have := hh.ready.size; omega) hh.ready.noErr (hQ _ _ h rfl (fun _ _ => rfl))

set_option maxHeartbeats 2000000 in
/-- Packing several results. -/
theorem packEach_ok {pv pc : Instr} (hpv : PropOk pv) (hpc : PropOk pc) {top lo : Nat} :
    ∀ {ts : List PTy} {j : Nat} {vs : List Val} {ws : List Nat} {lim : Nat} {l s : List Nat} {σ : Store}
      {is : List Instr} {Q : Res → Prop},
    top + 4 < l.length → j + ts.length + lo ≤ top + 1 →
    (∀ i (h : i < ws.length), lget l (top - j - i) = ws[i]) → RepAll σ.mem lim ts vs ws →
    PackPre σ lim (lget l (top + 3)) (ts.map (fun t => t.ty.headSize)).sum (lget l (top + 1)) →
    Room σ (tails vs).length →
    (∀ σ' l', Packed σ σ' (lget l (top + 3)) (heads (σ.nextFree - lget l (top + 1)) vs) (tails vs) →
      l'.length = l.length → lget l' (top + 1) = lget l (top + 1) → (∀ i, i < lo → lget l' i = lget l i) →
      wp is s l' σ' Q) →
    wp (packEach E pv pc top j ts ++ is) s l σ Q := by
  intro ts
  induction ts with
  | nil =>
    intro j vs ws lim l s σ is Q h1 h2 h3 h4 h5 h6 h7
    cases vs <;> cases ws <;> try exact absurd h4 id
    refine h7 σ l ?_ rfl rfl (fun _ _ => rfl)
    rw [heads, tails]; exact Packed.refl h5.heap.alloc _
  | cons t ts ih =>
    intro j vs ws lim l s σ is Q h1 h2 h3 h4 h5 h6 h7
    cases vs <;> cases ws <;> try exact absurd h4 id
    rename_i v vs w ws
    rw [List.length_cons] at h2
    rw [List.map_cons, List.sum_cons] at h5
    have hfit := h5.fits
    have hs := h5.size
    have hlim := h5.lim
    have hbase := h5.base
    rw [tails_cons, List.length_append] at h6
    unfold packEach
    simp only [List.cons_append, List.nil_append, List.append_assoc]
    wstep
    have e0 := h3 0 (by simp)
    simp only [Nat.sub_zero, List.getElem_cons_zero] at e0
    have g1 : ∀ i, i ≠ top + 4 → lget (lset l (top + 4) (lget l (top + 1))) i = lget l i :=
      fun i hi => lget_lset_ne hi
    have g2 : lget (lset l (top + 4) (lget l (top + 1))) (top + 4) = lget l (top + 1) :=
      lget_lset_same (by omega)
    have g3 : (lset l (top + 4) (lget l (top + 1))).length = l.length := lset_length
    generalize lset l (top + 4) (lget l (top + 1)) = l1 at *
    have hr1 : RepP σ.mem lim t v (lget l1 (top - j)) := by rw [g1 _ (by omega), e0]; exact h4.1
    have hhd := hr1.hd_length (σ.nextFree - lget l (top + 1))
    refine packP_ok hpv hpc (by omega) (by omega) (by omega) hr1 ?_ (h6.mono (by omega)) ?_
    · rw [g2, g1 _ (by omega)]
      exact ⟨h5.heap, h5.res, h5.lim, by omega, fun x h1 h2 => h5.zero x h1 (by omega), h5.base⟩
    · intro σ1 l2 hp1 hl2 hl3
      rw [g2, g1 _ (by omega)] at hp1
      have hn1 := hp1.nextFree
      wstep
      have k1 : ∀ i, i ≠ top - j → i ≠ top + 4 → lget l2 i = lget l i := by
        intro i hi hi'; rw [hl3 i hi, g1 i hi']
      rw [k1 (top + 3) (by omega) (by omega)]
      have hsz1 : lget l (top + 3) + t.ty.headSize < 4294967296 := by omega
      wstep
      generalize hd' : lget l (top + 3) + t.ty.headSize = d' at *
      have m1 : ∀ i, i ≠ top + 3 → lget (lset l2 (top + 3) d') i = lget l2 i := fun i hi => lget_lset_ne hi
      have m2 : lget (lset l2 (top + 3) d') (top + 3) = d' := lget_lset_same (by omega)
      have m3 : (lset l2 (top + 3) d').length = l.length := by rw [lset_length]; omega
      generalize lset l2 (top + 3) d' = l3 at *
      have k2 : lget l3 (top + 1) = lget l (top + 1) := by
        rw [m1 _ (by omega), k1 _ (by omega) (by omega)]
      refine ih (j := j + 1) (vs := vs) (ws := ws) (lim := lim) (by omega) (by omega) ?_ ?_ ?_ ?_ ?_
      · intro i hi
        have := h3 (i + 1) (by simp; omega)
        simp only [List.getElem_cons_succ] at this
        have hlen : ws.length = ts.length := by
          clear * - h4
          have : ∀ {ts : List PTy} {vs : List Val} {ws : List Nat}, RepAll σ.mem lim ts vs ws →
              ws.length = ts.length := by
            intro ts
            induction ts with
            | nil => intro vs ws h; cases vs <;> cases ws <;> first | rfl | exact absurd h id
            | cons t ts ih =>
              intro vs ws h
              cases vs <;> cases ws <;> try exact absurd h id
              rw [List.length_cons, List.length_cons, ih h.2]
          exact this h4.2
        rw [m1 _ (by omega), k1 _ (by omega) (by omega), ← this]
        congr 1; omega
      · refine h4.2.congr ?_
        intro x hx
        exact hp1.mem_out (by omega) (by omega)
      · rw [m2, k2]
        refine ⟨hp1.heap h5.heap h5.res (by omega), ?_, by omega, by omega, ?_, by omega⟩
        · have := h5.res; omega
        · intro x hx1 hx2
          rw [hp1.mem_out (by omega) (by omega)]
          exact h5.zero x (by omega) (by omega)
      · exact hp1.room h6
      · intro σ2 l4 hp2 q1 q2 q3
        rw [m2, k2] at hp2
        refine h7 σ2 l4 ?_ (by omega) (by rw [q2, k2]) ?_
        · rw [heads_cons, tails_cons]
          refine hp1.trans ?_ ?_
          · rw [hhd, hd', show σ.nextFree - lget l (top + 1) + (tl v).length =
              σ1.nextFree - lget l (top + 1) by omega]
            exact hp2
          · rw [hhd, heads_length, h4.2.headLen]; omega
        · intro i hi
          rw [q3 i hi, m1 _ (by omega), k1 _ (by omega) (by omega)]

/-- Popping values into consecutive locals. -/
theorem wp_pops {n : Nat} : ∀ {k : Nat} {xs s l : List Nat} {σ : Store} {is : List Instr} {Q : Res → Prop},
    xs.length = n → k + n ≤ l.length →
    (∀ l', l'.length = l.length → (∀ i (h : i < xs.length), lget l' (k + i) = xs[i]) →
      (∀ j, j < k ∨ k + n ≤ j → lget l' j = lget l j) → wp is s l' σ Q) →
    wp ((List.range n).map (fun i => (Op.lset (k + i) : Instr)) ++ is) (xs ++ s) l σ Q := by
  induction n with
  | zero =>
    intro k xs s l σ is Q h1 h2 h3
    have : xs = [] := List.length_eq_zero_iff.mp h1
    subst this
    exact h3 l rfl (fun i h => absurd h (by simp)) (fun _ _ => rfl)
  | succ n ih =>
    intro k xs s l σ is Q h1 h2 h3
    cases xs with
    | nil => simp at h1
    | cons x xs =>
      rw [List.range_succ_eq_map, List.map_cons, List.map_map, List.cons_append, List.cons_append, wp_lset,
        Nat.add_zero]
      have e : ((fun i => (Instr.op (Op.lset (k + i)))) ∘ Nat.succ) =
          (fun i => (Instr.op (Op.lset (k + 1 + i)))) := by
        funext i
        simp only [Function.comp]
        congr 2; omega
      rw [e]
      have hl : (lset l k x).length = l.length := lset_length
      refine ih (k := k + 1) (by simpa using h1) (by omega) ?_
      intro l' g1 g2 g3
      refine h3 l' (by omega) ?_ ?_
      · intro i hi
        cases i with
        | zero =>
          rw [Nat.add_zero, g3 k (by omega), lget_lset_same (by omega)]; rfl
        | succ i =>
          have := g2 i (by simpa using hi)
          rw [List.getElem_cons_succ, ← this]; congr 1; omega
      · intro j hj
        rw [g3 j (by omega), lget_lset_ne (by omega)]

theorem RepAll.lengths {f : Bytes} {lim : Nat} : ∀ {ts : List PTy} {vs : List Val} {ws : List Nat},
    RepAll f lim ts vs ws → ws.length = ts.length ∧ vs.length = ts.length := by
  intro ts
  induction ts with
  | nil => intro vs ws h; cases vs <;> cases ws <;> first | exact ⟨rfl, rfl⟩ | exact absurd h id
  | cons t ts ih =>
    intro vs ws h
    cases vs <;> cases ws <;> try exact absurd h id
    have := ih h.2
    simp only [List.length_cons]; omega

theorem rdBytes_wr (f : Bytes) (a : Nat) (bs : List UInt8) : rdBytes (wrBytes f a bs) a bs.length = bs :=
  rdBytes_eq fun _ h => wrBytes_in h

set_option maxHeartbeats 2000000 in
/-- Packing the results of a function yields their ABI encoding. -/
theorem packAll_ok {pv pc : Instr} (hpv : PropOk pv) (hpc : PropOk pc) {ts : List PTy} {vs : List Val}
    {ws : List Nat} (hσ : Heap σ) (hr : RepAll σ.mem σ.nextFree ts vs ws)
    (hroom : Room σ (encTuple vs).length) {k : Nat} {l s : List Nat} {is : List Instr} {Q : Res → Prop}
    (hl : k + ts.length + 4 ≤ l.length)
    (hQ : ∀ σ' l', l'.length = l.length → Extends σ σ' →
      rdBytes σ'.mem σ.nextFree (encTuple vs).length = encTuple vs →
      σ'.nextFree = σ.nextFree + (encTuple vs).length →
      lget l' (k + ts.length) = σ.nextFree → lget l' (k + ts.length + 1) = (encTuple vs).length →
      (∀ i, i < k → lget l' i = lget l i) → wp is s l' σ' Q) :
    wp (packAll E pv pc k ts ++ is) (ws.reverse ++ s) l σ Q := by
  obtain ⟨hlw, hlv⟩ := hr.lengths
  have hhl := hr.headLen
  have hcl : (encTuple vs).length = (ts.map (fun t => t.ty.headSize)).sum + (tails vs).length := by
    unfold encTuple; rw [enc, List.length_append, heads_length, hhl]
  have hroom1 := hroom.1
  unfold packAll
  generalize hH : (ts.map (fun t => t.ty.headSize)).sum = H at *
  rw [hcl] at hroom hroom1
  have hc : CanAlloc σ H := hroom.canAlloc hσ.alloc (by omega)
  have hx := hσ.allocated hc
  have hain := allocated_inside hσ.alloc hc
  have hm := hσ.allocated_mem (n := H)
  have hnf : (allocated σ H).nextFree = σ.nextFree + H := allocated_nextFree
  have hmx : (allocated σ H).maxPages = σ.maxPages := allocated_maxPages
  simp only [List.append_assoc, List.cons_append, List.nil_append]
  refine wp_pops (by simp [hlw]) (by omega) ?_
  intro l1 g1 g2 g3
  wstep
  refine wp_alloc hσ hc ?_
  have hh1 := hx.heap hσ
  generalize allocated σ H = σ1 at *
  wstep
  generalize hl2 : lset (lset l1 (k + ts.length) σ.nextFree) (k + ts.length + 2) σ.nextFree = l2
  have m1 : l2.length = l.length := by rw [← hl2, lset_length, lset_length]; exact g1
  have m2 : lget l2 (k + ts.length) = σ.nextFree := by
    rw [← hl2, lget_lset_ne (by omega), lget_lset_same (by omega)]
  have m3 : lget l2 (k + ts.length + 2) = σ.nextFree := by
    rw [← hl2, lget_lset_same (by rw [lset_length]; omega)]
  have m4 : ∀ i, i < k + ts.length → lget l2 i = lget l1 i := by
    intro i hi
    rw [← hl2, lget_lset_ne (by omega), lget_lset_ne (by omega)]
  -- after packing each result
  have key : ∀ σ' l', Packed σ1 σ' σ.nextFree (heads H vs) (tails vs) → l'.length = l.length →
      lget l' (k + ts.length) = σ.nextFree → (∀ i, i < k → lget l' i = lget l i) →
      wp (code[Op.c32 0, alloc.call, Op.lget (k + ts.length), Op.bin .w32 .sub,
        Op.lset (k + ts.length + 1)] ++ is) s l' σ' Q := by
    intro σ2 l3 hp q1 q2 q3
    have hlen : (heads H vs).length = H := by rw [heads_length, hhl]
    have hh2 : Heap σ2 := hp.heap hh1 hσ.base (by omega)
    have hn2 := hp.nextFree
    have hc2 : CanAlloc σ2 0 := (hp.room (m := 0) (Room.after hroom (by omega) hmx)).canAlloc hh2.alloc (by omega)
    have hx2 := hh2.allocated hc2
    have hlt : σ2.nextFree < 2 ^ 32 := by
      have := hh2.alloc.nextFree_le; have := hh2.alloc.size_lt; omega
    have hm2 := hh2.allocated_mem (n := 0)
    have hnf2 : (allocated σ2 0).nextFree = σ2.nextFree := allocated_nextFree
    simp only [List.cons_append, List.nil_append]
    wstep
    refine wp_alloc hh2 hc2 ?_
    generalize allocated σ2 0 = σ3 at *
    wstep
    rw [q2]
    have hmem : σ3.mem = wrBytes σ.mem σ.nextFree (encTuple vs) := by
      rw [hm2, hp.mem, hm, hnf]
      unfold encTuple
      rw [enc, hhl, wrBytes_append, hlen]
    refine hQ σ3 _ (by rw [lset_length]; exact q1) ?_ ?_ ?_ ?_ ?_ ?_
    · refine ⟨by omega, Nat.le_trans hx.size (Nat.le_trans hp.size hx2.size), ?_, ?_, hx2.alloc, ?_, ?_, ?_⟩
      · intro x hx
        rw [hmem, wrBytes_out (by omega)]
      · intro x hx
        rw [hmem, wrBytes_out (by omega), hσ.fresh _ (by omega)]
      · rw [hx2.maxPages, hp.maxPages, hmx]
      · rw [hx2.reader, hp.reader, hx.reader]
      · rw [hx2.host, hp.host, hx.host]
    · rw [hmem]; exact rdBytes_wr _ _ _
    · omega
    · rw [lget_lset_ne (by omega)]; exact q2
    · rw [lget_lset_same (by omega)]; omega
    · intro i hi
      rw [lget_lset_ne (by omega)]; exact q3 i hi
  cases ts with
  | nil =>
    cases vs <;> cases ws <;> try exact absurd hr id
    simp at hH
    subst hH
    refine key σ1 l2 ?_ m1 m2 (fun i hi => by rw [m4 _ (by simpa using hi), g3 i (.inl hi)])
    rw [heads, tails]; exact Packed.refl hh1.alloc _
  | cons t ts =>
    generalize hn : (t :: ts).length = n at *
    have hpos : 0 < n := by rw [← hn]; simp
    have e1 : k + n - 1 + 1 = k + n := by omega
    have e3 : k + n - 1 + 3 = k + n + 2 := by omega
    refine packEach_ok (lo := k) hpv hpc (vs := vs) (ws := ws) (lim := σ.nextFree) (by omega) (by rw [hn]; omega) ?_ ?_ ?_ ?_ ?_
    · intro i hi
      have := g2 (n - 1 - i) (by rw [List.length_reverse]; omega)
      rw [List.getElem_reverse] at this
      rw [m4 _ (by omega), show k + n - 1 - 0 - i = k + (n - 1 - i) by omega, this]
      congr 1; omega
    · exact hr.congr (fun x hx => by rw [hm])
    · rw [e1, e3, m2, m3, hH]
      exact ⟨hh1, hσ.base, Nat.le_refl _, by omega, fun x h1 h2 => by rw [hm]; exact hσ.fresh x h1, by omega⟩
    · exact Room.after hroom (by omega) hmx
    · intro σ' l' hp q1 q2 q3
      rw [e1, e3, m2, m3, hnf, Nat.add_sub_cancel_left] at hp
      rw [e1, m2] at q2
      exact key σ' l' hp (by omega) q2 (fun i hi => by rw [q3 i hi, m4 _ (by omega), g3 i (.inl hi)])

end Rt
