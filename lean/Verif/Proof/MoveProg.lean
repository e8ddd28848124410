import Verif.Proof.MoveFlow

/-! The translation of functions and programs simulates the Move machine. -/

namespace Move
open Wasm Rt

variable {σ : Store} {loc : List Nat} {is : List Instr} {Q : Res → Prop}

theorem lget_append : ∀ {ws rest : List Nat} {j w : Nat}, ws[j]? = some w → lget (ws ++ rest) j = w
  | [], _, _, _, h => by simp at h
  | a :: ws, _, 0, _, h => by simpa [lget] using h
  | a :: ws, _, j + 1, _, h => by
    rw [List.getElem?_cons_succ] at h
    exact lget_append (ws := ws) h

theorem boxArgs_next : ∀ (ts : List Ty) (i l : Nat), l ≤ (boxArgs ts i l).2.2
  | [], _, _ => Nat.le_refl _
  | t :: ts, i, l => by
    unfold boxArgs
    split_ifs
    · exact Nat.le_trans (by omega) (boxArgs_next ts (i + 1) _)
    · exact Nat.le_trans (by omega) (boxArgs_next ts (i + 1) _)

/-- The locals of the arguments. -/
theorem boxArgs_map : ∀ (ts : List Ty) (i l : Nat), i + ts.length ≤ l → (boxArgs ts i l).2.1.length = ts.length ∧
    (boxArgs ts i l).2.1.Nodup ∧
    ∀ p ∈ (boxArgs ts i l).2.1, (i ≤ p ∧ p < i + ts.length) ∨ (l ≤ p ∧ p < (boxArgs ts i l).2.2)
  | [], i, l, _ => ⟨rfl, List.nodup_nil, fun p hp => by cases hp⟩
  | t :: ts, i, l, h => by
    rw [List.length_cons] at h
    unfold boxArgs
    split_ifs
    · obtain ⟨h0, h1, h2⟩ := boxArgs_map ts (i + 1) (l + 1 + (boxCode t l (l + 1)).2) (by omega)
      have h3 := boxArgs_next ts (i + 1) (l + 1 + (boxCode t l (l + 1)).2)
      refine ⟨by simp [h0], List.nodup_cons.mpr ⟨fun hm => ?_, h1⟩, fun p hp => ?_⟩
      · rcases h2 _ hm with h | h <;> omega
      · rw [List.length_cons]
        rcases List.mem_cons.mp hp with rfl | hp
        · right; exact ⟨Nat.le_refl _, by dsimp only; omega⟩
        · rcases h2 _ hp with h | h
          · left; omega
          · right; exact ⟨by omega, h.2⟩
    · obtain ⟨h0, h1, h2⟩ := boxArgs_map ts (i + 1) (l + (boxCode t i l).2) (by omega)
      have h3 := boxArgs_next ts (i + 1) (l + (boxCode t i l).2)
      refine ⟨by simp [h0], List.nodup_cons.mpr ⟨fun hm => ?_, h1⟩, fun p hp => ?_⟩
      · rcases h2 _ hm with h | h <;> omega
      · rw [List.length_cons]
        rcases List.mem_cons.mp hp with rfl | hp
        · left; omega
        · rcases h2 _ hp with h | h
          · left; omega
          · right; exact ⟨by omega, h.2⟩

/-- An argument as a local. -/
def bindArg : Opd → Mem → Loc × Mem
  | .data d, M => (.box (d.place M).1, (d.place M).2)
  | .ref r, M => (.ref r, M)

theorem bindArgs_cons (o : Opd) (os : List Opd) (M : Mem) : bindArgs (o :: os) M =
    (some (bindArg o M).1 :: (bindArgs os (bindArg o M).2).1, (bindArgs os (bindArg o M).2).2) := by
  cases o <;> rfl

/-- An argument is boxed; the arguments after it are not affected. -/
theorem wp_boxArg {o : Opd} {os : List Opd} {ws s : List Nat} {w dst l : Nat} {ρ : List Nat} {M : Mem} {m m1 m2 fr : Nat → Nat}
    (hW : World σ ρ M (Own ρ M m fr)) (hm : ∀ a, m a = m1 a + m2 a)
    (ho : ArgRep σ (Frozen σ (Own ρ M m fr)) ρ o w m1) (hos : ArgsRep σ (Frozen σ (Own ρ M m fr)) ρ os ws m2)
    (hr : Room σ 12) (hd : dst < l) (hl : l + (boxCode o.ty dst l).2 ≤ loc.length)
    (hk : ∀ loc' σ' ρ', ρ <+: ρ' → World σ' ρ' (bindArg o M).2 (Own ρ' (bindArg o M).2 m2 fr) →
      Grows fr σ (Own ρ M m fr) σ' (Own ρ' (bindArg o M).2 m2 fr) → σ'.nextFree ≤ σ.nextFree + 12 →
      SlotAt σ' (Frozen σ' (Own ρ' (bindArg o M).2 m2 fr)) ρ' (bindArg o M).1.place (lget loc' dst) →
      ArgsRep σ' (Frozen σ' (Own ρ' (bindArg o M).2 m2 fr)) ρ' os ws m2 →
      loc'.length = loc.length → (∀ i, i < l → i ≠ dst → lget loc' i = lget loc i) → wp is s loc' σ' Q) :
    wp ((boxCode o.ty dst l).1 ++ is) (w :: s) loc σ Q := by
  have hσ := hW.heap
  -- memory has grown
  have step : ∀ σ' m1', Trades σ σ' m1 m1' → World σ' ρ M (Own ρ M (fun a => m1' a + m2 a) fr) ∧
      Grows fr σ (Own ρ M m fr) σ' (Own ρ M (fun a => m1' a + m2 a) fr) ∧
      (∀ a, Frozen σ (Own ρ M m fr) a ∨ New σ σ' m1' a → Frozen σ' (Own ρ M (fun a => m1' a + m2 a) fr) a) ∧
      ArgsRep σ' (Frozen σ' (Own ρ M (fun a => m1' a + m2 a) fr)) ρ os ws m2 := by
    intro σ' m1' t
    obtain ⟨h1, h2, h3⟩ := hW.trade hm t
    refine ⟨h1, h2.mono fun a ha => by show fr a + m2 a ≠ 0; omega, ?_, ?_⟩
    · rintro a (ha | ha)
      · exact (h2.frozen ha).1
      · exact h3 a ha
    · refine hos.change h2.alters.nextFree (fun a ha => (h2.frozen ha).1) (fun a ha => (h2.frozen ha).2) (List.prefix_refl ρ)
        (fun a ha => h2.outer ?_ (show fr a + m2 a ≠ 0 by omega))
      by_contra hge
      have := (hW.high (x := a) (by omega)).2.1
      have := hm a
      omega
  cases o with
  | data d =>
    refine wp_box hσ hr ho frozen_lt (fun a ha => ?_) hd hl ?_
    · by_contra hge
      have := (hW.high (x := a) (by omega)).2.1
      have := hm a
      omega
    intro loc' σ' m1' ht hn hin hh hlen hs
    obtain ⟨h1, h2, h3, h4⟩ := step σ' m1' ht
    obtain ⟨ρ', hp, hown, hW', hpl⟩ := h1.bind (m1 := m1') (m2 := m2) (fun _ => rfl) hh
    have hown' : Own ρ' (d.place M).2 m2 fr = Own ρ M (fun a => m1' a + m2 a) fr := funext hown
    rw [← hown'] at h2 h3 h4
    refine hk loc' σ' ρ' hp hW' h2 hn ⟨?_, ?_⟩ ?_ hlen hs
    · exact Within.change hin fun a ha => h3 a (.inr ha)
    · exact hpl.change (Nat.le_refl _) h3 (fun _ _ => rfl) (List.prefix_refl _)
    · exact h4.change (Nat.le_refl _) (fun _ h => h) (fun _ _ => rfl) hp (fun _ _ => rfl)
  | ref r =>
    obtain ⟨⟨hw, hpl⟩, h0⟩ := ho
    refine wp_boxPtr rfl hσ (hr.mono (by omega)) hw hd hl ?_
    intro loc' σ' hx hn hb hdst hlen hs
    have ht : Trades σ σ' m1 (fun _ => 0) := Trades.made hx (fun _ => Nat.zero_le _) (fun _ h => absurd rfl h)
    obtain ⟨h1, h2, h3, h4⟩ := step σ' _ ht
    have e0 : (fun a => (fun _ : Nat => 0) a + m2 a) = m2 := by funext a; exact Nat.zero_add _
    rw [e0] at h1 h2 h3 h4
    refine hk loc' σ' ρ (List.prefix_refl ρ) h1 h2 (by omega) ⟨?_, ?_⟩ h4 hlen hs
    · rw [hdst]
      intro a g1 g2
      exact h3 a (.inr ⟨g1, by omega, rfl⟩)
    · rw [hdst, hb]
      exact hpl.change hx.nextFree (fun a ha => h3 a (.inl ha)) (fun a ha => hx.mem a ha.1) (List.prefix_refl ρ)

/-- The prologue boxes the arguments. -/
theorem wp_boxArgs {fr : Nat → Nat} : ∀ (args : List Opd) (ws : List Nat) (i l : Nat) (loc : List Nat) (σ : Store)
    (ρ : List Nat) (M : Mem) (m : Nat → Nat), World σ ρ M (Own ρ M m fr) →
    Room σ (64 * args.length) → ArgsRep σ (Frozen σ (Own ρ M m fr)) ρ args ws m →
    (∀ (j : Nat) w, ws[j]? = some w → lget loc (i + j) = w) →
    i + args.length ≤ l → (boxArgs (args.map (·.ty)) i l).2.2 ≤ loc.length →
    (∀ loc' σ' ρ', ρ <+: ρ' → World σ' ρ' (bindArgs args M).2 (Own ρ' (bindArgs args M).2 (fun _ => 0) fr) →
      Grows fr σ (Own ρ M m fr) σ' (Own ρ' (bindArgs args M).2 (fun _ => 0) fr) →
      σ'.nextFree ≤ σ.nextFree + 64 * args.length → loc'.length = loc.length →
      (∀ (j : Nat) (lo : Loc), (bindArgs args M).1[j]? = some (some lo) → ∃ p, (boxArgs (args.map (·.ty)) i l).2.1[j]? = some p ∧
        SlotAt σ' (Frozen σ' (Own ρ' (bindArgs args M).2 (fun _ => 0) fr)) ρ' lo.place (lget loc' p)) →
      (∀ q, q < l → (q < i ∨ i + args.length ≤ q) → lget loc' q = lget loc q) → wp is [] loc' σ' Q) →
    wp ((boxArgs (args.map (·.ty)) i l).1 ++ is) [] loc σ Q
  | [], ws, i, l, loc, σ, ρ, M, m, hW, hr, hf, hl, hil, hlen, hk => by
    have h0 : m = fun _ => 0 := by
      cases ws with
      | nil => exact funext hf
      | cons => exact hf.elim
    subst h0
    refine hk loc σ ρ (List.prefix_refl ρ) hW (Grows.refl hW.heap fun _ _ => Nat.le_refl _) (by omega) rfl ?_ (fun _ _ _ => rfl)
    intro j v hj
    simp [bindArgs] at hj
  | o :: os, ws, i, l, loc, σ, ρ, M, m, hW, hr, hf, hl, hil, hlen, hk => by
    cases ws with
    | nil => exact hf.elim
    | cons w ws =>
    obtain ⟨m1, m2, ho, hos, hm⟩ := hf
    have hlw := hos.length
    rw [List.length_cons] at hr hil hk
    have h0 := hl 0 w rfl
    rw [Nat.add_zero] at h0
    rw [List.map_cons] at hlen hk ⊢
    rw [bindArgs_cons] at hk
    unfold boxArgs at hlen hk ⊢
    split_ifs at hlen hk ⊢ with ht
    · simp only [List.cons_append, List.append_assoc, wp_lget, h0] at hlen hk ⊢
      have h3 := boxArgs_next (os.map (·.ty)) (i + 1) (l + 1 + (boxCode o.ty l (l + 1)).2)
      refine wp_boxArg hW hm ho hos (hr.mono (by omega)) (by omega) (by omega) ?_
      intro loc1 σ1 ρ1 hp1 hW1 hG1 hn1 hb1 ha1 hlen1 hs1
      refine wp_boxArgs os ws (i + 1) _ loc1 σ1 ρ1 _ m2 hW1 ?_ ha1 ?_ (by omega) (by omega) ?_
      · exact Room.after (k := 64) (hr.mono (by omega)) (by omega) hG1.alters.maxPages
      · intro j w' hj
        have hjl : j < os.length := by
          rw [hlw]
          exact (List.getElem?_eq_some_iff.mp hj).1
        rw [hs1 _ (by omega) (by omega), Nat.add_assoc, Nat.add_comm 1]
        exact hl (j + 1) w' hj
      · intro loc2 σ2 ρ2 hp2 hW2 hG2 hn2 hlen2 hb2 hs2
        refine hk loc2 σ2 ρ2 (hp1.trans hp2) hW2 (hG1.trans hG2) (by omega) (by omega) ?_ ?_
        · intro j v' hj
          cases j with
          | zero =>
            cases hj
            refine ⟨l, rfl, ?_⟩
            rw [hs2 l (by omega) (by omega)]
            exact hb1.change hG2.alters.nextFree (fun a ha => (hG2.frozen ha).1) (fun a ha => (hG2.frozen ha).2) hp2
          | succ j => exact hb2 j v' hj
        · intro q hq1 hq2
          rw [hs2 q (by omega) (by omega), hs1 q (by omega) (by omega)]
    · simp only [List.cons_append, List.append_assoc, wp_lget, h0] at hlen hk ⊢
      have h3 := boxArgs_next (os.map (·.ty)) (i + 1) (l + (boxCode o.ty i l).2)
      refine wp_boxArg hW hm ho hos (hr.mono (by omega)) (by omega) (by omega) ?_
      intro loc1 σ1 ρ1 hp1 hW1 hG1 hn1 hb1 ha1 hlen1 hs1
      refine wp_boxArgs os ws (i + 1) _ loc1 σ1 ρ1 _ m2 hW1 ?_ ha1 ?_ (by omega) (by omega) ?_
      · exact Room.after (k := 64) (hr.mono (by omega)) (by omega) hG1.alters.maxPages
      · intro j w' hj
        have hjl : j < os.length := by
          rw [hlw]
          exact (List.getElem?_eq_some_iff.mp hj).1
        rw [hs1 _ (by omega) (by omega), Nat.add_assoc, Nat.add_comm 1]
        exact hl (j + 1) w' hj
      · intro loc2 σ2 ρ2 hp2 hW2 hG2 hn2 hlen2 hb2 hs2
        refine hk loc2 σ2 ρ2 (hp1.trans hp2) hW2 (hG1.trans hG2) (by omega) (by omega) ?_ ?_
        · intro j v' hj
          cases j with
          | zero =>
            cases hj
            refine ⟨i, rfl, ?_⟩
            rw [hs2 i (by omega) (by omega)]
            exact hb1.change hG2.alters.nextFree (fun a ha => (hG2.frozen ha).1) (fun a ha => (hG2.frozen ha).2) hp2
          | succ j => exact hb2 j v' hj
        · intro q hq1 hq2
          rw [hs2 q (by omega) (by omega), hs1 q (by omega) (by omega)]

theorem bindArgs_length : ∀ (os : List Opd) (M : Mem), (bindArgs os M).1.length = os.length
  | [], _ => rfl
  | o :: os, M => by rw [bindArgs_cons, List.length_cons, List.length_cons, bindArgs_length os]

/-- A compiled function behaves as its Move counterpart if those before it do. -/
theorem compileFun_ok {E : ErrPtrs} {P : Prog} {A : MFun → Cfg → Prop} {U : Nat} {tbl : List (MFun × Fn)} {F : MFun}
    {flow : Flow} {fn : Fn} (hE : E.Valid) (hU : 400 ≤ U) (ha : 64 * F.args.length ≤ U) (hr : tupleSize F.rets ≤ U)
    (hA : ∀ F c, A F c → ¬ Excluded F c)
    (htbl : ∀ (f : Nat) G fn, tbl[f]? = some (G, fn) → P.funs[f]? = some G ∧ FnOk P A E U G fn)
    (hfit : flow.fits F = true) (hc : compileFun E P.consts tbl F flow = some fn) : FnOk P A E U F fn := by
  unfold compileFun at hc
  dsimp only at hc
  split at hc
  case h_2 => cases hc
  rename_i is g htr
  cases hc
  intro args ws σ n h M ρ m fr hW hargs hws hruns hroom htold
  have hσ := hW.heap
  have hna : args.length = F.args.length := by rw [← hargs, List.length_map]
  have hnw : ws.length = F.args.length := by rw [← hws.length, hna]
  have hres := boxArgs_next F.args 0 (F.args.length + F.locals.length)
  obtain ⟨hb0, hb1, hb2⟩ := boxArgs_map F.args 0 (F.args.length + F.locals.length) (by omega)
  have hg := trFlow_next htr
  dsimp only at hg
  unfold Flow.fits at hfit
  rw [Bool.and_eq_true, beq_iff_eq] at hfit
  rw [Nat.mul_add, Nat.mul_one] at hroom
  obtain ⟨x, hx⟩ : ∃ x : Ctx, x = ⟨E, P.consts, tbl, F, (boxArgs F.args 0 (F.args.length + F.locals.length)).2.1 ++
    (List.range F.locals.length).map (F.args.length + ·), (boxArgs F.args 0 (F.args.length + F.locals.length)).2.2⟩ := ⟨_, rfl⟩
  rw [← hx] at htr
  have hok : (Env.mk P A x h U (σ.nextFree + U * (n + 1)) g.next σ ρ (Own ρ M m fr) fr).Ok := by
    subst hx
    refine ⟨hE, rfl, ?_, ?_, hU, hr, hA, htbl, hσ, hW.low, htold⟩
    · refine List.nodup_append'.mpr ⟨hb1, ?_, ?_⟩
      · exact List.nodup_range.map (fun a b h => by simpa using h)
      · intro p hp hq
        obtain ⟨j, hj, rfl⟩ := List.mem_map.mp hq
        rw [List.mem_range] at hj
        rcases hb2 _ hp with h | h <;> omega
    · intro p hp
      dsimp only at hp ⊢
      rcases List.mem_append.mp hp with hp | hp
      · rcases hb2 _ hp with h | h <;> omega
      · obtain ⟨j, hj, rfl⟩ := List.mem_map.mp hp
        rw [List.mem_range] at hj
        omega
  -- the body
  have key : ∀ (tail : List Instr) (Q : Res → Prop),
      (∀ vs M' ρ' m' ws' loc σ', h = .ret vs M' → World σ' ρ' M' (Own ρ' M' m' fr) →
        Grows fr σ (Own ρ M m fr) σ' (Own ρ' M' m' fr) → ρ <+: ρ' → σ'.nextFree ≤ σ.nextFree + U * (n + 1) →
        OpdsRep σ' (Frozen σ' (Own ρ' M' m' fr)) ρ' vs ws' m' →
        (vs = [] ∨ TupleAt σ' (vs.map (·.ty)) ws' (lget loc x.res)) → wp tail [] loc σ' Q) →
      (∀ s σ', Failed E P.consts (fun x => Own ρ M m fr x ≠ 0 ∧ fr x = 0) σ h σ' → Q (.ret s σ')) → (h = .divZero → Q .trap) →
      wp ((boxArgs F.args 0 (F.args.length + F.locals.length)).1 ++ code[.block 0 is] ++ tail) []
        (ws ++ List.replicate (g.next - F.args.length) 0) σ Q := by
    intro tail Q hret hfail htrap
    have hloc : (ws ++ List.replicate (g.next - F.args.length) 0).length = g.next := by
      rw [List.length_append, List.length_replicate]; omega
    have hget : ∀ (j : Nat) w, ws[j]? = some w → lget (ws ++ List.replicate (g.next - F.args.length) 0) j = w := by
      intro j w hj
      exact lget_append hj
    generalize ws ++ List.replicate (g.next - F.args.length) 0 = loc0 at hloc hget
    rw [List.append_assoc, ← hargs]
    refine wp_boxArgs args ws 0 _ _ σ ρ M m hW (hroom.mono (by omega)) hws ?_ (by simp) ?_ ?_
    · intro j w hj
      rw [Nat.zero_add]
      exact hget j w hj
    · rw [hargs, hloc]; omega
    intro loc' σ' ρ' hp1 hW1 hG1 hn1 hlen1 hbox hsame
    rw [hargs] at hbox
    have hat : At (Env.mk P A x h U (σ.nextFree + U * (n + 1)) g.next σ ρ (Own ρ M m fr) fr) n (F.start args M) [] loc' σ' := by
      subst hx
      refine ⟨hruns, ⟨ρ', fun _ => 0, ⟨hW1, hlen1.trans hloc, fun _ => rfl, ?_⟩, hG1, hp1⟩, ?_, ?_⟩
      · intro i v hi
        unfold MFun.start at hi
        dsimp only at hi
        rw [List.getElem?_append] at hi
        split_ifs at hi with hil
        · rw [bindArgs_length, hna] at hil
          obtain ⟨p, hp, hb⟩ := hbox i v hi
          exact ⟨p, by rw [List.getElem?_append_left (by rw [hb0]; exact hil), hp], hb⟩
        · rw [List.getElem?_map] at hi
          obtain ⟨v', hv', he⟩ := Option.map_eq_some_iff.mp hi
          cases he
      · refine Room.after (k := U) (hroom.mono (by dsimp only; omega)) (by omega) hG1.alters.maxPages
      · dsimp only
        rw [Nat.mul_add, Nat.mul_one]
        omega
    rw [List.cons_append, List.nil_append, wp_block, ← List.append_nil is]
    refine sim_flow hok flow [(.result, none)] none _ is g n [] loc' σ' [] _ (by subst hx; exact hfit.2) htr
      (by subst hx; exact Nat.lt_succ_self _) (Nat.le_refl _) (Start.of (Nat.le_refl _) hfit.1 hat) ?_
    intro r hp
    apply contS_nil
    cases r with
    | ok s2 loc2 σ2 =>
      obtain ⟨-, k, -, c2, hc2, -⟩ := hp
      cases hc2
    | br d s2 loc2 σ2 =>
      match d with
      | 0 =>
        rcases hp with ⟨k, hk', c2, tg, hc2, h2⟩ | ⟨-, vs, M', ρ2, m', ws', hh, hW2, hG2, hp2, hn2, hrep, ht⟩
        · rw [List.getElem?_cons_zero, Option.some.injEq, Prod.mk.injEq] at hc2
          cases hc2.2
        · exact hret vs M' ρ2 m' ws' loc2 σ2 hh hW2 hG2 hp2 hn2 hrep ht
      | d + 1 =>
        rcases hp with ⟨k, hk', c2, tg, hc2, h2⟩ | ⟨⟨q, hq⟩, -⟩
        · simp at hc2
        · simp at hq
    | ret s2 σ2 =>
      subst hx
      exact hfail s2 σ2 hp
    | trap => exact htrap hp
    | oof => exact hp
  have fails : ∀ h', h = h' → (∀ vs M, h' ≠ .ret vs M) → h' ≠ .divZero →
      Fn.Calls ⟨F.args.length, F.retTy.nr, g.next - F.args.length,
        (boxArgs F.args 0 (F.args.length + F.locals.length)).1 ++ code[.block 0 is] ++
          if F.rets = [] then [] else code[Op.lget (boxArgs F.args 0 (F.args.length + F.locals.length)).2.2]⟩
        ws σ (fun _ σ' => Failed E P.consts (fun x => Own ρ M m fr x ≠ 0 ∧ fr x = 0) σ h' σ') := by
    rintro h' rfl h1 h2
    refine ⟨hnw, key _ _ ?_ ?_ ?_⟩
    · intro vs M' ρ' m' ws' loc σ' hh; exact absurd hh (h1 vs M')
    · exact fun s σ' hf => hf
    · intro hh; exact absurd hh h2
  have hx' : x.res = (boxArgs F.args 0 (F.args.length + F.locals.length)).2.2 := by rw [hx]
  cases h with
  | ret vs M' =>
    have hty := hruns.ret_ty vs M' rfl
    refine ⟨hnw, key _ _ ?_ ?_ ?_⟩
    · intro vs' M2 ρ' m' ws' loc σ' hh hW2 hG2 hp2 hn2 hrep ht
      cases hh
      by_cases hrets : F.rets = []
      · rw [if_pos hrets]
        have : vs = [] := by rw [hrets] at hty; simpa using hty
        subst this
        rw [wp_nil, retK_ok]
        have h0 : ∀ x, m' x = 0 := by
          cases ws' with
          | nil => exact hrep
          | cons => exact hrep.elim
        exact ⟨ρ', m', hp2, hW2, hG2, hn2, .inl ⟨rfl, by simp, h0⟩⟩
      · rw [if_neg hrets, wp_lget, wp_nil, retK_ok]
        have hne : vs ≠ [] := by rintro rfl; exact hrets hty.symm
        refine ⟨ρ', m', hp2, hW2, hG2, hn2, .inr ⟨hne, _, ws', ?_, ht.resolve_left hne, hrep⟩⟩
        rw [hx']
        simp [MFun.retTy, hrets, RetTy.nr]
    · intro s σ' hf; exact hf.elim
    · intro hh; cases hh
  | divZero =>
    refine ⟨hnw, key _ _ ?_ ?_ ?_⟩
    · intro vs M' ρ' m' ws' loc σ' hh; cases hh
    · intro s σ' hf; exact hf.elim
    · intro _; rfl
  | abort c => exact fails _ rfl (fun _ _ h => by cases h) (fun h => by cases h)
  | arith f => exact fails _ rfl (fun _ _ h => by cases h) (fun h => by cases h)

theorem compileFuns_ok {E : ErrPtrs} {P : Prog} {A : MFun → Cfg → Prop} {U : Nat} (hE : E.Valid) (hU : 400 ≤ U)
    (hF : ∀ F ∈ P.funs, 64 * F.args.length ≤ U ∧ tupleSize F.rets ≤ U) (hA : ∀ F c, A F c → ¬ Excluded F c) :
    ∀ (zs : List (MFun × Flow)) (tbl tbl' : List (MFun × Fn)), compileFuns E P.consts zs tbl = some tbl' →
    P.funs = tbl.map (·.1) ++ zs.map (·.1) → (∀ z ∈ zs, z.2.fits z.1 = true) →
    (∀ f : Nat, ∀ G fn, tbl[f]? = some (G, fn) → FnOk P A E U G fn) →
    P.funs = tbl'.map (·.1) ∧ ∀ f : Nat, ∀ G fn, tbl'[f]? = some (G, fn) → FnOk P A E U G fn
  | [], tbl, tbl', hc, hp, hfit, htbl => by
    cases hc
    exact ⟨by simpa using hp, htbl⟩
  | (F, flow) :: zs, tbl, tbl', hc, hp, hfit, htbl => by
    simp only [compileFuns] at hc
    split at hc
    case h_2 => cases hc
    rename_i fn hfn
    have hmem : F ∈ P.funs := by rw [hp]; simp
    have hok := compileFun_ok hE hU (hF F hmem).1 (hF F hmem).2 hA (tbl := tbl) (fun f G fn h => ⟨?_, htbl f G fn h⟩)
      (hfit _ (List.mem_cons_self ..)) hfn
    · refine compileFuns_ok hE hU hF hA zs _ tbl' hc (by rw [hp]; simp) (fun z hz => hfit z (List.mem_cons_of_mem _ hz)) ?_
      intro f G fn' h
      rw [List.getElem?_append] at h
      split_ifs at h with hf
      · exact htbl f G fn' h
      · rw [List.getElem?_singleton] at h
        split_ifs at h
        cases h
        exact hok
    · rw [hp, List.getElem?_append_left (by simpa using (List.getElem?_eq_some_iff.mp h).1), List.getElem?_map, h]
      rfl

/-- A compiled program behaves as the Move program. -/
theorem compileProg_ok {E : ErrPtrs} {P : Prog} {A : MFun → Cfg → Prop} {U : Nat} {flows : List Flow}
    {tbl : List (MFun × Fn)} (hE : E.Valid) (hU : 400 ≤ U)
    (hF : ∀ F ∈ P.funs, 64 * F.args.length ≤ U ∧ tupleSize F.rets ≤ U) (hA : ∀ F c, A F c → ¬ Excluded F c)
    (hfit : ∀ z ∈ P.funs.zip flows, z.2.fits z.1 = true) (hc : compileProg E P flows = some tbl) :
    P.funs = tbl.map (·.1) ∧ ∀ f : Nat, ∀ G fn, tbl[f]? = some (G, fn) → FnOk P A E U G fn := by
  unfold compileProg at hc
  split_ifs at hc with hl
  refine compileFuns_ok hE hU hF hA _ [] tbl hc ?_ hfit (fun f G fn h => by simp at h)
  rw [List.map_nil, List.nil_append, List.map_fst_zip (by omega)]

end Move
