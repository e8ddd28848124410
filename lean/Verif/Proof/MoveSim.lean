import Verif.Proof.MoveCalls
import Verif.Proof.MoveQuery

/-! The translation of straight-line code simulates the Move machine. -/

namespace Move
open Wasm Rt

/-- What is fixed during the execution of a function. -/
structure Env where
  P : Prog
  A : MFun → Cfg → Prop
  x : Ctx
  /-- how the execution will end -/
  h : Halt
  /-- bytes allocated by an instruction -/
  U : Nat
  /-- end of the memory that may be used -/
  B : Nat
  /-- number of WebAssembly locals -/
  L : Nat
  /-- state at the beginning of the function -/
  σ0 : Store
  /-- cells at the beginning of the function -/
  ρ0 : List Nat
  /-- owners at the beginning of the function -/
  own0 : Nat → Nat
  /-- operands of the calling functions -/
  fr : Nat → Nat

/-- A function behaves as its Move counterpart. -/
def FnOk (P : Prog) (A : MFun → Cfg → Prop) (E : ErrPtrs) (U : Nat) (G : MFun) (fn : Fn) : Prop :=
  ∀ args ws σ n h M ρ m fr, World σ ρ M (Own ρ M m fr) → args.map (·.ty) = G.args →
    ArgsRep σ (Frozen σ (Own ρ M m fr)) ρ args ws m →
    Runs P A G (G.start args M) n h → Room σ (U * (n + 1)) → Truthful P σ.host →
    Ends E P.consts fn ws σ (U * (n + 1)) ρ (Own ρ M m fr) fr h

structure Env.Ok (e : Env) : Prop where
  err : e.x.E.Valid
  consts : e.x.consts = e.P.consts
  inj : e.x.map.Nodup
  lt : ∀ p ∈ e.x.map, p < e.x.res
  room : 400 ≤ e.U
  rets : tupleSize e.x.F.rets ≤ e.U
  excl : ∀ F c, e.A F c → ¬ Excluded F c
  tbl : ∀ (f : Nat) G fn, e.x.tbl[f]? = some (G, fn) → e.P.funs[f]? = some G ∧ FnOk e.P e.A e.x.E e.U G fn
  base : Heap e.σ0
  low : ∀ x, e.own0 x ≠ 0 → reserved ≤ x ∧ x < e.σ0.nextFree
  told : Truthful e.P e.σ0.host

/-- The place a local refers to. -/
def Loc.place : Loc → Place
  | .box p => p
  | .ref r => r.place

/-- The locals and the memory represent the state of the Move function. -/
structure Sim (x : Ctx) (L : Nat) (fr : Nat → Nat) (c : Cfg) (s loc : List Nat) (σ : Store) (ρ : List Nat)
    (m : Nat → Nat) : Prop where
  world : World σ ρ c.mem (Own ρ c.mem m fr)
  len : loc.length = L
  stack : OpdsRep σ (Frozen σ (Own ρ c.mem m fr)) ρ c.stack s m
  locals : ∀ (i : Nat) (lo : Loc), c.locals[i]? = some (some lo) →
    ∃ p, x.map[i]? = some p ∧ SlotAt σ (Frozen σ (Own ρ c.mem m fr)) ρ lo.place (lget loc p)

/-- The translation knows the types on the operand stack. -/
structure GOk (x : Ctx) (g : CG) (c : Cfg) : Prop where
  next : x.res < g.next
  tys : ∃ r, g.tys = c.stack.map (·.ty) ++ r
  clever : ∀ e, g.clever = some e → ∀ v s, c.stack = v :: s → v = .num ⟨.int (.reg .u64), e⟩ ∧ e / 2 ^ 48 = 0x8000

/-- What happens after an instruction. -/
def OpK (x : Ctx) (consts : List Const) (L : Nat) (fr : Nat → Nat) (g : CG) (is : List Instr) (σ : Store) (ρ : List Nat)
    (own : Nat → Nat) (W : Nat) (Q : Res → Prop) : Act → Prop
  | .next c => ∀ s loc σ' ρ' m', Sim x L fr c s loc σ' ρ' m' → Grows fr σ own σ' (Own ρ' c.mem m' fr) → ρ <+: ρ' →
      σ'.nextFree ≤ σ.nextFree + 400 * W → GOk x g c → wp is s loc σ' Q
  | .halt .divZero => Q .trap
  | .halt (.arith f) => ∀ stk σ', Failed x.E consts (fun a => own a ≠ 0 ∧ fr a = 0) σ (.arith f) σ' → Q (.ret stk σ')
  | _ => False

variable {x : Ctx} {P : Prog} {L : Nat} {fr : Nat → Nat} {c c' : Cfg} {s loc : List Nat} {σ σ' : Store} {g g' : CG}
variable {is is0 : List Instr} {Q : Res → Prop} {b : Bc} {act : Act} {consts : List Const} {ρ ρ' : List Nat}
variable {m m1 m1' m2 : Nat → Nat} {W : Nat}

theorem frozen_lt {own : Nat → Nat} : ∀ a, Frozen σ own a → a < σ.nextFree := fun _ h => h.1

/-- A step: the operands `os2` stay, the others are replaced by `os1`. -/
theorem Sim.step (h : Sim x L fr c s loc σ ρ m) {os1 os2 : List Opd} {ws1 ws2 loc' : List Nat}
    (h2 : OpdsRep σ (Frozen σ (Own ρ c.mem m fr)) ρ os2 ws2 m2) (hm : ∀ a, m2 a ≤ m a) (hp : ρ <+: ρ')
    (hW : World σ' ρ' c'.mem (Own ρ' c'.mem (fun a => m1' a + m2 a) fr))
    (hG : Grows (fun a => fr a + m2 a) σ (Own ρ c.mem m fr) σ' (Own ρ' c'.mem (fun a => m1' a + m2 a) fr))
    (h1 : OpdsRep σ' (Frozen σ' (Own ρ' c'.mem (fun a => m1' a + m2 a) fr)) ρ' os1 ws1 m1')
    (hc : c'.stack = os1 ++ os2) (hl : loc'.length = L)
    (hloc : ∀ (i : Nat) (lo : Loc), c'.locals[i]? = some (some lo) →
      (c.locals[i]? = some (some lo) ∧ ∀ p, x.map[i]? = some p → lget loc' p = lget loc p) ∨
      ∃ p, x.map[i]? = some p ∧ SlotAt σ' (Frozen σ' (Own ρ' c'.mem (fun a => m1' a + m2 a) fr)) ρ' lo.place (lget loc' p)) :
    Sim x L fr c' (ws1 ++ ws2) loc' σ' ρ' (fun a => m1' a + m2 a) ∧
      Grows fr σ (Own ρ c.mem m fr) σ' (Own ρ' c'.mem (fun a => m1' a + m2 a) fr) := by
  have hF := fun a (ha : Frozen σ (Own ρ c.mem m fr) a) => (hG.frozen ha).1
  have hM := fun a (ha : Frozen σ (Own ρ c.mem m fr) a) => (hG.frozen ha).2
  have hM2 : ∀ a, m2 a ≠ 0 → σ'.mem a = σ.mem a := by
    intro a ha
    refine hG.outer ?_ (show fr a + m2 a ≠ 0 by omega)
    by_contra hge
    have := (h.world.high (x := a) (by omega)).2.1
    have := hm a
    omega
  refine ⟨⟨hW, hl, ?_, ?_⟩, hG.mono fun a ha => by show fr a + m2 a ≠ 0; omega⟩
  · rw [hc]
    exact (h2.change hG.alters.nextFree hF hM hp hM2).append h1
  · intro i lo hi
    rcases hloc i lo hi with ⟨g1, g2⟩ | g
    · obtain ⟨p, g3, g4⟩ := h.locals i lo g1
      exact ⟨p, g3, by rw [g2 p g3]; exact g4.change hG.alters.nextFree hF hM hp⟩
    · exact g

/-- A step that does not touch the locals and cells. -/
theorem Sim.trade (h : Sim x L fr c s loc σ ρ m) (hlt : ∀ p ∈ x.map, p < x.res) {l : Nat} (hg : x.res < l)
    {os1 os2 : List Opd} {ws1 ws2 loc' : List Nat}
    (h2 : OpdsRep σ (Frozen σ (Own ρ c.mem m fr)) ρ os2 ws2 m2) (hm : ∀ a, m a = m1 a + m2 a)
    (t : Trades σ σ' m1 m1')
    (h1 : OpdsRep σ' (fun a => Frozen σ (Own ρ c.mem m fr) a ∨ New σ σ' m1' a) ρ os1 ws1 m1')
    (hs : SameLocs l loc loc') (hc : c'.stack = os1 ++ os2) (hc1 : c'.locals = c.locals) (hc2 : c'.mem = c.mem) :
    ∃ m', Sim x L fr c' (ws1 ++ ws2) loc' σ' ρ m' ∧
      Grows fr σ (Own ρ c.mem m fr) σ' (Own ρ c'.mem m' fr) := by
  obtain ⟨hW, hG, hN⟩ := h.world.trade hm t
  rw [← hc2] at hW hG hN
  have hG' : Grows (fun a => fr a + m2 a) σ (Own ρ c.mem m fr) σ' (Own ρ c'.mem (fun a => m1' a + m2 a) fr) := by
    rw [← hc2]; exact hG
  refine ⟨_, h.step h2 (fun a => by have := hm a; omega) (List.prefix_refl ρ) hW hG'
    (h1.change (Nat.le_refl _) ?_ (fun _ _ => rfl) (List.prefix_refl ρ) (fun _ _ => rfl)) hc (hs.length.trans h.len) ?_⟩
  · rintro a (ha | ha)
    · exact (hG'.frozen ha).1
    · exact hN a ha
  · intro i lo hi
    rw [hc1] at hi
    refine .inl ⟨hi, fun p hp => ?_⟩
    have := hlt p (List.mem_of_getElem? hp)
    exact hs.get p (by omega)

theorem work_pos {F : MFun} {c : Cfg} : 1 ≤ work F c := by unfold work; omega

/-- An instruction that pushes the result of an operation. -/
theorem OpK.ev {ev : Ev} {vs : List Opd} {r : STy} {ts : List Ty} {k : Nat} (h : Sim x L fr c s loc σ ρ m) (hlt : ∀ p ∈ x.map, p < x.res)
    (hg : x.res < g.next) {ws : List Nat} (hvs : OpdsRep σ (Frozen σ (Own ρ c.mem m fr)) ρ vs ws m2)
    (hm : ∀ a, m a = m1 a + m2 a) (hW : 1 ≤ W)
    (hty : ∀ v, ev = .val v → v.ty = r) (hts : ∃ q, ts = vs.map (·.ty) ++ q)
    (hk : OpK x consts L fr (g.push (.sc r) ts k) is σ ρ (Own ρ c.mem m fr) W Q (ev.act c vs)) :
    EvK x.E x.ty is ws loc g.next σ Q ev := by
  cases ev with
  | val v =>
    intro w loc' σ' hw hf hx hn hs
    have ht : Trades σ σ' m1 (fun a => if v.ty.isReg then 0 else ind w v.ty.bytes a) := by
      refine Trades.made hx (fun a => ?_) (fun a ha => ?_)
      · split
        · omega
        · exact ind_le
      · split_ifs at ha with hr
        · exact absurd rfl ha
        have hb : Cell σ' v w := by unfold Cell; rw [if_neg hr]; exact hw
        have := hb.bound
        have := ind_pos.mp ha
        have := hf (by simpa using hr)
        omega
    obtain ⟨m', g1, g2⟩ := h.trade (c' := c.push (.num v) vs) hlt hg
      (os1 := [.num v]) (ws1 := [w]) hvs hm ht ⟨_, fun _ => 0, ⟨hw, fun _ => rfl⟩, fun _ => rfl, fun _ => rfl⟩ hs rfl rfl rfl
    refine hk (w :: ws) loc' σ' ρ m' g1 g2 (List.prefix_refl ρ) (by omega) ⟨?_, ?_, fun e he => by cases he⟩
    · show x.res < g.next + k; omega
    · obtain ⟨q, rfl⟩ := hts
      exact ⟨q, by rw [← hty v rfl]; rfl⟩
  | fail f => intro e σ' he hx; exact hk _ _ ⟨e, he, hx.alters⟩
  | divZero => exact hk

theorem push_ev {v : MVal} {vs : List Opd} : Act.next (c.push (.num v) vs) = (Ev.val v).act c vs := rfl

theorem lookup_locals {i : Nat} {a : Option Loc} {v : Loc} {ls : List (Option Loc)} {j : Nat}
    (h : (ls.set i a)[j]? = some (some v)) : (j = i ∧ a = some v) ∨ (j ≠ i ∧ ls[j]? = some (some v)) := by
  rw [List.getElem?_set] at h
  split_ifs at h with h1 h2
  · subst h1; exact .inl ⟨rfl, Option.some.inj h⟩
  · exact .inr ⟨fun e => h1 e.symm, h⟩

theorem OpdsRep.one {Fz : Nat → Prop} {o : Opd} {w : Nat} (h : OpdRep σ Fz ρ o w m) : OpdsRep σ Fz ρ [o] [w] m :=
  ⟨m, fun _ => 0, h, fun _ => rfl, fun _ => rfl⟩

/-- The operand on top. -/
theorem OpdsRep.top {Fz : Nat → Prop} {o : Opd} {os : List Opd} (h : OpdsRep σ Fz ρ (o :: os) s m) :
    ∃ w ws m1 m2, s = w :: ws ∧ OpdRep σ Fz ρ o w m1 ∧ OpdsRep σ Fz ρ os ws m2 ∧ ∀ a, m a = m1 a + m2 a := by
  cases s with
  | nil => exact h.elim
  | cons w ws => obtain ⟨m1, m2, h1, h2, h3⟩ := h; exact ⟨w, ws, m1, m2, rfl, h1, h2, h3⟩

theorem Sim.opd_lt (h : Sim x L fr c s loc σ ρ m) {a : Nat} (ha : m a ≠ 0) : a < σ.nextFree := by
  by_contra hge
  exact ha (h.world.high (x := a) (by omega)).2.1

theorem map_inj {i j p : Nat} (hinj : x.map.Nodup) (hi : x.map[i]? = some p) (hj : x.map[j]? = some p) : i = j :=
  (List.getElem?_inj (by obtain ⟨h8, -⟩ := List.getElem?_eq_some_iff.mp hi; exact h8) hinj).mp (hi.trans hj.symm)

/-- Numbers in registers or on the heap, as operands. -/
theorem OpdRep.num {Fz : Nat → Prop} {v : MVal} {w : Nat} (h : OpdRep σ Fz ρ (.num v) w m) : RepV σ v w := h.1

/-- As `Sim.trade`. -/
theorem OpK.trade (h : Sim x L fr c s loc σ ρ m) (hlt : ∀ p ∈ x.map, p < x.res) {l : Nat} (hg : x.res < l)
    {os1 os2 : List Opd} {ws1 ws2 loc' : List Nat}
    (h2 : OpdsRep σ (Frozen σ (Own ρ c.mem m fr)) ρ os2 ws2 m2) (hm : ∀ a, m a = m1 a + m2 a)
    (t : Trades σ σ' m1 m1')
    (h1 : OpdsRep σ' (fun a => Frozen σ (Own ρ c.mem m fr) a ∨ New σ σ' m1' a) ρ os1 ws1 m1')
    (hs : SameLocs l loc loc') (hn : σ'.nextFree ≤ σ.nextFree + 400 * W) (hc : c'.stack = os1 ++ os2)
    (hc1 : c'.locals = c.locals) (hc2 : c'.mem = c.mem) (hgo : GOk x g' c')
    (hk : OpK x consts L fr g' is σ ρ (Own ρ c.mem m fr) W Q (.next c')) : wp is (ws1 ++ ws2) loc' σ' Q := by
  obtain ⟨m', g1, g2⟩ := h.trade hlt hg h2 hm t h1 hs hc hc1 hc2
  exact hk _ _ _ _ _ g1 g2 (List.prefix_refl ρ) hn hgo

/-- An instruction that only changes the operands on the stack. -/
theorem OpK.keep (h : Sim x L fr c s loc σ ρ m) (hlt : ∀ p ∈ x.map, p < x.res) {l : Nat} (hg : x.res < l)
    {os1 os2 : List Opd} {ws1 ws2 loc' : List Nat}
    (h2 : OpdsRep σ (Frozen σ (Own ρ c.mem m fr)) ρ os2 ws2 m2) (hm : ∀ a, m a = m1 a + m2 a)
    (hm' : ∀ a, m1' a ≤ m1 a) (h1 : OpdsRep σ (Frozen σ (Own ρ c.mem m fr)) ρ os1 ws1 m1')
    (hs : SameLocs l loc loc') (hc : c'.stack = os1 ++ os2)
    (hc1 : c'.locals = c.locals) (hc2 : c'.mem = c.mem) (hgo : GOk x g' c')
    (hk : OpK x consts L fr g' is σ ρ (Own ρ c.mem m fr) W Q (.next c')) : wp is (ws1 ++ ws2) loc' σ Q :=
  OpK.trade h hlt hg h2 hm (Trades.refl h.world.heap hm' fun a ha => h.opd_lt (by have := hm a; omega))
    (h1.change (Nat.le_refl _) (fun _ => .inl) (fun _ _ => rfl) (List.prefix_refl ρ) (fun _ _ => rfl)) hs (by omega) hc hc1 hc2 hgo hk

theorem GOk.push {o : Opd} {vs : List Opd} {ts r : List Ty} {k : Nat} (hn : x.res < g.next) (hts : ts = vs.map (·.ty) ++ r) :
    GOk x (g.push o.ty ts k) (c.push o vs) :=
  ⟨by show x.res < g.next + k; omega, ⟨r, by rw [hts]; rfl⟩, fun e he => by cases he⟩

/-- Equality of operands that are not both numbers. -/
theorem sim_eq {o : BOp} {y z : Opd} {vs : List Opd} (hlt : ∀ p ∈ x.map, p < x.res)
    (h : Sim x L fr c s loc σ ρ m) (hg : GOk x g c) (hst : c.stack = y :: z :: vs) (hW : 1 ≤ W)
    (hne : ∀ u v, y = .num u → z = .num v → False) (htr : trOp x g (.bin o) = some (is0, g')) (hL : g'.next ≤ L)
    (he : exec P x.F c (.bin o) = some act)
    (hk : OpK x consts L fr g' is σ ρ (Own ρ c.mem m fr) W Q act) : wp (is0 ++ is) s loc σ Q := by
  have hσ := h.world.heap
  obtain ⟨r, hty⟩ := hg.tys
  have hn := hg.next
  have hlen := h.len
  have hstk := h.stack
  rw [hst] at hstk hty
  obtain ⟨w', s1, my, mr, rfl, hy, hstk, hm1⟩ := hstk.top
  obtain ⟨w, s2, mz, mr', rfl, hz, hstk, hm2⟩ := hstk.top
  have hm : ∀ a, m a = (my a + mz a) + mr' a := fun a => by have := hm1 a; have := hm2 a; omega
  -- the answer
  have fin : ∀ (k : Nat) (b : Bool) (loc' : List Nat), SameLocs g.next loc loc' →
      OpK x consts L fr (g.push (.sc .bool) (vs.map (·.ty) ++ r) k) is σ ρ (Own ρ c.mem m fr) W Q
        (.next (c.push (.num (bool (b = true))) vs)) →
      wp is ((if b = true then 1 else 0) :: s2) loc' σ Q := by
    intro k b loc' hs hk
    rw [push_ev] at hk
    exact OpK.ev (ev := .val (bool (b = true))) (r := .bool) h hlt hn hstk hm hW (fun v hv => by cases hv; rfl) ⟨r, rfl⟩ hk _ loc' σ
      (repV_bool rfl) (fun h0 => by cases h0) hσ.refl (by omega) hs
  have hev : ∃ b, eqOpd c.mem z y = some b ∧ ((o = .eq ∧ act = .next (c.push (.num (bool (b = true))) vs)) ∨
      (o = .neq ∧ act = .next (c.push (.num (bool (b ≠ true))) vs))) := by
    simp only [exec] at he
    split at he
    · rename_i u v s' hst'
      rw [hst] at hst'
      cases hst'
      exact (hne _ _ rfl rfl).elim
    · rename_i y' z' s' hst'
      rw [hst] at hst'
      cases hst'
      split at he
      · obtain ⟨b, h1, h2⟩ := Option.map_eq_some_iff.mp he
        exact ⟨b, h1, .inl ⟨rfl, h2.symm⟩⟩
      · obtain ⟨b, h1, h2⟩ := Option.map_eq_some_iff.mp he
        exact ⟨b, h1, .inr ⟨rfl, h2.symm⟩⟩
      · cases he
    · cases he
  obtain ⟨b, hb, ho⟩ := hev
  have hns : ∀ u v, ¬ (y.ty = .sc u ∧ z.ty = .sc v) := by
    rintro u v ⟨h1, h2⟩
    cases y with
    | ref r => cases h1
    | data d =>
      cases d with
      | struct id ds => cases h1
      | num n =>
        cases z with
        | ref r => cases h2
        | data d' =>
          cases d' with
          | struct id ds => cases h2
          | num n' => exact hne _ _ rfl rfl
  -- the code
  have hcode : z.ty = y.ty ∧ ∃ is1 k, eqTy x.E y.ty g.next = some (is1, k) ∧ g' = g.push (.sc .bool) (vs.map (·.ty) ++ r) k ∧
      is0 = if o = .eq then is1 else is1 ++ negate := by
    simp only [trOp] at htr
    split at htr
    · rename_i t u ts heq
      rw [hty] at heq
      simp only [List.map_cons, List.cons_append, List.cons.injEq] at heq
      exact (hns _ _ ⟨heq.1, heq.2.1⟩).elim
    · rename_i t u ts _ heq
      rw [hty] at heq
      simp only [List.map_cons, List.cons_append, List.cons.injEq] at heq
      obtain ⟨rfl, rfl, rfl⟩ := heq
      split_ifs at htr with h1
      refine ⟨h1, ?_⟩
      split at htr
      · rename_i is1 k heq
        cases htr
        exact ⟨_, k, heq, rfl, by rw [if_pos rfl]⟩
      · rename_i is1 k heq
        cases htr
        exact ⟨_, k, heq, rfl, by rw [if_neg (by simp)]⟩
      · cases htr
    · cases htr
  obtain ⟨htt, is1, k, hc, rfl, rfl⟩ := hcode
  have hl : g.next + k ≤ loc.length := by rw [hlen]; exact hL
  -- the comparison
  have main : ∀ js : List Instr, (∀ loc', SameLocs g.next loc loc' → wp js ((if b = true then 1 else 0) :: s2) loc' σ Q) →
      wp (is1 ++ js) (w' :: w :: s2) loc σ Q := by
    intro js hjs
    cases y with
    | data d' =>
      cases z with
      | ref r => simp [eqOpd] at hb
      | data d =>
        simp only [eqOpd] at hb
        split_ifs at hb with ht
        obtain rfl := Option.some.inj hb
        have hr : d.isReg = false := by
          cases d with
          | struct id ds => rfl
          | num n =>
            cases d' with
            | struct id ds => cases ht
            | num n' => exact (hne _ _ rfl rfl).elim
        refine wp_eqTy_data hσ ht frozen_lt hz hy hr (by rw [show d.ty = (Opd.data d').ty from ht]; exact hc) hl ?_
        simpa only [decide_eq_true_eq] using hjs
    | ref r' =>
      cases z with
      | data d => simp [eqOpd] at hb
      | ref r0 =>
        simp only [eqOpd] at hb
        split at hb
        · rename_i d d' hd hd'
          split_ifs at hb with ht
          obtain rfl := Option.some.inj hb
          obtain ⟨t1, t2, t3, t4⟩ := ht
          refine wp_eqTy_ref (mb := r'.m) h.world (t2.trans (t1.trans t3.symm)) frozen_lt hz.1 hy.1 hd hd'
            (by rw [t2, t1]; exact hc) hl ?_
          simpa only [decide_eq_true_eq] using hjs
        · cases hb
  rcases ho with ⟨rfl, rfl⟩ | ⟨rfl, rfl⟩
  · rw [if_pos rfl]
    exact main is fun loc' hs => fin k b loc' hs hk
  · rw [if_neg (by simp), List.append_assoc]
    refine main _ fun loc' hs => ?_
    simp only [negate, List.cons_append, List.nil_append, wp_c32, wp_ne]
    have := fin k (!b) loc' hs (by cases b <;> exact hk)
    cases b <;> exact this

/-- A copy of the value at a place is pushed. -/
theorem sim_copy {d : Data} {q l : Nat} {p : Place} {vs : List Opd} {ws : List Nat} {ts r : List Ty} (hlt : ∀ p ∈ x.map, p < x.res)
    (h : Sim x L fr c s loc σ ρ m) (hn : x.res < g.next)
    (hvs : OpdsRep σ (Frozen σ (Own ρ c.mem m fr)) ρ vs ws m2) (hm : ∀ a, m a = m2 a) (hts : ts = vs.map (·.ty) ++ r)
    (hp : PlaceAt σ (Frozen σ (Own ρ c.mem m fr)) ρ p q) (hd : p.read c.mem = some d) (hW : W = 1 + d.count)
    (hr : Room σ (400 * W)) (hL : g.next + nlP d.ty.mv ≤ L)
    (hk : OpK x consts L fr (g.push d.ty ts l) is σ ρ (Own ρ c.mem m fr) W Q (.next (c.push (.data d) vs))) :
    wp (loadCopy x.E d.ty g.next ++ is) (q :: ws) loc σ Q := by
  have hσ := h.world.heap
  obtain ⟨md, hh⟩ := PlaceAt.holds h.world.cells hp hd
  refine wp_loadCopy (ρ := ρ) hσ (hr.mono (by omega)) hh frozen_lt (by rw [h.len]; exact hL) ?_
  intro w loc' σ' m' hw t hx hs
  exact OpK.trade (c' := c.push (.data d) vs) (os1 := [.data d]) (ws1 := [w]) h hlt hn hvs (fun a => by rw [hm a]; omega) t
    (OpdsRep.one (hw.change (Nat.le_refl _) (fun _ => .inr) (fun _ _ => rfl) (List.prefix_refl ρ) (fun _ _ => rfl))) hs (by omega) rfl rfl rfl
    (GOk.push (o := .data d) hn hts) hk

theorem sim_copyLoc {i : Nat} (hlt : ∀ p ∈ x.map, p < x.res)
    (h : Sim x L fr c s loc σ ρ m) (hg : GOk x g c) (hr : Room σ (400 * work x.F c))
    (hb : x.F.code[c.pc]? = some (.copyLoc i)) (htr : trOp x g (.copyLoc i) = some (is0, g'))
    (hL : g'.next ≤ L) (he : exec P x.F c (.copyLoc i) = some act)
    (hk : OpK x consts L fr g' is σ ρ (Own ρ c.mem m fr) (work x.F c) Q act) : wp (is0 ++ is) s loc σ Q := by
  have hσ := h.world.heap
  have hle := hσ.alloc.nextFree_le
  obtain ⟨r, hty⟩ := hg.tys
  have hn := hg.next
  simp only [trOp] at htr
  simp only [exec] at he
  split at he
  · rename_i p hloc
    obtain ⟨a, h2, h3⟩ := h.locals i _ hloc
    split at he
    · rename_i d hd
      split_ifs at he with h1
      cases he
      simp only [h1, h2] at htr
      cases htr
      have e : copyCode x.E d.ty a g.next = (code[Op.lget a, Op.load 4 0] ++ loadCopy x.E d.ty g.next, nlP d.ty.mv) := by
        unfold copyCode
        rw [if_neg (by rw [d.not_ref]; simp)]
      rw [e] at hk hL ⊢
      have hbd := frozen_lt _ (h3.1 (lget loc a + 3) (by omega) (by omega))
      simp only [List.append_assoc, List.cons_append, List.nil_append, wp_lget]
      rw [wp_load (by omega), Nat.add_zero]
      refine sim_copy hlt h hn h.stack (fun _ => rfl) hty h3.2 hd ?_ hr hL hk
      unfold work
      rw [hb]
      simp only [hloc, hd, Option.map_some, Option.getD_some]
    · cases he
  · rename_i r0 hloc
    obtain ⟨a, h2, h3⟩ := h.locals i _ hloc
    split_ifs at he with h1
    cases he
    simp only [h1, h2] at htr
    cases htr
    simp only [copyCode, Ty.isRef, if_true, List.cons_append, List.nil_append, wp_lget]
    exact OpK.keep (c' := c.push (.ref r0) c.stack) (os1 := [.ref r0]) (ws1 := [lget loc a]) (m1 := fun _ => 0) (m1' := fun _ => 0) h hlt hn h.stack
      (fun a => by show m a = 0 + m a; omega) (fun _ => Nat.le_refl _)
      (OpdsRep.one ⟨h3, fun _ => rfl⟩) .refl rfl rfl rfl (GOk.push (o := .ref r0) hn hty) hk
  · cases he

theorem sim_moveLoc {i : Nat} (hlt : ∀ p ∈ x.map, p < x.res)
    (h : Sim x L fr c s loc σ ρ m) (hg : GOk x g c) (htr : trOp x g (.moveLoc i) = some (is0, g'))
    (he : exec P x.F c (.moveLoc i) = some act)
    (hk : OpK x consts L fr g' is σ ρ (Own ρ c.mem m fr) W Q act) : wp (is0 ++ is) s loc σ Q := by
  have hσ := h.world.heap
  have hle := hσ.alloc.nextFree_le
  obtain ⟨r, hty⟩ := hg.tys
  have hn := hg.next
  simp only [trOp] at htr
  simp only [exec] at he
  split at he
  · rename_i p hloc
    obtain ⟨a, h2, h3⟩ := h.locals i _ hloc
    split at he
    · rename_i d M hd
      split_ifs at he with h1
      cases he
      simp only [h1, h2] at htr
      cases htr
      have hbd := frozen_lt _ (h3.1 (lget loc a + 3) (by omega) (by omega))
      unfold moveCode
      rw [if_neg (by rw [d.not_ref]; simp)]
      simp only [List.append_assoc, List.cons_append, List.nil_append, wp_lget]
      rw [wp_load (by omega), Nat.add_zero]
      obtain ⟨m1, hh, ho, hW⟩ := h.world.taken h3.2 hd
      refine wp_loadOpd (ρ := ρ) hσ hh ?_
      intro w m1' hw hle'
      have hle2 : ∀ a, Own ρ M (fun a => m1' a + m a) fr a ≤ Own ρ c.mem m fr a := fun a => by
        rw [← ho a]; unfold Own; have := hle' a; dsimp only; omega
      have hG : Grows (fun a => fr a + m a) σ (Own ρ c.mem m fr) σ (Own ρ M (fun a => m1' a + m a) fr) :=
        Grows.refl hσ fun a _ => hle2 a
      obtain ⟨g1, g2⟩ := h.step (c' := ⟨c.pc + 1, c.locals.set i none, .data d :: c.stack, M⟩) (loc' := loc)
        (os1 := [.data d]) (ws1 := [w]) h.stack (fun _ => Nat.le_refl _)
        (List.prefix_refl ρ) (hW.shrink fun a => by rw [ho a]; exact hle2 a) hG
        (OpdsRep.one (hw.change (Nat.le_refl _) (fun a ha => (hG.frozen ha).1) (fun _ _ => rfl) (List.prefix_refl ρ) (fun _ _ => rfl)))
        rfl h.len (fun j lo hj => by
          rcases lookup_locals hj with ⟨-, h'⟩ | ⟨-, h'⟩
          · cases h'
          · exact .inl ⟨h', fun _ _ => rfl⟩)
      exact hk _ _ _ _ _ g1 g2 (List.prefix_refl ρ) (by omega) ⟨by show x.res < g.next + 0; omega, ⟨r, by
        show d.ty :: g.tys = _; rw [hty]; rfl⟩, fun e he => by cases he⟩
    · cases he
  · rename_i r0 hloc
    obtain ⟨a, h2, h3⟩ := h.locals i _ hloc
    split_ifs at he with h1
    cases he
    simp only [h1, h2] at htr
    cases htr
    simp only [moveCode, Ty.isRef, if_true, List.append_nil, List.cons_append, List.nil_append, wp_lget]
    have e : ∀ a, Own ρ c.mem (fun a => 0 + m a) fr a = Own ρ c.mem m fr a := fun a => by unfold Own; dsimp only; omega
    have hG : Grows (fun a => fr a + m a) σ (Own ρ c.mem m fr) σ (Own ρ c.mem (fun a => 0 + m a) fr) :=
      Grows.refl hσ fun a _ => Nat.le_of_eq (e a)
    obtain ⟨g1, g2⟩ := h.step (c' := ⟨c.pc + 1, c.locals.set i none, .ref r0 :: c.stack, c.mem⟩) (loc' := loc)
      (os1 := [.ref r0]) (ws1 := [lget loc a]) (m1' := fun _ => 0) h.stack (fun _ => Nat.le_refl _)
      (List.prefix_refl ρ) (h.world.shrink fun a => Nat.le_of_eq (e a)) hG
      (OpdsRep.one ⟨h3.change (Nat.le_refl _) (fun a ha => (hG.frozen ha).1) (fun _ _ => rfl) (List.prefix_refl ρ), fun _ => rfl⟩)
      rfl h.len (fun j lo hj => by
        rcases lookup_locals hj with ⟨-, h'⟩ | ⟨-, h'⟩
        · cases h'
        · exact .inl ⟨h', fun _ _ => rfl⟩)
    exact hk _ _ _ _ _ g1 g2 (List.prefix_refl ρ) (by omega) ⟨by show x.res < g.next + 0; omega, ⟨r, by
      show Ty.ref r0.m r0.ty :: g.tys = _; rw [hty]; rfl⟩, fun e he => by cases he⟩
  · cases he

theorem sim_stLoc {i : Nat} (hinj : x.map.Nodup) (hlt : ∀ p ∈ x.map, p < x.res)
    (h : Sim x L fr c s loc σ ρ m) (hg : GOk x g c) (hW1 : 1 ≤ W) (hr : Room σ (400 * W)) (htr : trOp x g (.stLoc i) = some (is0, g'))
    (hL : g'.next ≤ L) (he : exec P x.F c (.stLoc i) = some act)
    (hk : OpK x consts L fr g' is σ ρ (Own ρ c.mem m fr) W Q act) : wp (is0 ++ is) s loc σ Q := by
  have hσ := h.world.heap
  obtain ⟨r, hty⟩ := hg.tys
  have hn := hg.next
  have hlen := h.len
  simp only [trOp] at htr
  simp only [exec] at he
  split at he
  · rename_i v vs hst
    split_ifs at he with hlty
    have hstk := h.stack
    rw [hst] at hstk hty
    obtain ⟨w, s2, m1, m2, rfl, hv, hstk2, hm⟩ := hstk.top
    split at htr
    · rename_i t p u ts h1 h2 h3
      rw [hlty] at h1
      cases h1
      rw [h3] at hty
      simp only [List.map_cons, List.cons_append, List.cons.injEq] at hty
      obtain ⟨rfl, rfl⟩ := hty
      rw [if_pos rfl] at htr
      have hp := hlt p (List.mem_of_getElem? h2)
      split at he
      · rename_i d
        rw [if_neg (by show ¬ d.ty.isRef = true; rw [d.not_ref]; simp)] at htr
        cases htr
        cases he
        refine wp_box hσ (hr.mono (by omega)) hv frozen_lt (fun a ha => h.opd_lt (by have := hm a; omega)) (by omega)
          (by rw [hlen]; exact hL) ?_
        intro loc' σ' m1' t hn' hslot hh hlen' hsame
        obtain ⟨hW, hG, hN⟩ := h.world.trade hm t
        have hh' : Holds σ' (Frozen σ' (Own ρ c.mem (fun a => m1' a + m2 a) fr)) d (leNat σ'.mem (lget loc' p) 4) m1' :=
          hh.change (Nat.le_refl _) (fun a ha => by
            rcases ha with ha | ha
            · exact (hG.frozen ha).1
            · exact hN a ha) (fun _ _ => rfl) (fun _ _ => rfl)
        obtain ⟨ρ', hpre, ho, hW', hpl⟩ := hW.bind (fun _ => rfl) hh'
        have e : ∀ a, Own ρ' (d.place c.mem).2 (fun a => 0 + m2 a) fr a = Own ρ c.mem (fun a => m1' a + m2 a) fr a := fun a => by
          rw [← ho a]; unfold Own; dsimp only; omega
        have hFe : ∀ a, Frozen σ' (Own ρ c.mem (fun a => m1' a + m2 a) fr) a →
            Frozen σ' (Own ρ' (d.place c.mem).2 (fun a => 0 + m2 a) fr) a := fun a ha => ⟨ha.1, by rw [e a]; exact ha.2⟩
        obtain ⟨g1, g2⟩ := h.step (c' := ⟨c.pc + 1, c.locals.set i (some (.box (d.place c.mem).1)), vs, (d.place c.mem).2⟩) (loc' := loc')
          (os1 := []) (ws1 := []) (m1' := fun _ => 0) hstk2 (fun a => by have := hm a; omega) hpre
          (hW'.shrink fun a => by rw [e a, ho a]) ⟨hG.alters, fun a ha => by rw [e a]; exact hG.own a ha⟩ (fun _ => rfl) rfl
          (hlen'.trans hlen) (fun j lo hj => by
            rcases lookup_locals hj with ⟨rfl, h'⟩ | ⟨hne, h'⟩
            · cases h'
              exact .inr ⟨p, h2, Within.change hslot fun a ha => hFe a (hN a ha),
                hpl.change (Nat.le_refl _) hFe (fun _ _ => rfl) (List.prefix_refl ρ')⟩
            · refine .inl ⟨h', fun p' hp' => hsame p' ?_ ?_⟩
              · have := hlt p' (List.mem_of_getElem? hp'); omega
              · rintro rfl; exact hne (map_inj hinj hp' h2))
        exact hk _ _ _ _ _ g1 g2 hpre (by omega) ⟨by show x.res < g.next + _; omega, ⟨r, rfl⟩, fun e he => by cases he⟩
      · rename_i r0
        rw [if_pos (show (Opd.ref r0).ty.isRef = true from rfl)] at htr
        cases htr
        cases he
        simp only [List.cons_append, List.nil_append, wp_lset]
        have e : ∀ a, Own ρ c.mem (fun a => 0 + m2 a) fr a = Own ρ c.mem m fr a := fun a => by
          have := hm a; have := hv.2 a; unfold Own; dsimp only; omega
        have hG : Grows (fun a => fr a + m2 a) σ (Own ρ c.mem m fr) σ (Own ρ c.mem (fun a => 0 + m2 a) fr) :=
          Grows.refl hσ fun a _ => Nat.le_of_eq (e a)
        have hpl : p < loc.length := by
          rw [hlen]
          have : g.next ≤ L := hL
          omega
        obtain ⟨g1, g2⟩ := h.step (c' := ⟨c.pc + 1, c.locals.set i (some (.ref r0)), vs, c.mem⟩) (loc' := lset loc p w)
          (os1 := []) (ws1 := []) (m1' := fun _ => 0) hstk2 (fun a => by have := hm a; omega) (List.prefix_refl ρ)
          (h.world.shrink fun a => Nat.le_of_eq (e a)) hG (fun _ => rfl) rfl
          (by rw [lset_length]; exact hlen) (fun j lo hj => by
            rcases lookup_locals hj with ⟨rfl, h'⟩ | ⟨hne, h'⟩
            · cases h'
              refine .inr ⟨p, h2, ?_⟩
              rw [lget_lset_same hpl]
              exact hv.1.change (Nat.le_refl _) (fun a ha => (hG.frozen ha).1) (fun _ _ => rfl) (List.prefix_refl ρ)
            · refine .inl ⟨h', fun p' hp' => lget_lset_ne ?_⟩
              rintro rfl; exact hne (map_inj hinj hp' h2))
        exact hk _ _ _ _ _ g1 g2 (List.prefix_refl ρ) (by omega) ⟨hn, ⟨r, rfl⟩, fun e he => by cases he⟩
    · cases htr
  · cases he

theorem sim_writeRef (h : Sim x L fr c s loc σ ρ m) (hlt : ∀ p ∈ x.map, p < x.res) (hg : GOk x g c)
    (hb : x.F.code[c.pc]? = some .writeRef) (hex : ¬ Excluded x.F c) (htr : trOp x g .writeRef = some (is0, g'))
    (hL : g'.next ≤ L) (he : exec P x.F c .writeRef = some act)
    (hk : OpK x consts L fr g' is σ ρ (Own ρ c.mem m fr) W Q act) : wp (is0 ++ is) s loc σ Q := by
  have hσ := h.world.heap
  have hle := hσ.alloc.nextFree_le
  obtain ⟨r, hty⟩ := hg.tys
  have hn := hg.next
  have hlen := h.len
  simp only [exec] at he
  split at he
  · rename_i rf d vs hst
    split_ifs at he with hrt
    obtain ⟨M, hM, rfl⟩ := Option.map_eq_some_iff.mp he
    have hstk := h.stack
    rw [hst] at hstk hty
    obtain ⟨a, s1, mr, m', rfl, hr, hstk1, hm1⟩ := hstk.top
    obtain ⟨w, s2, md, m2, rfl, hd, hstk2, hm2⟩ := hstk1.top
    cases d with
    | struct id ds =>
      refine (hex ?_).elim
      unfold Excluded
      rw [hb, hst]
      trivial
    | num v =>
      obtain ⟨rm, rt, rp⟩ := rf
      obtain ⟨hr1, hr2⟩ := hr
      obtain ⟨rfl, hrt⟩ := hrt
      dsimp only at hr1 hM hrt
      subst hrt
      simp only [trOp, hty, List.map_cons, List.cons_append, Opd.ty, Data.ty, Ty.isRef, and_self, if_true] at htr
      cases htr
      cases rp with
      | node id ps => simp [Place.write] at hM
      | leaf l =>
        simp only [Place.write] at hM
        split at hM
        · rename_i u hu
          split_ifs at hM with hut
          obtain rfl := Option.some.inj hM
          have hq := hr1.2
          simp only [PlaceAt] at hq
          have hcell := h.world.cells l u _ hu hq
          have hbd := hcell.bound
          rw [hut] at hbd
          have hfa := frozen_lt _ (hr1.1 (a + 3) (by omega) (by omega))
          have hge : ∀ y, ind (leNat σ.mem a 4) v.ty.bytes y ≤ live ρ c.mem y := fun y => hut ▸ live_ge hu hq
          refine wp_writeNum hσ (by omega) rfl hbd hd.1 ?_ (by rw [hlen]; exact hL) ?_
          · intro hg y
            have h1 := h.world.once y
            have h2 := hge y
            have h3 := hd.2 y
            rw [if_neg (by rw [hg]; simp)] at h3
            have := hm1 y
            have := hm2 y
            unfold Own at h1
            omega
          · intro f loc' hf hc hs
            have hlv : ∀ y, Own ρ (c.mem.set l (some v)) (fun y => 0 + m2 y) fr y ≤ Own ρ c.mem m fr y := fun y => by
              have := hm1 y
              have := hm2 y
              have := live_put (ρ := ρ) (x := y) hu hut
              unfold Own
              dsimp only
              omega
            have hW := h.world.put (v := v) (fun y => by unfold Own; omega) hu hq (fun y hy => hf y (hut ▸ hy)) hc
            have hG : Grows (fun y => fr y + m2 y) σ (Own ρ c.mem m fr) (σ.setMem f)
                (Own ρ (c.mem.set l (some v)) (fun y => 0 + m2 y) fr) := by
              refine ⟨Alters.write hσ.refl.alters ?_ ?_, fun y _ => hlv y⟩
              · intro y _ hy
                refine hf y ?_
                by_contra h0
                refine hy ⟨?_, ?_⟩
                · have := hge y; unfold Own; omega
                · have h1 := h.world.once y
                  have := hge y
                  have := hm1 y
                  have := hm2 y
                  unfold Own at h1
                  omega
              · intro y hy
                rw [hf y ?_]
                · exact hσ.fresh y hy
                · by_contra h0
                  have := ind_pos.mp h0
                  omega
            obtain ⟨g1, g2⟩ := h.step (c' := { c.next with stack := vs, mem := c.mem.set l (some v) }) (loc' := loc')
              (os1 := []) (ws1 := []) (m1' := fun _ => 0) hstk2 (fun y => by have := hm1 y; have := hm2 y; omega)
              (List.prefix_refl ρ) (hW.shrink hlv) hG (fun _ => rfl) rfl (hs.length.trans hlen) (fun j lo hj =>
                .inl ⟨hj, fun p hp => hs.get p (by have := hlt p (List.mem_of_getElem? hp); omega)⟩)
            exact hk _ _ _ _ _ g1 g2 (List.prefix_refl ρ) (by rw [setMem_nextFree]; omega) ⟨by show x.res < g.next + 2; omega, ⟨r, rfl⟩,
              fun e he => by cases he⟩
        · cases hM
  · cases he

theorem sim_pack {id : Nat} {fs : List Ty} (hlt : ∀ p ∈ x.map, p < x.res)
    (h : Sim x L fr c s loc σ ρ m) (hg : GOk x g c) (hr : Room σ (400 * work x.F c))
    (hb : x.F.code[c.pc]? = some (.pack id fs)) (htr : trOp x g (.pack id fs) = some (is0, g'))
    (hL : g'.next ≤ L) (he : exec P x.F c (.pack id fs) = some act)
    (hk : OpK x consts L fr g' is σ ρ (Own ρ c.mem m fr) (work x.F c) Q act) : wp (is0 ++ is) s loc σ Q := by
  have hσ := h.world.heap
  obtain ⟨r, hty⟩ := hg.tys
  have hn := hg.next
  have hlen := h.len
  simp only [exec] at he
  split at he
  · rename_i ds hds
    split_ifs at he with hf
    cases he
    subst hf
    have e := datas_some hds
    have hfl : (Data.tys ds).length = ds.length := by rw [Data.tys_eq, List.length_map]
    rw [hfl] at e
    have e' : c.stack.take ds.length = (ds.map Opd.data).reverse := by rw [← e, List.reverse_reverse]
    have hsp : c.stack = (ds.map Opd.data).reverse ++ c.stack.drop ds.length := by
      rw [← e', List.take_append_drop]
    have hstk := h.stack
    rw [hsp] at hstk
    obtain ⟨ws1, ws2, m1, m2, rfl, h1, h2, hm⟩ := hstk.split
    simp only [trOp] at htr
    split_ifs at htr with ht
    cases htr
    have hw : work x.F c = 1 + ds.length := by unfold work; rw [hb]; simp only [hfl]
    refine wp_pack (id := id) hσ (hr.mono (by rw [hw]; omega)) frozen_lt (fun a ha => h.opd_lt (by have := hm a; omega)) h1
      (by rw [hlen]; exact hL) ?_
    intro loc' σ' w m1' t hx hw' hs
    refine OpK.trade (c' := c.push (.data (.struct id ds)) (c.stack.drop (Data.tys ds).length)) (os1 := [.data (.struct id ds)])
      (ws1 := [w]) h hlt hn h2 hm t (OpdsRep.one hw') hs (by rw [hw]; omega) (by rw [hfl]; rfl) rfl rfl
      (GOk.push (o := .data (.struct id ds)) (r := r) hn ?_) hk
    have hl2 : ds.length ≤ c.stack.length := by
      have := congrArg List.length e'
      simp only [List.length_take, List.length_reverse, List.length_map] at this
      omega
    rw [hty, hfl, List.drop_append_of_le_length (by rw [List.length_map]; exact hl2), List.map_drop]
  · cases he

theorem sim_unpack {id : Nat} {fs : List Ty} (hlt : ∀ p ∈ x.map, p < x.res)
    (h : Sim x L fr c s loc σ ρ m) (hg : GOk x g c) (htr : trOp x g (.unpack id fs) = some (is0, g'))
    (hL : g'.next ≤ L) (he : exec P x.F c (.unpack id fs) = some act)
    (hk : OpK x consts L fr g' is σ ρ (Own ρ c.mem m fr) W Q act) : wp (is0 ++ is) s loc σ Q := by
  have hσ := h.world.heap
  obtain ⟨r, hty⟩ := hg.tys
  have hn := hg.next
  have hlen := h.len
  simp only [exec] at he
  split at he
  · rename_i id' ds vs hst
    split_ifs at he with hf
    cases he
    obtain ⟨rfl, rfl⟩ := hf
    have hstk := h.stack
    rw [hst] at hstk hty
    obtain ⟨w, s2, m1, m2, rfl, h1, h2, hm⟩ := hstk.top
    have h1 := h1.2
    simp only [trOp, hty, List.map_cons, List.cons_append] at htr
    split_ifs at htr with ht
    cases htr
    simp only [unpackCode, List.append_assoc, List.cons_append, List.nil_append, wp_lset]
    have hL' : g.next + 1 ≤ L := hL
    refine wp_unpackFields (ρ := ρ) (p := w) hσ frozen_lt (lget_lset_same (by omega)) ds 0 s2 m1 h1 ?_
    intro ws m1' g1 g2
    refine OpK.keep (c' := { c.next with stack := (ds.map Opd.data).reverse ++ vs }) h hlt hn h2 hm g2 g1.reverse
      (SameLocs.refl.lset (Nat.le_refl _)) rfl rfl rfl ⟨by show x.res < g.next + 1; omega, ⟨r, ?_⟩, fun e he => by cases he⟩ hk
    show (Data.tys ds).reverse ++ _ = _
    rw [Data.tys_eq]
    simp [Function.comp_def, Opd.ty]
  · cases he

theorem sim_readRef (hlt : ∀ p ∈ x.map, p < x.res)
    (h : Sim x L fr c s loc σ ρ m) (hg : GOk x g c) (hr : Room σ (400 * work x.F c))
    (hb : x.F.code[c.pc]? = some .readRef) (htr : trOp x g .readRef = some (is0, g'))
    (hL : g'.next ≤ L) (he : exec P x.F c .readRef = some act)
    (hk : OpK x consts L fr g' is σ ρ (Own ρ c.mem m fr) (work x.F c) Q act) : wp (is0 ++ is) s loc σ Q := by
  have hσ := h.world.heap
  have hle := hσ.alloc.nextFree_le
  obtain ⟨r, hty⟩ := hg.tys
  have hn := hg.next
  simp only [exec] at he
  split at he
  · rename_i rf vs hst
    split at he
    · rename_i d hd
      split_ifs at he with hdt
      cases he
      have hstk := h.stack
      rw [hst] at hstk hty
      obtain ⟨a, s2, m1, m2, rfl, h1, h2, hm⟩ := hstk.top
      simp only [trOp, hty, List.map_cons, List.cons_append, Opd.ty, ← hdt] at htr
      rw [if_neg (by rw [d.not_ref]; simp)] at htr
      cases htr
      have hbd := frozen_lt _ (h1.1.1 (a + 3) (by omega) (by omega))
      simp only [List.append_assoc, List.cons_append, List.nil_append]
      rw [wp_load (by omega), Nat.add_zero]
      refine sim_copy hlt h hn h2 (fun y => by rw [hm y, h1.2 y]; omega) rfl h1.1.2 hd ?_ hr hL hk
      unfold work
      rw [hb, hst]
      simp only [hd, Option.map_some, Option.getD_some]
    · cases he
  · cases he

theorem castV_same {E : ErrPtrs} {ty : RetTy} {l : Nat} {t : IntTy} (ht : (STy.int t).isReg = false) :
    (castCode E ty l t t).1 = [] := by
  cases t with
  | reg r => cases ht
  | u128 => rfl
  | u256 => rfl

set_option maxHeartbeats 1000000 in
/-- Instructions other than calls and jumps. -/
theorem sim_op (hE : x.E.Valid) (hc : x.consts = P.consts) (hinj : x.map.Nodup) (hlt : ∀ p ∈ x.map, p < x.res)
    (ht : Truthful P σ.host) (h : Sim x L fr c s loc σ ρ m) (hg : GOk x g c) (hr : Room σ (400 * work x.F c))
    (hb : x.F.code[c.pc]? = some b) (hex : ¬ Excluded x.F c) (htr : trOp x g b = some (is0, g'))
    (hL : g'.next ≤ L) (he : exec P x.F c b = some act) (hcall : ∀ f, b ≠ .call f)
    (hk : OpK x consts L fr g' is σ ρ (Own ρ c.mem m fr) (work x.F c) Q act) : wp (is0 ++ is) s loc σ Q := by
  have hσ := h.world.heap
  have hW := work_pos (F := x.F) (c := c)
  have hr64 : Room σ 64 := hr.mono (by omega)
  have hz0 : ∀ a, m a = (fun _ => 0) a + m a := fun a => by show m a = 0 + m a; omega
  obtain ⟨r, hty⟩ := hg.tys
  have hn := hg.next
  have hlen := h.len
  cases b with
  | ldTrue =>
    cases htr; cases he
    rw [push_ev] at hk
    simp only [List.cons_append, List.nil_append, wp_c32, Nat.reduceMod]
    exact (OpK.ev h hlt hn h.stack hz0 hW (fun v hv => by cases hv; rfl) ⟨r, hty⟩ hk).same hσ ⟨by decide, rfl⟩
  | ldFalse =>
    cases htr; cases he
    rw [push_ev] at hk
    simp only [List.cons_append, List.nil_append, wp_c32, Nat.reduceMod]
    exact (OpK.ev h hlt hn h.stack hz0 hW (fun v hv => by cases hv; rfl) ⟨r, hty⟩ hk).same hσ ⟨by decide, rfl⟩
  | ldInt t n =>
    simp only [trOp] at htr
    simp only [exec] at he
    split_ifs at he with hlt'
    cases he
    split at htr
    · rename_i is1 k hcc
      cases htr
      refine wp_const (E := x.E) (ty := x.ty) (v := ⟨.int t, n⟩) hσ hr64 hcc (by rw [hlen]; exact hL) hlt' (fun h => by cases h) ?_
      -- as `OpK.ev`, apart from what is known about a tagged code
      have hk' : OpK x consts L fr (g.push (.sc (.int t)) g.tys k) is σ ρ (Own ρ c.mem m fr) (work x.F c) Q
          (.next (c.push (.num ⟨.int t, n⟩) c.stack)) := by
        intro s1 loc1 σ1 ρ1 m1 g1 g2 g3 g4 g5
        refine hk s1 loc1 σ1 ρ1 m1 g1 g2 g3 g4 ⟨g5.next, g5.tys, ?_⟩
        intro e he v s' hv
        dsimp only at he
        split_ifs at he with htag
        cases he
        cases hv
        obtain ⟨rfl, htag, -⟩ := htag
        exact ⟨rfl, htag⟩
      rw [push_ev] at hk'
      exact OpK.ev h hlt hn h.stack hz0 hW (fun v hv => by cases hv; rfl) ⟨r, hty⟩ hk'
    · cases htr
  | ldConst i =>
    simp only [trOp] at htr
    simp only [exec] at he
    split at htr
    · rename_i k hk1
      split at htr
      · rename_i v hv
        split at htr
        · rename_i is1 kk hcc
          cases htr
          rw [← hc, hk1] at he
          simp only [Option.bind_some, hv] at he
          cases he
          rw [push_ev] at hk
          obtain ⟨h1, h2⟩ := Const.val_ok hv
          exact wp_const (E := x.E) (ty := x.ty) hσ hr64 hcc (by rw [hlen]; exact hL) h1 h2
            (OpK.ev h hlt hn h.stack hz0 hW (fun v' hv => by cases hv; rfl) ⟨r, hty⟩ hk)
        · cases htr
      · cases htr
    · cases htr
  | bin o =>
    by_cases hnum : ∃ y z vs, c.stack = .num y :: .num z :: vs
    · obtain ⟨y, z, vs, hst⟩ := hnum
      simp only [trOp] at htr
      simp only [exec, hst] at he
      rw [hst] at hty
      obtain ⟨ev, hev, rfl⟩ := Option.map_eq_some_iff.mp he
      simp only [hty, List.map_cons, List.cons_append, Opd.ty, Data.ty] at htr
      split at htr
      · rename_i is1 rt k hcc
        cases htr
        have hstk := h.stack
        rw [hst] at hstk
        obtain ⟨w1, s1, m1, m2, rfl, hy, hstk, hm1⟩ := hstk.top
        obtain ⟨w2, s2, m3, m4, rfl, hz, hstk, hm2⟩ := hstk.top
        refine wp_bin (E := x.E) (ty := x.ty) hE hσ hr64 hz.num hy.num hcc (by rw [hlen]; exact hL) hev ?_
          (OpK.ev (m1 := fun a => m1 a + m3 a) h hlt hn hstk (fun a => by have := hm1 a; have := hm2 a; show m a = m1 a + m3 a + m4 a; omega) hW
            (fun v hv => bin_ty hcc (hv ▸ hev)) ⟨r, rfl⟩ hk)
        intro ho ht
        by_contra hlt
        refine hex ?_
        unfold Excluded
        rw [hb, hst, ho]
        exact ⟨ht, by omega⟩
      · cases htr
    · have hst : ∃ y z vs, c.stack = y :: z :: vs := by
        simp only [exec] at he
        split at he
        · exact ⟨_, _, _, ‹_›⟩
        · exact ⟨_, _, _, ‹_›⟩
        · cases he
      obtain ⟨y, z, vs, hst⟩ := hst
      exact sim_eq hlt h hg hst hW (fun u v hu hv => hnum ⟨u, v, vs, by rw [hst, hu, hv]⟩) htr hL he hk
  | not =>
    simp only [trOp] at htr
    simp only [exec] at he
    split at he
    · rename_i z vs hst
      rw [hst] at hty
      split_ifs at he with hbool
      cases he
      simp only [hty, List.map_cons, List.cons_append, Opd.ty, Data.ty, hbool] at htr
      cases htr
      have hstk := h.stack
      rw [hst] at hstk
      obtain ⟨w, s1, m1, m2, rfl, hz, hstk2, hm⟩ := hstk.top
      obtain ⟨rfl, h2⟩ := bool_lt hz.num hbool
      rw [push_ev] at hk
      simp only [List.cons_append, List.nil_append, wp_un]
      refine (OpK.ev (ev := .val (bool (z.n = 0))) (r := .bool) h hlt hn hstk2 hm hW (fun v hv => by cases hv; rfl) ⟨r, rfl⟩ hk).same hσ (repV_bool ?_)
      rw [eval_eqz]
    · cases he
  | cast t =>
    simp only [trOp] at htr
    simp only [exec] at he
    split at he
    · rename_i z vs hst
      rw [hst] at hty
      obtain ⟨ev, hev, rfl⟩ := Option.map_eq_some_iff.mp he
      unfold castEval at hev
      split at hev
      · rename_i u hu
        cases hev
        simp only [hty, List.map_cons, List.cons_append, Opd.ty, Data.ty, hu] at htr
        cases htr
        have hstk := h.stack
        rw [hst] at hstk
        obtain ⟨w, s1, m1, m2, rfl, hz, hstk2, hm⟩ := hstk.top
        obtain ⟨zt, zn⟩ := z
        dsimp only at hu
        subst hu
        by_cases h0 : (STy.int t).isReg = false ∧ t = u
        · obtain ⟨h0, rfl⟩ := h0
          rw [castV_same h0]
          have hlt2 : zn < 2 ^ t.bits := hz.1.1
          have hs : Spec.cast t.bits zn = some zn := by unfold Spec.cast; rw [if_pos hlt2]
          dsimp only at hk
          rw [hs] at hk
          exact OpK.keep (c' := c.push (.num ⟨.int t, zn⟩) vs) (os1 := [.num ⟨.int t, zn⟩]) (ws1 := [w]) h hlt hn hstk2 hm
            (fun _ => Nat.le_refl _) (OpdsRep.one hz) .refl rfl rfl rfl (GOk.push (o := .num ⟨.int t, zn⟩) hn rfl) hk
        · refine wp_castV (E := x.E) (ty := x.ty) hE hσ hr64 hz.num (by rw [hlen]; exact hL) ?_ (fun h1 h2 => h0 ⟨h1, h2⟩) ?_
            (OpK.ev h hlt hn hstk2 hm hW (fun v hv => ?_) ⟨r, rfl⟩ hk)
          · intro h'
            refine hex ?_
            unfold Excluded
            rw [hb, hst]
            exact .inl ⟨h'.1, by rw [h'.2]⟩
          · intro h1 h2
            by_contra hlt
            refine hex ?_
            unfold Excluded
            rw [hb, hst]
            exact .inr ⟨by rw [h1], h2, by dsimp only; omega⟩
          · generalize Spec.cast t.bits _ = o at hv
            cases o <;> cases hv
            rfl
      · cases hev
    · cases he
  | copyLoc i => exact sim_copyLoc hlt h hg hr hb htr hL he hk
  | moveLoc i => exact sim_moveLoc hlt h hg htr he hk
  | stLoc i => exact sim_stLoc hinj hlt h hg hW hr htr hL he hk
  | pop =>
    simp only [trOp] at htr
    simp only [exec] at he
    split at he
    · rename_i v vs hst
      cases he
      rw [hst] at hty
      simp only [hty, List.map_cons, List.cons_append] at htr
      cases htr
      have hstk := h.stack
      rw [hst] at hstk
      obtain ⟨w, s1, m1, m2, rfl, hz, hstk, hm⟩ := hstk.top
      simp only [List.cons_append, List.nil_append, wp_drop]
      exact OpK.keep (c' := { c.next with stack := vs }) (os1 := []) (ws1 := []) (m1' := fun _ => 0) h hlt hn hstk hm
        (fun _ => Nat.zero_le _) (fun _ => rfl) .refl rfl rfl rfl (by exact ⟨hn, ⟨r, rfl⟩, fun e he => by cases he⟩) hk
    · cases he
  | nop =>
    simp only [trOp] at htr
    simp only [exec] at he
    cases htr; cases he
    exact OpK.keep (c' := c.next) (os1 := []) (ws1 := []) (m1' := fun _ => 0) h hlt hn h.stack hz0
        (fun _ => Nat.zero_le _) (fun _ => rfl) .refl rfl rfl rfl (by exact ⟨hn, ⟨r, hty⟩, fun e he => by cases he⟩) hk
  | pack id fs => exact sim_pack hlt h hg hr hb htr hL he hk
  | unpack id fs => exact sim_unpack hlt h hg htr hL he hk
  | borrowLoc mb i =>
    simp only [trOp] at htr
    simp only [exec] at he
    split at he
    · rename_i p t hloc h1
      cases he
      obtain ⟨a, h2, h3⟩ := h.locals i _ hloc
      simp only [h1, h2] at htr
      cases htr
      simp only [List.cons_append, List.nil_append, wp_lget]
      exact OpK.keep (c' := c.push (.ref ⟨mb, t, p⟩) c.stack) (os1 := [.ref ⟨mb, t, p⟩]) (ws1 := [lget loc a])
        (m1' := fun _ => 0) h hlt hn h.stack hz0 (fun _ => Nat.le_refl _) (OpdsRep.one ⟨h3, fun _ => rfl⟩) .refl rfl rfl rfl
        (GOk.push (o := .ref ⟨mb, t, p⟩) hn hty) hk
    · cases he
  | borrowField mb id fs k =>
    simp only [exec] at he
    split at he
    · rename_i rf vs hst
      split at he
      · rename_i id' ps hpl
        split at he
        · rename_i p t hp ht
          split_ifs at he with hcnd
          cases he
          have hstk := h.stack
          rw [hst] at hstk hty
          obtain ⟨a, s2, m1, m2, rfl, h1, h2, hm⟩ := hstk.top
          simp only [trOp, hty, List.map_cons, List.cons_append, Opd.ty, ht] at htr
          rw [if_pos hcnd] at htr
          cases htr
          have hsl := h1.1
          rw [hpl] at hsl
          refine wp_borrowField hσ frozen_lt hsl hp ?_
          intro w hw
          exact OpK.keep (c' := c.push (.ref ⟨mb, t, p⟩) vs) (os1 := [.ref ⟨mb, t, p⟩]) (ws1 := [w]) (m1' := fun _ => 0)
            h hlt hn h2 hm (fun _ => Nat.zero_le _) (OpdsRep.one ⟨hw, fun _ => rfl⟩) .refl rfl rfl rfl
            (GOk.push (o := .ref ⟨mb, t, p⟩) hn rfl) hk
        · cases he
      · cases he
    · cases he
  | readRef => exact sim_readRef hlt h hg hr hb htr hL he hk
  | writeRef => exact sim_writeRef h hlt hg hb hex htr hL he hk
  | freeze =>
    simp only [exec] at he
    split at he
    · rename_i rf vs hst
      split_ifs at he with hm'
      cases he
      have hstk := h.stack
      rw [hst] at hstk hty
      obtain ⟨a, s2, m1, m2, rfl, h1, h2, hm⟩ := hstk.top
      simp only [trOp, hty, List.map_cons, List.cons_append, Opd.ty, hm', if_true] at htr
      cases htr
      exact OpK.keep (c' := c.push (.ref { rf with m := false }) vs) (os1 := [.ref { rf with m := false }]) (ws1 := [a])
        (m1' := fun _ => 0) h hlt hn h2 hm (fun _ => Nat.zero_le _) (OpdsRep.one ⟨h1.1, fun _ => rfl⟩) .refl rfl rfl rfl
        (GOk.push (o := .ref { rf with m := false }) hn rfl) hk
    · cases he
  | call f => exact absurd rfl (hcall f)
  | query q =>
    simp only [exec] at he
    simp only [trOp] at htr
    by_cases hq : q.account = true
    · rw [if_pos hq] at he htr
      split at he
      · rename_i a vs hst
        split_ifs at he with hty'
        obtain ⟨n, hn', rfl⟩ := Option.map_eq_some_iff.mp he
        have hstk := h.stack
        rw [hst] at hstk hty
        obtain ⟨w, s1, m1, m2, rfl, hz, hstk2, hm⟩ := hstk.top
        simp only [hty, List.map_cons, List.cons_append, Opd.ty, Data.ty, hty'] at htr
        cases htr
        rw [push_ev] at hk
        have hz' := hz.num
        obtain ⟨at', an⟩ := a
        dsimp only at hty'
        subst hty'
        have := wp_query (E := x.E) (ty := x.ty) (q := q) (w := w) (s := s1) hσ hr64 ht hn' (fun _ => hz')
          (OpK.ev h hlt hn hstk2 hm hW (fun v hv => by cases hv; rfl) ⟨r, rfl⟩ hk)
        rwa [if_pos hq] at this
      · cases he
    · rw [if_neg hq] at he htr
      obtain ⟨n, hn', rfl⟩ := Option.map_eq_some_iff.mp he
      cases htr
      rw [push_ev] at hk
      have := wp_query (E := x.E) (ty := x.ty) (q := q) (w := 0) (s := s) hσ hr64 ht hn' (fun h => absurd h hq)
        (OpK.ev h hlt hn h.stack hz0 hW (fun v hv => by cases hv; rfl) ⟨r, hty⟩ hk)
      rwa [if_neg hq] at this
  | _ => simp [trOp] at htr

end Move
