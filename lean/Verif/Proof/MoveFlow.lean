import Verif.Proof.MoveSim

/-! The translation of control flow simulates the Move machine. -/

namespace Move
open Wasm Rt

/-- The machine is in state `c`, `n` instructions before the end, and this is represented. -/
structure At (e : Env) (n : Nat) (c : Cfg) (s loc : List Nat) (σ : Store) : Prop where
  runs : Runs e.P e.A e.x.F c n e.h
  sim : ∃ ρ m, Sim e.x e.L e.fr c s loc σ ρ m ∧ Grows e.fr e.σ0 e.own0 σ (Own ρ c.mem m e.fr) ∧ e.ρ0 <+: ρ
  room : Room σ (e.U * n)
  fits : σ.nextFree + e.U * n ≤ e.B

/-- The results have been stored. -/
def Returned (e : Env) (loc : List Nat) (σ : Store) : Prop :=
  ∃ vs M ρ m ws, e.h = .ret vs M ∧ World σ ρ M (Own ρ M m e.fr) ∧ Grows e.fr e.σ0 e.own0 σ (Own ρ M m e.fr) ∧
    e.ρ0 <+: ρ ∧ σ.nextFree ≤ e.B ∧ OpdsRep σ (Frozen σ (Own ρ M m e.fr)) ρ vs ws m ∧
    (vs = [] ∨ TupleAt σ (vs.map (·.ty)) ws (lget loc e.x.res))

/-- How the code of a flow ends. -/
def Post (e : Env) (K : Option Nat) (fs : List Frame) (n : Nat) : Res → Prop
  | .ok s loc σ => s = [] ∧ ∃ m, m ≤ n ∧ ∃ c, K = some c.pc ∧ At e m c [] loc σ
  | .br d _ loc σ => (∃ m, m < n ∧ ∃ c tg, fs[d]? = some (tg, some c.pc) ∧ At e m c [] loc σ) ∨
      ((∃ q, fs[d]? = some (.result, q)) ∧ Returned e loc σ)
  | .ret _ σ => Failed e.x.E e.P.consts (fun x => e.own0 x ≠ 0 ∧ e.fr x = 0) e.σ0 e.h σ
  | .trap => e.h = .divZero
  | .oof => False

theorem Post.mono {e : Env} {K fs n m r} (h : Post e K fs n r) (hn : n ≤ m) : Post e K fs m r := by
  cases r with
  | ok s loc σ => obtain ⟨h1, k, h2, h3⟩ := h; exact ⟨h1, k, by omega, h3⟩
  | br d s loc σ =>
    rcases h with ⟨k, h2, h3⟩ | h
    · exact .inl ⟨k, by omega, h3⟩
    · exact .inr h
  | ret => exact h
  | trap => exact h
  | oof => exact h

/-- The state before the code of a flow. -/
def Start (e : Env) (flow : Flow) (K : Option Nat) (n : Nat) (s loc : List Nat) (σ : Store) : Prop :=
  match flow with
  | .ifElse a b => ∃ w, s = [w] ∧
      (w ≠ 0 → ∃ m, m ≤ n ∧ ∃ c, a.entry K = some c.pc ∧ At e m c [] loc σ) ∧
      (w = 0 → ∃ m, m ≤ n ∧ ∃ c, b.entry K = some c.pc ∧ At e m c [] loc σ)
  | f => s = [] ∧ ∃ m, m ≤ n ∧ ∃ c, f.entry K = some c.pc ∧ At e m c [] loc σ

theorem Start.of {e : Env} {flow K n m c loc σ} (hm : m ≤ n) (hc : flow.entry K = some c.pc)
    (h : At e m c [] loc σ) : Start e flow K n [] loc σ := by
  cases flow with
  | ifElse => simp [Flow.entry] at hc
  | _ => exact ⟨rfl, m, hm, c, hc, h⟩

theorem Grows.err {fr own own' : Nat → Nat} {σ σ' σ'' : Store} {p : Nat} (h : Grows fr σ own σ' own')
    (h' : Alters (fun x => own' x ≠ 0 ∧ fr x = 0) (errStore σ' p) σ'') :
    Alters (fun x => own x ≠ 0 ∧ fr x = 0) (errStore σ p) σ'' := by
  have n1 := h.alters.nextFree
  refine ⟨Nat.le_trans n1 h'.nextFree, Nat.le_trans h.alters.size h'.size, fun x hx hr => ?_,
    h'.fresh, h'.alloc, h'.maxPages.trans h.alters.maxPages, h'.reader.trans h.alters.reader, h'.host.trans h.alters.host⟩
  have hx' : x < σ.nextFree := hx
  have := h.own x hx'
  rw [h'.mem x (show x < σ'.nextFree by omega) (fun h0 => hr ⟨by omega, h0.2⟩)]
  unfold errStore
  rw [setMem_mem, setMem_mem]
  by_cases hw : abortPtr ≤ x ∧ x < abortPtr + 4
  · unfold putLe
    rw [if_pos hw, if_pos hw]
  · rw [putLe_out (by omega), putLe_out (by omega)]
    exact h.alters.mem x hx' hr

theorem Failed.weaken {E : ErrPtrs} {consts h} {R R' : Nat → Prop} {σ σ' : Store} (hf : Failed E consts R σ h σ')
    (hR : ∀ x, R x → R' x) : Failed E consts R' σ h σ' := by
  cases h with
  | ret vs => exact hf
  | divZero => exact hf
  | abort c =>
    obtain ⟨p, t, h1, h2, h3, h4⟩ := hf
    exact ⟨p, t, h1, h2, h3.mono fun x _ => hR x, h4⟩
  | arith f =>
    obtain ⟨e, h1, h2⟩ := hf
    exact ⟨e, h1, h2.mono fun x _ => hR x⟩

theorem Failed.mono {E : ErrPtrs} {consts h} {fr own own' : Nat → Nat} {σ0 σ σ' : Store}
    (hf : Failed E consts (fun x => own' x ≠ 0 ∧ fr x = 0) σ h σ') (hx : Grows fr σ0 own σ own') :
    Failed E consts (fun x => own x ≠ 0 ∧ fr x = 0) σ0 h σ' := by
  cases h with
  | ret vs => exact hf
  | divZero => exact hf
  | abort c =>
    obtain ⟨p, t, h1, h2, h3, h4⟩ := hf
    exact ⟨p, t, h1, h2, hx.err h3, h4⟩
  | arith f =>
    obtain ⟨e, h1, h2⟩ := hf
    exact ⟨e, h1, hx.err h2⟩


/-- What instructions other than jumps can do. -/
theorem exec_halt {P F c b h} (hb : b.isJump = false) (he : exec P F c b = some (.halt h)) :
    h = .divZero ∨ ∃ f, h = .arith f := by
  have ev : ∀ (o : Option Ev) (s : List Opd), o.map (Ev.act c s) = some (.halt h) →
      h = .divZero ∨ ∃ f, h = .arith f := by
    intro o s ho
    obtain ⟨e, -, he⟩ := Option.map_eq_some_iff.mp ho
    cases e <;> cases he
    · exact .inr ⟨_, rfl⟩
    · exact .inl rfl
  have nx : ∀ {α : Type} (o : Option α) (f : α → Cfg), o.map (fun b => Act.next (f b)) ≠ some (.halt h) := by
    intro α o f ho
    obtain ⟨e, -, he⟩ := Option.map_eq_some_iff.mp ho
    cases he
  cases b <;> simp only [Bc.isJump, reduceCtorEq] at hb <;> simp only [exec] at he <;>
    repeat' first
      | (cases he; done)
      | (exact ev _ _ he)
      | (exact absurd he (nx _ _))
      | split at he

theorem exec_call {P F c b f args c'} (he : exec P F c b = some (.call f args c')) :
    b = .call f ∧ ∃ G, P.funs[f]? = some G ∧ args = (c.stack.take G.args.length).reverse ∧
      args.map (·.ty) = G.args ∧ c' = { c.next with stack := c.stack.drop G.args.length } := by
  have ev : ∀ (o : Option Ev) (s : List Opd), o.map (Ev.act c s) ≠ some (.call f args c') := by
    intro o s ho
    obtain ⟨e, -, he⟩ := Option.map_eq_some_iff.mp ho
    cases e <;> cases he
  have nx : ∀ {α : Type} (o : Option α) (g : α → Cfg), o.map (fun b => Act.next (g b)) ≠ some (.call f args c') := by
    intro α o g ho
    obtain ⟨e, -, he⟩ := Option.map_eq_some_iff.mp ho
    cases he
  cases b <;> simp only [exec] at he
  case call g =>
    split at he
    · split_ifs at he with h
      cases he
      exact ⟨rfl, _, by assumption, rfl, h, rfl⟩
    · cases he
  all_goals
    repeat' first
      | (cases he; done)
      | (exact absurd he (ev _ _))
      | (exact absurd he (nx _ _))
      | split at he

theorem exec_next {P F c b c'} (hb : b.isJump = false) (he : exec P F c b = some (.next c')) : c'.pc = c.pc + 1 := by
  have ev : ∀ (o : Option Ev) (s : List Opd), o.map (Ev.act c s) = some (.next c') → c'.pc = c.pc + 1 := by
    intro o s ho
    obtain ⟨e, -, he⟩ := Option.map_eq_some_iff.mp ho
    cases e <;> cases he
    rfl
  have nx : ∀ {α : Type} (o : Option α) (g : α → Cfg), o.map (fun b => Act.next (g b)) = some (.next c') →
      (∀ b, (g b).pc = c.pc + 1) → c'.pc = c.pc + 1 := by
    intro α o g ho hg
    obtain ⟨e, -, he⟩ := Option.map_eq_some_iff.mp ho
    cases he
    exact hg e
  cases b <;> simp only [Bc.isJump, reduceCtorEq] at hb <;> simp only [exec] at he <;>
    repeat' first
      | (cases he; done)
      | (cases he; rfl)
      | (exact ev _ _ he)
      | (exact nx _ _ he (fun _ => rfl))
      | split at he

theorem step_some {P F c a} (h : step P F c = some a) :
    (F.isTarget c.pc = true → c.stack = []) ∧ ∃ b, F.code[c.pc]? = some b ∧ exec P F c b = some a := by
  unfold step at h
  split_ifs at h with h1
  split at h
  · exact ⟨fun h2 => by by_contra h3; exact h1 ⟨h2, h3⟩, _, by assumption, h⟩
  · cases h

/-- Results have the types the function declares. -/
theorem Runs.ret_ty {P A F c n h} (hr : Runs P A F c n h) : ∀ vs M, h = .ret vs M → vs.map (·.ty) = F.rets := by
  induction hr with
  | next _ _ _ ih => exact ih
  | call _ _ _ _ _ _ ih => exact ih
  | callHalt _ _ _ _ h => exact fun vs M e => absurd e (h vs M)
  | @halt F c h _ hs =>
    rintro vs M rfl
    obtain ⟨-, b, -, hs⟩ := step_some hs
    by_cases hb : b.isJump = true
    · cases b <;> simp only [Bc.isJump, reduceCtorEq] at hb <;> simp only [exec] at hs
      case ret =>
        split_ifs at hs with h'
        cases hs
        exact h'
      all_goals
        first
        | (split_ifs at hs <;> cases hs; done)
        | (split at hs <;> first | (cases hs; done) | (split at hs <;> cases hs; done))
    · rcases exec_halt (by simpa using hb) hs with h | ⟨f, h⟩ <;> cases h

variable {e : Env} {n : Nat} {c c' : Cfg} {s s' loc loc' : List Nat} {σ σ' : Store} {K : Option Nat} {fs : List Frame}
variable {g g' : CG} {is js is0 : List Instr} {Q : Res → Prop} {b : Bc} {br : List (Nat × Mode)} {im : Flow}

theorem At.len (h : At e n c s loc σ) : loc.length = e.L := by obtain ⟨_, _, h, -⟩ := h.sim; exact h.len

/-- After work `k`. -/
theorem At.later {k n' : Nat} {ρ ρ' : List Nat} {m m' : Nat → Nat} (h : At e n c s loc σ) (hn : n = n' + k)
    (hG : Grows e.fr e.σ0 e.own0 σ (Own ρ c.mem m e.fr)) (hp : e.ρ0 <+: ρ)
    (hs : Sim e.x e.L e.fr c' s' loc' σ' ρ' m') (hx : Grows e.fr σ (Own ρ c.mem m e.fr) σ' (Own ρ' c'.mem m' e.fr))
    (hp' : ρ <+: ρ') (hf : σ'.nextFree ≤ σ.nextFree + e.U * k) (hr : Runs e.P e.A e.x.F c' n' e.h) :
    At e n' c' s' loc' σ' := by
  subst hn
  have h1 := h.room
  have h2 := h.fits
  rw [Nat.mul_add, Nat.add_comm (e.U * n')] at h1 h2
  exact ⟨hr, ⟨ρ', m', hs, hG.trans hx, hp.trans hp'⟩, h1.after hf hx.alters.maxPages, by omega⟩

theorem At.pos (h : At e n c s loc σ) : 0 < n := by
  have h1 := h.runs
  have hw := work_pos (F := e.x.F) (c := c)
  cases h1 <;> omega

theorem At.enough (hk : e.Ok) (h : At e n c s loc σ) : 400 ≤ e.U * n := by
  have h1 := h.pos
  have h2 := hk.room
  nlinarith

/-- A jump to an enclosing block. -/
theorem land {m : Mode} {t d : Nat} (h : lands fs m t = true) (hd : resolve (fs.map (·.1)) m t = some d) :
    ∃ tg, fs[d]? = some (tg, some t) := by
  unfold lands at h
  rw [hd] at h
  dsimp only at h
  cases h' : fs[d]? with
  | none => rw [h'] at h; simp at h
  | some p =>
    rw [h'] at h
    obtain ⟨tg, q⟩ := p
    exact ⟨tg, by simpa using h⟩

def NotOk : Res → Prop
  | .ok _ _ _ => False
  | _ => True


theorem depth_some {t : Tgt} {d : Nat} (h : depth t (fs.map (·.1)) = some d) : ∃ q, fs[d]? = some (t, q) := by
  unfold depth at h
  obtain ⟨h1, h2, -⟩ := List.findIdx?_eq_some_iff_getElem.mp h
  rw [List.length_map] at h1
  rw [List.getElem_map] at h2
  refine ⟨fs[d].2, ?_⟩
  rw [List.getElem?_eq_getElem h1]
  rw [← of_decide_eq_true h2]

/-- An instruction that leads to another one. -/
theorem At.jump {t : Nat} (hk : e.Ok) (h : At e n c s loc σ) (hst : step e.P e.x.F c = some (.next { c with pc := t, stack := [] })) :
    ∃ n', n' < n ∧ At e n' { c with pc := t, stack := [] } [] loc σ := by
  have h1 := h.runs
  have hw := work_pos (F := e.x.F) (c := c)
  cases h1 with
  | @next _ _ _ m _ _ hs hr =>
    rw [hst] at hs
    cases hs
    obtain ⟨ρ, mm, h2, h3, h4⟩ := h.sim
    obtain ⟨m', g1, g2⟩ := h2.trade (c' := { c with pc := t, stack := [] }) (m1 := mm) (m2 := fun _ => 0) (os1 := []) (os2 := [])
      (ws1 := []) (ws2 := []) hk.lt (Nat.lt_succ_self e.x.res) (fun _ => rfl) (fun _ => rfl)
      (Trades.refl (m' := fun _ => 0) h2.world.heap (fun _ => Nat.zero_le _) (fun a ha => h2.opd_lt ha)) (fun _ => rfl) .refl rfl rfl rfl
    exact ⟨m, by omega, h.later rfl h3 h4 g1 g2 (List.prefix_refl _) (by omega) hr⟩
  | halt _ hs => rw [hst] at hs; cases hs
  | call _ hs => rw [hst] at hs; cases hs
  | callHalt _ hs => rw [hst] at hs; cases hs

theorem Runs.stepped {P A F c n h} (hr : Runs P A F c n h) : A F c ∧ ∃ a, step P F c = some a := by
  cases hr with
  | next ha hs => exact ⟨ha, _, hs⟩
  | halt ha hs => exact ⟨ha, _, hs⟩
  | call ha hs => exact ⟨ha, _, hs⟩
  | callHalt ha hs => exact ⟨ha, _, hs⟩

theorem Runs.halts {P A F c n h a} (hr : Runs P A F c n a) (hs : step P F c = some (.halt h)) :
    a = h ∧ n = work F c := by
  cases hr with
  | next _ h' => rw [hs] at h'; cases h'
  | halt _ h' => rw [hs] at h'; cases h'; exact ⟨rfl, rfl⟩
  | call _ h' => rw [hs] at h'; cases h'
  | callHalt _ h' => rw [hs] at h'; cases h'

/-- Jumps. -/
theorem sim_jump (hk : e.Ok) (hj : b.isJump = true) (hb : e.x.F.code[c.pc]? = some b)
    (hok : jumpOk fs br im K c.pc b = true) (htr : trInstr e.x (fs.map (·.1)) br b g = some (is0, g'))
    (hL : g'.next ≤ e.L) (hg : GOk e.x g c) (h : At e n c s loc σ)
    (hI : ∀ m s loc σ, m ≤ n → Start e im K m s loc σ → wp js s loc σ Q)
    (hQ : ∀ r, NotOk r → Post e K fs n r → Q r) : wp (is0 ++ js) s loc σ Q := by
  obtain ⟨-, a, hst⟩ := h.runs.stepped
  have hst' := hst
  obtain ⟨-, b', hb', he⟩ := step_some hst'
  rw [hb] at hb'
  cases hb'
  have hlen := h.len
  cases b with
  | branch t =>
    simp only [exec] at he
    split_ifs at he with hs
    cases he
    obtain ⟨ρ, mm, hsim, -⟩ := h.sim
    have hs' := hsim.stack
    rw [hs] at hs'
    obtain rfl : s = [] := by cases s with | nil => rfl | cons => exact hs'.elim
    have hst2 : step e.P e.x.F c = some (.next { c with pc := t, stack := [] }) := by rw [hst, hs]
    obtain ⟨m, hm, h1⟩ := h.jump hk hst2
    simp only [trInstr] at htr
    simp only [jumpOk] at hok
    split at htr
    · rename_i md hl
      rw [hl] at hok
      obtain ⟨d, hd, he⟩ := Option.map_eq_some_iff.mp htr
      cases he
      obtain ⟨tg, ht⟩ := land hok hd
      simp only [List.cons_append, List.nil_append, wp_br]
      exact hQ _ trivial (.inl ⟨m, by omega, _, tg, ht, h1⟩)
    · rename_i hl
      rw [hl] at hok
      cases htr
      rw [beq_iff_eq] at hok
      exact hI m [] loc σ (by omega) (Start.of (Nat.le_refl _) hok h1)
  | brTrue t =>
    simp only [exec] at he
    split at he
    · rename_i v hs
      by_cases hv : v.ty = .bool
      case neg => rw [if_neg hv] at he; cases he
      rw [if_pos hv] at he
      cases he
      obtain ⟨m, hm, h1⟩ := h.jump hk hst
      obtain ⟨ρ, mm, hsim, -⟩ := h.sim
      have hs' := hsim.stack
      rw [hs] at hs'
      obtain ⟨w, s2, m1, m2, rfl, hw, hs', -⟩ := hs'.top
      obtain rfl : s2 = [] := by cases s2 with | nil => rfl | cons => exact hs'.elim
      replace hw := hw.num
      obtain ⟨rfl, h2⟩ := bool_lt hw hv
      simp only [trInstr] at htr
      simp only [jumpOk] at hok
      split at htr
      · rename_i md hl
        rw [hl] at hok
        obtain ⟨d, hd, he⟩ := Option.map_eq_some_iff.mp htr
        cases he
        simp only [Bool.and_eq_true, beq_iff_eq] at hok
        obtain ⟨tg, ht⟩ := land hok.1 hd
        simp only [List.cons_append, List.nil_append, wp_brIf]
        refine IfP.intro ?_ ?_
        · intro hw
          rw [if_pos (by omega)] at h1
          exact hQ _ trivial (.inl ⟨m, by omega, _, tg, ht, h1⟩)
        · intro hw
          rw [if_neg (by omega)] at h1
          exact hI m [] loc σ (by omega) (Start.of (Nat.le_refl _) hok.2 h1)
      · rename_i hl
        rw [hl] at hok
        cases htr
        cases im with
        | ifElse a b =>
          simp only [Bool.and_eq_true, beq_iff_eq] at hok
          refine hI m [v.n] loc σ (by omega) ⟨_, rfl, ?_, ?_⟩
          · intro hw
            rw [if_pos (by omega)] at h1
            exact ⟨m, Nat.le_refl _, _, hok.1, h1⟩
          · intro hw
            rw [if_neg (by omega)] at h1
            exact ⟨m, Nat.le_refl _, _, hok.2, h1⟩
        | _ => cases hok
    · cases he
  | brFalse t =>
    simp only [exec] at he
    split at he
    · rename_i v hs
      by_cases hv : v.ty = .bool
      case neg => rw [if_neg hv] at he; cases he
      rw [if_pos hv] at he
      cases he
      obtain ⟨m, hm, h1⟩ := h.jump hk hst
      obtain ⟨ρ, mm, hsim, -⟩ := h.sim
      have hs' := hsim.stack
      rw [hs] at hs'
      obtain ⟨w, s2, m1, m2, rfl, hw, hs', -⟩ := hs'.top
      obtain rfl : s2 = [] := by cases s2 with | nil => rfl | cons => exact hs'.elim
      replace hw := hw.num
      obtain ⟨rfl, h2⟩ := bool_lt hw hv
      simp only [trInstr] at htr
      simp only [jumpOk] at hok
      split at htr
      · rename_i md hl
        rw [hl] at hok
        obtain ⟨d, hd, he⟩ := Option.map_eq_some_iff.mp htr
        cases he
        simp only [Bool.and_eq_true, beq_iff_eq] at hok
        obtain ⟨tg, ht⟩ := land hok.1 hd
        simp only [List.cons_append, List.nil_append, wp_un, wp_brIf, eval_eqz]
        refine IfP.intro ?_ ?_
        · intro hw
          rw [if_pos (by by_contra h0; simp [h0] at hw)] at h1
          exact hQ _ trivial (.inl ⟨m, by omega, _, tg, ht, h1⟩)
        · intro hw
          rw [if_neg (by intro h0; simp [h0] at hw)] at h1
          exact hI m [] loc σ (by omega) (Start.of (Nat.le_refl _) hok.2 h1)
      · rename_i hl
        rw [hl] at hok
        cases htr
        cases im with
        | ifElse a b =>
          simp only [Bool.and_eq_true, beq_iff_eq] at hok
          refine hI m [v.n] loc σ (by omega) ⟨_, rfl, ?_, ?_⟩
          · intro hw
            rw [if_neg (by omega)] at h1
            exact ⟨m, Nat.le_refl _, _, hok.1, h1⟩
          · intro hw
            rw [if_pos (by omega)] at h1
            exact ⟨m, Nat.le_refl _, _, hok.2, h1⟩
        | _ => cases hok
    · cases he
  | ret =>
    simp only [exec] at he
    split_ifs at he with hs
    cases he
    obtain ⟨hh, hn⟩ := h.runs.halts hst
    simp only [trInstr] at htr
    split at htr
    · rename_i d hd
      split_ifs at htr with hts
      cases htr
      obtain ⟨ρ, mm, hsim, hG, hp⟩ := h.sim
      have hstk := hsim.stack
      have hrl : s.length = e.x.F.rets.length := by
        rw [← hstk.length, ← hs]; simp
      have hfit := h.fits
      have hroom := h.room
      have hu := hk.rets
      have hU : e.U ≤ e.U * n := by have := h.pos; nlinarith
      have hrev := hstk.reverse
      have hlts := hrev.lts hsim.world.heap frozen_lt
      refine wp_retCode hsim.world.heap (hroom.mono (by omega)) (by rw [← hs]; exact hlts) hg.next ?_ ?_
      · rw [hlen, hrl]; exact hL
      · intro loc' σ' hx hn' ht
        obtain ⟨hW, hG', -⟩ := hsim.world.trade (m1 := fun _ => 0) (m2 := mm) (m1' := fun _ => 0) (fun a => by omega)
          (Trades.made hx (fun _ => Nat.zero_le _) (fun _ h0 => absurd rfl h0))
        have e0 : (fun a => (fun _ : Nat => 0) a + mm a) = mm := by funext a; exact Nat.zero_add _
        rw [e0] at hW hG'
        refine hQ _ trivial (.inr ⟨depth_some hd, _, _, ρ, mm, s.reverse, hh, hW, hG.trans (hG'.mono fun a ha => by
          show e.fr a + mm a ≠ 0; omega), hp, by omega, ?_, ?_⟩)
        · exact hrev.change hx.nextFree (fun a ha => (hG'.frozen ha).1) (fun a ha => (hG'.frozen ha).2) (List.prefix_refl _)
            (fun a ha => hx.mem a (hsim.opd_lt ha))
        · rcases ht with ht | ht
          · left
            rw [ht] at hs
            simpa using hs
          · right
            rw [hs]
            exact ht
    · cases htr
  | abort =>
    simp only [exec] at he
    split at he
    · rename_i v vs hs
      split_ifs at he with hv
      cases he
      obtain ⟨hh, -⟩ := h.runs.halts hst
      obtain ⟨r, hty⟩ := hg.tys
      rw [hs] at hty
      simp only [trInstr, hty, List.map_cons, List.cons_append, Opd.ty, Data.ty, hv] at htr
      obtain ⟨ρ, mm, hsim, hG, hp⟩ := h.sim
      have hs' := hsim.stack
      rw [hs] at hs'
      obtain ⟨w, s2, m1, m2, rfl, hw, hs', -⟩ := hs'.top
      replace hw := hw.num
      obtain ⟨vt, vn⟩ := v
      dsimp only at hv
      subst hv
      have hw2 := hw.2
      dsimp only at hw2
      subst hw2
      split at htr
      · rename_i is1 k hc
        cases htr
        rw [hk.consts] at hc
        have hroom := h.room.mono (h.enough hk)
        refine wp_abort (E := e.x.E) (R := fun x => Own ρ c.mem mm e.fr x ≠ 0 ∧ e.fr x = 0) hw.1 hsim.world.heap hroom hc
          (by rw [hlen]; exact hL) ?_ ?_
        · intro q hq
          have := hg.clever q hq _ _ hs
          injection this.1 with h1
          injection h1 with h2
          injection h2 with _ h3
          exact ⟨h3, this.2⟩
        · intro stk σ' hf
          rw [← hh] at hf
          exact hQ _ trivial (hf.mono hG)
      · cases htr
    · cases he
  | _ => cases hj


/-- Calls. -/
theorem sim_call {f : Nat} (hk : e.Ok) (hb : e.x.F.code[c.pc]? = some (.call f))
    (htr : trOp e.x g (.call f) = some (is0, g')) (hL : g'.next ≤ e.L) (hg : GOk e.x g c) (h : At e n c s loc σ)
    (hI : ∀ m c' s loc σ, m < n → c'.pc = c.pc + 1 → GOk e.x g' c' → At e m c' s loc σ → wp js s loc σ Q)
    (hQ : ∀ r, NotOk r → Post e K fs n r → Q r) : wp (is0 ++ js) s loc σ Q := by
  obtain ⟨-, a, hst⟩ := h.runs.stepped
  have hst' := hst
  obtain ⟨-, b', hb', he⟩ := step_some hst'
  rw [hb] at hb'
  cases hb'
  simp only [trOp] at htr
  split at htr
  case h_2 => cases htr
  rename_i G fn htbl
  split_ifs at htr with hts
  cases htr
  obtain ⟨hG, hfn⟩ := hk.tbl f G fn htbl
  have he' := he
  simp only [exec, hG] at he
  split_ifs at he with hargs
  cases he
  obtain ⟨ρ, mm, hsim, hGr, hpre⟩ := h.sim
  have hlen := h.len
  have hσ := hsim.world.heap
  -- the arguments
  have hstk := hsim.stack
  rw [← List.take_append_drop G.args.length c.stack] at hstk
  obtain ⟨ws1, ws2, m1, m2, rfl, hs1, hs2, hm⟩ := hstk.split
  have hown : Own ρ c.mem mm e.fr = Own ρ c.mem m1 (fun a => e.fr a + m2 a) := by
    funext a
    have := hm a
    unfold Own
    dsimp only
    omega
  have hW := hsim.world
  rw [hown] at hW
  dsimp only at hL
  rw [List.append_assoc]
  nth_rw 1 [← hargs]
  refine wp_prepArgs (args := (c.stack.take G.args.length).reverse) hσ frozen_lt (by rw [List.reverse_reverse]; exact hs1)
    (by rw [hargs, hlen]; omega) ?_
  intro ws' loc1 hws hsame1
  have hlen1 : loc1.length = e.L := hsame1.length.trans hlen
  -- how the call ends
  have fin : ∀ k h', Runs e.P e.A G (G.start (c.stack.take G.args.length).reverse c.mem) k h' →
      (e.U * (k + 1) ≤ e.U * n) → Ends e.x.E e.P.consts fn ws' σ (e.U * (k + 1)) ρ (Own ρ c.mem mm e.fr) (fun a => e.fr a + m2 a) h' := by
    intro k h' hr hle
    rw [hown]
    rw [hown] at hws
    exact hfn _ _ _ _ _ _ _ _ _ hW hargs hws hr (h.room.mono hle) (by rw [hGr.alters.host]; exact hk.told)
  obtain ⟨r, hty⟩ := hg.tys
  have hruns := h.runs
  have hnx := hg.next
  cases hruns with
  | next _ h' => rw [hst] at h'; cases h'
  | halt _ h' => rw [hst] at h'; cases h'
  | @call _ _ _ G' _ _ m vs M k _ _ h' hG' hr1 hr2 =>
    rw [hst] at h'
    cases h'
    rw [hG] at hG'
    cases hG'
    refine wp_callCode (E := e.x.E) hk.err hσ (fun a ha => (hsim.world.low a ha).1) (by rw [hlen1]; omega)
      (fin m _ hr1 (Nat.mul_le_mul_left _ (by omega))) (fun vs' M' h' => hr1.ret_ty vs' M' h') ?_
    intro ws loc' σ' ρ' m' hp' hW' hG' hn' hrep hsame
    have hown' : Own ρ' M m' (fun a => e.fr a + m2 a) = Own ρ' M (fun a => m' a + m2 a) e.fr := by
      funext a
      unfold Own
      dsimp only
      omega
    rw [hown'] at hW' hG' hrep
    have hlen2 : loc'.length = e.L := hsame.length.trans hlen1
    obtain ⟨g1, g2⟩ := hsim.step (c' := { (⟨c.pc + 1, c.locals, c.stack.drop G.args.length, c.mem⟩ : Cfg) with
        stack := vs.reverse ++ c.stack.drop G.args.length, mem := M }) (os1 := vs.reverse) (ws1 := ws.reverse) (loc' := loc')
      hs2 (fun a => by have := hm a; omega) hp' hW' hG' hrep.reverse rfl hlen2 (by
        intro i lo hi
        refine .inl ⟨hi, fun p hp => ?_⟩
        have := hk.lt p (List.mem_of_getElem? hp)
        rw [hsame.get p (by omega), hsame1.get p (by omega)])
    refine hI k _ _ loc' σ' (by omega) ?_ ?_ (h.later (k := m + 1) (by omega) hGr hpre g1 g2 hp' hn' hr2)
    · rfl
    · refine ⟨?_, ⟨r, ?_⟩, fun e he => by cases he⟩
      · show e.x.res < g.next + (prepArgs G.args g.next).2 + 1; omega
      · have hvs := hr1.ret_ty vs M rfl
        have hl : G.args.length ≤ c.stack.length := by
          have := congrArg List.length hargs
          simp at this
          omega
        show G.rets.reverse ++ g.tys.drop G.args.length = (vs.reverse ++ c.stack.drop G.args.length).map (·.ty) ++ r
        rw [← hvs, hty, List.drop_append_of_le_length (by simpa using hl), List.map_append, List.map_reverse,
          List.map_drop, List.append_assoc]
  | @callHalt _ _ _ G' _ _ m _ _ h' hG' hr1 hne =>
    rw [hst] at h'
    cases h'
    rw [hG] at hG'
    cases hG'
    refine wp_callCode (E := e.x.E) hk.err hσ (fun a ha => (hsim.world.low a ha).1) (by rw [hlen1]; omega)
      (fin m _ hr1 (Nat.le_refl _)) (fun vs' M' h' => absurd h' (hne vs' M')) ?_
    have hfail : ∀ σ', Failed e.x.E e.P.consts (fun x => Own ρ c.mem mm e.fr x ≠ 0 ∧ e.fr x + m2 x = 0) σ e.h σ' →
        Failed e.x.E e.P.consts (fun x => Own ρ c.mem mm e.fr x ≠ 0 ∧ e.fr x = 0) σ e.h σ' :=
      fun σ' hf => hf.weaken fun a ha => ⟨ha.1, by omega⟩
    cases hh : e.h with
    | ret vs M => exact absurd hh (hne vs M)
    | divZero => exact hQ _ trivial hh
    | abort v => intro stk σ' hf; rw [← hh] at hf; exact hQ _ trivial ((hfail σ' hf).mono hGr)
    | arith v => intro stk σ' hf; rw [← hh] at hf; exact hQ _ trivial ((hfail σ' hf).mono hGr)

/-- Translation only takes further locals. -/
theorem trOp_next {x : Ctx} (h : trOp x g b = some (is, g')) : g.next ≤ g'.next := by
  cases b <;> simp only [trOp] at h <;>
    repeat' first
      | (cases h; done)
      | (cases h; exact Nat.le_refl _)
      | (cases h; exact Nat.le_add_right _ _)
      | (cases h; show g.next ≤ g.next + _ + 1; omega)
      | split at h

theorem trInstr_next {x : Ctx} {ts : List Tgt} (h : trInstr x ts br b g = some (is, g')) : g.next ≤ g'.next := by
  by_cases hj : b.isJump = true
  · cases b <;> simp only [Bc.isJump, reduceCtorEq] at hj <;> simp only [trInstr] at h
    all_goals
      split at h
      all_goals
      first
      | (cases h; done)
      | (cases h; exact Nat.le_refl _)
      | (obtain ⟨d, -, h⟩ := Option.map_eq_some_iff.mp h; cases h; exact Nat.le_refl _)
      | (split at h <;> first | (cases h; done) | (cases h; exact Nat.le_add_right _ _))
  · refine trOp_next (x := x) (b := b) (is := is) ?_
    cases b <;> first | exact h | exact absurd rfl hj

theorem trBlock_next {x : Ctx} {ts : List Tgt} : ∀ {bs : List Bc} {g : CG} {is : List Instr} {g' : CG},
    trBlock x ts br bs g = some (is, g') → g.next ≤ g'.next
  | [], _, _, _, h => by cases h; exact Nat.le_refl _
  | b :: bs, g, is, g', h => by
    simp only [trBlock] at h
    split at h
    · rename_i h1
      split at h
      · rename_i h2
        cases h
        exact Nat.le_trans (trInstr_next h1) (trBlock_next h2)
      · cases h
    · cases h

theorem trFlow_next {x : Ctx} : ∀ {flow : Flow} {ts : List Tgt} {g : CG} {is : List Instr} {g' : CG},
    trFlow x ts flow g = some (is, g') → g.next ≤ g'.next
  | .simple label len br im nx, ts, g, is, g', h => by
    simp only [trFlow] at h
    split at h
    · rename_i h1
      split at h
      · rename_i h2
        split at h
        · rename_i h3
          cases h
          exact Nat.le_trans (trBlock_next h1) (Nat.le_trans (trFlow_next h2) (trFlow_next h3))
        · cases h
      · cases h
    · cases h
  | .loop id inner nx, ts, g, is, g', h => by
    simp only [trFlow] at h
    split at h
    · rename_i h1
      split at h
      · rename_i h2
        cases h
        exact Nat.le_trans (trFlow_next h1) (trFlow_next h2)
      · cases h
    · cases h
  | .ifElse a b, ts, g, is, g', h => by
    simp only [trFlow] at h
    split at h
    · rename_i h1
      split at h
      · rename_i h2
        cases h
        have := trFlow_next h1
        have := trFlow_next h2
        dsimp only at *
        omega
      · cases h
    · cases h
  | .empty, _, _, _, _, h => by cases h; exact Nat.le_refl _

/-- The instructions of a block. -/
theorem sim_block (hk : e.Ok) : ∀ (bs : List Bc) (g : CG) (is : List Instr) (n : Nat) (c : Cfg) (s loc : List Nat) (σ : Store),
    (∀ i b, bs[i]? = some b → e.x.F.code[c.pc + i]? = some b) →
    blockOk e.x.F fs br im K bs c.pc = true → trBlock e.x (fs.map (·.1)) br bs g = some (is, g') → g'.next ≤ e.L →
    GOk e.x g c → At e n c s loc σ →
    (∀ m s loc σ, m ≤ n → Start e im K m s loc σ → wp js s loc σ Q) →
    (∀ r, NotOk r → Post e K fs n r → Q r) → wp (is ++ js) s loc σ Q
  | [], g, is, n, c, s, loc, σ, hcode, hok, htr, hL, hg, h, hI, hQ => by
    cases htr
    simp only [blockOk, Bool.and_eq_true, beq_iff_eq] at hok
    obtain ⟨-, a, hst⟩ := h.runs.stepped
    have hs := (step_some hst).1 hok.2
    obtain ⟨ρ, mm, hsim, -⟩ := h.sim
    have hs' := hsim.stack
    rw [hs] at hs'
    obtain rfl : s = [] := by cases s with | nil => rfl | cons => exact hs'.elim
    exact hI n [] loc σ (Nat.le_refl _) (Start.of (Nat.le_refl _) hok.1 h)
  | b :: bs, g, is, n, c, s, loc, σ, hcode, hok, htr, hL, hg, h, hI, hQ => by
    have hb := hcode 0 b rfl
    rw [Nat.add_zero] at hb
    simp only [trBlock] at htr
    split at htr
    case h_2 => cases htr
    rename_i is1 g1 h1
    split at htr
    case h_2 => cases htr
    rename_i is2 g2 h2
    cases htr
    have hL1 : g1.next ≤ e.L := Nat.le_trans (trBlock_next h2) hL
    rw [List.append_assoc]
    simp only [blockOk] at hok
    split_ifs at hok with hj
    · -- a jump ends the block
      rw [Bool.and_eq_true, List.isEmpty_iff] at hok
      obtain ⟨rfl, hok⟩ := hok
      cases h2
      exact sim_jump hk hj hb hok h1 hL1 hg h hI hQ
    · rw [Bool.not_eq_true] at hj
      have htr : trOp e.x g b = some (is1, g1) := by
        cases b <;> first | (simp only [Bc.isJump, reduceCtorEq] at hj; done) | exact h1
      -- the rest of the block
      have rest : ∀ m c' s' loc' σ', m < n → c'.pc = c.pc + 1 → GOk e.x g1 c' → At e m c' s' loc' σ' →
          wp (is2 ++ js) s' loc' σ' Q := by
        intro m c' s' loc' σ' hm hpc hg' h'
        refine sim_block hk bs g1 is2 m c' s' loc' σ' ?_ (by rw [hpc]; exact hok) h2 hL hg' h'
          (fun m' s loc σ hm' hs => hI m' s loc σ (by omega) hs)
          (fun r hr hp => hQ r hr (hp.mono (by omega)))
        intro i b' hi
        rw [hpc, Nat.add_assoc, Nat.add_comm 1]
        exact hcode (i + 1) b' hi
      obtain ⟨hA, a, hst⟩ := h.runs.stepped
      obtain ⟨-, b', hb', he⟩ := step_some hst
      rw [hb] at hb'
      cases hb'
      by_cases hc : ∃ f, b = .call f
      · obtain ⟨f, rfl⟩ := hc
        exact sim_call hk hb htr hL1 hg h rest hQ
      · obtain ⟨ρ, mm, hsim, hGr, hpre⟩ := h.sim
        have hwork : 400 * work e.x.F c ≤ e.U * n := by
          have h1 := hk.room
          have h2 : work e.x.F c ≤ n := by
            have hr := h.runs
            cases hr with
            | next => omega
            | halt => omega
            | call _ h' => obtain ⟨-, b', hb', h'⟩ := step_some h'; rw [hb] at hb'; cases hb'; exact absurd ⟨_, (exec_call h').1⟩ hc
            | callHalt _ h' => obtain ⟨-, b', hb', h'⟩ := step_some h'; rw [hb] at hb'; cases hb'; exact absurd ⟨_, (exec_call h').1⟩ hc
          exact Nat.mul_le_mul h1 h2
        refine sim_op (P := e.P) (consts := e.P.consts) hk.err hk.consts hk.inj hk.lt (by rw [hGr.alters.host]; exact hk.told) hsim hg
          (h.room.mono hwork) hb (hk.excl _ _ hA) htr hL1 he
          (fun f hf => hc ⟨f, hf⟩) ?_
        cases a with
        | next c1 =>
          intro s' loc' σ' ρ' m' hs hx hp hn hg'
          have hr := h.runs
          cases hr with
          | @next _ _ _ m _ _ hst' hr =>
            rw [hst] at hst'
            cases hst'
            have hU : 400 * work e.x.F c ≤ e.U * work e.x.F c := Nat.mul_le_mul_right _ hk.room
            have hw := work_pos (F := e.x.F) (c := c)
            refine rest m c1 s' loc' σ' (by omega) ?_ hg' (h.later rfl hGr hpre hs hx hp (by omega) hr)
            exact exec_next hj he
          | halt _ h' => rw [hst] at h'; cases h'
          | call _ h' => rw [hst] at h'; cases h'
          | callHalt _ h' => rw [hst] at h'; cases h'
        | halt h' =>
          obtain ⟨hh, -⟩ := h.runs.halts hst
          rcases exec_halt hj he with rfl | ⟨f, rfl⟩
          · exact hQ _ trivial hh
          · intro stk σ' hf
            rw [← hh] at hf
            exact hQ _ trivial (hf.mono hGr)
        | call f args c1 => exact absurd (exec_call he).1 (fun h => hc ⟨f, h⟩)


/-- What happens after the code of a flow. -/
def contS (js : List Instr) (Q : Res → Prop) : Res → Prop
  | .ok s loc σ => wp js s loc σ Q
  | r => Q r

theorem contS_nil {r : Res} (h : Q r) : contS [] Q r := by
  cases r with
  | ok => exact wp_nil.mpr h
  | _ => exact h

/-- A WebAssembly local that is not used otherwise. -/
theorem At.lset {l w : Nat} (hk : e.Ok) (h : At e n c s loc σ) (hl : e.x.res < l) : At e n c s (lset loc l w) σ := by
  obtain ⟨ρ, m, hs, hx⟩ := h.sim
  refine ⟨h.runs, ⟨ρ, m, ⟨hs.world, by rw [lset_length]; exact hs.len, hs.stack, ?_⟩, hx⟩, h.room, h.fits⟩
  intro i v hi
  obtain ⟨p, h2, h3⟩ := hs.locals i v hi
  have := hk.lt p (List.mem_of_getElem? h2)
  exact ⟨p, h2, by rw [lget_lset_ne (by omega)]; exact h3⟩

theorem gok_empty {x : Ctx} (hn : x.res < g.next) (hc : c.stack = []) : GOk x g c :=
  ⟨hn, ⟨g.tys, by rw [hc]; rfl⟩, fun e _ v s h => by rw [hc] at h; cases h⟩

theorem At.stack_nil (h : At e n c [] loc σ) : c.stack = [] := by
  obtain ⟨ρ, m, hs, hx⟩ := h.sim
  have := hs.stack
  cases hs : c.stack with
  | nil => rfl
  | cons => rw [hs] at this; exact this.elim

/-- The translation of a flow. -/
theorem sim_flow (hk : e.Ok) : ∀ (flow : Flow) (fs : List Frame) (K : Option Nat) (g : CG) (is : List Instr) (g' : CG)
    (n : Nat) (s loc : List Nat) (σ : Store) (js : List Instr) (Q : Res → Prop),
    flow.ok e.x.F fs K = true → trFlow e.x (fs.map (·.1)) flow g = some (is, g') → e.x.res < g.next → g'.next ≤ e.L →
    Start e flow K n s loc σ → (∀ r, Post e K fs n r → contS js Q r) → wp (is ++ js) s loc σ Q
  | .simple label len br im nx, fs, K, g, is, g', n, s, loc, σ, js, Q, hok, htr, hg, hL, hs, hQ => by
    obtain ⟨rfl, m, hm, c, hc, h⟩ := hs
    simp only [Flow.entry, Option.some.injEq] at hc
    subst hc
    simp only [Flow.ok, Bool.and_eq_true] at hok
    obtain ⟨⟨hok1, hok2⟩, hok3⟩ := hok
    simp only [trFlow] at htr
    split at htr
    case h_2 => cases htr
    rename_i is1 g1 h1
    split at htr
    case h_2 => cases htr
    rename_i is2 g2 h2
    split at htr
    case h_2 => cases htr
    rename_i ks g3 h3
    cases htr
    have hn1 := trBlock_next h1
    have hn2 := trFlow_next h2
    have hn3 := trFlow_next h3
    -- after the block
    have after : ∀ m' r, m' ≤ n → Post e (nx.entry K) ((.simple nx.label?, nx.entry K) :: fs) m' r →
        contB 0 (ks ++ js) [] Q r := by
      intro m' r hm' hp
      have go : ∀ k c' loc' σ', k ≤ n → nx.entry K = some c'.pc → At e k c' [] loc' σ' →
          wp (ks ++ js) [] loc' σ' Q := fun k c' loc' σ' hle hc h' =>
        sim_flow hk nx fs K g2 ks g' k [] loc' σ' js Q hok3 h3 (by omega) hL (Start.of (Nat.le_refl _) hc h')
          (fun r hp => hQ r (hp.mono hle))
      cases r with
      | ok s' loc' σ' =>
        obtain ⟨rfl, k, hk', c', hc, h'⟩ := hp
        exact go k c' loc' σ' (by omega) hc h'
      | br d s' loc' σ' =>
        cases d with
        | zero =>
          rcases hp with ⟨k, hk', c', tg, hc, h'⟩ | ⟨⟨q, hq⟩, -⟩
          · rw [List.getElem?_cons_zero, Option.some.injEq, Prod.mk.injEq] at hc
            rw [contB_br0, List.take_zero, List.nil_append]
            exact go k c' loc' σ' (by omega) hc.2 h'
          · rw [List.getElem?_cons_zero, Option.some.injEq, Prod.mk.injEq] at hq
            cases hq.1
        | succ d =>
          refine hQ (.br d s' loc' σ') ?_
          rcases hp with ⟨k, hk', c', tg, hc, h'⟩ | hp
          · exact .inl ⟨k, by omega, c', tg, hc, h'⟩
          · exact .inr hp
      | ret s2 σ2 => exact hQ (.ret s2 σ2) hp
      | trap => exact hQ .trap hp
      | oof => exact hp
    rw [List.cons_append, wp_block]
    refine sim_block hk (fs := (.simple nx.label?, nx.entry K) :: fs) (K := nx.entry K) (im := im) _ g is1 m c [] loc σ ?_ hok1 h1
      (by omega) (gok_empty hg h.stack_nil) h ?_ ?_
    · intro i b hi
      rw [List.getElem?_take] at hi
      split_ifs at hi
      rwa [List.getElem?_drop] at hi
    · intro m' s' loc' σ' hm' hst
      rw [← List.append_nil is2]
      exact sim_flow hk im ((.simple nx.label?, nx.entry K) :: fs) (nx.entry K) g1 is2 g2 m' s' loc' σ' [] _ hok2 h2 (by omega) (by omega) hst
        (fun r hp => contS_nil (after m' r (by omega) hp))
    · exact fun r _ hp => after m r hm hp
  | .loop id inner nx, fs, K, g, is, g', n, s, loc, σ, js, Q, hok, htr, hg, hL, hs, hQ => by
    obtain ⟨rfl, m, hm, c, hc, h⟩ := hs
    simp only [Flow.entry] at hc
    simp only [Flow.ok, Bool.and_eq_true] at hok
    obtain ⟨hok1, hok2⟩ := hok
    simp only [trFlow] at htr
    split at htr
    case h_2 => cases htr
    rename_i is1 g1 h1
    split at htr
    case h_2 => cases htr
    rename_i ks g2 h2
    cases htr
    have hn1 := trFlow_next h1
    have hn2 := trFlow_next h2
    have go : ∀ k c' loc' σ', k ≤ n → nx.entry K = some c'.pc → At e k c' [] loc' σ' →
        wp (ks ++ js) [] loc' σ' Q := fun k c' loc' σ' hle hc h' =>
      sim_flow hk nx fs K g1 ks g' k [] loc' σ' js Q hok2 h2 (by omega) hL (Start.of (Nat.le_refl _) hc h')
        (fun r hp => hQ r (hp.mono hle))
    rw [List.cons_append, wp_block]
    refine wp_loop (fun m' loc' σ' => m' ≤ n ∧ ∃ c', inner.entry (nx.entry K) = some c'.pc ∧ At e m' c' [] loc' σ') m
      ⟨hm, c, hc, h⟩ ?_
    rintro m' loc' σ' ⟨hm', c', hc', h'⟩
    rw [← List.append_nil is1]
    refine sim_flow hk inner ((.cont id, inner.entry (nx.entry K)) :: (.brk id, nx.entry K) :: fs) (nx.entry K) g is1 g1 m' []
      loc' σ' [] _ hok1 h1 hg (by omega) (Start.of (Nat.le_refl _) hc' h') ?_
    intro r hp
    apply contS_nil
    cases r with
    | ok s2 loc2 σ2 =>
      obtain ⟨rfl, k, hk', c2, hc2, h2⟩ := hp
      rw [contL_ok, wp_nil, contB_ok]
      exact go k c2 loc2 σ2 (by omega) hc2 h2
    | br d s2 loc2 σ2 =>
      match d with
      | 0 =>
        rcases hp with ⟨k, hk', c2, tg, hc2, h2⟩ | ⟨⟨q, hq⟩, -⟩
        · rw [List.getElem?_cons_zero, Option.some.injEq, Prod.mk.injEq] at hc2
          exact ⟨k, hk', by omega, c2, hc2.2, h2⟩
        · rw [List.getElem?_cons_zero, Option.some.injEq, Prod.mk.injEq] at hq
          cases hq.1
      | 1 =>
        rcases hp with ⟨k, hk', c2, tg, hc2, h2⟩ | ⟨⟨q, hq⟩, -⟩
        · rw [List.getElem?_cons_succ, List.getElem?_cons_zero, Option.some.injEq, Prod.mk.injEq] at hc2
          rw [contL_brS, contB_br0, List.take_zero, List.nil_append]
          exact go k c2 loc2 σ2 (by omega) hc2.2 h2
        · rw [List.getElem?_cons_succ, List.getElem?_cons_zero, Option.some.injEq, Prod.mk.injEq] at hq
          cases hq.1
      | d + 2 =>
        refine hQ (.br d s2 loc2 σ2) ?_
        rcases hp with ⟨k, hk', c2, tg, hc2, h2⟩ | hp
        · exact .inl ⟨k, by omega, c2, tg, hc2, h2⟩
        · exact .inr hp
    | ret s2 σ2 => exact hQ (.ret s2 σ2) hp
    | trap => exact hQ .trap hp
    | oof => exact hp
  | .ifElse a b, fs, K, g, is, g', n, s, loc, σ, js, Q, hok, htr, hg, hL, hs, hQ => by
    obtain ⟨w, rfl, ht, he⟩ := hs
    simp only [Flow.ok, Bool.and_eq_true] at hok
    obtain ⟨hok1, hok2⟩ := hok
    simp only [trFlow] at htr
    split at htr
    case h_2 => cases htr
    rename_i is1 g1 h1
    split at htr
    case h_2 => cases htr
    rename_i is2 g2 h2
    cases htr
    have hn1 := trFlow_next h1
    have hn2 := trFlow_next h2
    dsimp only at hn1
    have hlen : loc.length = e.L := by
      by_cases hw : w = 0
      · obtain ⟨m, -, c, -, h⟩ := he hw; exact h.len
      · obtain ⟨m, -, c, -, h⟩ := ht hw; exact h.len
    simp only [List.cons_append, List.nil_append, wp_lset, wp_block, wp_lget, wp_brIf]
    rw [lget_lset_same (by omega)]
    refine IfP.intro ?_ ?_
    · intro hw
      obtain ⟨m, hm, c, hc, h⟩ := ht hw
      rw [contB_br0, List.take_zero, List.nil_append, ← List.append_nil is2]
      refine sim_flow hk a ((.plain, none) :: fs) K g1 is2 g' m [] _ σ [] _ hok1 h2 (by omega) hL
        (Start.of (Nat.le_refl _) hc (h.lset hk hg)) ?_
      intro r hp
      apply contS_nil
      cases r with
      | ok s2 loc2 σ2 =>
        obtain ⟨rfl, k, hk', hp⟩ := hp
        exact hQ (.ok [] loc2 σ2) ⟨rfl, k, by omega, hp⟩
      | br d s2 loc2 σ2 =>
        match d with
        | 0 =>
          rcases hp with ⟨k, hk', c2, tg, hc2, h2⟩ | ⟨⟨q, hq⟩, -⟩
          · rw [List.getElem?_cons_zero, Option.some.injEq, Prod.mk.injEq] at hc2
            cases hc2.2
          · rw [List.getElem?_cons_zero, Option.some.injEq, Prod.mk.injEq] at hq
            cases hq.1
        | d + 1 =>
          refine hQ (.br d s2 loc2 σ2) ?_
          rcases hp with ⟨k, hk', c2, tg, hc2, h2⟩ | hp
          · exact .inl ⟨k, by omega, c2, tg, hc2, h2⟩
          · exact .inr hp
      | ret s2 σ2 => exact hQ (.ret s2 σ2) hp
      | trap => exact hQ .trap hp
      | oof => exact hp
    · intro hw
      rw [not_not] at hw
      obtain ⟨m, hm, c, hc, h⟩ := he hw
      refine sim_flow hk b ((.plain, none) :: (.plain, none) :: fs) K _ is1 g1 m [] _ σ _ _ hok2 h1 ?_ (by omega)
        (Start.of (Nat.le_refl _) hc (h.lset hk hg)) ?_
      · show e.x.res < g.next + 1; omega
      intro r hp
      cases r with
      | ok s2 loc2 σ2 =>
        obtain ⟨rfl, k, hk', hp⟩ := hp
        refine wp_br.mpr ?_
        rw [contB_brS, contB_br0]
        exact hQ (.ok [] loc2 σ2) ⟨rfl, k, by omega, hp⟩
      | br d s2 loc2 σ2 =>
        match d with
        | 0 =>
          rcases hp with ⟨k, hk', c2, tg, hc2, h2⟩ | ⟨⟨q, hq⟩, -⟩
          · rw [List.getElem?_cons_zero, Option.some.injEq, Prod.mk.injEq] at hc2
            cases hc2.2
          · rw [List.getElem?_cons_zero, Option.some.injEq, Prod.mk.injEq] at hq
            cases hq.1
        | 1 =>
          rcases hp with ⟨k, hk', c2, tg, hc2, h2⟩ | ⟨⟨q, hq⟩, -⟩
          · rw [List.getElem?_cons_succ, List.getElem?_cons_zero, Option.some.injEq, Prod.mk.injEq] at hc2
            cases hc2.2
          · rw [List.getElem?_cons_succ, List.getElem?_cons_zero, Option.some.injEq, Prod.mk.injEq] at hq
            cases hq.1
        | d + 2 =>
          refine hQ (.br d s2 loc2 σ2) ?_
          rcases hp with ⟨k, hk', c2, tg, hc2, h2⟩ | hp
          · exact .inl ⟨k, by omega, c2, tg, hc2, h2⟩
          · exact .inr hp
      | ret s2 σ2 => exact hQ (.ret s2 σ2) hp
      | trap => exact hQ .trap hp
      | oof => exact hp
  | .empty, fs, K, g, is, g', n, s, loc, σ, js, Q, hok, htr, hg, hL, hs, hQ => by
    obtain ⟨rfl, m, hm, c, hc, h⟩ := hs
    cases htr
    exact hQ (.ok [] loc σ) ⟨rfl, m, hm, c, hc, h⟩

end Move
