import Verif.Wp

/-!
# Partial correctness

`wlp is s l σ Q`: if executing `is` ends, its outcome satisfies `Q`.  For statements about arbitrary
functions, which need not end.
-/

namespace Wasm

/-- Weakest liberal precondition. -/
def wlp (is : List Instr) (s l : List Nat) (σ : Store) (Q : Res → Prop) : Prop :=
  ∀ n, run n is s l σ ≠ .oof → Q (run n is s l σ)

theorem wlp_mono {is s l σ} {Q Q' : Res → Prop} (h : wlp is s l σ Q) (hq : ∀ r, Q r → Q' r) :
    wlp is s l σ Q' := fun n hn => hq _ (h n hn)

theorem wp_wlp {is s l σ} {Q Q' : Res → Prop} (h : wp is s l σ Q) (h' : wlp is s l σ Q') :
    wp is s l σ (fun r => Q r ∧ Q' r) := by
  obtain ⟨n, h1, h2⟩ := h
  exact ⟨n, h1, h2, h' n h1⟩

/-- What remains to be shown after the body of a block. -/
def contW (ar : Nat) (is : List Instr) (s : List Nat) (Q : Res → Prop) : Res → Prop
  | .ok s' l' σ' => wlp is (s'.take ar ++ s) l' σ' Q
  | .br 0 s' l' σ' => wlp is (s'.take ar ++ s) l' σ' Q
  | .br (k + 1) s' l' σ' => Q (.br k s' l' σ')
  | .ret s' σ' => Q (.ret s' σ')
  | .trap => Q .trap
  | .oof => True

theorem wlp_nil {s l σ} {Q : Res → Prop} (h : Q (.ok s l σ)) : wlp [] s l σ Q := by
  intro n hn
  cases n with
  | zero => simp [run] at hn
  | succ n => exact h

theorem wlp_op {o is s l σ} {Q : Res → Prop}
    (h : match o.exec s l σ with
      | some (s', l', σ') => wlp is s' l' σ' Q
      | none => Q .trap) : wlp (.op o :: is) s l σ Q := by
  intro n hn
  cases n with
  | zero => simp [run] at hn
  | succ n =>
    simp only [run] at hn ⊢
    cases ho : o.exec s l σ with
    | none => rw [ho] at h; exact h
    | some r => rw [ho] at h hn; exact h n hn

theorem wlp_block {ar b is s l σ} {Q : Res → Prop} (h : wlp b [] l σ (contW ar is s Q)) :
    wlp (.block ar b :: is) s l σ Q := by
  intro n hn
  cases n with
  | zero => simp [run] at hn
  | succ n =>
    simp only [run] at hn ⊢
    have hb := h n
    cases hr : run n b [] l σ with
    | oof => rw [hr] at hn; exact absurd rfl hn
    | ok s' l' σ' => rw [hr] at hb hn; exact hb (by simp) n hn
    | br k s' l' σ' =>
      rw [hr] at hb hn
      cases k with
      | zero => exact hb (by simp) n hn
      | succ k => exact hb (by simp)
    | ret => rw [hr] at hb; exact hb (by simp)
    | trap => rw [hr] at hb; exact hb (by simp)

theorem wlp_ite {ar t e is c s l σ} {Q : Res → Prop}
    (h : wlp (if c ≠ 0 then t else e) [] l σ (contW ar is s Q)) :
    wlp (.ite ar t e :: is) (c :: s) l σ Q := by
  intro n hn
  cases n with
  | zero => simp [run] at hn
  | succ n =>
    simp only [run] at hn ⊢
    have hb := h n
    cases hr : run n (if c ≠ 0 then t else e) [] l σ with
    | oof => rw [hr] at hn; exact absurd rfl hn
    | ok s' l' σ' => rw [hr] at hb hn; exact hb (by simp) n hn
    | br k s' l' σ' =>
      rw [hr] at hb hn
      cases k with
      | zero => exact hb (by simp) n hn
      | succ k => exact hb (by simp)
    | ret => rw [hr] at hb; exact hb (by simp)
    | trap => rw [hr] at hb; exact hb (by simp)

theorem wlp_loop {ar b is s l σ} {Q : Res → Prop} (I : List Nat → Store → Prop) (h0 : I l σ)
    (h : ∀ l σ, I l σ → wlp b [] l σ (fun r => match r with
      | .br 0 _ l' σ' => I l' σ'
      | r => contW ar is s Q r)) :
    wlp (.loop ar b :: is) s l σ Q := by
  intro n
  induction n generalizing l σ with
  | zero => intro hn; simp [run] at hn
  | succ n ih =>
    intro hn
    simp only [run] at hn ⊢
    have hb := h l σ h0 n
    cases hr : run n b [] l σ with
    | oof => rw [hr] at hn; exact absurd rfl hn
    | ok s' l' σ' => rw [hr] at hb hn; exact hb (by simp) n hn
    | br k s' l' σ' =>
      rw [hr] at hb hn
      cases k with
      | zero => exact ih (hb (by simp)) hn
      | succ k => exact hb (by simp)
    | ret => rw [hr] at hb; exact hb (by simp)
    | trap => rw [hr] at hb; exact hb (by simp)

theorem wlp_br {k is s l σ} {Q : Res → Prop} (h : Q (.br k s l σ)) : wlp (.br k :: is) s l σ Q := by
  intro n hn
  cases n with
  | zero => simp [run] at hn
  | succ n => exact h

theorem wlp_ret {is s l σ} {Q : Res → Prop} (h : Q (.ret s σ)) : wlp (.ret :: is) s l σ Q := by
  intro n hn
  cases n with
  | zero => simp [run] at hn
  | succ n => exact h

theorem wlp_brIf {k is c s l σ} {Q : Res → Prop} (h1 : c ≠ 0 → Q (.br k s l σ))
    (h2 : c = 0 → wlp is s l σ Q) : wlp (.brIf k :: is) (c :: s) l σ Q := by
  intro n hn
  cases n with
  | zero => simp [run] at hn
  | succ n =>
    simp only [run] at hn ⊢
    by_cases hc : c = 0
    · rw [if_neg (by simpa using hc)] at hn ⊢; exact h2 hc n hn
    · rw [if_pos hc]; exact h1 hc

/-- `f` may return `r` and leave the store `σ'`. -/
def Fn.Returns (f : Fn) (args : List Nat) (σ : Store) (r : List Nat) (σ' : Store) : Prop :=
  f.Calls args σ (fun r' τ => r' = r ∧ τ = σ')

theorem wlp_call {f : Fn} {is s l σ} {Q : Res → Prop} (ht : Q .trap)
    (h : ∀ args s' r σ', s = args.reverse ++ s' → f.Returns args σ r σ' → wlp is (r ++ s') l σ' Q) :
    wlp (f.call :: is) s l σ Q := by
  intro n hn
  cases n with
  | zero => simp [run] at hn
  | succ n =>
    simp only [Fn.call, run] at hn ⊢
    by_cases hl : s.length < f.na
    · rw [if_pos hl]; exact ht
    · rw [if_neg hl] at hn ⊢
      have e : s = ((s.take f.na).reverse).reverse ++ s.drop f.na := by
        rw [List.reverse_reverse, List.take_append_drop]
      have hlen : ((s.take f.na).reverse).length = f.na := by
        rw [List.length_reverse, List.length_take]; omega
      have key : ∀ (q : List Nat) (σ' : Store), retK f.nr (fun r' τ => r' = q ∧ τ = σ')
          (run n f.body [] ((s.take f.na).reverse ++ List.replicate f.nl 0) σ) →
          f.Returns ((s.take f.na).reverse) σ q σ' := by
        intro q σ' hk
        refine ⟨hlen, n, ?_, hk⟩
        intro hc; rw [hc] at hk; exact hk
      cases hr : run n f.body [] ((s.take f.na).reverse ++ List.replicate f.nl 0) σ with
      | oof => rw [hr] at hn; exact absurd rfl hn
      | trap => exact ht
      | ok s' l' σ' =>
        rw [hr] at hn
        exact h _ _ (s'.take f.nr) σ' e (key _ _ (by rw [hr]; exact ⟨rfl, rfl⟩)) n hn
      | ret s' σ' =>
        rw [hr] at hn
        exact h _ _ (s'.take f.nr) σ' e (key _ _ (by rw [hr]; exact ⟨rfl, rfl⟩)) n hn
      | br k s' l' σ' =>
        rw [hr] at hn
        cases k with
        | zero => exact h _ _ (s'.take f.nr) σ' e (key _ _ (by rw [hr]; exact ⟨rfl, rfl⟩)) n hn
        | succ k => exact ht

/-- Sequential composition. -/
def contA (is : List Instr) (Q : Res → Prop) : Res → Prop
  | .ok s' l' σ' => wlp is s' l' σ' Q
  | r => Q r

/-- A run of `a ++ b` is a run of `a`, followed by a run of `b` if `a` ends normally. -/
def Splits (n : Nat) (a b : List Instr) (s l : List Nat) (σ : Store) : Prop :=
  (∃ s' l' σ' m, run n a s l σ = .ok s' l' σ' ∧ run m b s' l' σ' = run n (a ++ b) s l σ) ∨
  ((∀ s' l' σ', run n a s l σ ≠ .ok s' l' σ') ∧ run n a s l σ = run n (a ++ b) s l σ)

theorem run_append {n : Nat} : ∀ {a b s l σ}, Splits n a b s l σ := by
  induction n with
  | zero => intro a b s l σ; exact .inr ⟨by simp [run], rfl⟩
  | succ n ih =>
    intro a b s l σ
    cases a with
    | nil => exact .inl ⟨s, l, σ, n + 1, by simp [run], rfl⟩
    | cons i a =>
      unfold Splits
      rw [List.cons_append]
      cases i with
      | op o =>
        simp only [run]
        cases ho : o.exec s l σ with
        | none => exact .inr ⟨by simp, rfl⟩
        | some r => exact ih
      | block ar c =>
        simp only [run]
        cases hr : run n c [] l σ with
        | ok => exact ih
        | br k =>
          cases k with
          | zero => exact ih
          | succ k => exact .inr ⟨by simp, rfl⟩
        | ret => exact .inr ⟨by simp, rfl⟩
        | trap => exact .inr ⟨by simp, rfl⟩
        | oof => exact .inr ⟨by simp, rfl⟩
      | loop ar c =>
        simp only [run]
        cases hr : run n c [] l σ with
        | ok => exact ih
        | br k =>
          cases k with
          | zero => exact ih (a := .loop ar c :: a)
          | succ k => exact .inr ⟨by simp, rfl⟩
        | ret => exact .inr ⟨by simp, rfl⟩
        | trap => exact .inr ⟨by simp, rfl⟩
        | oof => exact .inr ⟨by simp, rfl⟩
      | ite ar t e =>
        cases s with
        | nil => exact .inr ⟨by simp [run], rfl⟩
        | cons c s =>
          simp only [run]
          cases hr : run n (if c ≠ 0 then t else e) [] l σ with
          | ok => exact ih
          | br k =>
            cases k with
            | zero => exact ih
            | succ k => exact .inr ⟨by simp, rfl⟩
          | ret => exact .inr ⟨by simp, rfl⟩
          | trap => exact .inr ⟨by simp, rfl⟩
          | oof => exact .inr ⟨by simp, rfl⟩
      | br k => exact .inr ⟨by simp [run], rfl⟩
      | ret => exact .inr ⟨by simp [run], rfl⟩
      | brIf k =>
        cases s with
        | nil => exact .inr ⟨by simp [run], rfl⟩
        | cons c s =>
          simp only [run]
          by_cases hc : c = 0
          · subst hc
            simp only [ne_eq, not_true_eq_false, if_false]
            exact ih
          · simp only [ne_eq, hc, not_false_eq_true, if_true]
            exact .inr ⟨by simp, trivial⟩
      | call na nr nl c =>
        simp only [run]
        by_cases hl : s.length < na
        · simp only [hl, if_true]; exact .inr ⟨by simp, trivial⟩
        · simp only [hl, if_false]
          cases hr : run n c [] ((s.take na).reverse ++ List.replicate nl 0) σ with
          | ok => exact ih
          | br k =>
            cases k with
            | zero => exact ih
            | succ k => exact .inr ⟨by simp, rfl⟩
          | ret => exact ih
          | trap => exact .inr ⟨by simp, rfl⟩
          | oof => exact .inr ⟨by simp, rfl⟩

theorem wlp_append {a b s l σ} {Q : Res → Prop} (h : wlp a s l σ (contA b Q)) : wlp (a ++ b) s l σ Q := by
  intro n hn
  have ha := h n
  rcases run_append (n := n) (a := a) (b := b) (s := s) (l := l) (σ := σ) with ⟨s', l', σ', m, h1, h2⟩ | ⟨h1, h2⟩
  · rw [h1] at ha
    rw [← h2] at hn ⊢
    exact ha (by simp) m hn
  · rw [← h2] at hn ⊢
    have := ha hn
    cases hr : run n a s l σ with
    | ok s' l' σ' => exact absurd hr (h1 _ _ _)
    | br => rw [hr] at this; exact this
    | ret => rw [hr] at this; exact this
    | trap => rw [hr] at this; exact this
    | oof => rw [hr] at this; exact this

/-! ### Invariants of the store -/

/-- All final stores satisfy `K`. -/
def Res.All (K : Store → Prop) : Res → Prop
  | .ok _ _ σ => K σ
  | .br _ _ _ σ => K σ
  | .ret _ σ => K σ
  | .trap => True
  | .oof => True

/-- Executing `is` keeps the invariant `K`. -/
def Keeps (K : Store → Prop) (is : List Instr) : Prop :=
  ∀ s l σ, K σ → wlp is s l σ (Res.All K)

theorem Keeps.nil {K : Store → Prop} : Keeps K [] := fun _ _ _ h => wlp_nil h

theorem Keeps.append {K : Store → Prop} {a b : List Instr} (ha : Keeps K a) (hb : Keeps K b) : Keeps K (a ++ b) := by
  intro s l σ h
  refine wlp_append (wlp_mono (ha s l σ h) ?_)
  intro r hr
  cases r with
  | ok s' l' σ' => exact hb s' l' σ' hr
  | br => exact hr
  | ret => exact hr
  | trap => exact trivial
  | oof => exact trivial

theorem Keeps.cons {K : Store → Prop} {i : Instr} {b : List Instr} (ha : Keeps K [i]) (hb : Keeps K b) :
    Keeps K (i :: b) := ha.append hb

theorem All.contW {K : Store → Prop} {ar s r} (h : Res.All K r) : contW ar [] s (Res.All K) r := by
  cases r with
  | ok => exact wlp_nil h
  | br k =>
    cases k with
    | zero => exact wlp_nil h
    | succ k => exact h
  | ret => exact h
  | trap => exact trivial
  | oof => exact trivial

theorem Keeps.block {K : Store → Prop} {ar : Nat} {b : List Instr} (h : Keeps K b) : Keeps K [.block ar b] := by
  intro s l σ hk
  exact wlp_block (wlp_mono (h [] l σ hk) fun r => All.contW)

theorem Keeps.loop {K : Store → Prop} {ar : Nat} {b : List Instr} (h : Keeps K b) : Keeps K [.loop ar b] := by
  intro s l σ hk
  refine wlp_loop (fun _ σ => K σ) hk fun l σ hk => wlp_mono (h [] l σ hk) fun r hr => ?_
  cases r with
  | ok => exact wlp_nil hr
  | br k =>
    cases k with
    | zero => exact hr
    | succ k => exact hr
  | ret => exact hr
  | trap => exact trivial
  | oof => exact trivial

theorem Keeps.ite {K : Store → Prop} {ar : Nat} {t e : List Instr} (ht : Keeps K t) (he : Keeps K e) :
    Keeps K [.ite ar t e] := by
  intro s l σ hk
  cases s with
  | nil =>
    intro n hn
    cases n with
    | zero => simp [run] at hn
    | succ n => exact trivial
  | cons c s =>
    refine wlp_ite (wlp_mono ?_ fun r => All.contW)
    split
    · exact ht [] l σ hk
    · exact he [] l σ hk

theorem Keeps.br {K : Store → Prop} {k : Nat} : Keeps K [.br k] := fun _ _ _ h => wlp_br h
theorem Keeps.ret {K : Store → Prop} : Keeps K [.ret] := fun _ _ _ h => wlp_ret h
theorem Keeps.brIf {K : Store → Prop} {k : Nat} : Keeps K [.brIf k] := by
  intro s l σ hk
  cases s with
  | nil =>
    intro n hn
    cases n with
    | zero => simp [run] at hn
    | succ n => exact trivial
  | cons c s => exact wlp_brIf (fun _ => hk) (fun _ => wlp_nil hk)

theorem Keeps.call {K : Store → Prop} {f : Fn}
    (h : ∀ args σ r σ', K σ → f.Returns args σ r σ' → K σ') : Keeps K [f.call] := by
  intro s l σ hk
  exact wlp_call trivial fun args s' r σ' _ hr => wlp_nil (h args σ r σ' hk hr)

theorem Keeps.callBody {K : Store → Prop} {f : Fn} (h : Keeps K f.body) : Keeps K [f.call] := by
  refine Keeps.call fun args σ r σ' hk hr => ?_
  obtain ⟨-, hr⟩ := hr
  obtain ⟨n, h1, h2, h3⟩ := wp_wlp hr (h _ _ σ hk)
  cases hq : run n f.body [] (args ++ List.replicate f.nl 0) σ with
  | ok => rw [hq] at h2 h3; obtain ⟨-, rfl⟩ := h2; exact h3
  | br k =>
    rw [hq] at h2 h3
    cases k with
    | zero => obtain ⟨-, rfl⟩ := h2; exact h3
    | succ k => exact absurd h2 id
  | ret => rw [hq] at h2 h3; obtain ⟨-, rfl⟩ := h2; exact h3
  | trap => rw [hq] at h2; exact absurd h2 id
  | oof => rw [hq] at h2; exact absurd h2 id

/-- The instruction is not a host call. -/
def Op.noHost : Op → Bool
  | .host _ => false
  | _ => true

theorem setGlob_host {σ : Store} {g v} : (σ.setGlob g v).host = σ.host := by cases g <;> rfl

theorem Op.noHost_exec {o : Op} (h : o.noHost = true) {s l σ s' l' σ'}
    (he : o.exec s l σ = some (s', l', σ')) : σ'.host = σ.host := by
  unfold Op.exec at he
  split at he
  all_goals first
    | (simp only [Option.some.injEq, Prod.mk.injEq] at he; obtain ⟨-, -, rfl⟩ := he; rfl)
    | (simp only [Option.some.injEq, Prod.mk.injEq] at he; obtain ⟨-, -, rfl⟩ := he; exact setGlob_host)
    | (simp [Op.noHost] at h; done)
    | (simp at he; done)
    | skip
  all_goals
    split at he
    all_goals first
      | (simp only [Option.some.injEq, Prod.mk.injEq] at he; obtain ⟨-, -, rfl⟩ := he; rfl)
      | (simp at he; done)

mutual
/-- No host call anywhere, callees included. -/
def Instr.noHost : Instr → Bool
  | .op o => o.noHost
  | .block _ b => noHostL b
  | .loop _ b => noHostL b
  | .ite _ t e => noHostL t && noHostL e
  | .call _ _ _ b => noHostL b
  | _ => true
def noHostL : List Instr → Bool
  | [] => true
  | i :: is => i.noHost && noHostL is
end

theorem noHostL_append (a b : List Instr) : noHostL (a ++ b) = (noHostL a && noHostL b) := by
  induction a with
  | nil => simp [noHostL]
  | cons i a ih => simp [noHostL, ih, Bool.and_assoc]

/-- A property of the host state only. -/
def OnHost (K : Store → Prop) : Prop := ∀ σ σ', σ'.host = σ.host → K σ → K σ'

mutual
theorem Keeps.noHostI {K : Store → Prop} (hK : OnHost K) : (i : Instr) → i.noHost = true → Keeps K [i]
  | .op o, h => by
    intro s l σ hk
    refine Wasm.wlp_op ?_
    cases ho : o.exec s l σ with
    | none => exact trivial
    | some r => exact wlp_nil (hK _ _ (Op.noHost_exec h ho) hk)
  | .block _ b, h => Keeps.block (Keeps.noHost hK b h)
  | .loop _ b, h => Keeps.loop (Keeps.noHost hK b h)
  | .ite _ t e, h => by
    rw [Instr.noHost, Bool.and_eq_true] at h
    exact Keeps.ite (Keeps.noHost hK t h.1) (Keeps.noHost hK e h.2)
  | .br _, _ => Keeps.br
  | .brIf _, _ => Keeps.brIf
  | .ret, _ => Keeps.ret
  | .call na nr nl b, h => Keeps.callBody (f := ⟨na, nr, nl, b⟩) (Keeps.noHost hK b h)
theorem Keeps.noHost {K : Store → Prop} (hK : OnHost K) : (is : List Instr) → noHostL is = true → Keeps K is
  | [], _ => Keeps.nil
  | i :: is, h => by
    rw [noHostL, Bool.and_eq_true] at h
    exact Keeps.cons (Keeps.noHostI hK i h.1) (Keeps.noHost hK is h.2)
end

/-! ### Values returned by `return` -/

/-- The instruction pushes a nonzero constant. -/
def Instr.nz : Instr → Bool
  | .op (.c32 v) => v % 4294967296 != 0
  | _ => false

mutual
/-- Each `return` follows an instruction that pushes a nonzero constant (`p`: the previous instruction
is one). -/
def Instr.rets (p : Bool) : Instr → Bool
  | .ret => p
  | .block _ b => retsL false b
  | .loop _ b => retsL false b
  | .ite _ t e => retsL false t && retsL false e
  | _ => true
def retsL (p : Bool) : List Instr → Bool
  | [] => true
  | i :: is => i.rets p && retsL i.nz is
end

theorem retsL_weaken {p : Bool} {is : List Instr} (h : retsL false is = true) : retsL p is = true := by
  cases is with
  | nil => rfl
  | cons i is =>
    rw [retsL, Bool.and_eq_true] at h ⊢
    refine ⟨?_, h.2⟩
    cases i <;> first | exact h.1 | (simp [Instr.rets] at h; done)

theorem retsL_append {p : Bool} {a b : List Instr} (ha : retsL p a = true) (hb : retsL false b = true) :
    retsL p (a ++ b) = true := by
  induction a generalizing p with
  | nil => exact retsL_weaken hb
  | cons i a ih =>
    rw [retsL, Bool.and_eq_true] at ha
    rw [List.cons_append, retsL, Bool.and_eq_true]
    exact ⟨ha.1, ih ha.2⟩

/-- The top of the stack is not zero. -/
def TopNz (s : List Nat) : Prop := ∃ v t, s = v :: t ∧ v ≠ 0

/-- If the outcome is a `return`, the value returned is not zero. -/
def RetNz : Res → Prop
  | .ret s _ => TopNz s
  | _ => True

theorem RetNz.contW {ar is s r} (h : RetNz r) (hr : ∀ s l σ, wlp is s l σ RetNz) : contW ar is s RetNz r := by
  cases r with
  | ok => exact hr _ _ _
  | br k =>
    cases k with
    | zero => exact hr _ _ _
    | succ k => exact trivial
  | ret => exact h
  | trap => exact trivial
  | oof => exact trivial

mutual
theorem retsI_wlp {p : Bool} : (i : Instr) → i.rets p = true → ∀ {is : List Instr},
    (∀ s l σ, (i.nz = true → TopNz s) → wlp is s l σ RetNz) →
    ∀ s l σ, (p = true → TopNz s) → wlp (i :: is) s l σ RetNz
  | .op o, _, is, hr, s, l, σ, _ => by
    refine wlp_op ?_
    cases ho : o.exec s l σ with
    | none => exact trivial
    | some r =>
      refine hr _ _ _ ?_
      cases o <;> simp only [Instr.nz, Bool.false_eq_true, false_implies]
      case c32 v =>
        intro h
        simp only [Op.exec, Option.some.injEq] at ho
        rw [← ho]
        exact ⟨_, _, rfl, by simpa using h⟩
  | .block ar b, h, is, hr, s, l, σ, _ =>
    wlp_block (wlp_mono (retsL_wlp b h [] l σ (by simp)) fun r h => h.contW fun s l σ => hr s l σ (by simp [Instr.nz]))
  | .loop ar b, h, is, hr, s, l, σ, _ => by
    refine wlp_loop (fun _ _ => True) trivial fun l σ _ => wlp_mono (retsL_wlp b h [] l σ (by simp)) fun r h => ?_
    have := h.contW (ar := ar) (s := s) fun s l σ => hr s l σ (by simp [Instr.nz])
    cases r with
    | ok => exact this
    | br k =>
      cases k with
      | zero => exact trivial
      | succ k => exact this
    | ret => exact h
    | trap => exact trivial
    | oof => exact trivial
  | .ite ar t e, h, is, hr, s, l, σ, _ => by
    rw [Instr.rets, Bool.and_eq_true] at h
    cases s with
    | nil =>
      intro n hn
      cases n with
      | zero => simp [run] at hn
      | succ n => exact trivial
    | cons c s =>
      refine wlp_ite ?_
      split
      · exact wlp_mono (retsL_wlp t h.1 [] l σ (by simp)) fun r h => h.contW fun s l σ => hr s l σ (by simp [Instr.nz])
      · exact wlp_mono (retsL_wlp e h.2 [] l σ (by simp)) fun r h => h.contW fun s l σ => hr s l σ (by simp [Instr.nz])
  | .br k, _, is, _, s, l, σ, _ => wlp_br trivial
  | .brIf k, _, is, hr, s, l, σ, _ => by
    cases s with
    | nil =>
      intro n hn
      cases n with
      | zero => simp [run] at hn
      | succ n => exact trivial
    | cons c s => exact wlp_brIf (fun _ => trivial) (fun _ => hr _ _ _ (by simp [Instr.nz]))
  | .ret, h, is, _, s, l, σ, ht => wlp_ret (ht h)
  | .call na nr nl b, _, is, hr, s, l, σ, _ =>
    wlp_call (f := ⟨na, nr, nl, b⟩) trivial fun args s' r σ' _ _ => hr _ _ _ (by simp [Instr.nz])
theorem retsL_wlp {p : Bool} : (is : List Instr) → retsL p is = true → ∀ s l σ, (p = true → TopNz s) →
    wlp is s l σ RetNz
  | [], _, s, l, σ, _ => wlp_nil trivial
  | i :: is, h, s, l, σ, ht => by
    rw [retsL, Bool.and_eq_true] at h
    exact retsI_wlp i h.1 (fun s l σ hs => retsL_wlp is h.2 s l σ hs) s l σ ht
end

/-! ### Branch depths -/

mutual
/-- All branches stay within `d` enclosing blocks. -/
def Instr.brs (d : Nat) : Instr → Bool
  | .br k => k < d
  | .brIf k => k < d
  | .block _ b => brsL (d + 1) b
  | .loop _ b => brsL (d + 1) b
  | .ite _ t e => brsL (d + 1) t && brsL (d + 1) e
  | _ => true
def brsL (d : Nat) : List Instr → Bool
  | [] => true
  | i :: is => i.brs d && brsL d is
end

theorem brsL_append {d : Nat} {a b : List Instr} (ha : brsL d a = true) (hb : brsL d b = true) :
    brsL d (a ++ b) = true := by
  induction a with
  | nil => exact hb
  | cons i a ih =>
    rw [brsL, Bool.and_eq_true] at ha
    rw [List.cons_append, brsL, Bool.and_eq_true]
    exact ⟨ha.1, ih ha.2⟩

/-- A branch leaves fewer than `d` blocks. -/
def BrLt (d : Nat) : Res → Prop
  | .br k _ _ _ => k < d
  | _ => True

theorem BrLt.contW {d ar is s r} (h : BrLt (d + 1) r) (hr : ∀ s l σ, wlp is s l σ (BrLt d)) :
    contW ar is s (BrLt d) r := by
  cases r with
  | ok => exact hr _ _ _
  | br k =>
    cases k with
    | zero => exact hr _ _ _
    | succ k => exact Nat.lt_of_succ_lt_succ h
  | ret => exact trivial
  | trap => exact trivial
  | oof => exact trivial

mutual
theorem brsI_wlp {d : Nat} : (i : Instr) → i.brs d = true → ∀ {is : List Instr},
    (∀ s l σ, wlp is s l σ (BrLt d)) → ∀ s l σ, wlp (i :: is) s l σ (BrLt d)
  | .op o, _, is, hr, s, l, σ => by
    refine wlp_op ?_
    cases ho : o.exec s l σ with
    | none => exact trivial
    | some r => exact hr _ _ _
  | .block ar b, h, is, hr, s, l, σ => wlp_block (wlp_mono (brsL_wlp b h [] l σ) fun r h => h.contW hr)
  | .loop ar b, h, is, hr, s, l, σ => by
    refine wlp_loop (fun _ _ => True) trivial fun l σ _ => wlp_mono (brsL_wlp b h [] l σ) fun r h => ?_
    have := h.contW (ar := ar) (s := s) hr
    cases r with
    | ok => exact this
    | br k =>
      cases k with
      | zero => exact trivial
      | succ k => exact this
    | ret => exact h
    | trap => exact trivial
    | oof => exact trivial
  | .ite ar t e, h, is, hr, s, l, σ => by
    rw [Instr.brs, Bool.and_eq_true] at h
    cases s with
    | nil =>
      intro n hn
      cases n with
      | zero => simp [run] at hn
      | succ n => exact trivial
    | cons c s =>
      refine wlp_ite ?_
      split
      · exact wlp_mono (brsL_wlp t h.1 [] l σ) fun r h => h.contW hr
      · exact wlp_mono (brsL_wlp e h.2 [] l σ) fun r h => h.contW hr
  | .br k, h, is, _, s, l, σ => wlp_br (by simpa [Instr.brs, BrLt] using h)
  | .brIf k, h, is, hr, s, l, σ => by
    cases s with
    | nil =>
      intro n hn
      cases n with
      | zero => simp [run] at hn
      | succ n => exact trivial
    | cons c s => exact wlp_brIf (fun _ => by simpa [Instr.brs, BrLt] using h) (fun _ => hr _ _ _)
  | .ret, _, is, _, s, l, σ => wlp_ret trivial
  | .call na nr nl b, _, is, hr, s, l, σ =>
    wlp_call (f := ⟨na, nr, nl, b⟩) trivial fun args s' r σ' _ _ => hr _ _ _
theorem brsL_wlp {d : Nat} : (is : List Instr) → brsL d is = true → ∀ s l σ, wlp is s l σ (BrLt d)
  | [], _, s, l, σ => wlp_nil trivial
  | i :: is, h, s, l, σ => by
    rw [brsL, Bool.and_eq_true] at h
    exact brsI_wlp i h.1 (fun s l σ => brsL_wlp is h.2 s l σ) s l σ
end

end Wasm
