import Verif.Wasm

/-!
# Reasoning about executions

`wp is s l σ Q`: executing `is` from operand stack `s`, locals `l`, store `σ` *terminates*
and its outcome satisfies `Q` (total correctness).  `Fn.Calls f args σ P`: calling `f`
terminates normally and the results and final store satisfy `P`.

Everything here is proved from `Wasm.run`; nothing is assumed.
-/

namespace Wasm

/-- Total-correctness weakest precondition. -/
def wp (is : List Instr) (s l : List Nat) (σ : Store) (Q : Res → Prop) : Prop :=
  ∃ n, run n is s l σ ≠ .oof ∧ Q (run n is s l σ)

theorem wp_mono {is s l σ} {Q Q' : Res → Prop} (h : wp is s l σ Q) (hq : ∀ r, Q r → Q' r) :
    wp is s l σ Q' := by
  obtain ⟨n, h1, h2⟩ := h
  exact ⟨n, h1, hq _ h2⟩

theorem run_det {n m : Nat} {is s l σ} (h1 : run n is s l σ ≠ .oof)
    (h2 : run m is s l σ ≠ .oof) : run n is s l σ = run m is s l σ := by
  rcases Nat.le_total n m with h | h
  · exact (run_mono h h1).symm
  · exact run_mono h h2

theorem wp_and {is s l σ} {Q Q' : Res → Prop} (h : wp is s l σ Q) (h' : wp is s l σ Q') :
    wp is s l σ (fun r => Q r ∧ Q' r) := by
  obtain ⟨n, h1, h2⟩ := h
  obtain ⟨m, h3, h4⟩ := h'
  refine ⟨n, h1, h2, ?_⟩
  rw [run_det h1 h3]; exact h4

@[simp] theorem wp_nil {s l σ Q} : wp [] s l σ Q ↔ Q (.ok s l σ) := by
  constructor
  · rintro ⟨n, h1, h2⟩
    cases n with
    | zero => simp [run] at h1
    | succ n => simpa [run] using h2
  · intro h; exact ⟨1, by simp [run], by simpa [run] using h⟩

theorem wp_op {o is s l σ Q} : wp (.op o :: is) s l σ Q ↔
    match o.exec s l σ with
    | some (s', l', σ') => wp is s' l' σ' Q
    | none => Q .trap := by
  cases ho : o.exec s l σ with
  | none =>
    constructor
    · rintro ⟨n, h1, h2⟩
      cases n with
      | zero => simp [run] at h1
      | succ n => simpa [run, ho] using h2
    · intro h; exact ⟨1, by simp [run, ho], by simpa [run, ho] using h⟩
  | some r =>
    obtain ⟨s', l', σ'⟩ := r
    constructor
    · rintro ⟨n, h1, h2⟩
      cases n with
      | zero => simp [run] at h1
      | succ n =>
        simp only [run, ho] at h1 h2
        exact ⟨n, h1, h2⟩
    · rintro ⟨n, h1, h2⟩
      exact ⟨n + 1, by simpa [run, ho] using h1, by simpa [run, ho] using h2⟩

/-- What remains after the body of a block: normal exit and `br 0` continue with `is`. -/
def contB (ar : Nat) (is : List Instr) (s : List Nat) (Q : Res → Prop) : Res → Prop
  | .ok s' l' σ' => wp is (s'.take ar ++ s) l' σ' Q
  | .br 0 s' l' σ' => wp is (s'.take ar ++ s) l' σ' Q
  | .br (k + 1) s' l' σ' => Q (.br k s' l' σ')
  | .ret s' σ' => Q (.ret s' σ')
  | .trap => Q .trap
  | .oof => False

@[simp] theorem contB_ok {ar is s Q s' l' σ'} :
    contB ar is s Q (.ok s' l' σ') = wp is (s'.take ar ++ s) l' σ' Q := rfl
@[simp] theorem contB_br0 {ar is s Q s' l' σ'} :
    contB ar is s Q (.br 0 s' l' σ') = wp is (s'.take ar ++ s) l' σ' Q := rfl
@[simp] theorem contB_brS {ar is s Q k s' l' σ'} :
    contB ar is s Q (.br (k + 1) s' l' σ') = Q (.br k s' l' σ') := rfl
@[simp] theorem contB_br1 {ar is s Q s' l' σ'} :
    contB ar is s Q (.br 1 s' l' σ') = Q (.br 0 s' l' σ') := rfl
@[simp] theorem contB_br2 {ar is s Q s' l' σ'} :
    contB ar is s Q (.br 2 s' l' σ') = Q (.br 1 s' l' σ') := rfl
@[simp] theorem contB_br3 {ar is s Q s' l' σ'} :
    contB ar is s Q (.br 3 s' l' σ') = Q (.br 2 s' l' σ') := rfl
@[simp] theorem contB_br4 {ar is s Q s' l' σ'} :
    contB ar is s Q (.br 4 s' l' σ') = Q (.br 3 s' l' σ') := rfl
@[simp] theorem contB_ret {ar is s Q s' σ'} :
    contB ar is s Q (.ret s' σ') = Q (.ret s' σ') := rfl
@[simp] theorem contB_trap {ar is s Q} : contB ar is s Q .trap = Q .trap := rfl
@[simp] theorem contB_oof {ar is s Q} : contB ar is s Q .oof = False := rfl

theorem contB_mono {ar is s} {Q Q' : Res → Prop} (hq : ∀ r, Q r → Q' r) (r) :
    contB ar is s Q r → contB ar is s Q' r := by
  cases r with
  | ok => exact fun h => wp_mono h hq
  | br k =>
    cases k with
    | zero => exact fun h => wp_mono h hq
    | succ k => exact hq _
  | ret => exact hq _
  | trap => exact hq _
  | oof => exact id

/-- Common step for `block` and `if`. -/
theorem wp_block_aux {ar is s l σ Q b} :
    wp (.block ar b :: is) s l σ Q ↔ wp b [] l σ (contB ar is s Q) := by
  constructor
  · rintro ⟨n, h1, h2⟩
    cases n with
    | zero => simp [run] at h1
    | succ n =>
      refine ⟨n, ?_, ?_⟩
      · intro hc; simp [run, hc] at h1
      · simp only [run] at h1 h2
        cases hr : run n b [] l σ with
        | ok s' l' σ' => rw [hr] at h1 h2; exact ⟨n, h1, h2⟩
        | br k s' l' σ' =>
          rw [hr] at h1 h2
          cases k with
          | zero => exact ⟨n, h1, h2⟩
          | succ k => exact h2
        | ret => rw [hr] at h2; exact h2
        | trap => rw [hr] at h2; exact h2
        | oof => rw [hr] at h1; exact absurd rfl h1
  · rintro ⟨n, h1, h2⟩
    cases hr : run n b [] l σ with
    | ok s' l' σ' =>
      rw [hr] at h2
      obtain ⟨m, h3, h4⟩ := h2
      have hb : run (max n m) b [] l σ = .ok s' l' σ' := by
        rw [run_mono (Nat.le_max_left n m) h1, hr]
      have hc := run_mono (Nat.le_max_right n m) h3
      exact ⟨max n m + 1, by simp only [run, hb, hc]; exact h3, by
        simp only [run, hb, hc]; exact h4⟩
    | br k s' l' σ' =>
      rw [hr] at h2
      cases k with
      | zero =>
        obtain ⟨m, h3, h4⟩ := h2
        have hb : run (max n m) b [] l σ = .br 0 s' l' σ' := by
          rw [run_mono (Nat.le_max_left n m) h1, hr]
        have hc := run_mono (Nat.le_max_right n m) h3
        exact ⟨max n m + 1, by simp only [run, hb, hc]; exact h3, by
          simp only [run, hb, hc]; exact h4⟩
      | succ k => exact ⟨n + 1, by simp [run, hr], by simpa [run, hr] using h2⟩
    | ret => rw [hr] at h2; exact ⟨n + 1, by simp [run, hr], by simpa [run, hr] using h2⟩
    | trap => rw [hr] at h2; exact ⟨n + 1, by simp [run, hr], by simpa [run, hr] using h2⟩
    | oof => exact absurd hr h1

theorem wp_block {ar is s l σ Q b} :
    wp (.block ar b :: is) s l σ Q ↔ wp b [] l σ (contB ar is s Q) := wp_block_aux

theorem run_ite_eq {n ar t e is c s l σ} :
    run n (.ite ar t e :: is) (c :: s) l σ =
      run n (.block ar (if c ≠ 0 then t else e) :: is) s l σ := by
  cases n with
  | zero => rfl
  | succ n => rfl

/-- Propositional conditional (no `Decidable` instance to keep in sync while rewriting). -/
def IfP (c A B : Prop) : Prop := (c → A) ∧ (¬ c → B)

theorem IfP.pos {c A B : Prop} (h : c) : IfP c A B ↔ A :=
  ⟨fun x => x.1 h, fun x => ⟨fun _ => x, fun n => absurd h n⟩⟩
theorem IfP.neg {c A B : Prop} (h : ¬ c) : IfP c A B ↔ B :=
  ⟨fun x => x.2 h, fun x => ⟨fun n => absurd n h, fun _ => x⟩⟩
theorem IfP.intro {c A B : Prop} (h1 : c → A) (h2 : ¬ c → B) : IfP c A B := ⟨h1, h2⟩
theorem IfP_true {A B : Prop} : IfP True A B ↔ A := IfP.pos trivial
theorem IfP_false {A B : Prop} : IfP False A B ↔ B := IfP.neg id
theorem IfP_iff {c A B : Prop} [Decidable c] : IfP c A B ↔ if c then A else B := by
  by_cases h : c <;> simp [IfP, h]

theorem wp_ite {ar is c s l σ Q t e} :
    wp (.ite ar t e :: is) (c :: s) l σ Q ↔
      IfP (c ≠ 0) (wp t [] l σ (contB ar is s Q)) (wp e [] l σ (contB ar is s Q)) := by
  have : wp (.ite ar t e :: is) (c :: s) l σ Q ↔
      wp (.block ar (if c ≠ 0 then t else e) :: is) s l σ Q := by
    constructor
    · rintro ⟨n, h1, h2⟩; rw [run_ite_eq] at h1 h2; exact ⟨n, h1, h2⟩
    · rintro ⟨n, h1, h2⟩; rw [← run_ite_eq] at h1 h2; exact ⟨n, h1, h2⟩
  rw [this, wp_block_aux, IfP_iff]
  by_cases hc : c = 0 <;> simp [hc]

theorem wp_br {k is s l σ Q} : wp (.br k :: is) s l σ Q ↔ Q (.br k s l σ) := by
  constructor
  · rintro ⟨n, h1, h2⟩
    cases n with
    | zero => simp [run] at h1
    | succ n => simpa [run] using h2
  · intro h; exact ⟨1, by simp [run], by simpa [run] using h⟩

theorem wp_ret {is s l σ Q} : wp (.ret :: is) s l σ Q ↔ Q (.ret s σ) := by
  constructor
  · rintro ⟨n, h1, h2⟩
    cases n with
    | zero => simp [run] at h1
    | succ n => simpa [run] using h2
  · intro h; exact ⟨1, by simp [run], by simpa [run] using h⟩

theorem wp_brIf {k is c s l σ Q} : wp (.brIf k :: is) (c :: s) l σ Q ↔
    IfP (c ≠ 0) (Q (.br k s l σ)) (wp is s l σ Q) := by
  rw [IfP_iff]
  by_cases hc : c = 0
  · subst hc
    simp only [ne_eq, not_true_eq_false, if_false]
    constructor
    · rintro ⟨n, h1, h2⟩
      cases n with
      | zero => simp [run] at h1
      | succ n => exact ⟨n, by simpa [run] using h1, by simpa [run] using h2⟩
    · rintro ⟨n, h1, h2⟩
      exact ⟨n + 1, by simpa [run] using h1, by simpa [run] using h2⟩
  · rw [if_pos hc]
    constructor
    · rintro ⟨n, h1, h2⟩
      cases n with
      | zero => simp [run] at h1
      | succ n => simpa [run, hc] using h2
    · intro h; exact ⟨1, by simp [run, hc], by simpa [run, hc] using h⟩

/-- Unfolding a loop once. -/
theorem wp_loop_unfold {ar is s l σ Q b}
    (h : wp b [] l σ (fun r => match r with
      | .ok s' l' σ' => wp is (s'.take ar ++ s) l' σ' Q
      | .br 0 _ l' σ' => wp (.loop ar b :: is) s l' σ' Q
      | .br (k + 1) s' l' σ' => Q (.br k s' l' σ')
      | .ret s' σ' => Q (.ret s' σ')
      | .trap => Q .trap
      | .oof => False)) :
    wp (.loop ar b :: is) s l σ Q := by
  obtain ⟨n, h1, h2⟩ := h
  cases hr : run n b [] l σ with
  | ok s' l' σ' =>
    rw [hr] at h2
    obtain ⟨m, h3, h4⟩ := h2
    have hb : run (max n m) b [] l σ = .ok s' l' σ' := by
      rw [run_mono (Nat.le_max_left n m) h1, hr]
    have hc := run_mono (Nat.le_max_right n m) h3
    exact ⟨max n m + 1, by simp only [run, hb, hc]; exact h3, by
      simp only [run, hb, hc]; exact h4⟩
  | br k s' l' σ' =>
    rw [hr] at h2
    cases k with
    | zero =>
      obtain ⟨m, h3, h4⟩ := h2
      have hb : run (max n m) b [] l σ = .br 0 s' l' σ' := by
        rw [run_mono (Nat.le_max_left n m) h1, hr]
      have hc := run_mono (Nat.le_max_right n m) h3
      exact ⟨max n m + 1, by simp only [run, hb, hc]; exact h3, by
        simp only [run, hb, hc]; exact h4⟩
    | succ k => exact ⟨n + 1, by simp [run, hr], by simpa [run, hr] using h2⟩
  | ret => rw [hr] at h2; exact ⟨n + 1, by simp [run, hr], by simpa [run, hr] using h2⟩
  | trap => rw [hr] at h2; exact ⟨n + 1, by simp [run, hr], by simpa [run, hr] using h2⟩
  | oof => exact absurd hr h1

/-- What remains after one iteration of a loop body, given the condition `J` that must hold
when control jumps back. -/
def contL (ar : Nat) (is : List Instr) (s : List Nat) (Q : Res → Prop)
    (J : List Nat → Store → Prop) : Res → Prop
  | .ok s' l' σ' => wp is (s'.take ar ++ s) l' σ' Q
  | .br 0 _ l' σ' => J l' σ'
  | .br (k + 1) s' l' σ' => Q (.br k s' l' σ')
  | .ret s' σ' => Q (.ret s' σ')
  | .trap => Q .trap
  | .oof => False

@[simp] theorem contL_ok {ar is s Q J s' l' σ'} :
    contL ar is s Q J (.ok s' l' σ') = wp is (s'.take ar ++ s) l' σ' Q := rfl
@[simp] theorem contL_br0 {ar is s Q J s' l' σ'} :
    contL ar is s Q J (.br 0 s' l' σ') = J l' σ' := rfl
@[simp] theorem contL_brS {ar is s Q J k s' l' σ'} :
    contL ar is s Q J (.br (k + 1) s' l' σ') = Q (.br k s' l' σ') := rfl
@[simp] theorem contL_br1 {ar is s Q J s' l' σ'} :
    contL ar is s Q J (.br 1 s' l' σ') = Q (.br 0 s' l' σ') := rfl
@[simp] theorem contL_br2 {ar is s Q J s' l' σ'} :
    contL ar is s Q J (.br 2 s' l' σ') = Q (.br 1 s' l' σ') := rfl
@[simp] theorem contL_br3 {ar is s Q J s' l' σ'} :
    contL ar is s Q J (.br 3 s' l' σ') = Q (.br 2 s' l' σ') := rfl
@[simp] theorem contL_ret {ar is s Q J s' σ'} :
    contL ar is s Q J (.ret s' σ') = Q (.ret s' σ') := rfl
@[simp] theorem contL_trap {ar is s Q J} : contL ar is s Q J .trap = Q .trap := rfl
@[simp] theorem contL_oof {ar is s Q J} : contL ar is s Q J .oof = False := rfl

/-- Loop rule: an invariant `I` indexed by a decreasing natural number. -/
theorem wp_loop {ar is s l σ Q b} (I : Nat → List Nat → Store → Prop) (m : Nat)
    (h0 : I m l σ)
    (hstep : ∀ m l σ, I m l σ →
      wp b [] l σ (contL ar is s Q (fun l' σ' => ∃ m', m' < m ∧ I m' l' σ'))) :
    wp (.loop ar b :: is) s l σ Q := by
  induction m using Nat.strongRecOn generalizing l σ with
  | _ m ih =>
    apply wp_loop_unfold
    refine wp_mono (hstep m l σ h0) ?_
    intro r hr
    cases r with
    | ok => exact hr
    | br k =>
      cases k with
      | zero =>
        obtain ⟨m', hlt, hI⟩ := hr
        exact ih m' hlt hI
      | succ k => exact hr
    | ret => exact hr
    | trap => exact hr
    | oof => exact hr

/-! ## Functions -/

/-- A WebAssembly function. -/
structure Fn where
  na : Nat
  nr : Nat
  nl : Nat
  body : List Instr

/-- Calling a function. -/
def Fn.call (f : Fn) : Instr := .call f.na f.nr f.nl f.body

/-- What must hold of the outcome of a function body. -/
def retK (nr : Nat) (P : List Nat → Store → Prop) : Res → Prop
  | .ok s' _ σ' => P (s'.take nr) σ'
  | .br 0 s' _ σ' => P (s'.take nr) σ'
  | .ret s' σ' => P (s'.take nr) σ'
  | _ => False

@[simp] theorem retK_ok {nr P s' l' σ'} : retK nr P (.ok s' l' σ') = P (s'.take nr) σ' := rfl
@[simp] theorem retK_br0 {nr P s' l' σ'} : retK nr P (.br 0 s' l' σ') = P (s'.take nr) σ' := rfl
@[simp] theorem retK_brS {nr P k s' l' σ'} : retK nr P (.br (k + 1) s' l' σ') = False := rfl
@[simp] theorem retK_ret {nr P s' σ'} : retK nr P (.ret s' σ') = P (s'.take nr) σ' := rfl
@[simp] theorem retK_trap {nr P} : retK nr P .trap = False := rfl
@[simp] theorem retK_oof {nr P} : retK nr P .oof = False := rfl

/-- Calling `f` on `args` in store `σ` terminates normally (no trap), and the results (top of
the stack first) and the final store satisfy `P`. -/
def Fn.Calls (f : Fn) (args : List Nat) (σ : Store) (P : List Nat → Store → Prop) : Prop :=
  args.length = f.na ∧
    wp f.body [] (args ++ List.replicate f.nl 0) σ (retK f.nr P)

/-- Calling `f` on `args` in store `σ` traps. -/
def Fn.Traps (f : Fn) (args : List Nat) (σ : Store) : Prop :=
  args.length = f.na ∧
    wp f.body [] (args ++ List.replicate f.nl 0) σ (fun r => r = .trap)

theorem Fn.Calls.mono {f : Fn} {args σ} {P P' : List Nat → Store → Prop}
    (h : f.Calls args σ P) (hp : ∀ r σ', P r σ' → P' r σ') : f.Calls args σ P' := by
  refine ⟨h.1, wp_mono h.2 ?_⟩
  intro r
  cases r with
  | ok => exact hp _ _
  | br k => cases k with
    | zero => exact hp _ _
    | succ k => exact id
  | ret => exact hp _ _
  | trap => exact id
  | oof => exact id

theorem Fn.Calls.and {f : Fn} {args σ} {P P' : List Nat → Store → Prop}
    (h : f.Calls args σ P) (h' : f.Calls args σ P') :
    f.Calls args σ (fun r σ' => P r σ' ∧ P' r σ') := by
  refine ⟨h.1, wp_mono (wp_and h.2 h'.2) ?_⟩
  intro r
  cases r with
  | ok => exact id
  | br k => cases k with
    | zero => exact id
    | succ k => exact fun h => h.1
  | ret => exact id
  | trap => exact fun h => h.1
  | oof => exact fun h => h.1

/-- Symbolic execution of a call. -/
theorem wp_call {f : Fn} {args s is l σ Q} {P : List Nat → Store → Prop}
    (h : f.Calls args σ P)
    (hP : ∀ r σ', P r σ' → wp is (r ++ s) l σ' Q) :
    wp (f.call :: is) (args.reverse ++ s) l σ Q := by
  obtain ⟨ha, n, h1, h2⟩ := h
  have hlen : ¬ (args.reverse ++ s).length < f.na := by simp; omega
  have htk : ((args.reverse ++ s).take f.na).reverse = args := by
    rw [List.take_append_of_le_length (by simp; omega),
      List.take_of_length_le (by simp; omega), List.reverse_reverse]
  have hdr : (args.reverse ++ s).drop f.na = s := by
    rw [← ha, ← List.length_reverse]; simp
  have fin : ∀ (s' : List Nat) (σ' : Store), P (s'.take f.nr) σ' →
      (∀ m, n ≤ m → run (m + 1) (f.call :: is) (args.reverse ++ s) l σ =
        run m is (s'.take f.nr ++ s) l σ') → wp (f.call :: is) (args.reverse ++ s) l σ Q := by
    intro s' σ' hp hrun
    obtain ⟨m, h3, h4⟩ := hP _ _ hp
    have := hrun (max n m) (Nat.le_max_left _ _)
    have hc := run_mono (Nat.le_max_right n m) h3
    exact ⟨max n m + 1, by rw [this, hc]; exact h3, by rw [this, hc]; exact h4⟩
  cases hr : run n f.body [] (args ++ List.replicate f.nl 0) σ with
  | ok s' l' σ' =>
    rw [hr] at h2
    refine fin s' σ' h2 ?_
    intro m hm
    have hb := run_mono hm h1
    rw [hr] at hb
    simp only [Fn.call, run, if_neg hlen, htk, hdr, hb]
  | br k s' l' σ' =>
    rw [hr] at h2
    cases k with
    | zero =>
      refine fin s' σ' h2 ?_
      intro m hm
      have hb := run_mono hm h1
      rw [hr] at hb
      simp only [Fn.call, run, if_neg hlen, htk, hdr, hb]
    | succ k => exact absurd h2 id
  | ret s' σ' =>
    rw [hr] at h2
    refine fin s' σ' h2 ?_
    intro m hm
    have hb := run_mono hm h1
    rw [hr] at hb
    simp only [Fn.call, run, if_neg hlen, htk, hdr, hb]
  | trap => rw [hr] at h2; exact absurd h2 id
  | oof => exact absurd hr h1

/-- A trapping callee traps the caller. -/
theorem wp_call_trap {f : Fn} {args s is l σ} {Q : Res → Prop}
    (h : f.Traps args σ) (hQ : Q .trap) :
    wp (f.call :: is) (args.reverse ++ s) l σ Q := by
  obtain ⟨ha, n, h1, h2⟩ := h
  have hlen : ¬ (args.reverse ++ s).length < f.na := by simp; omega
  have htk : ((args.reverse ++ s).take f.na).reverse = args := by
    rw [List.take_append_of_le_length (by simp; omega),
      List.take_of_length_le (by simp; omega), List.reverse_reverse]
  refine ⟨n + 1, ?_, ?_⟩ <;> simp only [Fn.call, run, if_neg hlen, htk, h2] <;> simp [hQ]

/-- The meaning of `Calls` in terms of the interpreter. -/
theorem Fn.calls_iff {f : Fn} {args σ P} (ha : args.length = f.na) :
    f.Calls args σ P ↔
      ∃ n r σ', run n [f.call] args.reverse [] σ = .ok r [] σ' ∧ P r σ' := by
  have hlen : ¬ args.reverse.length < f.na := by simp; omega
  have htk : (args.reverse.take f.na).reverse = args := by
    rw [List.take_of_length_le (by simp; omega), List.reverse_reverse]
  have hdr : args.reverse.drop f.na = [] := by
    rw [← ha, ← List.length_reverse]; simp
  constructor
  · intro h
    have := wp_call (s := []) (is := []) (l := []) (Q := fun r => ∃ s σ', r = .ok s [] σ' ∧ P s σ')
      h (fun r σ' hp => wp_nil.mpr ⟨r, σ', by simp, hp⟩)
    obtain ⟨n, h1, s, σ', h2, h3⟩ := this
    rw [List.append_nil] at h2
    exact ⟨n, s, σ', h2, h3⟩
  · rintro ⟨n, r, σ', h1, h2⟩
    cases n with
    | zero => simp [run] at h1
    | succ n =>
      simp only [Fn.call, run, if_neg hlen, htk, hdr] at h1
      refine ⟨ha, n, ?_, ?_⟩
      · intro hc; rw [hc] at h1; simp at h1
      · cases hr : run n f.body [] (args ++ List.replicate f.nl 0) σ with
        | ok s' l' σ'' =>
          rw [hr] at h1
          cases n with
          | zero => simp [run] at hr
          | succ n =>
            simp only [run, List.append_nil, Res.ok.injEq] at h1
            obtain ⟨rfl, -, rfl⟩ := h1
            exact h2
        | br k s' l' σ'' =>
          rw [hr] at h1
          cases k with
          | succ k => simp at h1
          | zero =>
            cases n with
            | zero => simp [run] at hr
            | succ n =>
              simp only [run, List.append_nil, Res.ok.injEq] at h1
              obtain ⟨rfl, -, rfl⟩ := h1
              exact h2
        | ret s' σ'' =>
          rw [hr] at h1
          cases n with
          | zero => simp [run] at hr
          | succ n =>
            simp only [run, List.append_nil, Res.ok.injEq] at h1
            obtain ⟨rfl, -, rfl⟩ := h1
            exact h2
        | trap => rw [hr] at h1; simp at h1
        | oof => rw [hr] at h1; simp at h1

/-- Executions are deterministic: a call has at most one outcome. -/
theorem Fn.Calls.unique {f : Fn} {args σ} {P P' : List Nat → Store → Prop}
    (h : f.Calls args σ P) (h' : f.Calls args σ P') : ∃ r σ', P r σ' ∧ P' r σ' := by
  have hb := (Fn.calls_iff h.1).mp (h.and h')
  obtain ⟨n, r, σ', -, hp⟩ := hb
  exact ⟨r, σ', hp⟩

/-- A call that returns does not trap. -/
theorem Fn.Calls.not_traps {f : Fn} {args σ} {P : List Nat → Store → Prop}
    (h : f.Calls args σ P) : ¬ f.Traps args σ := by
  rintro ⟨-, h'⟩
  obtain ⟨n, -, h1, h2⟩ := wp_and h.2 h'
  rw [h2] at h1; exact h1

/-- Bridge for concrete executions: evaluate the interpreter. -/
theorem Fn.Calls.of_run {f : Fn} {args σ P} (n : Nat) (ha : args.length = f.na)
    (h : match run n [f.call] args.reverse [] σ with
      | .ok r [] σ' => P r σ'
      | _ => False) : f.Calls args σ P := by
  rw [Fn.calls_iff ha]
  cases hr : run n [f.call] args.reverse [] σ with
  | ok r l σ' =>
    rw [hr] at h
    cases l with
    | nil => exact ⟨n, r, σ', hr, h⟩
    | cons => exact absurd h id
  | br => rw [hr] at h; exact absurd h id
  | ret => rw [hr] at h; exact absurd h id
  | trap => rw [hr] at h; exact absurd h id
  | oof => rw [hr] at h; exact absurd h id

/-! ## Symbolic execution of simple instructions -/

/-- Wrapping subtraction. -/
def W.sub (w : W) (a b : Nat) : Nat := (a + (w.mod - b)) % w.mod

theorem W.sub32 {a b : Nat} (h : b ≤ a) (h2 : a < 4294967296) : W.sub .w32 a b = a - b := by
  simp only [W.sub, W.mod]; omega
theorem W.sub64 {a b : Nat} (h : b ≤ a) (h2 : a < 18446744073709551616) :
    W.sub .w64 a b = a - b := by
  simp only [W.sub, W.mod]; omega
theorem W.sub32_def {a b : Nat} : W.sub .w32 a b = (a + (4294967296 - b)) % 4294967296 := rfl
theorem W.sub64_def {a b : Nat} :
    W.sub .w64 a b = (a + (18446744073709551616 - b)) % 18446744073709551616 := rfl

section ops
variable {is : List Instr} {s l : List Nat} {σ : Store} {Q : Res → Prop}

theorem wp_c32 {v} : wp (.op (.c32 v) :: is) s l σ Q ↔ wp is (v % 4294967296 :: s) l σ Q := by
  simp [wp_op, Op.exec]
theorem wp_c64 {v} : wp (.op (.c64 v) :: is) s l σ Q ↔
    wp is (v % 18446744073709551616 :: s) l σ Q := by
  simp [wp_op, Op.exec]
theorem wp_lget {i} : wp (.op (.lget i) :: is) s l σ Q ↔ wp is (lget l i :: s) l σ Q := by
  simp [wp_op, Op.exec]
theorem wp_lset {i v} : wp (.op (.lset i) :: is) (v :: s) l σ Q ↔ wp is s (lset l i v) σ Q := by
  simp [wp_op, Op.exec]
theorem wp_ltee {i v} : wp (.op (.ltee i) :: is) (v :: s) l σ Q ↔
    wp is (v :: s) (lset l i v) σ Q := by
  simp [wp_op, Op.exec]
theorem wp_gget {g} : wp (.op (.gget g) :: is) s l σ Q ↔ wp is (σ.getGlob g :: s) l σ Q := by
  simp [wp_op, Op.exec]
theorem wp_gset {g v} : wp (.op (.gset g) :: is) (v :: s) l σ Q ↔ wp is s l (σ.setGlob g v) Q := by
  simp [wp_op, Op.exec]
theorem wp_un {o a} : wp (.op (.un o) :: is) (a :: s) l σ Q ↔ wp is (o.eval a :: s) l σ Q := by
  simp [wp_op, Op.exec]
theorem wp_drop {a} : wp (.op .drop :: is) (a :: s) l σ Q ↔ wp is s l σ Q := by
  simp [wp_op, Op.exec]
theorem wp_unreachable : wp (.op .unreachable :: is) s l σ Q ↔ Q .trap := by
  simp [wp_op, Op.exec]

theorem wp_add {w a b} : wp (.op (.bin w .add) :: is) (b :: a :: s) l σ Q ↔
    wp is ((a + b) % w.mod :: s) l σ Q := by simp [wp_op, Op.exec, BinOp.eval]
theorem wp_sub {w a b} : wp (.op (.bin w .sub) :: is) (b :: a :: s) l σ Q ↔
    wp is (W.sub w a b :: s) l σ Q := by simp [wp_op, Op.exec, BinOp.eval, W.sub]
theorem wp_mul {w a b} : wp (.op (.bin w .mul) :: is) (b :: a :: s) l σ Q ↔
    wp is ((a * b) % w.mod :: s) l σ Q := by simp [wp_op, Op.exec, BinOp.eval]
theorem wp_divU {w a b} (h : b ≠ 0) : wp (.op (.bin w .divU) :: is) (b :: a :: s) l σ Q ↔
    wp is (a / b :: s) l σ Q := by simp [wp_op, Op.exec, BinOp.eval, h]
theorem wp_remU {w a b} (h : b ≠ 0) : wp (.op (.bin w .remU) :: is) (b :: a :: s) l σ Q ↔
    wp is (a % b :: s) l σ Q := by simp [wp_op, Op.exec, BinOp.eval, h]
theorem wp_and' {w a b} : wp (.op (.bin w .and) :: is) (b :: a :: s) l σ Q ↔
    wp is ((a &&& b) :: s) l σ Q := by simp [wp_op, Op.exec, BinOp.eval]
theorem wp_or' {w a b} : wp (.op (.bin w .or) :: is) (b :: a :: s) l σ Q ↔
    wp is ((a ||| b) :: s) l σ Q := by simp [wp_op, Op.exec, BinOp.eval]
theorem wp_xor' {w a b} : wp (.op (.bin w .xor) :: is) (b :: a :: s) l σ Q ↔
    wp is ((a ^^^ b) :: s) l σ Q := by simp [wp_op, Op.exec, BinOp.eval]
theorem wp_shl {w a b} : wp (.op (.bin w .shl) :: is) (b :: a :: s) l σ Q ↔
    wp is (a * 2 ^ (b % w.bits) % w.mod :: s) l σ Q := by simp [wp_op, Op.exec, BinOp.eval]
theorem wp_shrU {w a b} : wp (.op (.bin w .shrU) :: is) (b :: a :: s) l σ Q ↔
    wp is (a / 2 ^ (b % w.bits) :: s) l σ Q := by simp [wp_op, Op.exec, BinOp.eval]
theorem wp_eq {w a b} : wp (.op (.bin w .eq) :: is) (b :: a :: s) l σ Q ↔
    wp is (b2n (a = b) :: s) l σ Q := by simp [wp_op, Op.exec, BinOp.eval]
theorem wp_ne {w a b} : wp (.op (.bin w .ne) :: is) (b :: a :: s) l σ Q ↔
    wp is (b2n (a ≠ b) :: s) l σ Q := by simp [wp_op, Op.exec, BinOp.eval]
theorem wp_ltU {w a b} : wp (.op (.bin w .ltU) :: is) (b :: a :: s) l σ Q ↔
    wp is (b2n (a < b) :: s) l σ Q := by simp [wp_op, Op.exec, BinOp.eval]
theorem wp_gtU {w a b} : wp (.op (.bin w .gtU) :: is) (b :: a :: s) l σ Q ↔
    wp is (b2n (b < a) :: s) l σ Q := by simp [wp_op, Op.exec, BinOp.eval]
theorem wp_leU {w a b} : wp (.op (.bin w .leU) :: is) (b :: a :: s) l σ Q ↔
    wp is (b2n (a ≤ b) :: s) l σ Q := by simp [wp_op, Op.exec, BinOp.eval]
theorem wp_geU {w a b} : wp (.op (.bin w .geU) :: is) (b :: a :: s) l σ Q ↔
    wp is (b2n (b ≤ a) :: s) l σ Q := by simp [wp_op, Op.exec, BinOp.eval]
theorem wp_ltS {w a b} : wp (.op (.bin w .ltS) :: is) (b :: a :: s) l σ Q ↔
    wp is (b2n (toSigned w a < toSigned w b) :: s) l σ Q := by simp [wp_op, Op.exec, BinOp.eval]
theorem wp_gtS {w a b} : wp (.op (.bin w .gtS) :: is) (b :: a :: s) l σ Q ↔
    wp is (b2n (toSigned w b < toSigned w a) :: s) l σ Q := by simp [wp_op, Op.exec, BinOp.eval]
theorem wp_leS {w a b} : wp (.op (.bin w .leS) :: is) (b :: a :: s) l σ Q ↔
    wp is (b2n (toSigned w a ≤ toSigned w b) :: s) l σ Q := by simp [wp_op, Op.exec, BinOp.eval]
theorem wp_geS {w a b} : wp (.op (.bin w .geS) :: is) (b :: a :: s) l σ Q ↔
    wp is (b2n (toSigned w b ≤ toSigned w a) :: s) l σ Q := by simp [wp_op, Op.exec, BinOp.eval]

theorem wp_load {k off a} (h : a + off + k ≤ σ.size) :
    wp (.op (.load k off) :: is) (a :: s) l σ Q ↔
      wp is (leNat σ.mem (a + off) k :: s) l σ Q := by
  simp [wp_op, Op.exec, h]
theorem wp_store {k off a v} (h : a + off + k ≤ σ.size) :
    wp (.op (.store k off) :: is) (v :: a :: s) l σ Q ↔
      wp is s l (σ.setMem (putLe σ.mem (a + off) k v)) Q := by
  simp [wp_op, Op.exec, h]
theorem wp_memCopy {n src d} (h1 : src + n ≤ σ.size) (h2 : d + n ≤ σ.size) :
    wp (.op .memCopy :: is) (n :: src :: d :: s) l σ Q ↔
      wp is s l (σ.setMem (copyBytes σ.mem d src n)) Q := by
  simp [wp_op, Op.exec, h1, h2]
theorem wp_memFill {n v d} (h : d + n ≤ σ.size) :
    wp (.op .memFill :: is) (n :: v :: d :: s) l σ Q ↔
      wp is s l (σ.setMem (fillBytes σ.mem d v n)) Q := by
  simp [wp_op, Op.exec, h]

end ops

/-! ## Stores -/

section stores
variable {σ : Store} {m m' : Bytes}
@[simp] theorem setMem_mem : (σ.setMem m).mem = m := rfl
@[simp] theorem setMem_size : (σ.setMem m).size = σ.size := rfl
@[simp] theorem setMem_maxPages : (σ.setMem m).maxPages = σ.maxPages := rfl
@[simp] theorem setMem_nextFree : (σ.setMem m).nextFree = σ.nextFree := rfl
@[simp] theorem setMem_avail : (σ.setMem m).avail = σ.avail := rfl
@[simp] theorem setMem_reader : (σ.setMem m).reader = σ.reader := rfl
@[simp] theorem setMem_host : (σ.setMem m).host = σ.host := rfl
@[simp] theorem setMem_setMem : (σ.setMem m).setMem m' = σ.setMem m' := rfl
@[simp] theorem setMem_self : σ.setMem σ.mem = σ := rfl
end stores

@[simp] theorem b2n_ne_zero {p : Prop} [Decidable p] : b2n p ≠ 0 ↔ p := by
  unfold b2n; by_cases h : p <;> simp [h]
@[simp] theorem b2n_eq_zero {p : Prop} [Decidable p] : b2n p = 0 ↔ ¬ p := by
  unfold b2n; by_cases h : p <;> simp [h]
@[simp] theorem b2n_eq_one {p : Prop} [Decidable p] : b2n p = 1 ↔ p := by
  unfold b2n; by_cases h : p <;> simp [h]
@[simp] theorem b2n_ne_one {p : Prop} [Decidable p] : b2n p ≠ 1 ↔ ¬ p := by
  unfold b2n; by_cases h : p <;> simp [h]
theorem b2n_true {p : Prop} [Decidable p] (h : p) : b2n p = 1 := by simp [b2n, h]
theorem b2n_false {p : Prop} [Decidable p] (h : ¬ p) : b2n p = 0 := by simp [b2n, h]
theorem b2n_lt {p : Prop} [Decidable p] : b2n p < 2 := by
  unfold b2n; by_cases h : p <;> simp [h]

@[simp] theorem lget_zero {x xs} : lget (x :: xs) 0 = x := rfl
@[simp] theorem lget_succ {x xs n} : lget (x :: xs) (n + 1) = lget xs n := rfl
@[simp] theorem lset_zero {x xs v} : lset (x :: xs) 0 v = v :: xs := rfl
@[simp] theorem lset_succ {x xs n v} : lset (x :: xs) (n + 1) v = x :: lset xs n v := rfl

theorem lset_length {l : List Nat} {i v : Nat} : (lset l i v).length = l.length := by
  induction l generalizing i with
  | nil => rfl
  | cons x xs ih =>
    cases i with
    | zero => rfl
    | succ i => rw [lset_succ, List.length_cons, List.length_cons, ih]

theorem lget_lset_same {l : List Nat} {i v : Nat} (h : i < l.length) : lget (lset l i v) i = v := by
  induction l generalizing i with
  | nil => simp at h
  | cons x xs ih =>
    cases i with
    | zero => rfl
    | succ i => rw [lset_succ, lget_succ]; exact ih (by simpa using h)

theorem lget_lset_ne {l : List Nat} {i j v : Nat} (h : j ≠ i) :
    lget (lset l i v) j = lget l j := by
  induction l generalizing i j with
  | nil => rfl
  | cons x xs ih =>
    cases i with
    | zero =>
      cases j with
      | zero => exact absurd rfl h
      | succ j => rfl
    | succ i =>
      cases j with
      | zero => rfl
      | succ j => rw [lset_succ, lget_succ, lget_succ]; exact ih (by omega)

end Wasm
