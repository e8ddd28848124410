import Verif.Rt.Body

/-!
C110: `emit` is called with events and `revert` with errors, and functions that do so are accepted.
The specification is lexical scoping and the types that the Move compiler gives to expressions.
-/

namespace Props
open Validate

set_option linter.unusedSectionVars false
set_option linter.unusedVariables false

/-- What the names of a module stand for, as the Move compiler resolves them. -/
structure BodyScope where
  /-- The struct that `path::name { .. }` or `path::name(..)` makes. -/
  ctor : List String → String → Option Item
  /-- The function that `path::name(..)` calls. -/
  func : List String → String → Option Item
  /-- The function that `x.name(..)` calls, by the type of `x`. -/
  meth : Option Item → String → Option Item
  /-- The datatype that a function returns, if it returns one value that is a datatype. -/
  result : Item → Option Item

/-- The types of the variables in scope, for those that are values of datatypes. -/
abbrev Env := String → Option Item

/-- More variables. -/
def Env.extend (Γ : Env) : List (String × Option Item) → Env
  | [] => Γ
  | (x, t) :: vs => Env.extend (fun y => if y = x then t else Γ y) vs

/-- The variables of a `let`. -/
def bindVars : List SBind → List (String × Option Item)
  | [] => []
  | .var x t :: bs => (x, t) :: bindVars bs
  | .unpack vs :: bs => vs ++ bindVars bs

/-- The variables after `let bs = e`, where `e` has the type `t`. -/
def Env.bind (Γ : Env) (bs : List SBind) (t : Option Item) : Env :=
  match bs with
  | [.var x _] => Γ.extend [(x, t)]
  | bs => Γ.extend (bindVars bs)

mutual
/-- The datatype of the value of an expression. -/
def tyOf (S : BodyScope) (Γ : Env) : SExp → Option Item
  | .call p n _ => (S.ctor p n).or ((S.func p n).bind S.result)
  | .dotCall r n _ => (S.meth (tyOf S Γ r) n).bind S.result
  | .pack p n _ => S.ctor p n
  | .name p x => if p = [] then Γ x else none
  | .parens e => tyOf S Γ e
  | .copy e => tyOf S Γ e
  | .move e => tyOf S Γ e
  | .labeled e => tyOf S Γ e
  | .block is f => tyOfFirst S (envItems S Γ is) f
  | .ite _ t e => (tyOf S Γ t).or (tyOfFirst S Γ e)
  | .while .. => none
  | .loop _ => none
  | .mtch _ arms => tyOfArms S Γ arms
  | .lambda .. => none
  | .list _ => none
  | .other t _ => t
/-- The first expression that has one. -/
def tyOfFirst (S : BodyScope) (Γ : Env) : List SExp → Option Item
  | [] => none
  | e :: es => (tyOf S Γ e).or (tyOfFirst S Γ es)
/-- The first arm that has one. -/
def tyOfArms (S : BodyScope) (Γ : Env) : List SArm → Option Item
  | [] => none
  | .arm vs _ r :: as => (tyOf S (Γ.extend vs) r).or (tyOfArms S Γ as)
/-- The variables after statements. -/
def envItems (S : BodyScope) (Γ : Env) : List SItem → Env
  | [] => Γ
  | .seq _ :: is => envItems S Γ is
  | .declare vs :: is => envItems S (Γ.extend vs) is
  | .bind bs e :: is => envItems S (Γ.bind bs (tyOf S Γ e)) is
end

/-- The arguments of a call of this function are right: one event for `emit`, one error for `revert`. -/
def ArgsOk (S : BodyScope) (Γ : Env) (event error : Item → Prop) (f : Option Item) (args : List SExp) : Prop :=
  (f = some emitFn → ∃ a d, args = [a] ∧ tyOf S Γ a = some d ∧ event d) ∧
  (f = some revertFn → ∃ a d, args = [a] ∧ tyOf S Γ a = some d ∧ error d)

mutual
/-- All calls of `emit` in the expression have an event, all calls of `revert` an error. -/
def Good (S : BodyScope) (event error : Item → Prop) (Γ : Env) : SExp → Prop
  | .call p n args => ArgsOk S Γ event error (S.func p n) args ∧ GoodAll S event error Γ args
  | .dotCall r n args => ArgsOk S Γ event error (S.meth (tyOf S Γ r) n) (r :: args) ∧
      Good S event error Γ r ∧ GoodAll S event error Γ args
  | .pack _ _ fs => GoodAll S event error Γ fs
  | .name .. => True
  | .parens e => Good S event error Γ e
  | .copy e => Good S event error Γ e
  | .move e => Good S event error Γ e
  | .labeled e => Good S event error Γ e
  | .block is f => GoodItems S event error Γ is ∧ GoodAll S event error (envItems S Γ is) f
  | .ite c t e => Good S event error Γ c ∧ Good S event error Γ t ∧ GoodAll S event error Γ e
  | .while c b => Good S event error Γ c ∧ Good S event error Γ b
  | .loop b => Good S event error Γ b
  | .mtch s arms => Good S event error Γ s ∧ GoodArms S event error Γ arms
  | .lambda vs b => Good S event error (Γ.extend vs) b
  | .list es => GoodAll S event error Γ es
  | .other _ es => GoodAll S event error Γ es
/-- The same for expressions. -/
def GoodAll (S : BodyScope) (event error : Item → Prop) (Γ : Env) : List SExp → Prop
  | [] => True
  | e :: es => Good S event error Γ e ∧ GoodAll S event error Γ es
/-- The same for the arms of a match. -/
def GoodArms (S : BodyScope) (event error : Item → Prop) (Γ : Env) : List SArm → Prop
  | [] => True
  | .arm vs g r :: as => (GoodAll S event error (Γ.extend vs) g ∧ Good S event error (Γ.extend vs) r) ∧
      GoodArms S event error Γ as
/-- The same for statements. -/
def GoodItems (S : BodyScope) (event error : Item → Prop) (Γ : Env) : List SItem → Prop
  | [] => True
  | .seq e :: is => Good S event error Γ e ∧ GoodItems S event error Γ is
  | .declare vs :: is => GoodItems S event error (Γ.extend vs) is
  | .bind bs e :: is => Good S event error Γ e ∧
      GoodItems S event error (Γ.bind bs (tyOf S Γ e)) is
end

/-! ### The functions for which the check is right -/

/-- `emit` or `revert` of the framework. -/
def Native (f : Option Item) : Prop := f = some emitFn ∨ f = some revertFn

mutual
/-- No call in the expression calls `emit` or `revert`. -/
def NoNative (S : BodyScope) : SExp → Prop
  | .call p n args => ¬ Native (S.func p n) ∧ NoNativeAll S args
  | .dotCall r n args => (∀ t, ¬ Native (S.meth t n)) ∧ NoNative S r ∧ NoNativeAll S args
  | .pack _ _ fs => NoNativeAll S fs
  | .name .. => True
  | .parens e => NoNative S e
  | .copy e => NoNative S e
  | .move e => NoNative S e
  | .labeled e => NoNative S e
  | .block is f => NoNativeItems S is ∧ NoNativeAll S f
  | .ite c t e => NoNative S c ∧ NoNative S t ∧ NoNativeAll S e
  | .while c b => NoNative S c ∧ NoNative S b
  | .loop b => NoNative S b
  | .mtch s arms => NoNative S s ∧ NoNativeArms S arms
  | .lambda _ b => NoNative S b
  | .list es => NoNativeAll S es
  | .other _ es => NoNativeAll S es
/-- The same for expressions. -/
def NoNativeAll (S : BodyScope) : List SExp → Prop
  | [] => True
  | e :: es => NoNative S e ∧ NoNativeAll S es
/-- The same for arms. -/
def NoNativeArms (S : BodyScope) : List SArm → Prop
  | [] => True
  | .arm _ g r :: as => (NoNativeAll S g ∧ NoNative S r) ∧ NoNativeArms S as
/-- The same for statements. -/
def NoNativeItems (S : BodyScope) : List SItem → Prop
  | [] => True
  | .seq e :: is => NoNative S e ∧ NoNativeItems S is
  | .declare _ :: is => NoNativeItems S is
  | .bind _ e :: is => NoNative S e ∧ NoNativeItems S is
end

/-- The expression makes a struct `n`, or is a variable in scope that stands for structs `n` (`U`) only. -/
inductive Direct (S : BodyScope) (U : String → Option String) (Γ : Env) : SExp → String → Prop where
  | pack {p n fs d} : S.ctor p n = some d → Direct S U Γ (.pack p n fs) n
  | call {p n as d} : S.ctor p n = some d → Direct S U Γ (.call p n as) n
  | var {x n} : U x = some n → Γ x ≠ none → Direct S U Γ (.name [] x) n
  | parens {e n} : Direct S U Γ e n → Direct S U Γ (.parens e) n
  | copy {e n} : Direct S U Γ e n → Direct S U Γ (.copy e) n
  | move {e n} : Direct S U Γ e n → Direct S U Γ (.move e) n

/-- These variables stand for no struct all the time. -/
def Free (U : String → Option String) (vs : List (String × Option Item)) : Prop :=
  ∀ v ∈ vs, U v.1 = none

/-- The `let` binds variables that may stand for anything, or one variable to a struct that it always
stands for. -/
def BindOk (S : BodyScope) (U : String → Option String) (Γ : Env) (bs : List SBind) (e : SExp) : Prop :=
  Free U (bindVars bs) ∨ ∃ x t n, bs = [.var x t] ∧ U x = some n ∧ Direct S U Γ e n

mutual
/-- Where `emit` and `revert` are called they are called by their imported names, where the check sees it,
with direct arguments; and other functions and methods do not have these names. -/
def Plain (S : BodyScope) (al : String → Option Item) (U : String → Option String) (Γ : Env) : SExp → Prop
  | .call p n args => ((al n = some emitFn ↔ S.func p n = some emitFn) ∧
        (al n = some revertFn ↔ S.func p n = some revertFn) ∧
        (Native (al n) → ∃ a k, args = [a] ∧ Direct S U Γ a k)) ∧ PlainAll S al U Γ args
  | .dotCall r n args => (¬ Native (al n) ∧ ∀ t, ¬ Native (S.meth t n)) ∧ Plain S al U Γ r ∧
      PlainAll S al U Γ args
  | .pack _ _ fs => NoNativeAll S fs
  | .name .. => True
  | .parens e => Plain S al U Γ e
  | .copy e => NoNative S e
  | .move e => NoNative S e
  | .labeled e => Plain S al U Γ e
  | .block is f => PlainItems S al U Γ is ∧ PlainAll S al U (envItems S Γ is) f
  | .ite c t e => Plain S al U Γ c ∧ Plain S al U Γ t ∧ PlainAll S al U Γ e
  | .while c b => Plain S al U Γ c ∧ Plain S al U Γ b
  | .loop b => Plain S al U Γ b
  | .mtch s arms => Plain S al U Γ s ∧ PlainArms S al U Γ arms
  | .lambda vs b => Free U vs ∧ Plain S al U (Γ.extend vs) b
  | .list es => PlainAll S al U Γ es
  | .other _ es => NoNativeAll S es
/-- The same for expressions. -/
def PlainAll (S : BodyScope) (al : String → Option Item) (U : String → Option String) (Γ : Env) :
    List SExp → Prop
  | [] => True
  | e :: es => Plain S al U Γ e ∧ PlainAll S al U Γ es
/-- The same for arms. -/
def PlainArms (S : BodyScope) (al : String → Option Item) (U : String → Option String) (Γ : Env) :
    List SArm → Prop
  | [] => True
  | .arm vs g r :: as => (Free U vs ∧ PlainAll S al U (Γ.extend vs) g ∧ Plain S al U (Γ.extend vs) r) ∧
      PlainArms S al U Γ as
/-- The same for statements. -/
def PlainItems (S : BodyScope) (al : String → Option Item) (U : String → Option String) (Γ : Env) :
    List SItem → Prop
  | [] => True
  | .seq e :: is => Plain S al U Γ e ∧ PlainItems S al U Γ is
  | .declare vs :: is => Free U vs ∧ PlainItems S al U (Γ.extend vs) is
  | .bind bs e :: is => (Plain S al U Γ e ∧ BindOk S U Γ bs e) ∧
      PlainItems S al U (Γ.bind bs (tyOf S Γ e)) is
end

/-! ### Proofs -/

section
variable {S : BodyScope} {event error : Item → Prop}

theorem argsOk_quiet {Γ f args} (h : ¬ Native f) : ArgsOk S Γ event error f args :=
  ⟨fun e => absurd (.inl e) h, fun e => absurd (.inr e) h⟩

mutual
theorem quiet_good (Γ : Env) : ∀ e, NoNative S e → Good S event error Γ e
  | .call _ _ args, h => ⟨argsOk_quiet h.1, quietAll_good Γ args h.2⟩
  | .dotCall r _ args, h => ⟨argsOk_quiet (h.1 _), quiet_good Γ r h.2.1, quietAll_good Γ args h.2.2⟩
  | .pack _ _ fs, h => quietAll_good Γ fs h
  | .name .., _ => trivial
  | .parens e, h => quiet_good Γ e h
  | .copy e, h => quiet_good Γ e h
  | .move e, h => quiet_good Γ e h
  | .labeled e, h => quiet_good Γ e h
  | .block is f, h => ⟨quietItems_good Γ is h.1, quietAll_good _ f h.2⟩
  | .ite c t e, h => ⟨quiet_good Γ c h.1, quiet_good Γ t h.2.1, quietAll_good Γ e h.2.2⟩
  | .while c b, h => ⟨quiet_good Γ c h.1, quiet_good Γ b h.2⟩
  | .loop b, h => quiet_good Γ b h
  | .mtch s arms, h => ⟨quiet_good Γ s h.1, quietArms_good Γ arms h.2⟩
  | .lambda _ b, h => quiet_good _ b h
  | .list es, h => quietAll_good Γ es h
  | .other _ es, h => quietAll_good Γ es h
theorem quietAll_good (Γ : Env) : ∀ es, NoNativeAll S es → GoodAll S event error Γ es
  | [], _ => trivial
  | e :: es, h => ⟨quiet_good Γ e h.1, quietAll_good Γ es h.2⟩
theorem quietArms_good (Γ : Env) : ∀ as, NoNativeArms S as → GoodArms S event error Γ as
  | [], _ => trivial
  | .arm _ g r :: as, h =>
    ⟨⟨quietAll_good _ g h.1.1, quiet_good _ r h.1.2⟩, quietArms_good Γ as h.2⟩
theorem quietItems_good (Γ : Env) : ∀ is, NoNativeItems S is → GoodItems S event error Γ is
  | [], _ => trivial
  | .seq e :: is, h => ⟨quiet_good Γ e h.1, quietItems_good Γ is h.2⟩
  | .declare _ :: is, h => quietItems_good _ is h
  | .bind _ e :: is, h => ⟨quiet_good Γ e h.1, quietItems_good _ is h.2⟩
end

end

/-- The struct that a variable always stands for is recorded. -/
def Le (U : String → Option String) (B B' : Bindings) : Prop :=
  ∀ x n, U x = some n → B.get x = some n → B'.get x = some n

/-- Variables in scope that always stand for one struct have its type and are recorded. -/
def Known (m : Module) (U : String → Option String) (Γ : Env) (B : Bindings) : Prop :=
  ∀ x n, U x = some n → Γ x = none ∨ (Γ x = some (m.id, n) ∧ B.get x = some n)

theorem Le.refl {U B} : Le U B B := fun _ _ _ h => h
theorem Le.trans {U B B' B''} (h : Le U B B') (h' : Le U B' B'') : Le U B B'' :=
  fun x n hu hb => h' x n hu (h x n hu hb)

theorem Known.mono {m U Γ B B'} (h : Known m U Γ B) (hl : Le U B B') : Known m U Γ B' := by
  intro x n hu
  rcases h x n hu with h | ⟨h1, h2⟩
  · exact .inl h
  · exact .inr ⟨h1, hl x n hu h2⟩

theorem Known.extend {m U Γ B vs} (h : Known m U Γ B) (hf : Free U vs) : Known m U (Γ.extend vs) B := by
  induction vs generalizing Γ with
  | nil => exact h
  | cons v vs ih =>
    refine ih ?_ (fun w hw => hf w (List.mem_cons_of_mem _ hw))
    intro x n hu
    have hne : x ≠ v.1 := by
      rintro rfl
      rw [hf v List.mem_cons_self] at hu
      cases hu
    simpa [hne] using h x n hu

theorem get_cons (B : Bindings) (x y n : String) :
    Bindings.get ((y, n) :: B) x = if y = x then some n else B.get x := by
  by_cases h : y = x <;> simp [Bindings.get, h]

theorem insertBinds_le {U n bs B} (hf : Free U (bindVars bs)) : Le U B (insertBinds n bs B) := by
  induction bs generalizing B with
  | nil => exact Le.refl
  | cons b bs ih =>
    cases b with
    | var x t =>
      refine Le.trans ?_ (ih (fun v hv => hf v (List.mem_cons_of_mem _ hv)))
      intro y k hu hb
      have hne : x ≠ y := by
        rintro rfl
        rw [hf (x, t) List.mem_cons_self] at hu
        cases hu
      simpa [get_cons, hne] using hb
    | unpack vs => exact ih (fun v hv => hf v (List.mem_append_right _ hv))

section
variable {S : BodyScope} {m : Module} {U : String → Option String}
  (hown : ∀ p n d, S.ctor p n = some d → d = (m.id, n))
include hown

theorem direct_ty {Γ B e n} (hk : Known m U Γ B) (h : Direct S U Γ e n) : tyOf S Γ e = some (m.id, n) := by
  induction h with
  | pack h => simp [tyOf, h, hown _ _ _ h]
  | call h => simp [tyOf, h, hown _ _ _ h]
  | var hu hg =>
    rcases hk _ _ hu with h | h
    · exact absurd h hg
    · simp [tyOf, h.1]
  | parens _ ih => simpa [tyOf] using ih
  | copy _ ih => simpa [tyOf] using ih
  | move _ ih => simpa [tyOf] using ih

omit hown in
theorem direct_name {Γ B e n} (hk : Known m U Γ B) (h : Direct S U Γ e n) : structName B e = some n := by
  induction h with
  | pack h => rfl
  | call h => rfl
  | var hu hg =>
    rcases hk _ _ hu with h | h
    · exact absurd h hg
    · simp [structName, h.2]
  | parens _ ih => simpa [structName] using ih
  | copy _ ih => simpa [structName] using ih
  | move _ ih => simpa [structName] using ih

/-- After a `let` the variables are known. -/
theorem known_bind {Γ B bs e} (hk : Known m U Γ B) (h : BindOk S U Γ bs e) :
    Le U B (match structName B e with | some n => insertBinds n bs B | none => B) ∧
    Known m U (Γ.bind bs (tyOf S Γ e)) (match structName B e with | some n => insertBinds n bs B | none => B) := by
  rcases h with h | ⟨x, t, n, rfl, hu, hd⟩
  · have hl : Le U B (match structName B e with | some n => insertBinds n bs B | none => B) := by
      cases structName B e with
      | none => exact Le.refl
      | some n => exact insertBinds_le h
    refine ⟨hl, ?_⟩
    unfold Env.bind
    split
    · rename_i x t
      refine (hk.mono hl).extend ?_
      intro v hv
      obtain rfl := List.mem_singleton.1 hv
      exact h (x, t) List.mem_cons_self
    · exact (hk.mono hl).extend h
  · rw [direct_name hk hd, direct_ty hown hk hd]
    have hl : Le U B (insertBinds n [.var x t] B) := by
      intro y k hu' hb
      simp only [insertBinds, get_cons]
      split
      · rename_i e; subst e; rw [hu] at hu'; exact hu'
      · exact hb
    refine ⟨hl, ?_⟩
    intro y k hu'
    by_cases e : y = x
    · subst e
      rw [hu] at hu'
      cases hu'
      exact .inr ⟨by simp [Env.bind, Env.extend], by simp [insertBinds, get_cons]⟩
    · rcases hk.mono hl y k hu' with h | h
      · exact .inl (by simpa [Env.bind, Env.extend, e] using h)
      · exact .inr ⟨by simpa [Env.bind, Env.extend, e] using h.1, h.2⟩

mutual
theorem binds_le {al B Γ} (hk : Known m U Γ B) : ∀ e, Plain S al U Γ e → Le U B (e.binds B)
  | .call p n args, h => by rw [SExp.binds]; exact bindsAll_le hk args h.2
  | .dotCall r n args, h => by
    have h1 := binds_le hk r h.2.1
    rw [SExp.binds]
    exact h1.trans (bindsAll_le (hk.mono h1) args h.2.2)
  | .pack _ _ fs, h => by rw [SExp.binds]; exact Le.refl
  | .name .., _ => by rw [SExp.binds]; exact Le.refl
  | .parens e, h => by rw [SExp.binds]; exact binds_le hk e h
  | .copy e, h => by rw [SExp.binds]; exact Le.refl
  | .move e, h => by rw [SExp.binds]; exact Le.refl
  | .labeled e, h => by rw [SExp.binds]; exact binds_le hk e h
  | .block is f, h => by
    have h1 := bindsItems_le hk is h.1
    rw [SExp.binds]
    exact h1.1.trans (bindsAll_le h1.2 f h.2)
  | .ite c t e, h => by
    have h1 := binds_le hk c h.1
    have h2 := binds_le (hk.mono h1) t h.2.1
    rw [SExp.binds]
    exact (h1.trans h2).trans (bindsAll_le (hk.mono (h1.trans h2)) e h.2.2)
  | .while c b, h => by
    have h1 := binds_le hk c h.1
    rw [SExp.binds]
    exact h1.trans (binds_le (hk.mono h1) b h.2)
  | .loop b, h => by rw [SExp.binds]; exact binds_le hk b h
  | .mtch s arms, h => by
    have h1 := binds_le hk s h.1
    rw [SExp.binds]
    exact h1.trans (bindsArms_le (hk.mono h1) arms h.2)
  | .lambda vs b, h => by rw [SExp.binds]; exact binds_le (hk.extend h.1) b h.2
  | .list es, h => by rw [SExp.binds]; exact bindsAll_le hk es h
  | .other _ es, h => by rw [SExp.binds]; exact Le.refl
theorem bindsAll_le {al B Γ} (hk : Known m U Γ B) : ∀ es, PlainAll S al U Γ es → Le U B (bindsAll es B)
  | [], _ => by rw [bindsAll]; exact Le.refl
  | e :: es, h => by
    have h1 := binds_le hk e h.1
    rw [bindsAll]
    exact h1.trans (bindsAll_le (hk.mono h1) es h.2)
theorem bindsArms_le {al B Γ} (hk : Known m U Γ B) : ∀ as, PlainArms S al U Γ as → Le U B (bindsArms as B)
  | [], _ => by rw [bindsArms]; exact Le.refl
  | .arm vs g r :: as, h => by
    have h1 := bindsAll_le (hk.extend h.1.1) g h.1.2.1
    have h2 := h1.trans (binds_le ((hk.extend h.1.1).mono h1) r h.1.2.2)
    rw [bindsArms, SArm.binds]
    exact h2.trans (bindsArms_le (hk.mono h2) as h.2)
theorem bindsItems_le {al B Γ} (hk : Known m U Γ B) : ∀ is, PlainItems S al U Γ is →
    Le U B (bindsItems is B) ∧ Known m U (envItems S Γ is) (bindsItems is B)
  | [], _ => by rw [bindsItems, envItems]; exact ⟨Le.refl, hk⟩
  | .seq e :: is, h => by
    have h1 := binds_le hk e h.1
    rw [bindsItems, envItems, SItem.binds]
    have h2 := bindsItems_le (hk.mono h1) is h.2
    exact ⟨h1.trans h2.1, h2.2⟩
  | .declare vs :: is, h => by
    rw [bindsItems, envItems, SItem.binds]
    exact bindsItems_le (hk.extend h.1) is h.2
  | .bind bs e :: is, h => by
    have h0 := known_bind hown hk h.1.2
    have h1 := binds_le (hk.mono h0.1) e h.1.1
    rw [bindsItems, envItems, SItem.binds]
    have h2 := bindsItems_le (h0.2.mono h1) is h.2
    exact ⟨(h0.1.trans h1).trans h2.1, h2.2⟩
end

end

/-- What `checkCall` checks. -/
def CallOk (m : Module) (B : Bindings) (c : XCall) : Prop :=
  (aliasOf m.imports c.1 = some emitFn → ∃ a n, c.2 = [a] ∧ structName B a = some n ∧ n ∈ m.events) ∧
  (aliasOf m.imports c.1 = some revertFn → ∃ a n, c.2 = [a] ∧ structName B a = some n ∧ n ∈ m.errors)

theorem emit_ne_revert : emitFn ≠ revertFn := by decide

theorem checkCall_iff (m : Module) (B : Bindings) (c : XCall) : checkCall m B c = none ↔ CallOk m B c := by
  obtain ⟨n, args⟩ := c
  unfold checkCall CallOk
  by_cases h : aliasOf m.imports n = some emitFn
  · simp only [h, if_true, Option.some.injEq, emit_ne_revert, false_implies, and_true, true_implies]
    rcases args with _ | ⟨a, _ | ⟨b, l⟩⟩
    · simp
    · rcases hs : structName B a with _ | s <;> simp [hs]
    · simp
  · by_cases h' : aliasOf m.imports n = some revertFn
    · simp only [h', if_true, Option.some.injEq, emit_ne_revert.symm, if_false, false_implies, true_and,
        true_implies]
      rcases args with _ | ⟨a, _ | ⟨b, l⟩⟩
      · simp
      · rcases hs : structName B a with _ | s <;> simp [hs]
      · simp
    · simp [h, h']

section
variable {S : BodyScope} {m : Module} {U : String → Option String} {event error : Item → Prop}
  (hown : ∀ p n d, S.ctor p n = some d → d = (m.id, n))
  (hev : ∀ n, event (m.id, n) ↔ n ∈ m.events) (her : ∀ n, error (m.id, n) ↔ n ∈ m.errors)
include hown hev her

theorem call_iff {Γ B p n args}
    (hk : Known m U Γ B)
    (h : (aliasOf m.imports n = some emitFn ↔ S.func p n = some emitFn) ∧
        (aliasOf m.imports n = some revertFn ↔ S.func p n = some revertFn) ∧
        (Native (aliasOf m.imports n) → ∃ a k, args = [a] ∧ Direct S U Γ a k)) :
    CallOk m B (n, args) ↔ ArgsOk S Γ event error (S.func p n) args := by
  obtain ⟨h1, h2, h3⟩ := h
  unfold CallOk ArgsOk
  rw [← h1, ← h2]
  refine and_congr (forall_congr' fun e => ?_) (forall_congr' fun e => ?_)
  · obtain ⟨a, k, rfl, hd⟩ := h3 (.inl e)
    have e1 := direct_name hk hd
    have e2 := direct_ty hown hk hd
    constructor
    · rintro ⟨a', n', h, hs, hn⟩
      cases h
      rw [e1] at hs; cases hs
      exact ⟨_, _, rfl, e2, (hev _).2 hn⟩
    · rintro ⟨a', d, h, hs, hn⟩
      cases h
      rw [e2] at hs; cases hs
      exact ⟨_, _, rfl, e1, (hev _).1 hn⟩
  · obtain ⟨a, k, rfl, hd⟩ := h3 (.inr e)
    have e1 := direct_name hk hd
    have e2 := direct_ty hown hk hd
    constructor
    · rintro ⟨a', n', h, hs, hn⟩
      cases h
      rw [e1] at hs; cases hs
      exact ⟨_, _, rfl, e2, (her _).2 hn⟩
    · rintro ⟨a', d, h, hs, hn⟩
      cases h
      rw [e2] at hs; cases hs
      exact ⟨_, _, rfl, e1, (her _).1 hn⟩

omit hown hev her in
theorem ok_append {B : Bindings} {l l' : List XCall} :
    (∀ c ∈ l ++ l', CallOk m B c) ↔ (∀ c ∈ l, CallOk m B c) ∧ (∀ c ∈ l', CallOk m B c) := by
  simp [or_imp, forall_and]

mutual
theorem good_iff {Γ B B'} (hk : Known m U Γ B) : ∀ e, Plain S (aliasOf m.imports) U Γ e →
    Le U (e.binds B) B' → ((∀ c ∈ e.calls, CallOk m B' c) ↔ Good S event error Γ e)
  | .call p n args, h, hl => by
    rw [SExp.binds] at hl
    have h1 := bindsAll_le hown hk args h.2
    rw [SExp.calls, Good, List.forall_mem_cons]
    exact and_congr (call_iff hown hev her ((hk.mono h1).mono hl) h.1) (goodAll_iff hk args h.2 hl)
  | .dotCall r n args, h, hl => by
    rw [SExp.binds] at hl
    have h1 := binds_le hown hk r h.2.1
    have h2 := bindsAll_le hown (hk.mono h1) args h.2.2
    have e1 : CallOk m B' (n, args) := ⟨fun e => absurd (.inl e) h.1.1, fun e => absurd (.inr e) h.1.1⟩
    have e2 : ArgsOk S Γ event error (S.meth (tyOf S Γ r) n) (r :: args) := argsOk_quiet (h.1.2 _)
    rw [SExp.calls, Good, List.forall_mem_cons, ok_append]
    exact and_congr (iff_of_true e1 e2) (and_congr (good_iff hk r h.2.1 (h2.trans hl))
      (goodAll_iff (hk.mono h1) args h.2.2 hl))
  | .pack _ _ fs, h, _ => by
    rw [SExp.calls, Good]; exact iff_of_true (by simp) (quietAll_good Γ fs h)
  | .name .., _, _ => by rw [SExp.calls, Good]; simp
  | .parens e, h, hl => by
    rw [SExp.binds] at hl; rw [SExp.calls, Good]; exact good_iff hk e h hl
  | .copy e, h, _ => by rw [SExp.calls, Good]; exact iff_of_true (by simp) (quiet_good Γ e h)
  | .move e, h, _ => by rw [SExp.calls, Good]; exact iff_of_true (by simp) (quiet_good Γ e h)
  | .labeled e, h, hl => by
    rw [SExp.binds] at hl; rw [SExp.calls, Good]; exact good_iff hk e h hl
  | .block is f, h, hl => by
    rw [SExp.binds] at hl
    have h1 := bindsItems_le hown hk is h.1
    have h2 := bindsAll_le hown h1.2 f h.2
    rw [SExp.calls, Good, ok_append]
    exact and_congr (goodItems_iff hk is h.1 (h2.trans hl)) (goodAll_iff h1.2 f h.2 hl)
  | .ite c t e, h, hl => by
    rw [SExp.binds] at hl
    have h1 := binds_le hown hk c h.1
    have h2 := binds_le hown (hk.mono h1) t h.2.1
    have k2 := (hk.mono h1).mono h2
    have h3 := bindsAll_le hown k2 e h.2.2
    rw [SExp.calls, Good, ok_append, ok_append]
    exact and_congr (good_iff hk c h.1 ((h2.trans h3).trans hl))
      (and_congr (good_iff (hk.mono h1) t h.2.1 (h3.trans hl)) (goodAll_iff k2 e h.2.2 hl))
  | .while c b, h, hl => by
    rw [SExp.binds] at hl
    have h1 := binds_le hown hk c h.1
    have h2 := binds_le hown (hk.mono h1) b h.2
    rw [SExp.calls, Good, ok_append]
    exact and_congr (good_iff hk c h.1 (h2.trans hl)) (good_iff (hk.mono h1) b h.2 hl)
  | .loop b, h, hl => by
    rw [SExp.binds] at hl; rw [SExp.calls, Good]; exact good_iff hk b h hl
  | .mtch s arms, h, hl => by
    rw [SExp.binds] at hl
    have h1 := binds_le hown hk s h.1
    have h2 := bindsArms_le hown (hk.mono h1) arms h.2
    rw [SExp.calls, Good, ok_append]
    exact and_congr (good_iff hk s h.1 (h2.trans hl)) (goodArms_iff (hk.mono h1) arms h.2 hl)
  | .lambda vs b, h, hl => by
    rw [SExp.binds] at hl; rw [SExp.calls, Good]; exact good_iff (hk.extend h.1) b h.2 hl
  | .list es, h, hl => by
    rw [SExp.binds] at hl; rw [SExp.calls, Good]; exact goodAll_iff hk es h hl
  | .other _ es, h, _ => by rw [SExp.calls, Good]; exact iff_of_true (by simp) (quietAll_good Γ es h)
theorem goodAll_iff {Γ B B'} (hk : Known m U Γ B) : ∀ es, PlainAll S (aliasOf m.imports) U Γ es →
    Le U (bindsAll es B) B' → ((∀ c ∈ callsAll es, CallOk m B' c) ↔ GoodAll S event error Γ es)
  | [], _, _ => by rw [callsAll, GoodAll]; simp
  | e :: es, h, hl => by
    rw [bindsAll] at hl
    have h1 := binds_le hown hk e h.1
    have h2 := bindsAll_le hown (hk.mono h1) es h.2
    rw [callsAll, GoodAll, ok_append]
    exact and_congr (good_iff hk e h.1 (h2.trans hl)) (goodAll_iff (hk.mono h1) es h.2 hl)
theorem goodArms_iff {Γ B B'} (hk : Known m U Γ B) : ∀ as, PlainArms S (aliasOf m.imports) U Γ as →
    Le U (bindsArms as B) B' → ((∀ c ∈ callsArms as, CallOk m B' c) ↔ GoodArms S event error Γ as)
  | [], _, _ => by rw [callsArms, GoodArms]; simp
  | .arm vs g r :: as, h, hl => by
    rw [bindsArms, SArm.binds] at hl
    have k0 := hk.extend h.1.1
    have h1 := bindsAll_le hown k0 g h.1.2.1
    have h2 := binds_le hown (k0.mono h1) r h.1.2.2
    have h3 := bindsArms_le hown (hk.mono (h1.trans h2)) as h.2
    rw [callsArms, SArm.calls, GoodArms, ok_append, ok_append]
    exact and_congr (and_congr (goodAll_iff k0 g h.1.2.1 (h2.trans (h3.trans hl)))
      (good_iff (k0.mono h1) r h.1.2.2 (h3.trans hl))) (goodArms_iff (hk.mono (h1.trans h2)) as h.2 hl)
theorem goodItems_iff {Γ B B'} (hk : Known m U Γ B) : ∀ is, PlainItems S (aliasOf m.imports) U Γ is →
    Le U (bindsItems is B) B' → ((∀ c ∈ callsItems is, CallOk m B' c) ↔ GoodItems S event error Γ is)
  | [], _, _ => by rw [callsItems, GoodItems]; simp
  | .seq e :: is, h, hl => by
    rw [bindsItems, SItem.binds] at hl
    have h1 := binds_le hown hk e h.1
    have h2 := bindsItems_le hown (hk.mono h1) is h.2
    rw [callsItems, SItem.calls, GoodItems, ok_append]
    exact and_congr (good_iff hk e h.1 (h2.1.trans hl)) (goodItems_iff (hk.mono h1) is h.2 hl)
  | .declare vs :: is, h, hl => by
    rw [bindsItems, SItem.binds] at hl
    rw [callsItems, SItem.calls, GoodItems, List.nil_append]
    exact goodItems_iff (hk.extend h.1) is h.2 hl
  | .bind bs e :: is, h, hl => by
    rw [bindsItems, SItem.binds] at hl
    have h0 := known_bind hown hk h.1.2
    have h1 := binds_le hown (hk.mono h0.1) e h.1.1
    have h2 := bindsItems_le hown (h0.2.mono h1) is h.2
    rw [callsItems, SItem.calls, GoodItems, ok_append]
    exact and_congr (good_iff (hk.mono h0.1) e h.1.1 (h2.1.trans hl)) (goodItems_iff (h0.2.mono h1) is h.2 hl)
end

end

/-- `al` tells what names are imported from, and no name is imported twice. -/
def Imports (m : Module) (al : String → Option Item) : Prop :=
  ∀ n f, al n = some f ↔ ∃ a : Option String, (f.1, f.2, a) ∈ m.imports ∧ a.getD f.2 = n

theorem aliasOf_eq {m al} (h : Imports m al) : aliasOf m.imports = al := by
  funext n
  have key : ∀ f, aliasOf m.imports n = some f → al n = some f := by
    intro f hf
    unfold aliasOf at hf
    obtain ⟨i, hi, rfl⟩ := Option.map_eq_some_iff.1 hf
    have h1 := List.mem_of_find?_eq_some hi
    have h2 := List.find?_some hi
    rw [List.mem_reverse] at h1
    rw [h]
    exact ⟨i.2.2, h1, by simpa using h2⟩
  cases hx : aliasOf m.imports n with
  | some f => exact (key f hx).symm
  | none =>
    cases hy : al n with
    | none => rfl
    | some f =>
      obtain ⟨a, ha, hn⟩ := (h n f).1 hy
      unfold aliasOf at hx
      rw [Option.map_eq_none_iff, List.find?_eq_none] at hx
      exact absurd (by simpa using hn) (hx _ (List.mem_reverse.2 ha))

/-- For every function in which `emit` and `revert` are called by the names under which they are imported,
at places that the check looks at, with a new struct or a variable that stands for values of one struct
throughout the function: the check accepts the function if and only if every call of `emit` has one
argument that is an event and every call of `revert` one that is an error.

`himp`: names are imported once; `hown`: only the module of a struct makes values of it, under its name; `hal`: imported functions are not
named like structs of the module (Move requires other first letters).  `params`: the variables at the start.

Missing, and false (`C110_false_*`): arguments of other forms, variables bound several times, other functions
and methods named `emit` or `revert`, files with several modules, qualified calls. -/
theorem C110_partial {S : BodyScope} {m : Module} {U : String → Option String} {event error : Item → Prop}
    {al : String → Option Item} (himp : Imports m al)
    (hown : ∀ p n d, S.ctor p n = some d → d = (m.id, n))
    (hev : ∀ n, event (m.id, n) ↔ ∃ s ∈ m.structs, s.name = n ∧ s.event = true)
    (her : ∀ n, error (m.id, n) ↔ ∃ s ∈ m.structs, s.name = n ∧ s.error = true)
    (hal : ∀ n, Native (al n) → n ∉ m.structs.map (·.name))
    {params : List (String × Option Item)} (hp : Free U params)
    {body final} (h : Plain S al U (Env.extend (fun _ => none) params) (.block body final)) :
    validateBody m body final = none ↔
      Good S event error (Env.extend (fun _ => none) params) (.block body final) := by
  obtain rfl := aliasOf_eq himp
  have hk : Known m U (Env.extend (fun _ => none) params) [] :=
    Known.extend (fun _ _ _ => .inl rfl) hp
  have hev' : ∀ n, event (m.id, n) ↔ n ∈ m.events := fun n => by
    rw [hev]
    simp only [Module.events, List.mem_map, List.mem_filter]
    exact ⟨fun ⟨s, h1, h2, h3⟩ => ⟨s, ⟨h1, h3⟩, h2⟩, fun ⟨s, ⟨h1, h3⟩, h2⟩ => ⟨s, h1, h2, h3⟩⟩
  have her' : ∀ n, error (m.id, n) ↔ n ∈ m.errors := fun n => by
    rw [her]
    simp only [Module.errors, List.mem_map, List.mem_filter]
    exact ⟨fun ⟨s, h1, h2, h3⟩ => ⟨s, ⟨h1, h3⟩, h2⟩, fun ⟨s, ⟨h1, h3⟩, h2⟩ => ⟨s, h1, h2, h3⟩⟩
  rw [← good_iff hown hev' her' hk _ h Le.refl]
  simp only [validateBody, List.findSome?_eq_none_iff, List.mem_filter, decide_eq_true_eq, and_imp,
    checkCall_iff]
  refine forall_congr' fun c => forall_congr' fun _ => ⟨fun h => ?_, fun h _ => h⟩
  by_cases e : Native (aliasOf m.imports c.1)
  · exact h (hal _ e)
  · exact ⟨fun e' => absurd (.inl e') e, fun e' => absurd (.inr e') e⟩

/-! ### A module -/

/-- The module `shop` with the event `Sold`, the error `Refused` and the struct `Item`; it imports
`stylus::event::emit` and `stylus::error::revert as fail`. -/
def shop : Module where
  id := ⟨7, "shop"⟩
  structs := [⟨"Sold", [("n", .app [] "u64" [])], false, true, false⟩,
    ⟨"Refused", [("n", .app [] "u64" [])], false, false, true⟩,
    ⟨"Item", [("n", .app [] "u64" [])], false, false, false⟩]
  functions := []
  imports := [(⟨2, "event"⟩, "emit", none), (⟨2, "error"⟩, "revert", some "fail")]

/-- What its names stand for.  The module `radio` has a function `emit`; the module itself a function
`make` that returns a `Sold`, a method `emit` of `Item`; `event` is the module of the framework. -/
def shopScope : BodyScope where
  ctor p n := if p = [] ∧ n ∈ ["Sold", "Refused", "Item"] then some (shop.id, n) else none
  func p n :=
    if (p, n) = ([], "emit") ∨ (p, n) = (["event"], "emit") then some emitFn
    else if (p, n) = ([], "fail") then some revertFn
    else if (p, n) = (["radio"], "emit") then some (⟨7, "radio"⟩, "emit")
    else if (p, n) = ([], "make") then some (shop.id, "make")
    else none
  meth t n := if t = some (shop.id, "Item") ∧ n = "emit" then some (shop.id, "emit") else none
  result f := if f = (shop.id, "make") then some (shop.id, "Sold") else none

/-- The events and errors of the package. -/
def shopEvent (d : Item) : Prop := d = (shop.id, "Sold")
@[inherit_doc shopEvent] def shopError (d : Item) : Prop := d = (shop.id, "Refused")

/-- What it imports. -/
def shopImports (n : String) : Option Item :=
  if n = "emit" then some emitFn else if n = "fail" then some revertFn else none

/-- Names and attributes are as `C110_partial` expects. -/
structure Sane (S : BodyScope) (m : Module) (al : String → Option Item) (event error : Item → Prop) : Prop where
  imp : Imports m al
  own : ∀ p n d, S.ctor p n = some d → d = (m.id, n)
  ev : ∀ n, event (m.id, n) ↔ ∃ s ∈ m.structs, s.name = n ∧ s.event = true
  er : ∀ n, error (m.id, n) ↔ ∃ s ∈ m.structs, s.name = n ∧ s.error = true
  al : ∀ n, Native (al n) → n ∉ m.structs.map (·.name)

theorem shop_sane : Sane shopScope shop shopImports shopEvent shopError where
  imp n f := by
    obtain ⟨f1, f2⟩ := f
    simp only [shopImports, shop, List.mem_cons, List.not_mem_nil, or_false, Prod.mk.injEq, emitFn, revertFn,
      sfAddress]
    constructor
    · intro h
      split at h
      · cases h; exact ⟨none, .inl ⟨rfl, rfl, rfl⟩, by simp [*]⟩
      · split at h
        · cases h; exact ⟨some "fail", .inr ⟨rfl, rfl, rfl⟩, by simp [*]⟩
        · cases h
    · rintro ⟨a, ⟨rfl, rfl, rfl⟩ | ⟨rfl, rfl, rfl⟩, rfl⟩ <;> simp
  own p n d h := by
    simp only [shopScope] at h
    split at h <;> simp_all
  ev n := by simp only [shopEvent, shop]; simp; exact eq_comm
  er n := by simp only [shopError, shop]; simp; exact eq_comm
  al n h := by
    intro hn
    simp only [shop, List.map_cons, List.map_nil, List.mem_cons, List.not_mem_nil,
      or_false] at hn
    rcases hn with rfl | rfl | rfl <;> exact absurd h (by simp [Native, shopImports])

/-- A number. -/
def lit : SExp := .other none []

/-- `let s = Sold { n: 1 }; emit(s); if (c) fail(Refused { n: 2 })` with a parameter `c`. -/
def sell : List SItem :=
  [.bind [.var "s" none] (.pack [] "Sold" [lit]), .seq (.call [] "emit" [.name [] "s"])]
@[inherit_doc sell] def sellFinal : List SExp :=
  [.ite (.name [] "c") (.call [] "fail" [.pack [] "Refused" [lit]]) []]

/-- The hypotheses of `C110_partial` hold for `sell`, which is accepted. -/
example : validateBody shop sell sellFinal = none ∧
    Good shopScope shopEvent shopError (Env.extend (fun _ => none) [("c", none)]) (.block sell sellFinal) := by
  have h : validateBody shop sell sellFinal = none := by decide
  refine ⟨h, (C110_partial (U := fun x => if x = "s" then some "Sold" else none) shop_sane.imp shop_sane.own shop_sane.ev
    shop_sane.er shop_sane.al (params := [("c", none)]) (by simp [Free]) ?_).1 h⟩
  have e1 : shopImports "emit" = some emitFn := by decide
  have e2 : shopImports "fail" = some revertFn := by decide
  have e3 : shopScope.func [] "emit" = some emitFn := by decide
  have e4 : shopScope.func [] "fail" = some revertFn := by decide
  have c1 : shopScope.ctor [] "Sold" = some (shop.id, "Sold") := by decide
  have c2 : shopScope.ctor [] "Refused" = some (shop.id, "Refused") := by decide
  simp only [sell, sellFinal, Plain, PlainItems, PlainAll, NoNativeAll, NoNative, lit, e1, e2, e3, e4, and_true,
    true_and, emit_ne_revert, emit_ne_revert.symm, Option.some.injEq, envItems]
  refine ⟨⟨.inr ⟨"s", none, "Sold", rfl, by simp, .pack c1⟩, fun _ => ?_⟩, fun _ => ?_⟩
  · exact ⟨_, "Sold", rfl, .var (by simp) (by simp [Env.bind, Env.extend, tyOf, c1])⟩
  · exact ⟨_, "Refused", rfl, .pack c2⟩

/-- `emit(Item { n: 1 })` is refused. -/
example : validateBody shop [] [.call [] "emit" [.pack [] "Item" [lit]]] = some .emitNotEvent := by decide

/-! ### Functions that are refused though they emit events only -/

/-- `emit(make())`: a function that returns an event. -/
theorem C110_false_result : Sane shopScope shop shopImports shopEvent shopError ∧
    Good shopScope shopEvent shopError (fun _ => none) (.block [] [.call [] "emit" [.call [] "make" []]]) ∧
    validateBody shop [] [.call [] "emit" [.call [] "make" []]] = some .emitNotEvent := by
  refine ⟨shop_sane, ?_, by decide⟩
  simp [Good, GoodItems, GoodAll, ArgsOk, envItems, tyOf, shopScope, emitFn, revertFn, shopEvent, shop]

/-- `let r = &s; emit(*r)`, where `s` is an event: `*r` has the type `Sold`. -/
theorem C110_false_deref : Sane shopScope shop shopImports shopEvent shopError ∧
    Good shopScope shopEvent shopError (fun _ => none) (.block
      [.bind [.var "s" none] (.pack [] "Sold" [lit]), .bind [.var "r" none] (.other none [.name [] "s"])]
      [.call [] "emit" [.other (some (shop.id, "Sold")) [.name [] "r"]]]) ∧
    validateBody shop
      [.bind [.var "s" none] (.pack [] "Sold" [lit]), .bind [.var "r" none] (.other none [.name [] "s"])]
      [.call [] "emit" [.other (some (shop.id, "Sold")) [.name [] "r"]]] = some .emitNotEvent := by
  refine ⟨shop_sane, ?_, by decide⟩
  simp [Good, GoodItems, GoodAll, ArgsOk, envItems, tyOf, shopScope, emitFn, revertFn, shopEvent, shop, lit]

/-- `let e = Sold { n: 1 }; emit(e); let e = Item { n: 2 };`: the variables of the whole function are
recorded before the first call is checked. -/
theorem C110_false_rebound : Sane shopScope shop shopImports shopEvent shopError ∧
    Good shopScope shopEvent shopError (fun _ => none) (.block
      [.bind [.var "e" none] (.pack [] "Sold" [lit]), .seq (.call [] "emit" [.name [] "e"]),
        .bind [.var "e" none] (.pack [] "Item" [lit])] []) ∧
    validateBody shop
      [.bind [.var "e" none] (.pack [] "Sold" [lit]), .seq (.call [] "emit" [.name [] "e"]),
        .bind [.var "e" none] (.pack [] "Item" [lit])] [] = some .emitNotEvent := by
  refine ⟨shop_sane, ?_, by decide⟩
  simp [Good, GoodItems, GoodAll, ArgsOk, tyOf, shopScope, emitFn, revertFn, shopEvent, shop, lit,
    Env.bind, Env.extend]

/-- `radio::emit(1)`: a function of another module with the name of an imported one.  The path is not
looked at. -/
theorem C110_false_path : Sane shopScope shop shopImports shopEvent shopError ∧
    Good shopScope shopEvent shopError (fun _ => none) (.block [] [.call ["radio"] "emit" [lit]]) ∧
    validateBody shop [] [.call ["radio"] "emit" [lit]] = some .emitNotEvent := by
  refine ⟨shop_sane, ?_, by decide⟩
  simp [Good, GoodItems, GoodAll, ArgsOk, shopScope, emitFn, revertFn, lit]

/-- `let i = Item { n: 1 }; i.emit()`: a method with this name. -/
theorem C110_false_method : Sane shopScope shop shopImports shopEvent shopError ∧
    Good shopScope shopEvent shopError (fun _ => none) (.block
      [.bind [.var "i" none] (.pack [] "Item" [lit])] [.dotCall (.name [] "i") "emit" []]) ∧
    validateBody shop [.bind [.var "i" none] (.pack [] "Item" [lit])] [.dotCall (.name [] "i") "emit" []] =
      some .emitCount := by
  refine ⟨shop_sane, ?_, by decide⟩
  simp [Good, GoodItems, GoodAll, ArgsOk, envItems, tyOf, shopScope, emitFn, revertFn, shop, lit,
    Env.bind, Env.extend]

/-- A module in whose file another module imports `emit`, and that has a function `emit` of its own: `emit(1)`
is refused, because the imports of all modules of a file are taken together. -/
theorem C110_false_file :
    let S : BodyScope := { shopScope with
      func := fun p n => if (p, n) = ([], "emit") then some (shop.id, "emit") else none }
    Sane S shop shopImports shopEvent shopError ∧
    Good S shopEvent shopError (fun _ => none) (.block [] [.call [] "emit" [lit]]) ∧
    validateBody shop [] [.call [] "emit" [lit]] = some .emitNotEvent := by
  refine ⟨⟨shop_sane.imp, shop_sane.own, shop_sane.ev, shop_sane.er, shop_sane.al⟩, ?_, by decide⟩
  simp [Good, GoodItems, GoodAll, ArgsOk, emitFn, revertFn, lit, shop]

/-! ### Functions that pass though they emit what is no event; only the code generator refuses them
(native_functions/event.rs 57-63) -/

/-- `event::emit(Item { n: 1 })` in a module that imports the module `event`. -/
theorem C110_false_qualified :
    let m : Module := { shop with imports := [] }
    Sane shopScope m (fun _ => none) shopEvent shopError ∧
    ¬ Good shopScope shopEvent shopError (fun _ => none)
      (.block [] [.call ["event"] "emit" [.pack [] "Item" [lit]]]) ∧
    validateBody m [] [.call ["event"] "emit" [.pack [] "Item" [lit]]] = none := by
  refine ⟨⟨by simp [Imports], shop_sane.own, shop_sane.ev, shop_sane.er, fun n h => ?_⟩, ?_, by decide⟩
  · simp [Native] at h
  · simp [Good, GoodItems, GoodAll, ArgsOk, tyOf, shopScope, emitFn, revertFn, shop, lit, shopEvent]

/-- `return emit(Item { n: 1 })`. -/
theorem C110_false_hidden : Sane shopScope shop shopImports shopEvent shopError ∧
    ¬ Good shopScope shopEvent shopError (fun _ => none)
      (.block [] [.other none [.call [] "emit" [.pack [] "Item" [lit]]]]) ∧
    validateBody shop [] [.other none [.call [] "emit" [.pack [] "Item" [lit]]]] = none := by
  refine ⟨shop_sane, ?_, by decide⟩
  simp [Good, GoodItems, GoodAll, ArgsOk, tyOf, shopScope, emitFn, revertFn, shop, lit, shopEvent]

end Props
