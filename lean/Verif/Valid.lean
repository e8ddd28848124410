import Verif.Wp
import Mathlib.Tactic.SplitIfs
import Lean.Elab.Tactic

/-!
# Validation of WebAssembly

The typing rules of the WebAssembly specification (section 3.3) for the instructions of `Verif.Wasm`: what a host checks before
it accepts a module.  There is no counterpart in `/repo`.

The instructions of the interpreter have no types on them, so a rule says that there is a choice of the types left open
(those of locals, of the results of blocks and of the parameters and results of a called function) for which the code is valid; `eqz` stands for
`i32.eqz` and `i64.eqz`, and loads and stores of less than eight bytes for those of `i32` and of `i64`.
-/

namespace Wasm

/-- Value types. -/
inductive VT | i32 | i64
  deriving DecidableEq, Repr

def W.vt : W → VT
  | .w32 => .i32
  | .w64 => .i64

def BinOp.isCmp : BinOp → Bool
  | .eq | .ne | .ltU | .gtU | .leU | .geU | .ltS | .gtS | .leS | .geS => true
  | _ => false

/-- The types loads and stores of `k` bytes have in this code: i64 for eight bytes, i32 for two and four; single bytes are i32 except
in the division of large integers (runtime/integers/div.rs 144-168), so either is accepted. -/
def memTys (k : Nat) : List VT :=
  if k = 8 then [.i64] else if k = 4 ∨ k = 2 then [.i32] else if k = 1 then [.i32, .i64] else []

/-- Parameters, last first, and result of the host functions (hostio/host_functions.rs). -/
def HostFn.sig : HostFn → List VT × List VT
  | .readArgs => ([.i32], [])
  | .writeResult => ([.i32, .i32], [])
  | .storageLoad => ([.i32, .i32], [])
  | .storageCache => ([.i32, .i32], [])
  | .storageFlush => ([.i32], [])
  | .keccak => ([.i32, .i32, .i32], [])
  | .txOrigin => ([.i32], [])
  | .msgSender => ([.i32], [])
  | .emitLog => ([.i32, .i32, .i32], [])
  | .timestamp => ([], [.i64])
  | .blockNumber => ([], [.i64])
  | .gasLimit => ([], [.i64])
  | .chainId => ([], [.i64])
  | .msgValue => ([.i32], [])
  | .baseFee => ([.i32], [])
  | .gasPrice => ([.i32], [])
  | .balance => ([.i32, .i32], [])
  | .codeSize => ([.i32], [.i32])
  | .callContract => ([.i32, .i64, .i32, .i32, .i32, .i32], [.i32])
  | .staticCall => ([.i32, .i64, .i32, .i32, .i32], [.i32])
  | .delegateCall => ([.i32, .i64, .i32, .i32, .i32], [.i32])
  | .readReturn => ([.i32, .i32, .i32], [.i32])

/-- Remove the types `ps` from the top of the stack. -/
def popTys : List VT → List VT → Option (List VT)
  | [], s => some s
  | p :: ps, t :: s => if p = t then popTys ps s else none
  | _ :: _, [] => none

/-- The operand stacks (types, top first) possible after an instruction, given the types of the locals. -/
def opTys (L : List VT) : Op → List VT → List (List VT)
  | .c32 _, s => [.i32 :: s]
  | .c64 _, s => [.i64 :: s]
  | .lget i, s => ((L[i]?).map (· :: s)).toList
  | .lset i, t :: s => if L[i]? = some t then [s] else []
  | .ltee i, t :: s => if L[i]? = some t then [t :: s] else []
  | .gget _, s => [.i32 :: s]
  | .gset _, .i32 :: s => [s]
  | .bin w o, b :: a :: s => if a = w.vt ∧ b = w.vt then [(if o.isCmp then .i32 else w.vt) :: s] else []
  | .un .eqz, _ :: s => [.i32 :: s]
  | .un .wrap, .i64 :: s => [.i32 :: s]
  | .un .extend, .i32 :: s => [.i64 :: s]
  | .load k _, .i32 :: s => (memTys k).map (· :: s)
  | .store k _, t :: .i32 :: s => if t ∈ memTys k then [s] else []
  | .memCopy, .i32 :: .i32 :: .i32 :: s => [s]
  | .memFill, .i32 :: .i32 :: .i32 :: s => [s]
  | .memGrow, .i32 :: s => [.i32 :: s]
  | .drop, _ :: s => [s]
  | .host h, s => ((popTys h.sig.1 s).map (h.sig.2 ++ ·)).toList
  | _, _ => []

/-- Valid code: locals `L`, results of the function `R`, results of the enclosing blocks `ls` (innermost first), the instructions,
operand stack before and after (types, top first). -/
inductive Ok : List VT → List VT → List (List VT) → List Instr → List VT → List VT → Prop
  | nil {L R ls s} : Ok L R ls [] s s
  | op {L R ls o is s s1 s2} : s1 ∈ opTys L o s → Ok L R ls is s1 s2 → Ok L R ls (.op o :: is) s s2
  | unreachable {L R ls is s s1 s2} : Ok L R ls is s1 s2 → Ok L R ls (.op .unreachable :: is) s s2
  | block {L R ls is b s s2 rs} : Ok L R (rs :: ls) b [] rs → Ok L R ls is (rs ++ s) s2 → Ok L R ls (.block rs.length b :: is) s s2
  | loop {L R ls is b s s2 rs} : Ok L R ([] :: ls) b [] rs → Ok L R ls is (rs ++ s) s2 → Ok L R ls (.loop rs.length b :: is) s s2
  | ite {L R ls is b c s s2 rs} : Ok L R (rs :: ls) b [] rs → Ok L R (rs :: ls) c [] rs → Ok L R ls is (rs ++ s) s2 →
      Ok L R ls (.ite rs.length b c :: is) (.i32 :: s) s2
  | br {L R ls k rs is s s1 s2} : ls[k]? = some rs → Ok L R ls is s1 s2 → Ok L R ls (.br k :: is) (rs ++ s) s2
  | brIf {L R ls k rs is s s2} : ls[k]? = some rs → Ok L R ls is (rs ++ s) s2 → Ok L R ls (.brIf k :: is) (.i32 :: (rs ++ s)) s2
  | ret {L R ls is s s1 s2} : Ok L R ls is s1 s2 → Ok L R ls (.ret :: is) (R ++ s) s2
  | call {L R ls is ps rs ls' b s s2} : Ok (ps ++ ls') rs [rs] b [] rs → Ok L R ls is (rs ++ s) s2 →
      Ok L R ls (.call ps.length rs.length ls'.length b :: is) (ps.reverse ++ s) s2

/-- A valid function with parameters `ps` and results `rs`. -/
def Fn.Valid (f : Fn) (ps rs : List VT) : Prop :=
  ∃ L, ps.length = f.na ∧ rs.length = f.nr ∧ L.length = f.nl ∧ Ok (ps ++ L) rs [rs] f.body [] rs

theorem Ok.append {L R ls is js s s1 s2} (h : Ok L R ls is s s1) (h' : Ok L R ls js s1 s2) : Ok L R ls (is ++ js) s s2 := by
  induction h with
  | nil => exact h'
  | op h _ ih => exact .op h (ih h')
  | unreachable _ ih => exact .unreachable (ih h')
  | block b _ _ ih => exact .block b (ih h')
  | loop b _ _ ih => exact .loop b (ih h')
  | ite b c _ _ _ ih => exact .ite b c (ih h')
  | br h _ ih => exact .br h (ih h')
  | brIf h _ ih => exact .brIf h (ih h')
  | ret _ ih => exact .ret (ih h')
  | call b _ _ ih => exact .call b (ih h')

theorem popTys_eq {ps s s' : List VT} (h : popTys ps s = some s') : s = ps ++ s' := by
  induction ps generalizing s with
  | nil => simp only [popTys, Option.some.injEq] at h; exact h
  | cons p ps ih =>
    cases s with
    | nil => simp [popTys] at h
    | cons t s =>
      simp only [popTys] at h
      split_ifs at h with he
      rw [he, ih h, List.cons_append]

theorem popTys_append (ps s : List VT) : popTys ps (ps ++ s) = some s := by
  induction ps with
  | nil => rfl
  | cons p ps ih => rw [List.cons_append, popTys, if_pos rfl, ih]

/-- Possible results of a block with `ar` results. -/
def guess : Nat → List (List VT)
  | 0 => [[]]
  | 1 => [[.i32], [.i64]]
  | _ => []

/-- A checker for code in which calls are annotated, in their order, with parameters and results of the function called.  Result:
annotations left and the stack, none after a jump (which has to be the last instruction of its block). -/
def chk (L R : List VT) : Nat → List (List VT) → List (List VT × List VT) → List Instr → List VT →
    Option (List (List VT × List VT) × Option (List VT))
  | 0, _, _, _, _ => none
  | _ + 1, _, as, [], s => some (as, some s)
  | n + 1, ls, as, i :: is, s =>
    match i with
    | .op o =>
      if o = .unreachable then if is.isEmpty then some (as, none) else none
      else (opTys L o s).findSome? fun s' => chk L R n ls as is s'
    | .block ar b => (guess ar).findSome? fun rs =>
      match chk L R n (rs :: ls) as b [] with
      | some (as', r) => if r.all (· = rs) then chk L R n ls as' is (rs ++ s) else none
      | none => none
    | .loop ar b => (guess ar).findSome? fun rs =>
      match chk L R n ([] :: ls) as b [] with
      | some (as', r) => if r.all (· = rs) then chk L R n ls as' is (rs ++ s) else none
      | none => none
    | .ite ar b c => (guess ar).findSome? fun rs =>
      match popTys [.i32] s with
      | some s =>
        match chk L R n (rs :: ls) as b [] with
        | some (as', r) =>
          if r.all (· = rs) then
            match chk L R n (rs :: ls) as' c [] with
            | some (as', r) => if r.all (· = rs) then chk L R n ls as' is (rs ++ s) else none
            | none => none
          else none
        | none => none
      | none => none
    | .br k =>
      match ls[k]? with
      | some rs => if (popTys rs s).isSome && is.isEmpty then some (as, none) else none
      | none => none
    | .brIf k =>
      match ls[k]?, popTys [.i32] s with
      | some rs, some s => if (popTys rs s).isSome then chk L R n ls as is s else none
      | _, _ => none
    | .ret => if (popTys R s).isSome && is.isEmpty then some (as, none) else none
    | .call na nr _ _ =>
      match as with
      | [] => none
      | a :: as =>
        if a.1.length = na && a.2.length = nr then
          match popTys a.1.reverse s with
          | some s => chk L R n ls as is (a.2 ++ s)
          | none => none
        else none

/-- The functions called, in their order. -/
def callees : Nat → List Instr → List Fn
  | 0, _ => []
  | _ + 1, [] => []
  | n + 1, i :: is =>
    match i with
    | .block _ b => callees n b ++ callees n is
    | .loop _ b => callees n b ++ callees n is
    | .ite _ b c => callees n b ++ (callees n c ++ callees n is)
    | .call na nr nl b => ⟨na, nr, nl, b⟩ :: callees n is
    | _ => callees n is

/-- The functions are valid for the annotations. -/
def Anns : List Fn → List (List VT × List VT) → Prop
  | [], _ => True
  | f :: fs, a :: as => f.Valid a.1 a.2 ∧ Anns fs as
  | _ :: _, [] => False

theorem Anns.append {fs gs : List Fn} : ∀ {as}, Anns (fs ++ gs) as → Anns fs as ∧ Anns gs (as.drop fs.length) := by
  induction fs with
  | nil => intro as h; exact ⟨trivial, h⟩
  | cons f fs ih =>
    intro as h
    cases as with
    | nil => exact h.elim
    | cons a as => exact ⟨⟨h.1, (ih h.2).1⟩, (ih h.2).2⟩

theorem chk_sound {L R : List VT} : ∀ {n ls as is s as' r}, chk L R n ls as is s = some (as', r) →
    as' = as.drop (callees n is).length ∧ (Anns (callees n is) as → ∀ s2, r.all (· = s2) = true → Ok L R ls is s s2) := by
  intro n
  induction n with
  | zero => intro ls as is s as' r h; simp [chk] at h
  | succ n ih =>
    intro ls as is s as' r h
    cases is with
    | nil =>
      simp only [chk, Option.some.injEq, Prod.mk.injEq] at h
      obtain ⟨rfl, rfl⟩ := h
      exact ⟨rfl, fun _ s2 h => by simp at h; subst h; exact .nil⟩
    | cons i is =>
      have len : ∀ {ar : Nat} {rs : List VT}, rs ∈ guess ar → rs.length = ar := by
        intro ar rs h
        match ar with
        | 0 => simp [guess] at h; simp [h]
        | 1 => simp [guess] at h; rcases h with rfl | rfl <;> rfl
        | _ + 2 => simp [guess] at h
      cases i with
      | op o =>
        simp only [chk] at h
        split_ifs at h with h1 h2
        · subst h1
          cases is with
          | cons _ _ => simp at h2
          | nil =>
            simp only [Option.some.injEq, Prod.mk.injEq] at h
            obtain ⟨rfl, rfl⟩ := h
            refine ⟨?_, fun _ s2 _ => .unreachable (s1 := s2) .nil⟩
            cases n <;> rfl
        · obtain ⟨s', hs, h⟩ := List.exists_of_findSome?_eq_some h
          obtain ⟨e, h'⟩ := ih h
          exact ⟨e, fun ha s2 hr => .op hs (h' ha s2 hr)⟩
      | block ar b =>
        simp only [chk] at h
        obtain ⟨rs, hg, h⟩ := List.exists_of_findSome?_eq_some h
        split at h
        · next as1 r1 hb =>
          split_ifs at h with hr1
          obtain ⟨e1, h1⟩ := ih hb
          obtain ⟨e2, h2⟩ := ih h
          refine ⟨by simp only [callees]; rw [e2, e1, List.length_append, List.drop_drop], fun ha s2 hr => ?_⟩
          obtain ⟨a1, a2⟩ := Anns.append ha
          rw [← e1] at a2
          rw [← len hg]
          exact .block (h1 a1 _ hr1) (h2 a2 _ hr)
        · simp at h
      | loop ar b =>
        simp only [chk] at h
        obtain ⟨rs, hg, h⟩ := List.exists_of_findSome?_eq_some h
        split at h
        · next as1 r1 hb =>
          split_ifs at h with hr1
          obtain ⟨e1, h1⟩ := ih hb
          obtain ⟨e2, h2⟩ := ih h
          refine ⟨by simp only [callees]; rw [e2, e1, List.length_append, List.drop_drop], fun ha s2 hr => ?_⟩
          obtain ⟨a1, a2⟩ := Anns.append ha
          rw [← e1] at a2
          rw [← len hg]
          exact .loop (h1 a1 _ hr1) (h2 a2 _ hr)
        · simp at h
      | ite ar b c =>
        simp only [chk] at h
        obtain ⟨rs, hg, h⟩ := List.exists_of_findSome?_eq_some h
        split at h
        · next s' hs =>
          split at h
          · next as1 r1 hb =>
            split_ifs at h with hr1
            split at h
            · next as2 r2 hc =>
              split_ifs at h with hr2
              obtain ⟨e1, h1⟩ := ih hb
              obtain ⟨e2, h2⟩ := ih hc
              obtain ⟨e3, h3⟩ := ih h
              refine ⟨by simp only [callees]; rw [e3, e2, e1, List.length_append, List.length_append, List.drop_drop, List.drop_drop],
                fun ha s2 hr => ?_⟩
              obtain ⟨a1, a2⟩ := Anns.append ha
              rw [← e1] at a2
              obtain ⟨a2, a3⟩ := Anns.append a2
              rw [← e2] at a3
              rw [← len hg, popTys_eq hs]
              exact .ite (h1 a1 _ hr1) (h2 a2 _ hr2) (h3 a3 _ hr)
            · simp at h
          · simp at h
        · simp at h
      | br k =>
        simp only [chk] at h
        split at h
        · next rs hk =>
          split_ifs at h with hc
          simp only [Bool.and_eq_true, List.isEmpty_iff] at hc
          obtain ⟨hp, rfl⟩ := hc
          obtain ⟨s', hs⟩ := Option.isSome_iff_exists.1 hp
          simp only [Option.some.injEq, Prod.mk.injEq] at h
          obtain ⟨rfl, rfl⟩ := h
          refine ⟨by cases n <;> rfl, fun _ s2 _ => ?_⟩
          rw [popTys_eq hs]
          exact .br hk (s1 := s2) .nil
        · simp at h
      | brIf k =>
        simp only [chk] at h
        split at h
        · next rs s' hk hs =>
          split_ifs at h with hp
          obtain ⟨s1, hs1⟩ := Option.isSome_iff_exists.1 hp
          obtain ⟨e, h'⟩ := ih h
          refine ⟨e, fun ha s2 hr => ?_⟩
          have := h' ha s2 hr
          rw [popTys_eq hs1] at this
          rw [popTys_eq hs, popTys_eq hs1]
          exact .brIf (rs := rs) hk this
        · simp at h
      | ret =>
        simp only [chk] at h
        split_ifs at h with hc
        simp only [Bool.and_eq_true, List.isEmpty_iff] at hc
        obtain ⟨hp, rfl⟩ := hc
        obtain ⟨s', hs⟩ := Option.isSome_iff_exists.1 hp
        simp only [Option.some.injEq, Prod.mk.injEq] at h
        obtain ⟨rfl, rfl⟩ := h
        refine ⟨by cases n <;> rfl, fun _ s2 _ => ?_⟩
        rw [popTys_eq hs]
        exact .ret (s1 := s2) .nil
      | call na nr nl b =>
        simp only [chk] at h
        split at h
        · simp at h
        · next a as =>
          split_ifs at h with hl
          simp only [Bool.and_eq_true, decide_eq_true_eq] at hl
          split at h
          · next s' hs =>
            obtain ⟨e, h'⟩ := ih h
            refine ⟨by rw [e]; rfl, fun ha s2 hr => ?_⟩
            obtain ⟨⟨ls', l1, l2, l3, hok⟩, ha⟩ := ha
            rw [popTys_eq hs]
            simp only at l1 l2 l3
            rw [← l1, ← l2, ← l3]
            exact .call hok (h' ha s2 hr)
          · simp at h

/-- Checks code that is not followed by anything. -/
def chkCode (L R : List VT) (ls : List (List VT)) (as : List (List VT × List VT)) (is : List Instr) (s s2 : List VT) : Bool :=
  match chk L R 500 ls as is s with
  | some (_, r) => r.all (· = s2)
  | none => false

theorem Ok.of_chk {L R ls as is s s2} (h : chkCode L R ls as is s s2 = true) (ha : Anns (callees 500 is) as) : Ok L R ls is s s2 := by
  unfold chkCode at h
  split at h
  · next as' r hc => exact (chk_sound hc).2 ha _ h
  · simp at h

theorem Fn.Valid.of_chk {f : Fn} {ps rs : List VT} (L : List VT) (as : List (List VT × List VT))
    (h : (decide (ps.length = f.na) && decide (rs.length = f.nr) && decide (L.length = f.nl) && chkCode (ps ++ L) rs [rs] as f.body [] rs) = true)
    (ha : Anns (callees 500 f.body) as) : f.Valid ps rs := by
  simp only [Bool.and_eq_true, decide_eq_true_eq] at h
  exact ⟨L, h.1.1.1, h.1.1.2, h.1.2, .of_chk h.2 ha⟩

open Lean Elab Tactic Meta in
/-- `rfl`, left to the kernel. -/
elab "krfl" : tactic => do
  let g ← getMainGoal
  let t ← instantiateMVars (← g.getType)
  match t.eq? with
  | some (_, a, _) => g.assign (← mkEqRefl a)
  | none => throwError "not an equation"

end Wasm
