import Verif.Proof.MoveProg
import Verif.Props.Storage

/-!
# C66, C67, C86: compiled functions do what the Move functions do

`Verif.Move` is a machine for Move bytecode on booleans, integers, addresses, structs and references;
`Verif.Rt.Compile` is the translation to WebAssembly.
-/

namespace Props
open Wasm Rt Move

variable {E : ErrPtrs} {P : Prog} {U : Nat} {flows : List Flow} {tbl : List (MFun × Fn)}

/-- **C66 (partial)** A call of a Move function that returns `vs` after work `n`, leaving the memory of
the machine as `M'`: the compiled function, called with values that represent the arguments in a state
that represents the memory `M`, returns values that represent `vs`, in a state that represents `M'`.
Allocated memory that belongs to nobody, or to the operands of the calling functions (`fr`), does not
change, and at most `U * (n + 1)` bytes are taken.

The answers of the native functions about the transaction, the block and accounts are what the host says.

Missing: vectors, enums, signers, other native functions, generic functions; recursive functions; executions with one of the
operations the code does not translate faithfully (`Excluded`; false, see `C66_false_cast`,
`C66_false_mul` and `C86_false`); that the control-flow trees `flows` computed by the external crate
`relooper` fit the code is checked, not proved. -/
theorem C66_partial (hE : E.Valid) (hU : 400 ≤ U)
    (hF : ∀ F ∈ P.funs, 64 * F.args.length ≤ U ∧ tupleSize F.rets ≤ U)
    (hfit : ∀ z ∈ P.funs.zip flows, z.2.fits z.1 = true) (hc : compileProg E P flows = some tbl)
    {f : Nat} {F : MFun} (hf : P.funs[f]? = some F) :
    ∃ fn, tbl[f]? = some (F, fn) ∧
      ∀ {σ : Store} {args : List Opd} {ws : List Nat} {n : Nat} {vs : List Opd} {M M' : Mem} {ρ : List Nat} {m fr : Nat → Nat},
        World σ ρ M (Own ρ M m fr) → args.map (·.ty) = F.args → ArgsRep σ (Frozen σ (Own ρ M m fr)) ρ args ws m →
        Runs P (fun F c => ¬ Excluded F c) F (F.start args M) n (.ret vs M') → Room σ (U * (n + 1)) → Truthful P σ.host →
        fn.Calls ws σ (fun r σ' => ∃ ρ' m', ρ <+: ρ' ∧ World σ' ρ' M' (Own ρ' M' m' fr) ∧
          Grows fr σ (Own ρ M m fr) σ' (Own ρ' M' m' fr) ∧ σ'.nextFree ≤ σ.nextFree + U * (n + 1) ∧
          Results σ' (Frozen σ' (Own ρ' M' m' fr)) ρ' vs r m') := by
  obtain ⟨h1, h2⟩ := compileProg_ok (A := fun F c => ¬ Excluded F c) hE hU hF (fun _ _ h => h) hfit hc
  rw [h1, List.getElem?_map] at hf
  obtain ⟨⟨G, fn⟩, h3, h4⟩ := Option.map_eq_some_iff.mp hf
  cases h4
  exact ⟨fn, h3, fun hW ha hw hr hroom ht => h2 f _ fn h3 _ _ _ _ _ _ _ _ _ hW ha hw hr hroom ht⟩

/-- **C67 (partial)** A call of a Move function in which, however deep in the calls, the program aborts
or an operation fails: the compiled function ends with the error pointer set to the message of the
abort (or of the failed operation), and memory in use is otherwise as before, apart from the memory of
the arguments and of what they refer to.  A division by zero traps.  Missing: as for C66. -/
theorem C67_partial (hE : E.Valid) (hU : 400 ≤ U)
    (hF : ∀ F ∈ P.funs, 64 * F.args.length ≤ U ∧ tupleSize F.rets ≤ U)
    (hfit : ∀ z ∈ P.funs.zip flows, z.2.fits z.1 = true) (hc : compileProg E P flows = some tbl)
    {f : Nat} {F : MFun} (hf : P.funs[f]? = some F) :
    ∃ fn, tbl[f]? = some (F, fn) ∧
      ∀ {σ : Store} {args : List Opd} {ws : List Nat} {n : Nat} {h : Halt} {M : Mem} {ρ : List Nat} {m fr : Nat → Nat},
        World σ ρ M (Own ρ M m fr) → args.map (·.ty) = F.args → ArgsRep σ (Frozen σ (Own ρ M m fr)) ρ args ws m →
        Runs P (fun F c => ¬ Excluded F c) F (F.start args M) n h → Room σ (U * (n + 1)) → Truthful P σ.host →
        (∀ c, h = .abort c → fn.Calls ws σ (fun _ σ' =>
          Failed E P.consts (fun x => Own ρ M m fr x ≠ 0 ∧ fr x = 0) σ (.abort c) σ')) ∧
        (∀ o, h = .arith o → fn.Calls ws σ (fun _ σ' =>
          Failed E P.consts (fun x => Own ρ M m fr x ≠ 0 ∧ fr x = 0) σ (.arith o) σ')) ∧
        (h = .divZero → fn.Traps ws σ) := by
  obtain ⟨h1, h2⟩ := compileProg_ok (A := fun F c => ¬ Excluded F c) hE hU hF (fun _ _ h => h) hfit hc
  rw [h1, List.getElem?_map] at hf
  obtain ⟨⟨G, fn⟩, h3, h4⟩ := Option.map_eq_some_iff.mp hf
  cases h4
  refine ⟨fn, h3, fun hW ha hw hr hroom ht => ?_⟩
  have := h2 f _ fn h3 _ _ _ _ _ _ _ _ _ hW ha hw hr hroom ht
  refine ⟨?_, ?_, ?_⟩
  · rintro c rfl; exact this
  · rintro c rfl; exact this
  · rintro rfl; exact this

/-- **C86 (partial)** What a function assigns through its mutable references is seen by the caller: take
any place `p` the caller knows the address `q` of (for instance what a reference passed to the function
refers to, or one of its fields).  If the Move function leaves the value `d` there, then after the call
of the compiled function `d` is what memory holds at `q`.

Missing: as for C66; in particular, assignments of a whole struct through a reference, of which this is
false (`C86_false`). -/
theorem C86_partial (hE : E.Valid) (hU : 400 ≤ U)
    (hF : ∀ F ∈ P.funs, 64 * F.args.length ≤ U ∧ tupleSize F.rets ≤ U)
    (hfit : ∀ z ∈ P.funs.zip flows, z.2.fits z.1 = true) (hc : compileProg E P flows = some tbl)
    {f : Nat} {F : MFun} (hf : P.funs[f]? = some F) :
    ∃ fn, tbl[f]? = some (F, fn) ∧
      ∀ {σ : Store} {args : List Opd} {ws : List Nat} {n : Nat} {vs : List Opd} {M M' : Mem} {ρ : List Nat} {m fr : Nat → Nat},
        World σ ρ M (Own ρ M m fr) → args.map (·.ty) = F.args → ArgsRep σ (Frozen σ (Own ρ M m fr)) ρ args ws m →
        Runs P (fun F c => ¬ Excluded F c) F (F.start args M) n (.ret vs M') → Room σ (U * (n + 1)) → Truthful P σ.host →
        fn.Calls ws σ (fun _ σ' => ∃ Fz, (∀ x, Fz x → x < σ'.nextFree) ∧
          ∀ p q d, PlaceAt σ (Frozen σ (Own ρ M m fr)) ρ p q → p.read M' = some d → ∃ m', Holds σ' Fz d q m') := by
  obtain ⟨fn, h1, h2⟩ := C66_partial hE hU hF hfit hc hf
  refine ⟨fn, h1, fun {σ args ws n vs M M' ρ m fr} hW ha hw hr hroom ht => (h2 hW ha hw hr hroom ht).mono ?_⟩
  rintro r σ' ⟨ρ', m', hp, hW', hG, -, -⟩
  refine ⟨Frozen σ' (Own ρ' M' m' fr), frozen_lt, fun p q d hq hd => ?_⟩
  have := hq.change hG.alters.nextFree (fun a ha => (hG.frozen ha).1) (fun a ha => (hG.frozen ha).2) hp
  exact this.holds hW'.cells hd

/-- A program without answers. -/
theorem truthful_mute {h : Host} (hP : P.answer = mute := by rfl) : Truthful P h := by
  intro q a n hq
  rw [hP] at hq
  cases hq

/-- No calling function, and no arguments in memory. -/
theorem world_nil {σ : Store} (hσ : Heap σ) : World σ [] [] (Own [] [] (fun _ => 0) (fun _ => 0)) :=
  ⟨hσ, rfl, fun l v q h => by simp at h, fun x => by simp [Own, live], fun x h => by simp [Own, live] at h⟩

theorem args_one {σ : Store} {Fz : Nat → Prop} {ρ : List Nat} {v : MVal} (hv : v.n < 2 ^ v.ty.bits) (ht : v.ty = .int (.reg .u64)) :
    ArgsRep σ Fz ρ [.num v] [v.n] (fun _ => 0) := by
  obtain ⟨t, n⟩ := v
  dsimp only at ht
  subst ht
  exact ⟨fun _ => 0, fun _ => 0, ⟨⟨hv, rfl⟩, fun _ => rfl⟩, fun _ => rfl, fun _ => rfl⟩

/-- A code without the tag of clever errors reverts with its decimal digits. -/
theorem abortText_plain {consts : List Const} {c : Nat} {text : List UInt8} (h : AbortText consts c text)
    (hc : c / 2 ^ 48 ≠ 0x8000) : text = Abi.text (toString c) := h.resolve_right fun h => hc h.1

/-! ### Executions, by evaluation -/

instance (F : MFun) (c : Cfg) : Decidable (Excluded F c) := by
  unfold Excluded
  split <;> infer_instance

/-- Runs the Move machine; the work and the end. -/
def runMove (P : Prog) (A : MFun → Cfg → Prop) [∀ F c, Decidable (A F c)] : Nat → MFun → Cfg → Option (Nat × Halt)
  | 0, _, _ => none
  | k + 1, F, c =>
    if A F c then
      match step P F c with
      | some (.next c') => (runMove P A k F c').map (fun r => (r.1 + work F c, r.2))
      | some (.halt h) => some (work F c, h)
      | some (.call f args c') =>
        match P.funs[f]? with
        | some G =>
          match runMove P A k G (G.start args c.mem) with
          | some (m, .ret vs M) =>
            (runMove P A k F { c' with stack := vs.reverse ++ c'.stack, mem := M }).map (fun r => (r.1 + m + 1, r.2))
          | some (m, h) => some (m + 1, h)
          | none => none
        | none => none
      | none => none
    else none

theorem runMove_sound {P : Prog} {A : MFun → Cfg → Prop} [∀ F c, Decidable (A F c)] : ∀ {k F c n h},
    runMove P A k F c = some (n, h) → Runs P A F c n h
  | 0, _, _, _, _, h => by cases h
  | k + 1, F, c, n, h, hr => by
    simp only [runMove] at hr
    split_ifs at hr with hA
    split at hr
    · rename_i c' hs
      obtain ⟨⟨m, h'⟩, h1, h2⟩ := Option.map_eq_some_iff.mp hr
      cases h2
      exact .next hA hs (runMove_sound h1)
    · rename_i h' hs
      cases hr
      exact .halt hA hs
    · rename_i f args c' hs
      split at hr
      · rename_i G hG
        split at hr
        · rename_i m vs M hm
          obtain ⟨⟨m', h'⟩, h1, h2⟩ := Option.map_eq_some_iff.mp hr
          cases h2
          exact .call hA hs hG (runMove_sound hm) (runMove_sound h1)
        · rename_i m h' hne hm
          cases hr
          exact .callHalt hA hs hG (runMove_sound hm) (fun vs M hv => hne vs M hv)
        · cases hr
      · cases hr
    · cases hr

theorem runMove_ret {P : Prog} {A : MFun → Cfg → Prop} [∀ F c, Decidable (A F c)] {F : MFun} {c : Cfg} {n : Nat}
    {vs : List Opd} (k : Nat) (h : (match runMove P A k F c with
      | some (a, .ret b _) => decide (a = n ∧ b = vs)
      | _ => false) = true) : ∃ M, Runs P A F c n (.ret vs M) := by
  split at h
  · rename_i a b M hr
    obtain ⟨rfl, rfl⟩ := of_decide_eq_true h
    exact ⟨M, runMove_sound hr⟩
  · cases h

/-! ### A program with a loop and calls

```move
fun mul(x: u64, y: u64): u64 { x * y }
fun fact(n: u64): u64 { let mut r = 1; while (n > 0) { r = mul(r, n); n = n - 1 }; r }
fun check(n: u64) { if (fact(n) > 100) abort 7 }
``` -/

def u64 : IntTy := .reg .u64
def tU64 : Ty := .sc (.int u64)
def nU64 (n : Nat) : Opd := .num ⟨.int u64, n⟩

def mulFun : MFun := ⟨[tU64, tU64], [tU64], [], [.copyLoc 0, .copyLoc 1, .bin (.arith .mul), .ret]⟩

def factFun : MFun := ⟨[tU64], [tU64], [tU64],
  [.ldInt u64 1, .stLoc 1,
   .copyLoc 0, .ldInt u64 0, .bin (.cmp .gt), .brFalse 15,
   .copyLoc 1, .copyLoc 0, .call 0, .stLoc 1, .copyLoc 0, .ldInt u64 1, .bin (.arith .sub), .stLoc 0, .branch 2,
   .moveLoc 1, .ret]⟩

def checkFun : MFun := ⟨[tU64], [], [],
  [.moveLoc 0, .call 1, .ldInt u64 100, .bin (.cmp .gt), .brFalse 7, .ldInt u64 7, .abort, .ret]⟩

def factProg : Prog := ⟨[], [mulFun, factFun, checkFun], mute⟩

def factFlow : Flow := .simple 0 2 [] .empty
  (.loop 1 (.simple 2 4 [(15, .loopBreak 1)] (.simple 6 9 [(2, .loopContinue 1)] .empty .empty) .empty)
    (.simple 15 2 [] .empty .empty))

def factFlows : List Flow :=
  [.simple 0 4 [] .empty .empty, factFlow,
   .simple 0 5 [] (.ifElse (.simple 5 2 [] .empty .empty) (.simple 7 1 [] .empty .empty)) .empty]

theorem factFlows_fit : ∀ z ∈ factProg.funs.zip factFlows, z.2.fits z.1 = true := by decide +kernel

theorem fact_compiles : (compileProg E0 factProg factFlows).isSome = true := by decide +kernel

theorem fact_unit : ∀ F ∈ factProg.funs, 64 * F.args.length ≤ 400 ∧ tupleSize F.rets ≤ 400 := by decide

/-- `fact(5)` returns 120. -/
theorem fact_runs : ∃ M, Runs factProg (fun F c => ¬ Excluded F c) factFun (factFun.start [nU64 5] []) 124
    (.ret [nU64 120] M) := runMove_ret 200 (by decide +kernel)

/-- Results that represent one number of type u64. -/
theorem results_one {σ : Store} {Fz : Nat → Prop} {ρ : List Nat} {n : Nat} {r : List Nat} {m : Nat → Nat}
    (h : Results σ Fz ρ [nU64 n] r m) : ∃ p, r = [p] ∧ leNat σ.mem p 8 = n := by
  rcases h with ⟨h, -⟩ | ⟨-, p, ws, h, h1, h2⟩
  · cases h
  · match ws, h1, h2 with
    | [w], ⟨⟨_, h3⟩, _⟩, ⟨_, _, ⟨⟨_, h4⟩, _⟩, _, _⟩ => exact ⟨p, h, h3.trans h4⟩

example : ∃ fn, (∃ tbl, compileProg E0 factProg factFlows = some tbl ∧ tbl[1]? = some (factFun, fn)) ∧
    fn.Calls [5] store0 (fun r σ' => ∃ p, r = [p] ∧ leNat σ'.mem p 8 = 120) := by
  obtain ⟨tbl, hc⟩ := Option.isSome_iff_exists.mp fact_compiles
  obtain ⟨fn, h1, h2⟩ := C66_partial E0_valid (Nat.le_refl 400) fact_unit factFlows_fit hc (f := 1) rfl
  obtain ⟨M, hM⟩ := fact_runs
  refine ⟨fn, ⟨tbl, hc, h1⟩, ?_⟩
  refine (h2 (world_nil store0_heap) rfl (args_one (by decide) rfl) hM ⟨by decide, by decide⟩ truthful_mute).mono ?_
  rintro r σ' ⟨ρ', m', -, -, -, -, h⟩
  exact results_one h

/-- `check(5)` aborts with code 7. -/
theorem check_runs : Runs factProg (fun F c => ¬ Excluded F c) checkFun (checkFun.start [nU64 5] []) 131
    (.abort 7) := runMove_sound (k := 200) (by decide +kernel)

example : ∃ fn, (∃ tbl, compileProg E0 factProg factFlows = some tbl ∧ tbl[2]? = some (checkFun, fn)) ∧
    fn.Calls [5] store0 (fun _ σ' => ∃ p, errWord σ' = p ∧ 0 < p) := by
  obtain ⟨tbl, hc⟩ := Option.isSome_iff_exists.mp fact_compiles
  obtain ⟨fn, h1, h2⟩ := C67_partial E0_valid (Nat.le_refl 400) fact_unit factFlows_fit hc (f := 2) rfl
  refine ⟨fn, ⟨tbl, hc, h1⟩, ?_⟩
  refine ((h2 (world_nil store0_heap) rfl (args_one (by decide) rfl) check_runs ⟨by decide, by decide⟩ truthful_mute).1 7 rfl).mono ?_
  intro r σ' hf
  exact ⟨_, rfl, Nat.pos_of_ne_zero (hf.err E0_valid store0_heap (fun x h => absurd rfl h.1)).2⟩

/-! ### A program with a struct and references

```move
struct P { x: u64, y: u64 }
fun inc(p: &mut P) { let r = &mut p.x; *r = *r + 1 }
fun main(): u64 { let mut p = P { x: 1, y: 2 }; inc(&mut p); p.x }
``` -/

def tP : Ty := .struct 0 [tU64, tU64]

def incFun : MFun := ⟨[.ref true tP], [], [.ref true tU64],
  [.moveLoc 0, .borrowField true 0 [tU64, tU64] 0, .stLoc 1, .copyLoc 1, .readRef, .ldInt u64 1, .bin (.arith .add),
   .moveLoc 1, .writeRef, .ret]⟩

def mainFun : MFun := ⟨[], [tU64], [tP],
  [.ldInt u64 1, .ldInt u64 2, .pack 0 [tU64, tU64], .stLoc 0, .borrowLoc true 0, .call 0,
   .borrowLoc false 0, .borrowField false 0 [tU64, tU64] 0, .readRef, .ret]⟩

def lineFlow (n : Nat) : Flow := .simple 0 n [] .empty .empty

def incProg : Prog := ⟨[], [incFun, mainFun], mute⟩
def incFlows : List Flow := [lineFlow 10, lineFlow 10]

theorem incFlows_fit : ∀ z ∈ incProg.funs.zip incFlows, z.2.fits z.1 = true := by decide +kernel

theorem inc_compiles : (compileProg E0 incProg incFlows).isSome = true := by decide +kernel

theorem inc_unit : ∀ F ∈ incProg.funs, 64 * F.args.length ≤ 400 ∧ tupleSize F.rets ≤ 400 := by decide

/-- `main()` returns 2. -/
theorem main_runs : ∃ M, Runs incProg (fun F c => ¬ Excluded F c) mainFun (mainFun.start [] []) 24
    (.ret [nU64 2] M) := runMove_ret 200 (by decide +kernel)

example : ∃ fn, (∃ tbl, compileProg E0 incProg incFlows = some tbl ∧ tbl[1]? = some (mainFun, fn)) ∧
    fn.Calls [] store0 (fun r σ' => ∃ p, r = [p] ∧ leNat σ'.mem p 8 = 2) := by
  obtain ⟨tbl, hc⟩ := Option.isSome_iff_exists.mp inc_compiles
  obtain ⟨fn, h1, h2⟩ := C66_partial E0_valid (Nat.le_refl 400) inc_unit incFlows_fit hc (f := 1) rfl
  obtain ⟨M, hM⟩ := main_runs
  refine ⟨fn, ⟨tbl, hc, h1⟩, ?_⟩
  refine (h2 (ws := []) (world_nil store0_heap) rfl (show ArgsRep _ _ _ [] [] _ from fun _ => rfl) hM ⟨by decide, by decide⟩ truthful_mute).mono ?_
  rintro r σ' ⟨ρ', m', -, -, -, -, h⟩
  exact results_one h

/-- A struct `P { x: 1, y: 2 }` at 500, its fields at 540 and 548. -/
def storeP : Store := store2 (540 + 2 ^ 32 * 548) (1 + 2 ^ 64 * 2)

def memP (x : Nat) : Mem := [some ⟨.int u64, x⟩, some ⟨.int u64, 2⟩]

theorem ownP (x : Nat) : Own [540, 548] (memP 1) (fun _ => 0) (fun _ => 0) x = if 540 ≤ x ∧ x < 556 then 1 else 0 := by
  have h : (STy.int u64).bytes = 8 := rfl
  simp only [Own, live, memP, ind, h]
  split_ifs <;> omega

theorem worldP : World storeP [540, 548] (memP 1) (Own [540, 548] (memP 1) (fun _ => 0) (fun _ => 0)) := by
  refine ⟨store2_heap _ _, rfl, ?_, ?_, ?_⟩
  · intro l v q hv hq
    match l with
    | 0 => cases hv; cases hq; exact ⟨by decide, by decide, (by decide +kernel : leNat storeP.mem _ 8 = _)⟩
    | 1 => cases hv; cases hq; exact ⟨by decide, by decide, (by decide +kernel : leNat storeP.mem _ 8 = _)⟩
    | l + 2 => simp [memP] at hv
  · intro x
    rw [ownP]
    split_ifs <;> omega
  · intro x hx
    rw [ownP] at hx
    have : storeP.nextFree = 1000 := rfl
    have : reserved ≤ 540 := by decide
    split_ifs at hx <;> omega

theorem placeP : PlaceAt storeP (Frozen storeP (Own [540, 548] (memP 1) (fun _ => 0) (fun _ => 0))) [540, 548]
    (.node 0 [.leaf 0, .leaf 1]) 500 := by
  have h : ∀ a, 500 ≤ a → a < 508 → Frozen storeP (Own [540, 548] (memP 1) (fun _ => 0) (fun _ => 0)) a :=
    fun a h1 h2 => ⟨by have : storeP.nextFree = 1000 := rfl; omega, by rw [ownP, if_neg (by omega)]⟩
  refine ⟨by decide, ⟨fun a h1 h2 => h a (by omega) (by omega), ?_⟩, ⟨fun a h1 h2 => h a (by omega) (by omega), ?_⟩, trivial⟩
  · rw [show leNat storeP.mem 500 4 = 540 by decide +kernel]; rfl
  · rw [show leNat storeP.mem (500 + 4) 4 = 548 by decide +kernel]; rfl

/-- `inc` of this struct. -/
theorem inc_runs : Runs incProg (fun F c => ¬ Excluded F c) incFun
    (incFun.start [.ref ⟨true, tP, .node 0 [.leaf 0, .leaf 1]⟩] (memP 1)) 11 (.ret [] (memP 2)) :=
  runMove_sound (k := 200) (by decide +kernel)

/-- The caller of `inc` finds `P { x: 2, y: 2 }` where the struct was. -/
example : ∃ fn, (∃ tbl, compileProg E0 incProg incFlows = some tbl ∧ tbl[0]? = some (incFun, fn)) ∧
    fn.Calls [500] storeP (fun _ σ' => leNat σ'.mem (leNat σ'.mem 500 4) 8 = 2) := by
  obtain ⟨tbl, hc⟩ := Option.isSome_iff_exists.mp inc_compiles
  obtain ⟨fn, h1, h2⟩ := C86_partial E0_valid (Nat.le_refl 400) inc_unit incFlows_fit hc (f := 0) rfl
  refine ⟨fn, ⟨tbl, hc, h1⟩, ?_⟩
  have ha : ArgsRep storeP (Frozen storeP (Own [540, 548] (memP 1) (fun _ => 0) (fun _ => 0))) [540, 548]
      [.ref ⟨true, tP, .node 0 [.leaf 0, .leaf 1]⟩] [500] (fun _ => 0) :=
    ⟨fun _ => 0, fun _ => 0, ⟨⟨by decide, placeP⟩, fun _ => rfl⟩, fun _ => rfl, fun _ => rfl⟩
  refine (h2 worldP rfl ha inc_runs ⟨by decide, by decide⟩ truthful_mute).mono ?_
  rintro r σ' ⟨Fz, -, h⟩
  obtain ⟨m, -, _, _, ⟨-, h3, -⟩, -⟩ := h _ _ (.struct 0 [.num ⟨.int u64, 2⟩, .num ⟨.int u64, 2⟩]) placeP rfl
  exact h3.2.2

/-! #### Assignment of a struct through a reference

```move
fun set(p: &mut P) { *p = P { x: 7, y: 8 } }
fun main(): u64 { let mut p = P { x: 1, y: 2 }; set(&mut p); p.x }
``` -/

def setFun : MFun := ⟨[.ref true tP], [], [],
  [.ldInt u64 7, .ldInt u64 8, .pack 0 [tU64, tU64], .moveLoc 0, .writeRef, .ret]⟩

def setProg : Prog := ⟨[], [setFun, mainFun], mute⟩

/-- **C86 is false** of assignments of a whole struct: `main` returns 7 in Move, the compiled function
returns 1.  The callee gets a copy of the pointer to the struct, and the assignment changes that copy. -/
theorem C86_false : (∀ z ∈ setProg.funs.zip [lineFlow 6, lineFlow 10], z.2.fits z.1 = true) ∧
    (∃ M, Runs setProg (fun _ _ => True) mainFun (mainFun.start [] []) 21 (.ret [nU64 7] M)) ∧
    ∃ fn fn', compileProg E0 setProg [lineFlow 6, lineFlow 10] = some [(setFun, fn), (mainFun, fn')] ∧
      fn'.Calls [] store0 (fun r σ' => r = [1056] ∧ (leNat σ'.mem 1056 8, errWord σ') = (1, 0)) :=
  ⟨by decide +kernel, runMove_ret 200 (by decide +kernel), _, _, rfl,
    calls_of_obs 2000 _ [1056] _ rfl (by decide +kernel)⟩

/-! ### What is not translated faithfully -/

def castFun : MFun := ⟨[tU64], [.sc (.int (.reg .u8))], [], [.moveLoc 0, .cast (.reg .u8), .ret]⟩
def castProg : Prog := ⟨[], [castFun], mute⟩

/-- **C66 is false** of casts from u64 to u8: `fun f(x: u64): u8 { x as u8 }` fails in Move for
`2^32 + 5`, the compiled function returns 5. -/
theorem C66_false_cast : (lineFlow 3).fits castFun = true ∧
    Runs castProg (fun _ _ => True) castFun (castFun.start [nU64 (2 ^ 32 + 5)] []) 2 (.arith (.cast u64 (.reg .u8))) ∧
    ∃ fn, compileProg E0 castProg [lineFlow 3] = some [(castFun, fn)] ∧
      fn.Calls [2 ^ 32 + 5] store0 (fun r σ' => r = [1012] ∧ (leNat σ'.mem 1012 1, errWord σ') = (5, 0)) :=
  ⟨by decide +kernel, runMove_sound (k := 10) (by decide +kernel), _, rfl,
    calls_of_obs 100 _ [1012] _ rfl (by decide +kernel)⟩

def mulFun128 : MFun := ⟨[.sc (.int .u128), .sc (.int .u128)], [.sc (.int .u128)], [], [.moveLoc 0, .moveLoc 1, .bin (.arith .mul), .ret]⟩
def mulProg : Prog := ⟨[], [mulFun128], mute⟩

/-- **C66 is false** of multiplications of u128: `2^64 * 2^64` fails in Move, the compiled function
returns 0. -/
theorem C66_false_mul : (lineFlow 4).fits mulFun128 = true ∧
    Runs mulProg (fun _ _ => True) mulFun128 (mulFun128.start [.num ⟨.int .u128, 2 ^ 64⟩, .num ⟨.int .u128, 2 ^ 64⟩] []) 3
      (.arith (.mul .u128)) ∧
    ∃ fn, compileProg E0 mulProg [lineFlow 4] = some [(mulFun128, fn)] ∧
      fn.Calls [500, 540] (store2 (2 ^ 64) (2 ^ 64)) (fun r σ' => r = [1024] ∧
        (leNat σ'.mem 1024 4, leNat σ'.mem 1008 16, errWord σ') = (1008, 0, 0)) :=
  ⟨by decide +kernel, runMove_sound (k := 10) (by decide +kernel), _, rfl,
    calls_of_obs 2000 _ [1024] _ rfl (by decide +kernel)⟩

/-! ### The order of the arms

For `BrTrue` and `BrFalse` with both arms below the block the same code is emitted: the first arm runs
if the condition holds.  For `BrTrue t` the first arm therefore has to be the one at `t`.  The arms are
taken in the order in which the relooper lists them (`handled[0]`, `handled[1]`, flow.rs 133-134). -/

def pickFun : MFun := ⟨[.sc .bool], [tU64], [], [.moveLoc 0, .brTrue 4, .ldInt u64 2, .ret, .ldInt u64 1, .ret]⟩
def pickProg : Prog := ⟨[], [pickFun], mute⟩
def pickFlow (a b : Flow) : Flow := .simple 0 2 [] (.ifElse a b) .empty

/-- With the arms in the order of their labels the compiled function returns 2 for `true`, where the
Move function returns 1; such a control-flow tree does not fit the code. -/
theorem C66_arms :
    (pickFlow (.simple 2 2 [] .empty .empty) (.simple 4 2 [] .empty .empty)).fits pickFun = false ∧
    (pickFlow (.simple 4 2 [] .empty .empty) (.simple 2 2 [] .empty .empty)).fits pickFun = true ∧
    Runs pickProg (fun _ _ => True) pickFun (pickFun.start [.num ⟨.bool, 1⟩] []) 4 (.ret [nU64 1] [none]) ∧
    ∃ fn, compileProg E0 pickProg [pickFlow (.simple 2 2 [] .empty .empty) (.simple 4 2 [] .empty .empty)] =
        some [(pickFun, fn)] ∧
      fn.Calls [1] store0 (fun r σ' => r = [1005] ∧ leNat σ'.mem 1005 8 = 2) :=
  ⟨by decide +kernel, by decide +kernel, runMove_sound (k := 10) (by decide +kernel), _, rfl,
    calls_of_obs 100 _ [1005] _ rfl (by decide +kernel)⟩

/-! An `if` with both arms continuing behind it: `let m = if (a < b) b else a; m + 1`. -/

def maxFun : MFun := ⟨[tU64, tU64], [tU64], [tU64],
  [.copyLoc 0, .copyLoc 1, .bin (.cmp .lt), .brFalse 7, .copyLoc 1, .stLoc 2, .branch 9,
   .copyLoc 0, .stLoc 2, .moveLoc 2, .ldInt u64 1, .bin (.arith .add), .ret]⟩
def maxFlow : Flow := .simple 0 4 [] (.ifElse (.simple 4 3 [(9, .merged)] .empty .empty) (.simple 7 2 [(9, .merged)] .empty .empty))
  (.simple 9 4 [] .empty .empty)

example : maxFlow.fits maxFun = true ∧ (compileProg E0 ⟨[], [maxFun], mute⟩ [maxFlow]).isSome = true := by decide +kernel

end Props
