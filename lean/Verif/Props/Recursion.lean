import Verif.Proof.Unroll
import Verif.Props.Compile

/-!
# C66, C67, C86 for recursive functions
-/

namespace Props
open Wasm Rt Move

variable {E : ErrPtrs} {P : Prog} {U k : Nat} {flows : List Flow} {tbl : List (MFun × Fn)}

theorem excluded_copy : ∀ (F : MFun) (c : Cfg) (o : Nat), ¬ Excluded F c → ¬ Excluded (F.shift o) c :=
  fun _ _ _ h h' => h (excluded_shift.mp h')

theorem copy_get {f : Nat} {F : MFun} (hf : P.funs[f]? = some F) :
    (P.unroll (k + 1)).funs[(k + 1) * P.funs.length + f]? = some (F.shift (k * P.funs.length)) :=
  copies_get (Nat.lt_succ_self k) hf

/-- **C66 for programs with recursion (partial)** `C66_partial` without the restriction that functions only call functions
before them: the functions of `P` may call each other in any way.  `fn` is the compiled function `f` with calls unrolled
`k + 1` times, and the work of the Move function is at most `k + 1`, so that the unrolling is never noticed.
Missing: as for C66, other than recursion. -/
theorem C66_recursion_partial (hE : E.Valid) (hU : 400 ≤ U)
    (hF : ∀ F ∈ P.funs, 64 * F.args.length ≤ U ∧ tupleSize F.rets ≤ U) (hl : flows.length = P.funs.length)
    (hfit : ∀ z ∈ P.funs.zip flows, z.2.fits z.1 = true)
    (hc : compileProg E (P.unroll (k + 1)) (copyFlows P flows (k + 1)) = some tbl)
    {f : Nat} {F : MFun} (hf : P.funs[f]? = some F) :
    ∃ fn, tbl[(k + 1) * P.funs.length + f]? = some (F.shift (k * P.funs.length), fn) ∧
      ∀ {σ : Store} {args : List Opd} {ws : List Nat} {n : Nat} {vs : List Opd} {M M' : Mem} {ρ : List Nat} {m fr : Nat → Nat},
        World σ ρ M (Own ρ M m fr) → args.map (·.ty) = F.args → ArgsRep σ (Frozen σ (Own ρ M m fr)) ρ args ws m →
        Runs P (fun F c => ¬ Excluded F c) F (F.start args M) n (.ret vs M') → n ≤ k + 1 → Room σ (U * (n + 1)) → Truthful P σ.host →
        fn.Calls ws σ (fun r σ' => ∃ ρ' m', ρ <+: ρ' ∧ World σ' ρ' M' (Own ρ' M' m' fr) ∧
          Grows fr σ (Own ρ M m fr) σ' (Own ρ' M' m' fr) ∧ σ'.nextFree ≤ σ.nextFree + U * (n + 1) ∧
          Results σ' (Frozen σ' (Own ρ' M' m' fr)) ρ' vs r m') := by
  obtain ⟨fn, h1, h2⟩ := C66_partial hE hU (unit_copies hF _) (fits_copies hl hfit _) hc (copy_get hf)
  exact ⟨fn, h1, fun hW ha hw hr hn hroom ht => h2 hW ha hw (runs_unroll excluded_copy hr (Nat.lt_succ_self k) hn) hroom ht⟩

/-- **C67 for programs with recursion (partial)** -/
theorem C67_recursion_partial (hE : E.Valid) (hU : 400 ≤ U)
    (hF : ∀ F ∈ P.funs, 64 * F.args.length ≤ U ∧ tupleSize F.rets ≤ U) (hl : flows.length = P.funs.length)
    (hfit : ∀ z ∈ P.funs.zip flows, z.2.fits z.1 = true)
    (hc : compileProg E (P.unroll (k + 1)) (copyFlows P flows (k + 1)) = some tbl)
    {f : Nat} {F : MFun} (hf : P.funs[f]? = some F) :
    ∃ fn, tbl[(k + 1) * P.funs.length + f]? = some (F.shift (k * P.funs.length), fn) ∧
      ∀ {σ : Store} {args : List Opd} {ws : List Nat} {n : Nat} {h : Halt} {M : Mem} {ρ : List Nat} {m fr : Nat → Nat},
        World σ ρ M (Own ρ M m fr) → args.map (·.ty) = F.args → ArgsRep σ (Frozen σ (Own ρ M m fr)) ρ args ws m →
        Runs P (fun F c => ¬ Excluded F c) F (F.start args M) n h → n ≤ k + 1 → Room σ (U * (n + 1)) → Truthful P σ.host →
        (∀ c, h = .abort c → fn.Calls ws σ (fun _ σ' =>
          Failed E P.consts (fun x => Own ρ M m fr x ≠ 0 ∧ fr x = 0) σ (.abort c) σ')) ∧
        (∀ o, h = .arith o → fn.Calls ws σ (fun _ σ' =>
          Failed E P.consts (fun x => Own ρ M m fr x ≠ 0 ∧ fr x = 0) σ (.arith o) σ')) ∧
        (h = .divZero → fn.Traps ws σ) := by
  obtain ⟨fn, h1, h2⟩ := C67_partial hE hU (unit_copies hF _) (fits_copies hl hfit _) hc (copy_get hf)
  exact ⟨fn, h1, fun hW ha hw hr hn hroom ht => h2 hW ha hw (runs_unroll excluded_copy hr (Nat.lt_succ_self k) hn) hroom ht⟩

/-- **C86 for programs with recursion (partial)** -/
theorem C86_recursion_partial (hE : E.Valid) (hU : 400 ≤ U)
    (hF : ∀ F ∈ P.funs, 64 * F.args.length ≤ U ∧ tupleSize F.rets ≤ U) (hl : flows.length = P.funs.length)
    (hfit : ∀ z ∈ P.funs.zip flows, z.2.fits z.1 = true)
    (hc : compileProg E (P.unroll (k + 1)) (copyFlows P flows (k + 1)) = some tbl)
    {f : Nat} {F : MFun} (hf : P.funs[f]? = some F) :
    ∃ fn, tbl[(k + 1) * P.funs.length + f]? = some (F.shift (k * P.funs.length), fn) ∧
      ∀ {σ : Store} {args : List Opd} {ws : List Nat} {n : Nat} {vs : List Opd} {M M' : Mem} {ρ : List Nat} {m fr : Nat → Nat},
        World σ ρ M (Own ρ M m fr) → args.map (·.ty) = F.args → ArgsRep σ (Frozen σ (Own ρ M m fr)) ρ args ws m →
        Runs P (fun F c => ¬ Excluded F c) F (F.start args M) n (.ret vs M') → n ≤ k + 1 → Room σ (U * (n + 1)) → Truthful P σ.host →
        fn.Calls ws σ (fun _ σ' => ∃ Fz, (∀ x, Fz x → x < σ'.nextFree) ∧
          ∀ p q d, PlaceAt σ (Frozen σ (Own ρ M m fr)) ρ p q → p.read M' = some d → ∃ m', Holds σ' Fz d q m') := by
  obtain ⟨fn, h1, h2⟩ := C86_partial hE hU (unit_copies hF _) (fits_copies hl hfit _) hc (copy_get hf)
  exact ⟨fn, h1, fun hW ha hw hr hn hroom ht => h2 hW ha hw (runs_unroll excluded_copy hr (Nat.lt_succ_self k) hn) hroom ht⟩

/-! ### Two functions that call each other

```move
fun even(n: u64): bool { if (n == 0) true else odd(n - 1) }
fun odd(n: u64): bool { if (n == 0) false else even(n - 1) }
``` -/

def parityFun (zero : Bc) (other : Nat) : MFun := ⟨[tU64], [.sc .bool], [],
  [.copyLoc 0, .ldInt u64 0, .bin .eq, .brFalse 6, zero, .ret, .copyLoc 0, .ldInt u64 1, .bin (.arith .sub), .call other, .ret]⟩

def parityProg : Prog := ⟨[], [parityFun .ldTrue 1, parityFun .ldFalse 0], mute⟩

def parityFlow : Flow := .simple 0 4 [] (.ifElse (.simple 4 2 [] .empty .empty) (.simple 6 5 [] .empty .empty)) .empty

def parityFlows : List Flow := [parityFlow, parityFlow]

theorem parity_fit : ∀ z ∈ parityProg.funs.zip parityFlows, z.2.fits z.1 = true := by decide +kernel

theorem parity_compiles : (compileProg E0 (parityProg.unroll 50) (copyFlows parityProg parityFlows 50)).isSome = true := by
  decide +kernel

theorem parity_unit : ∀ F ∈ parityProg.funs, 64 * F.args.length ≤ 400 ∧ tupleSize F.rets ≤ 400 := by decide

/-- `even(2)` returns true, by way of `odd(1)` and `even(0)`. -/
theorem even_runs : ∃ M, Runs parityProg (fun F c => ¬ Excluded F c) (parityFun .ldTrue 1)
    ((parityFun .ldTrue 1).start [nU64 2] []) 29 (.ret [.num ⟨.bool, 1⟩] M) := runMove_ret 200 (by decide +kernel)

example : ∃ fn, (∃ tbl, compileProg E0 (parityProg.unroll 50) (copyFlows parityProg parityFlows 50) = some tbl ∧
      tbl[100]? = some ((parityFun .ldTrue 1).shift 98, fn)) ∧
    fn.Calls [2] store0 (fun r σ' => ∃ p, r = [p] ∧ leNat σ'.mem p 1 = 1) := by
  obtain ⟨tbl, hc⟩ := Option.isSome_iff_exists.mp parity_compiles
  obtain ⟨fn, h1, h2⟩ := C66_recursion_partial (k := 49) E0_valid (Nat.le_refl 400) parity_unit rfl parity_fit hc (f := 0) rfl
  obtain ⟨M, hM⟩ := even_runs
  refine ⟨fn, ⟨tbl, hc, h1⟩, ?_⟩
  refine (h2 (world_nil store0_heap) rfl (args_one (by decide) rfl) hM (by decide) ⟨by decide, by decide⟩ truthful_mute).mono ?_
  rintro r σ' ⟨ρ', m', -, -, -, -, h⟩
  rcases h with ⟨h, -⟩ | ⟨-, p, ws, h, h1, h2⟩
  · cases h
  · match ws, h1, h2 with
    | [w], ⟨⟨_, h3⟩, _⟩, ⟨_, _, ⟨⟨_, h4⟩, _⟩, _, _⟩ => exact ⟨p, h, h3.trans h4⟩

/-! ### A function that calls itself with its reference, and one that fails

```move
fun drain(p: &mut P) { if (p.x == 0) return; let r = &mut p.x; *r = *r - 1; drain(p) }
fun down(n: u64) { down(n - 1) }
``` -/

def drainFun : MFun := ⟨[.ref true tP], [], [.ref true tU64],
  [.copyLoc 0, .borrowField true 0 [tU64, tU64] 0, .readRef, .ldInt u64 0, .bin .eq, .brFalse 7, .ret,
   .copyLoc 0, .borrowField true 0 [tU64, tU64] 0, .stLoc 1, .copyLoc 1, .readRef, .ldInt u64 1, .bin (.arith .sub),
   .moveLoc 1, .writeRef, .moveLoc 0, .call 0, .ret]⟩

def downFun : MFun := ⟨[tU64], [], [], [.copyLoc 0, .ldInt u64 1, .bin (.arith .sub), .call 1, .ret]⟩

def drainProg : Prog := ⟨[], [drainFun, downFun], mute⟩

def drainFlows : List Flow :=
  [.simple 0 6 [] (.ifElse (.simple 6 1 [] .empty .empty) (.simple 7 12 [] .empty .empty)) .empty, lineFlow 5]

theorem drain_fit : ∀ z ∈ drainProg.funs.zip drainFlows, z.2.fits z.1 = true := by decide +kernel

theorem drain_compiles : (compileProg E0 (drainProg.unroll 40) (copyFlows drainProg drainFlows 40)).isSome = true := by
  decide +kernel

theorem drain_unit : ∀ F ∈ drainProg.funs, 64 * F.args.length ≤ 400 ∧ tupleSize F.rets ≤ 400 := by decide

theorem drain_runs : Runs drainProg (fun F c => ¬ Excluded F c) drainFun
    (drainFun.start [.ref ⟨true, tP, .node 0 [.leaf 0, .leaf 1]⟩] (memP 1)) 28 (.ret [] (memP 0)) :=
  runMove_sound (k := 200) (by decide +kernel)

/-- The caller of `drain` finds `P { x: 0, y: 2 }` where the struct was. -/
example : ∃ fn, (∃ tbl, compileProg E0 (drainProg.unroll 40) (copyFlows drainProg drainFlows 40) = some tbl ∧
      tbl[80]? = some (drainFun.shift 78, fn)) ∧
    fn.Calls [500] storeP (fun _ σ' => leNat σ'.mem (leNat σ'.mem 500 4) 8 = 0) := by
  obtain ⟨tbl, hc⟩ := Option.isSome_iff_exists.mp drain_compiles
  obtain ⟨fn, h1, h2⟩ := C86_recursion_partial (k := 39) E0_valid (Nat.le_refl 400) drain_unit rfl drain_fit hc (f := 0) rfl
  refine ⟨fn, ⟨tbl, hc, h1⟩, ?_⟩
  have ha : ArgsRep storeP (Frozen storeP (Own [540, 548] (memP 1) (fun _ => 0) (fun _ => 0))) [540, 548]
      [.ref ⟨true, tP, .node 0 [.leaf 0, .leaf 1]⟩] [500] (fun _ => 0) :=
    ⟨fun _ => 0, fun _ => 0, ⟨⟨by decide, placeP⟩, fun _ => rfl⟩, fun _ => rfl, fun _ => rfl⟩
  refine (h2 worldP rfl ha drain_runs (by decide) ⟨by decide, by decide⟩ truthful_mute).mono ?_
  rintro r σ' ⟨Fz, -, h⟩
  obtain ⟨m, -, _, _, ⟨-, h3, -⟩, -⟩ := h _ _ (.struct 0 [.num ⟨.int u64, 0⟩, .num ⟨.int u64, 2⟩]) placeP rfl
  exact h3.2.2

/-- `down(2)` fails at `0 - 1`. -/
theorem down_runs : Runs drainProg (fun F c => ¬ Excluded F c) downFun (downFun.start [nU64 2] []) 14
    (.arith .sub) := runMove_sound (k := 200) (by decide +kernel)

example : ∃ fn, (∃ tbl, compileProg E0 (drainProg.unroll 40) (copyFlows drainProg drainFlows 40) = some tbl ∧
      tbl[81]? = some (downFun.shift 78, fn)) ∧
    fn.Calls [2] store0 (fun _ σ' => ∃ p, errWord σ' = p ∧ 0 < p) := by
  obtain ⟨tbl, hc⟩ := Option.isSome_iff_exists.mp drain_compiles
  obtain ⟨fn, h1, h2⟩ := C67_recursion_partial (k := 39) E0_valid (Nat.le_refl 400) drain_unit rfl drain_fit hc (f := 1) rfl
  refine ⟨fn, ⟨tbl, hc, h1⟩, ?_⟩
  refine ((h2 (world_nil store0_heap) rfl (args_one (by decide) rfl) down_runs (by decide) ⟨by decide, by decide⟩ truthful_mute).2.1 _ rfl).mono ?_
  intro r σ' hf
  exact ⟨_, rfl, Nat.pos_of_ne_zero (hf.err E0_valid store0_heap (fun x h => absurd rfl h.1)).2⟩

end Props
