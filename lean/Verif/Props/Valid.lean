import Verif.Proof.Valid6
import Verif.Proof.Valid7
import Verif.Props.Recursion
import Verif.Rt.Signer

/-!
# C94: what is compiled is valid WebAssembly
-/

namespace Props
open Wasm Rt Move

variable {E : ErrPtrs} {P : Prog} {k : Nat} {flows : List Flow} {tbl : List (MFun × Fn)}

/-- **C94 (partial)** A program whose functions pass the checks of Move's verifier (types of the operand stack) and whose control flow fits the
code: if it compiles, every function of the result passes WebAssembly validation, with the parameters of the Move function (u64 is an i64, everything else an i32)
and one i32 result, or none if the Move function has none; and so do all functions it calls (they are part of it here).

Missing: instructions not in the model (vectors, enums, storage), the entry point and what packs and unpacks its arguments, and generic
functions other than as instances. -/
theorem C94_partial (hl : flows.length = P.funs.length) (hfit : ∀ z ∈ P.funs.zip flows, z.2.fits z.1 = true)
    (hck : ∀ z ∈ P.funs.zip flows, z.2.checked P z.1 = true) (hc : compileProg E P flows = some tbl)
    {f : Nat} {F : MFun} (hf : P.funs[f]? = some F) :
    ∃ fn, tbl[f]? = some (F, fn) ∧ fn.Valid (F.args.map Ty.vt) (if F.rets = [] then [] else [.i32]) := by
  unfold compileProg at hc
  split_ifs at hc
  obtain ⟨h1, h2⟩ := compileFuns_valid (P := P) (P.funs.zip flows) [] tbl hc
    (by rw [List.map_nil, List.nil_append, List.map_fst_zip]; omega)
    (fun z hz => ⟨hfit z hz, hck z hz⟩) (by simp)
  rw [h1, List.getElem?_map] at hf
  obtain ⟨⟨G, fn⟩, h3, h4⟩ := Option.map_eq_some_iff.mp hf
  cases h4
  refine ⟨fn, h3, ?_⟩
  have := h2 f _ fn h3
  unfold MFun.retTy at this
  show fn.Valid _ (if G.rets = [] then [] else [.i32])
  split_ifs at this ⊢ <;> exact this

/-- **C94 for programs with recursion (partial)** The functions of `P` may call each other in any way (calls are unrolled). -/
theorem C94_recursion_partial (hl : flows.length = P.funs.length) (hfit : ∀ z ∈ P.funs.zip flows, z.2.fits z.1 = true)
    (hck : ∀ z ∈ P.funs.zip flows, z.2.checked P z.1 = true)
    (hc : compileProg E (P.unroll (k + 1)) (copyFlows P flows (k + 1)) = some tbl)
    {f : Nat} {F : MFun} (hf : P.funs[f]? = some F) :
    ∃ fn, tbl[(k + 1) * P.funs.length + f]? = some (F.shift (k * P.funs.length), fn) ∧
      fn.Valid (F.args.map Ty.vt) (if F.rets = [] then [] else [.i32]) :=
  C94_partial (copyFlows_length hl _) (fits_copies hl hfit _) (checked_copies hl hck _ (Nat.le_refl _)) hc (copy_get hf)

/-- **C94** What validation is good for: a valid function called with values of the types of its parameters that returns
leaves exactly one value of each type of its results (in particular nothing else), and globals of their types. -/
theorem C94_sound {fn : Fn} {ps rs : List VT} (h : fn.Valid ps rs) {args : List Nat} {σ : Store} (ha : Typed ps args) (hσ : StoreOk σ)
    {Q : List Nat → Store → Prop} (hc : fn.Calls args σ Q) : fn.Calls args σ (fun r σ' => Q r σ' ∧ Typed rs r ∧ StoreOk σ') :=
  h.returns ha hσ hc

theorem factFlows_check : ∀ z ∈ factProg.funs.zip factFlows, z.2.checked factProg z.1 = true := by decide +kernel

/-- The functions of `factProg` (a loop, a branch, calls and an abort). -/
example : ∃ tbl, compileProg E0 factProg factFlows = some tbl ∧
    ∃ fn, tbl[1]? = some (factFun, fn) ∧ fn.Valid [.i64] [.i32] := by
  obtain ⟨tbl, hc⟩ := Option.isSome_iff_exists.mp fact_compiles
  obtain ⟨fn, h1, h2⟩ := C94_partial rfl factFlows_fit factFlows_check hc (f := 1) rfl
  exact ⟨tbl, hc, fn, h1, h2⟩

theorem drainFlows_check : ∀ z ∈ drainProg.funs.zip drainFlows, z.2.checked drainProg z.1 = true := by decide +kernel

/-- A recursive function on references. -/
example : ∃ tbl, compileProg E0 (drainProg.unroll 40) (copyFlows drainProg drainFlows 40) = some tbl ∧
    ∀ f F, drainProg.funs[f]? = some F → ∃ fn, tbl[40 * drainProg.funs.length + f]? = some (F.shift (39 * drainProg.funs.length), fn) ∧
      fn.Valid (F.args.map Ty.vt) (if F.rets = [] then [] else [.i32]) := by
  obtain ⟨tbl, hc⟩ := Option.isSome_iff_exists.mp drain_compiles
  exact ⟨tbl, hc, fun f F hf => C94_recursion_partial (k := 39) rfl drain_fit drainFlows_check hc hf⟩

/-- The verifier rejects code that leaves a value behind, or takes one that is not there. -/
example : (lineFlow 2).checked ⟨[], [], mute⟩ ⟨[], [], [], [.ldTrue, .ret]⟩ = false ∧ (lineFlow 2).checked ⟨[], [], mute⟩ ⟨[], [], [], [.pop, .ret]⟩ = false := by
  decide +kernel

/-- And validation rejects functions that leave the wrong number of values, or values of the wrong type. -/
example : ¬ (⟨0, 1, 0, code[Op.c64 1]⟩ : Fn).Valid [] [.i32] := by
  rintro ⟨L, h1, h2, h3, h⟩
  cases h with
  | op ho h => simp only [opTys, List.mem_singleton] at ho; subst ho; cases h

/-- **C94 is false** of contracts with an entry function that takes a `signer`: the runtime function that provides it leaves a
value but is declared without results, whatever the types of its locals. -/
theorem C94_false_signer : ¬ injectSigner.Valid [] [] := by
  rintro ⟨L, h1, h2, h3, h⟩
  have := Ok.preserved 100 h .nil (Typed.zeros _) (σ := store0) (by constructor <;> decide)
  rw [List.nil_append, h3] at this
  revert this
  have e : (match run 100 injectSigner.body [] (List.replicate injectSigner.nl 0) store0 with | .ok s _ _ => s.length | _ => 7) = 1 := by
    decide +kernel
  generalize run 100 injectSigner.body [] (List.replicate injectSigner.nl 0) store0 = r at *
  intro hp
  cases r with
  | ok s l σ => have := hp.1.length; simp_all
  | _ => simp at e

end Props
