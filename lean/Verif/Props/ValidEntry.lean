import Verif.Proof.Valid8
import Verif.Props.Valid
import Verif.Props.Transaction

/-!
# C94: the entry point is valid WebAssembly
-/

namespace Props
open Wasm Rt Move

variable {E : ErrPtrs} {P : Prog} {C : Contract} {flows : List Flow}

/-- What the entry point passes to a parameter: the decoded value, or the transaction context it has made. -/
inductive Takes : ATy → Ty → Prop
  | val (t : Ty) : Takes (.val t.pty) t
  | ctx (m : Bool) (t : Ty) : Takes .txCtx (.ref m t)

theorem STy.mty_vt (t : STy) : t.mty.vt = (Ty.sc t).vt := by
  match t with
  | .bool | .addr | .int .u128 | .int .u256 => rfl
  | .int (.reg .u8) | .int (.reg .u16) | .int (.reg .u32) | .int (.reg .u64) => rfl

theorem Ty.pty_vt (t : Ty) : t.pty.vt = t.vt := by
  match t with
  | .sc t => exact STy.mty_vt t
  | .struct _ _ | .ref _ _ => rfl

theorem Takes.vt {A : ATy} {t : Ty} (h : Takes A t) : A.vt = t.vt := by
  cases h with
  | val t => exact Ty.pty_vt t
  | ctx => rfl

/-- A public function of the contract is one of the program, with its parameters and results. -/
structure IsPublic (E : ErrPtrs) (P : Prog) (flows : List Flow) (g : PubFn) (F : MFun) (n : Nat) : Prop where
  comp : IsCompiled E P flows F g.fn n
  args : List.Forall₂ Takes g.args F.args
  rets : g.rets = F.rets.map Ty.pty

theorem IsCompiled.valid {F : MFun} {fn : Fn} {n : Nat} (hl : flows.length = P.funs.length) (hfit : ∀ z ∈ P.funs.zip flows, z.2.fits z.1 = true)
    (hck : ∀ z ∈ P.funs.zip flows, z.2.checked P z.1 = true) (h : IsCompiled E P flows F fn n) :
    fn.Valid (F.args.map Ty.vt) (if F.rets = [] then [] else [.i32]) := by
  cases h with
  | straight hc hi =>
    rename_i i tbl
    have hP : P.funs = tbl.map (·.1) := by
      unfold compileProg at hc
      split_ifs at hc
      exact (compileFuns_valid (P := P) (P.funs.zip flows) [] tbl hc
        (by rw [List.map_nil, List.nil_append, List.map_fst_zip]; omega)
        (fun z hz => ⟨hfit z hz, hck z hz⟩) (by simp)).1
    obtain ⟨fn', h1, h2⟩ := C94_partial hl hfit hck hc (f := i) (F := F) (by rw [hP, List.getElem?_map, hi]; rfl)
    rw [hi] at h1
    cases h1
    exact h2
  | unrolled hc hf hi hk =>
    obtain ⟨fn', h1, h2⟩ := C94_recursion_partial hl hfit hck hc hf
    rw [hi] at h1
    cases h1
    exact h2

/-- **C94 for the entry point** A contract whose public functions pass validation, with parameters and results of any types of the model (integers, addresses, strings, enums,
structs and vectors of them, references to them and the transaction context): so does the exported function, with one i32 parameter and one i32 result as
the host requires, with everything that decodes arguments and encodes results. -/
theorem C94_entry_partial (hf : ∀ g ∈ C.fns, g.fn.Valid (g.args.map ATy.vt) (if g.rets = [] then [] else [.i32])) (hs : C.save.Valid [] []) :
    (router C).Valid [.i32] [.i32] := router_valid hf hs

/-- **C94 for contracts (partial)** A contract whose public functions are compiled from functions of a program that passes the checks of Move's verifier: its exported
function passes validation, and so does everything it calls.  Missing: what `C94_partial` does not cover. -/
theorem C94_contract_partial (hl : flows.length = P.funs.length) (hfit : ∀ z ∈ P.funs.zip flows, z.2.fits z.1 = true)
    (hck : ∀ z ∈ P.funs.zip flows, z.2.checked P z.1 = true) (hC : ∀ g ∈ C.fns, ∃ F n, IsPublic C.E P flows g F n) (hs : C.save.Valid [] []) :
    (router C).Valid [.i32] [.i32] := by
  refine C94_entry_partial (fun g hg => ?_) hs
  obtain ⟨F, n, h⟩ := hC g hg
  have := h.comp.valid hl hfit hck
  have e : g.args.map ATy.vt = F.args.map Ty.vt := by
    have := h.args
    generalize g.args = as at this
    generalize F.args = ts at this
    induction this with
    | nil => rfl
    | cons h _ ih => rw [List.map_cons, List.map_cons, h.vt, ih]
  rw [e, h.rets]
  simpa using this

theorem noSave_valid : noSave.Valid [] [] := ⟨[], rfl, rfl, rfl, .nil⟩

theorem txFlows_check : ∀ z ∈ txProg.funs.zip txFlows, z.2.checked txProg z.1 = true := by decide +kernel

/-- The contract of `C95`, with four functions. -/
example : (router txContract).Valid [.i32] [.i32] := by
  refine C94_contract_partial (P := txProg) (flows := txFlows) rfl txFlows_fit txFlows_check (fun g hg => ?_) noSave_valid
  have key : ∀ i F, txProg.funs[i]? = some F → F.args = [tU64] → i = 1 ∨ i = 2 ∨ i = 3 ∨ i = 4 → ∃ G n, IsPublic E0 txProg txFlows (txPub i F) G n :=
    fun i F h ha hi => ⟨F, 0, (tx_call (v := 0) hi h (by decide) ha).comp, by rw [ha]; exact .cons (.val tU64) .nil, rfl⟩
  simp only [txContract, List.mem_cons, List.not_mem_nil, or_false] at hg
  rcases hg with rfl | rfl | rfl | rfl
  · exact key 1 factFun rfl rfl (by simp)
  · exact key 2 checkFun rfl rfl (by simp)
  · exact key 3 predFun rfl rfl (by simp)
  · exact key 4 halfFun rfl rfl (by simp)

/-- A function that takes a vector of strings and the transaction context and returns a reference to a struct of an enum, a number and a vector (what it does is
to give back the pointer it got). -/
def shapesPub : PubFn := ⟨"shapes", [1, 2, 3, 4], [.val (.val (.vec .string)), .txCtx], [.ref (.struct [.enum 3, .u64, .vec (.struct [.u128, .bool])]), .val .u64],
  ⟨2, 1, 0, code[Op.lget 0]⟩⟩

example : (router ⟨E0, [shapesPub, { shapesPub with name := "fallback" }], noSave⟩).Valid [.i32] [.i32] := by
  refine C94_entry_partial (fun g hg => ?_) noSave_valid
  have : g.fn.Valid [.i32, .i32] [.i32] ∧ g.args = shapesPub.args ∧ g.rets = shapesPub.rets := by
    simp only [List.mem_cons, List.not_mem_nil, or_false] at hg
    rcases hg with rfl | rfl <;> exact ⟨⟨[], rfl, rfl, rfl, ok_lget rfl .nil⟩, rfl, rfl⟩
  rw [this.2.1, this.2.2]
  exact this.1

/-- The host starts the exported function with the length of the call data: if it returns, it leaves one i32. -/
theorem C94_entry_sound {len : Nat} {σ : Store} (h : (router C).Valid [.i32] [.i32]) (hl : len < 2 ^ 32) (hσ : StoreOk σ)
    {Q : List Nat → Store → Prop} (hc : (router C).Calls [len] σ Q) :
    (router C).Calls [len] σ (fun r σ' => Q r σ' ∧ ∃ status, r = [status] ∧ status < 2 ^ 32) :=
  (C94_sound h (.cons hl .nil) hσ hc).mono (fun r σ' ⟨h1, h2, _⟩ => by
    cases h2 with
    | cons h h' => cases h'; exact ⟨h1, _, rfl, h⟩)

end Props
