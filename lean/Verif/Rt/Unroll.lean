import Verif.Rt.MoveRep

/-!
# Recursive functions

In the code a call goes through the table of functions (translation.rs 834-852, 3267-3278), so that functions can
call each other in any order.  WebAssembly functions are trees here, so recursion is unrolled: there is a copy of
every function for every depth of calls up to `k`, and the copy for depth `l` calls the copies for depth `l - 1`.  As
long as calls are nested less than `k` deep this cannot be told from recursion.
-/

namespace Move
open Wasm Rt

/-- Calls go to the copies that begin at `o`. -/
def Bc.shift (o : Nat) : Bc → Bc
  | .call f => .call (o + f)
  | b => b

def MFun.shift (o : Nat) (F : MFun) : MFun := { F with code := F.code.map (Bc.shift o) }

/-- What stands in for a function that is called too deep. -/
def MFun.stub (F : MFun) : MFun := { F with code := [.ldInt (.reg .u64) 0, .abort] }

/-- The copies for depth 0 to `k`. -/
def Prog.copies (P : Prog) : Nat → List MFun
  | 0 => P.funs.map MFun.stub
  | k + 1 => P.copies k ++ P.funs.map (MFun.shift (k * P.funs.length))

def Prog.unroll (P : Prog) (k : Nat) : Prog := ⟨P.consts, P.copies k, P.answer⟩

/-- Their control flow: that of the functions. -/
def copyFlows (P : Prog) (flows : List Flow) : Nat → List Flow
  | 0 => P.funs.map fun _ => .simple 0 2 [] .empty .empty
  | k + 1 => copyFlows P flows k ++ flows

end Move
