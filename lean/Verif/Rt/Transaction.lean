import Verif.Rt.MoveRep
import Verif.Rt.Router

/-!
# Transactions that call a Move function

The correspondence between the types and values of the Move machine (`Verif.Move`) and those of the
ABI, and the call of a Move function by a transaction.
-/

namespace Move
open Wasm Rt Abi

/-- The ABI type of a number. -/
def STy.mty : STy → MTy
  | .bool => .bool
  | .int (.reg .u8) => .u8
  | .int (.reg .u16) => .u16
  | .int (.reg .u32) => .u32
  | .int (.reg .u64) => .u64
  | .int .u128 => .u128
  | .int .u256 => .u256
  | .addr => .address

mutual
/-- The ABI type of a type, references aside: structs are tuples of their fields. -/
def Ty.mty : Ty → MTy
  | .sc t => t.mty
  | .struct _ fs => .struct (Ty.mtys fs)
  | .ref _ t => t.mty
def Ty.mtys : List Ty → List MTy
  | [] => []
  | t :: ts => t.mty :: Ty.mtys ts
end

/-- The ABI type of a parameter or result: references are passed as what they refer to. -/
def Ty.pty : Ty → PTy
  | .ref _ t => .ref t.mty
  | t => .val t.mty

mutual
/-- The ABI value of a Move value. -/
def Data.val : Data → Val
  | .num v => .word v.n
  | .struct _ ds => .tuple (Data.vals ds)
def Data.vals : List Data → List Val
  | [] => []
  | d :: ds => d.val :: Data.vals ds
end

mutual
/-- All numbers are in the range of their type. -/
def Data.wf : Data → Prop
  | .num v => v.n < 2 ^ v.ty.bits
  | .struct _ ds => Data.wfs ds
def Data.wfs : List Data → Prop
  | [] => True
  | d :: ds => d.wf ∧ Data.wfs ds
end

/-- An argument of a transaction: a value, a reference to a value that exists for the transaction only,
or a reference to the `TxContext`, which has no fields the code can see. -/
inductive Arg
  | val (d : Data)
  | ref (m : Bool) (d : Data)
  | ctx (m : Bool) (id : Nat)

/-- The parameter of the public function (`Verif.Rt.Router`). -/
def Arg.aty : Arg → ATy
  | .val d => .val (.val d.ty.mty)
  | .ref _ d => .val (.ref d.ty.mty)
  | .ctx _ _ => .txCtx

/-- The values that are encoded in the calldata. -/
def Arg.vals : List Arg → List Val
  | [] => []
  | .val d :: as => d.val :: Arg.vals as
  | .ref _ d :: as => d.val :: Arg.vals as
  | .ctx _ _ :: as => Arg.vals as

def Arg.wf : Arg → Prop
  | .val d => d.wf
  | .ref _ d => d.wf
  | .ctx _ _ => True

/-- The arguments the Move function is called with, and the memory of the machine that holds what the
references refer to. -/
def Arg.start : List Arg → Mem → List Opd × Mem
  | [], M => ([], M)
  | .val d :: as, M => (.data d :: (Arg.start as M).1, (Arg.start as M).2)
  | .ref m d :: as, M =>
    (.ref ⟨m, d.ty, (d.place M).1⟩ :: (Arg.start as (d.place M).2).1, (Arg.start as (d.place M).2).2)
  | .ctx m id :: as, M => (.ref ⟨m, .struct id [], .node id []⟩ :: (Arg.start as M).1, (Arg.start as M).2)

/-- The value a result stands for, in the memory at the end: for a reference, what it refers to. -/
def Opd.value (M : Mem) : Opd → Option Data
  | .data d => some d
  | .ref r =>
    match r.place.read M with
    | some d => if d.ty = r.ty then some d else none
    | none => none

/-- The values of all results. -/
def values (M : Mem) : List Opd → Option (List Data)
  | [] => some []
  | o :: os =>
    match o.value M, values M os with
    | some d, some ds => some (d :: ds)
    | _, _ => none

end Move
