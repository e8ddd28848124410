import Verif.Rt.MoveRep

/-!
# What Move's bytecode verifier checks

The types of the operand stack (stack usage and type checks of the verifier), block by block.  The compiler is given verified modules; nothing here
is code of `/repo`.
-/

namespace Move
open Rt

/-- The type of the result of an operator, `t` is the type of the operand on top. -/
def BOp.ty (o : BOp) (s t : Ty) : Option Ty :=
  match o with
  | .arith _ | .bit _ =>
    match s with
    | .sc (.int _) => if t = s then some s else none
    | _ => none
  | .shl | .shr =>
    match s with
    | .sc (.int _) => if t = .sc (.int (.reg .u8)) then some s else none
    | _ => none
  | .cmp _ =>
    match s with
    | .sc (.int _) => if t = s then some (.sc .bool) else none
    | _ => none
  | .eq | .neq => if t = s then some (.sc .bool) else none
  | .and | .or => if s = .sc .bool ∧ t = .sc .bool then some (.sc .bool) else none

/-- The types on the operand stack (top first) after an instruction; `none` if the instruction is rejected. -/
def Bc.check (P : Prog) (F : MFun) (b : Bc) (ts : List Ty) : Option (List Ty) :=
  match b with
  | .ldTrue | .ldFalse => some (.sc .bool :: ts)
  | .ldInt t _ => some (.sc (.int t) :: ts)
  | .ldConst i => ((P.consts[i]?).bind (·.val)).map (fun v => .sc v.ty :: ts)
  | .bin o =>
    match ts with
    | t :: s :: ts => (o.ty s t).map (· :: ts)
    | _ => none
  | .not =>
    match ts with
    | .sc .bool :: ts => some (.sc .bool :: ts)
    | _ => none
  | .cast t =>
    match ts with
    | .sc (.int _) :: ts => some (.sc (.int t) :: ts)
    | _ => none
  | .copyLoc i | .moveLoc i => (F.localTy i).map (· :: ts)
  | .stLoc i =>
    match ts with
    | t :: ts => if F.localTy i = some t then some ts else none
    | _ => none
  | .pop =>
    match ts with
    | _ :: ts => some ts
    | _ => none
  | .nop => some ts
  | .pack id fs => if fs.reverse <+: ts then some (.struct id fs :: ts.drop fs.length) else none
  | .unpack id fs =>
    match ts with
    | t :: ts => if t = .struct id fs then some (fs.reverse ++ ts) else none
    | _ => none
  | .borrowLoc m i => (F.localTy i).map (fun t => .ref m t :: ts)
  | .borrowField m id fs k =>
    match ts with
    | .ref n s :: ts => if s = .struct id fs ∧ (m = true → n = true) then (fs[k]?).map (fun t => .ref m t :: ts) else none
    | _ => none
  | .readRef =>
    match ts with
    | .ref _ t :: ts => some (t :: ts)
    | _ => none
  | .writeRef =>
    match ts with
    | .ref m t :: s :: ts => if m = true ∧ s = t then some ts else none
    | _ => none
  | .freeze =>
    match ts with
    | .ref m t :: ts => if m = true then some (.ref false t :: ts) else none
    | _ => none
  | .call f =>
    match P.funs[f]? with
    | some G => if G.args.reverse <+: ts then some (G.rets.reverse ++ ts.drop G.args.length) else none
    | none => none
  | .query q =>
    if q.account then
      match ts with
      | .sc .addr :: ts => some (.sc q.res :: ts)
      | _ => none
    else some (.sc q.res :: ts)
  | .branch _ => some ts
  | .brTrue _ | .brFalse _ =>
    match ts with
    | .sc .bool :: ts => some ts
    | _ => none
  | .ret => if ts = F.rets.reverse then some [] else none
  | .abort => if ts = [.sc (.int (.reg .u64))] then some [] else none

/-- The instructions of a basic block leave the operand stack empty. -/
def blockTys (P : Prog) (F : MFun) : List Bc → List Ty → Bool
  | [], ts => ts.isEmpty
  | b :: bs, ts =>
    match b.check P F ts with
    | some ts' => blockTys P F bs ts'
    | none => false

def Flow.isIf : Flow → Bool
  | .ifElse _ _ => true
  | _ => false

/-- All blocks of a function are accepted; and an `IfElse` comes only directly after the block that computes its condition. -/
def Flow.checked (P : Prog) (F : MFun) : Flow → Bool
  | .simple label len _ im nx => blockTys P F ((F.code.drop label).take len) [] && im.checked P F && nx.checked P F && !nx.isIf
  | .loop _ inner nx => inner.checked P F && nx.checked P F && !inner.isIf && !nx.isIf
  | .ifElse a b => a.checked P F && b.checked P F && !a.isIf && !b.isIf
  | .empty => true

end Move
