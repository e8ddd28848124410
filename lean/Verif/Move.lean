import Verif.Rt.HeapInts
import Verif.Rt.Ascii
import Verif.Spec

/-!
# A machine for Move bytecode

What Move says about the bytecode instructions on booleans, integers, addresses, structs and references
to them: locals, arithmetic, structs, borrowing, jumps, calls and aborts, on mathematical numbers.
Nothing here is code of `/repo`; it is the yardstick the translation (`Verif.Rt.Compile`) is measured
with.

The locals of functions that hold values (and not references) are places; a place is a tree whose
leaves are cells of the memory of the machine, each holding a number.  A reference is a place.

Where Move's bytecode verifier excludes a situation (operands of the wrong type, a moved local read
again or through a reference, a jump with values left on the operand stack) the machine has no step.
-/

namespace Move
open Rt

/-- The types of the fragment. -/
inductive STy | bool | int (t : IntTy) | addr
  deriving DecidableEq, Repr

def STy.bits : STy → Nat
  | .bool => 1
  | .int t => t.bits
  | .addr => 256

/-- A value: its type and the number it stands for (booleans are 0 and 1, addresses the number
whose 32 bytes, most significant first, are the address). -/
structure MVal where
  ty : STy
  n : Nat
  deriving DecidableEq, Repr

/-- Types: the above, structs (a name and the types of the fields), references (`m`: mutable). -/
inductive Ty | sc (t : STy) | struct (id : Nat) (fs : List Ty) | ref (m : Bool) (t : Ty)
  deriving Repr

/-- Values of these types other than references. -/
inductive Data | num (v : MVal) | struct (id : Nat) (ds : List Data)
  deriving Repr

/-- Where a value is kept. -/
inductive Place | leaf (l : Nat) | node (id : Nat) (ps : List Place)
  deriving Repr

mutual
def Ty.decEq : (a b : Ty) → Decidable (a = b)
  | .sc s, .sc t => if h : s = t then .isTrue (by rw [h]) else .isFalse (by simpa using h)
  | .struct i fs, .struct j gs =>
    match Ty.decEqs fs gs with
    | .isTrue h => if h' : i = j then .isTrue (by rw [h, h']) else .isFalse (by simp [h'])
    | .isFalse h => .isFalse (by simp [h])
  | .ref m s, .ref n t =>
    match Ty.decEq s t with
    | .isTrue h => if h' : m = n then .isTrue (by rw [h, h']) else .isFalse (by simp [h'])
    | .isFalse h => .isFalse (by simp [h])
  | .sc _, .struct _ _ => .isFalse (by simp)
  | .sc _, .ref _ _ => .isFalse (by simp)
  | .struct _ _, .sc _ => .isFalse (by simp)
  | .struct _ _, .ref _ _ => .isFalse (by simp)
  | .ref _ _, .sc _ => .isFalse (by simp)
  | .ref _ _, .struct _ _ => .isFalse (by simp)
def Ty.decEqs : (a b : List Ty) → Decidable (a = b)
  | [], [] => .isTrue rfl
  | [], _ :: _ => .isFalse (by simp)
  | _ :: _, [] => .isFalse (by simp)
  | a :: as, b :: bs =>
    match Ty.decEq a b with
    | .isTrue h =>
      match Ty.decEqs as bs with
      | .isTrue h' => .isTrue (by rw [h, h'])
      | .isFalse h' => .isFalse (by simp [h'])
    | .isFalse h => .isFalse (by simp [h])
end
instance : DecidableEq Ty := Ty.decEq

mutual
def Data.decEq : (a b : Data) → Decidable (a = b)
  | .num s, .num t => if h : s = t then .isTrue (by rw [h]) else .isFalse (by simpa using h)
  | .struct i fs, .struct j gs =>
    match Data.decEqs fs gs with
    | .isTrue h => if h' : i = j then .isTrue (by rw [h, h']) else .isFalse (by simp [h'])
    | .isFalse h => .isFalse (by simp [h])
  | .num _, .struct _ _ => .isFalse (by simp)
  | .struct _ _, .num _ => .isFalse (by simp)
def Data.decEqs : (a b : List Data) → Decidable (a = b)
  | [], [] => .isTrue rfl
  | [], _ :: _ => .isFalse (by simp)
  | _ :: _, [] => .isFalse (by simp)
  | a :: as, b :: bs =>
    match Data.decEq a b with
    | .isTrue h =>
      match Data.decEqs as bs with
      | .isTrue h' => .isTrue (by rw [h, h'])
      | .isFalse h' => .isFalse (by simp [h'])
    | .isFalse h => .isFalse (by simp [h])
end
instance : DecidableEq Data := Data.decEq

mutual
def Place.decEq : (a b : Place) → Decidable (a = b)
  | .leaf s, .leaf t => if h : s = t then .isTrue (by rw [h]) else .isFalse (by simpa using h)
  | .node i fs, .node j gs =>
    match Place.decEqs fs gs with
    | .isTrue h => if h' : i = j then .isTrue (by rw [h, h']) else .isFalse (by simp [h'])
    | .isFalse h => .isFalse (by simp [h])
  | .leaf _, .node _ _ => .isFalse (by simp)
  | .node _ _, .leaf _ => .isFalse (by simp)
def Place.decEqs : (a b : List Place) → Decidable (a = b)
  | [], [] => .isTrue rfl
  | [], _ :: _ => .isFalse (by simp)
  | _ :: _, [] => .isFalse (by simp)
  | a :: as, b :: bs =>
    match Place.decEq a b with
    | .isTrue h =>
      match Place.decEqs as bs with
      | .isTrue h' => .isTrue (by rw [h, h'])
      | .isFalse h' => .isFalse (by simp [h'])
    | .isFalse h => .isFalse (by simp [h])
end
instance : DecidableEq Place := Place.decEq

mutual
/-- The type of a value. -/
def Data.ty : Data → Ty
  | .num v => .sc v.ty
  | .struct id ds => .struct id (Data.tys ds)
def Data.tys : List Data → List Ty
  | [] => []
  | d :: ds => d.ty :: Data.tys ds
end

mutual
/-- Number of nodes of a value. -/
def Data.count : Data → Nat
  | .num _ => 1
  | .struct _ ds => 1 + Data.counts ds
def Data.counts : List Data → Nat
  | [] => 0
  | d :: ds => d.count + Data.counts ds
end

/-- The memory of the machine: cells with numbers; `none` if the number has been moved away. -/
abbrev Mem := List (Option MVal)

mutual
/-- Put a value into new cells. -/
def Data.place : Data → Mem → Place × Mem
  | .num v, M => (.leaf M.length, M ++ [some v])
  | .struct id ds, M => (.node id (Data.places ds M).1, (Data.places ds M).2)
def Data.places : List Data → Mem → List Place × Mem
  | [], M => ([], M)
  | d :: ds, M => ((d.place M).1 :: (Data.places ds (d.place M).2).1, (Data.places ds (d.place M).2).2)
end

mutual
/-- The value at a place. -/
def Place.read (M : Mem) : Place → Option Data
  | .leaf l =>
    match M[l]? with
    | some (some v) => some (.num v)
    | _ => none
  | .node id ps => (Place.reads M ps).map (.struct id)
def Place.reads (M : Mem) : List Place → Option (List Data)
  | [] => some []
  | p :: ps =>
    match p.read M, Place.reads M ps with
    | some d, some ds => some (d :: ds)
    | _, _ => none
end

mutual
/-- Move the value away from a place. -/
def Place.take : Place → Mem → Option (Data × Mem)
  | .leaf l, M =>
    match M[l]? with
    | some (some v) => some (.num v, M.set l none)
    | _ => none
  | .node id ps, M => (Place.takes ps M).map (fun r => (.struct id r.1, r.2))
def Place.takes : List Place → Mem → Option (List Data × Mem)
  | [], M => some ([], M)
  | p :: ps, M =>
    match p.take M with
    | some (d, M1) => (Place.takes ps M1).map (fun r => (d :: r.1, r.2))
    | none => none
end

mutual
/-- Replace the value at a place by one of the same type. -/
def Place.write : Place → Data → Mem → Option Mem
  | .leaf l, .num v, M =>
    match M[l]? with
    | some (some u) => if u.ty = v.ty then some (M.set l (some v)) else none
    | _ => none
  | .node id ps, .struct id' ds, M => if id = id' then Place.writes ps ds M else none
  | _, _, _ => none
def Place.writes : List Place → List Data → Mem → Option Mem
  | [], [], M => some M
  | p :: ps, d :: ds, M => (p.write d M).bind (Place.writes ps ds)
  | _, _, _ => none
end

/-- A reference: whether it is mutable, the type of the value it refers to, and where that is. -/
structure Ref where
  m : Bool
  ty : Ty
  place : Place
  deriving DecidableEq, Repr

/-- Operands. -/
inductive Opd | data (d : Data) | ref (r : Ref)
  deriving DecidableEq, Repr

def Opd.ty : Opd → Ty
  | .data d => d.ty
  | .ref r => .ref r.m r.ty

/-- A number as an operand. -/
abbrev Opd.num (v : MVal) : Opd := .data (.num v)

/-- What a local holds. -/
inductive Loc | box (p : Place) | ref (r : Ref)
  deriving DecidableEq, Repr

inductive ArithOp | add | sub | mul | div | rem
  deriving DecidableEq, Repr

/-- Binary operators. -/
inductive BOp
  | arith (o : ArithOp) | bit (o : BitOp) | shl | shr | cmp (o : CmpOp) | eq | neq | and | or
  deriving DecidableEq, Repr

/-- What the framework's native functions tell about the transaction, the block and accounts. -/
inductive Query
  | sender | value | number | timestamp | gasLimit | chainId | baseFee | gasPrice | balance | codeSize
  deriving DecidableEq, Repr

/-- The question is about the account whose address is the operand. -/
def Query.account : Query → Bool
  | .balance | .codeSize => true
  | _ => false

def Query.res : Query → STy
  | .sender => .addr
  | .number | .timestamp | .gasLimit | .chainId => .int (.reg .u64)
  | .codeSize => .int (.reg .u32)
  | .value | .baseFee | .gasPrice | .balance => .int .u256

/-- Bytecode instructions.  `query` is a call of one of these native functions. -/
inductive Bc
  | ldTrue | ldFalse | ldInt (t : IntTy) (n : Nat) | ldConst (i : Nat)
  | bin (o : BOp) | not | cast (t : IntTy)
  | copyLoc (i : Nat) | moveLoc (i : Nat) | stLoc (i : Nat) | pop | nop
  | pack (id : Nat) (fs : List Ty) | unpack (id : Nat) (fs : List Ty)
  | borrowLoc (m : Bool) (i : Nat) | borrowField (m : Bool) (id : Nat) (fs : List Ty) (k : Nat)
  | readRef | writeRef | freeze
  | call (f : Nat) | query (q : Query)
  | branch (t : Nat) | brTrue (t : Nat) | brFalse (t : Nat) | ret | abort
  deriving DecidableEq, Repr

/-- An entry of the constant pool: its type, if it is one of the fragment, and its bytes. -/
structure Const where
  ty : Option STy
  data : List UInt8
  deriving DecidableEq, Repr

/-- The number whose bytes, most significant first, are given. -/
def beBytes (bs : List UInt8) : Nat := bs.foldl (fun a b => 256 * a + b.toNat) 0

/-- The value of a constant (BCS: little-endian integers, booleans as one byte 0 or 1). -/
def Const.val (c : Const) : Option MVal :=
  match c.ty with
  | some .bool => if c.data = [0] then some ⟨.bool, 0⟩ else if c.data = [1] then some ⟨.bool, 1⟩ else none
  | some (.int t) => if 8 * c.data.length = t.bits then some ⟨.int t, leBytes c.data⟩ else none
  | some .addr => if c.data.length = 32 then some ⟨.addr, beBytes c.data⟩ else none
  | none => none

structure MFun where
  args : List Ty
  rets : List Ty
  locals : List Ty
  code : List Bc
  deriving DecidableEq, Repr

/-- A program, and the answers it gets from native functions: `answer q a` for the account `a`, or for 0
if the question is not about an account.  Programs get stuck on a question without an answer. -/
structure Prog where
  consts : List Const
  funs : List MFun
  answer : Query → Nat → Option Nat

/-- No answers. -/
def mute : Query → Nat → Option Nat := fun _ _ => none

/-- Why an operation failed. -/
inductive Fault
  | add | sub | mul (t : IntTy) | shl | shr | cast (src dst : IntTy)
  deriving DecidableEq, Repr

/-- How a function ends: it returns (values first to last; `M` is the memory then), aborts with a code,
or an operation fails. -/
inductive Halt
  | ret (vs : List Opd) (M : Mem) | abort (code : Nat) | arith (f : Fault) | divZero
  deriving DecidableEq, Repr

/-- The result of an operator. -/
inductive Ev
  | val (v : MVal) | fail (f : Fault) | divZero
  deriving DecidableEq, Repr

def Ev.of (t : STy) (f : Fault) : Option Nat → Ev
  | some n => .val ⟨t, n⟩
  | none => .fail f

def bool (p : Prop) [Decidable p] : MVal := ⟨.bool, if p then 1 else 0⟩

/-- Arithmetic in the integer type `t`. -/
def ArithOp.eval (o : ArithOp) (t : IntTy) (a b : Nat) : Ev :=
  match o with
  | .add => .of (.int t) .add (Spec.add t.bits a b)
  | .sub => .of (.int t) .sub (Spec.sub a b)
  | .mul => .of (.int t) (.mul t) (Spec.mul t.bits a b)
  | .div => if b = 0 then .divZero else .val ⟨.int t, a / b⟩
  | .rem => if b = 0 then .divZero else .val ⟨.int t, a % b⟩

def bitNat : BitOp → Nat → Nat → Nat
  | .and => (· &&& ·) | .or => (· ||| ·) | .xor => (· ^^^ ·)

def cmpBool (o : CmpOp) (a b : Nat) : MVal :=
  match o with
  | .lt => bool (a < b) | .le => bool (a ≤ b) | .gt => bool (a > b) | .ge => bool (a ≥ b)

/-- A binary operator on operands `x` and `y` (`y` was pushed last); `none` if their types do not
fit. -/
def BOp.eval (o : BOp) (x y : MVal) : Option Ev :=
  match o with
  | .arith o =>
    match x.ty with
    | .int t => if y.ty = .int t then some (o.eval t x.n y.n) else none
    | _ => none
  | .bit o =>
    match x.ty with
    | .int t => if y.ty = .int t then some (.val ⟨.int t, bitNat o x.n y.n⟩) else none
    | _ => none
  | .shl =>
    match x.ty with
    | .int t => if y.ty = .int (.reg .u8) then some (.of (.int t) .shl (Spec.shl t.bits x.n y.n)) else none
    | _ => none
  | .shr =>
    match x.ty with
    | .int t => if y.ty = .int (.reg .u8) then some (.of (.int t) .shr (Spec.shr t.bits x.n y.n)) else none
    | _ => none
  | .cmp o =>
    match x.ty with
    | .int t => if y.ty = .int t then some (.val (cmpBool o x.n y.n)) else none
    | _ => none
  | .eq => if x.ty = y.ty then some (.val (bool (x.n = y.n))) else none
  | .neq => if x.ty = y.ty then some (.val (bool (x.n ≠ y.n))) else none
  | .and => if x.ty = .bool ∧ y.ty = .bool then some (.val (bool (x.n = 1 ∧ y.n = 1))) else none
  | .or => if x.ty = .bool ∧ y.ty = .bool then some (.val (bool (x.n = 1 ∨ y.n = 1))) else none

/-- `as t`. -/
def castEval (t : IntTy) (x : MVal) : Option Ev :=
  match x.ty with
  | .int s => some (.of (.int t) (.cast s t) (Spec.cast t.bits x.n))
  | _ => none

/-- A state of a function: the next instruction, the locals (`none`: not assigned, or moved), the
operand stack, last pushed first, and the memory. -/
structure Cfg where
  pc : Nat
  locals : List (Option Loc)
  stack : List Opd
  mem : Mem

/-- What an instruction does. -/
inductive Act
  | next (c : Cfg)
  | halt (h : Halt)
  /-- call function `f` with `args`; on return its results are pushed and `c` is continued -/
  | call (f : Nat) (args : List Opd) (c : Cfg)

/-- Targets of jumps (the instruction after a conditional jump begins a block, too, and so do the
entry and the instruction after any other jump). -/
def Bc.target : Bc → Option Nat
  | .branch t => some t | .brTrue t => some t | .brFalse t => some t
  | _ => none

def MFun.isTarget (F : MFun) (pc : Nat) : Bool := F.code.any (fun b => b.target == some pc)

def Cfg.next (c : Cfg) : Cfg := { c with pc := c.pc + 1 }
def Cfg.push (c : Cfg) (v : Opd) (s : List Opd) : Cfg := { c with pc := c.pc + 1, stack := v :: s }

def Ev.act (c : Cfg) (s : List Opd) : Ev → Act
  | .val v => .next (c.push (.num v) s)
  | .fail f => .halt (.arith f)
  | .divZero => .halt .divZero

/-- The type of a local. -/
def MFun.localTy (F : MFun) (i : Nat) : Option Ty := (F.args ++ F.locals)[i]?

/-- Equality of operands that are not both numbers; references are equal if the values at their places
are. -/
def eqOpd (M : Mem) (x y : Opd) : Option Bool :=
  match x, y with
  | .data d, .data d' => if d.ty = d'.ty then some (d = d') else none
  | .ref r, .ref r' =>
    match r.place.read M, r'.place.read M with
    | some d, some d' => if r.ty = r'.ty ∧ d.ty = r.ty ∧ d'.ty = r'.ty ∧ r.m = r'.m then some (d = d') else none
    | _, _ => none
  | _, _ => none

/-- The values of operands none of which is a reference. -/
def datas : List Opd → Option (List Data)
  | [] => some []
  | .data d :: os => (datas os).map (d :: ·)
  | .ref _ :: _ => none

/-- One instruction. -/
def exec (P : Prog) (F : MFun) (c : Cfg) : Bc → Option Act
  | .ldTrue => some (.next (c.push (.num ⟨.bool, 1⟩) c.stack))
  | .ldFalse => some (.next (c.push (.num ⟨.bool, 0⟩) c.stack))
  | .ldInt t n => if n < 2 ^ t.bits then some (.next (c.push (.num ⟨.int t, n⟩) c.stack)) else none
  | .ldConst i =>
    match (P.consts[i]?).bind Const.val with
    | some v => some (.next (c.push (.num v) c.stack))
    | none => none
  | .bin o =>
    match c.stack with
    | .data (.num y) :: .data (.num x) :: s => (o.eval x y).map (Ev.act c s)
    | y :: x :: s =>
      match o with
      | .eq => (eqOpd c.mem x y).map (fun b => .next (c.push (.num (bool (b = true))) s))
      | .neq => (eqOpd c.mem x y).map (fun b => .next (c.push (.num (bool (b ≠ true))) s))
      | _ => none
    | _ => none
  | .not =>
    match c.stack with
    | .data (.num x) :: s => if x.ty = .bool then some (.next (c.push (.num (bool (x.n = 0))) s)) else none
    | _ => none
  | .cast t =>
    match c.stack with
    | .data (.num x) :: s => (castEval t x).map (Ev.act c s)
    | _ => none
  | .copyLoc i =>
    match c.locals[i]? with
    | some (some (.box p)) =>
      match p.read c.mem with
      | some d => if F.localTy i = some d.ty then some (.next (c.push (.data d) c.stack)) else none
      | none => none
    | some (some (.ref r)) =>
      if F.localTy i = some (.ref r.m r.ty) then some (.next (c.push (.ref r) c.stack)) else none
    | _ => none
  | .moveLoc i =>
    match c.locals[i]? with
    | some (some (.box p)) =>
      match p.take c.mem with
      | some (d, M) =>
        if F.localTy i = some d.ty then
          some (.next ⟨c.pc + 1, c.locals.set i none, .data d :: c.stack, M⟩)
        else none
      | none => none
    | some (some (.ref r)) =>
      if F.localTy i = some (.ref r.m r.ty) then
        some (.next ⟨c.pc + 1, c.locals.set i none, .ref r :: c.stack, c.mem⟩)
      else none
    | _ => none
  | .stLoc i =>
    match c.stack with
    | v :: s =>
      if F.localTy i = some v.ty then
        match v with
        | .data d => some (.next ⟨c.pc + 1, c.locals.set i (some (.box (d.place c.mem).1)), s, (d.place c.mem).2⟩)
        | .ref r => some (.next ⟨c.pc + 1, c.locals.set i (some (.ref r)), s, c.mem⟩)
      else none
    | _ => none
  | .pop =>
    match c.stack with
    | _ :: s => some (.next { c.next with stack := s })
    | _ => none
  | .nop => some (.next c.next)
  | .pack id fs =>
    match datas (c.stack.take fs.length).reverse with
    | some ds =>
      if Data.tys ds = fs then some (.next (c.push (.data (.struct id ds)) (c.stack.drop fs.length))) else none
    | none => none
  | .unpack id fs =>
    match c.stack with
    | .data (.struct id' ds) :: s =>
      if id = id' ∧ Data.tys ds = fs then
        some (.next { c.next with stack := (ds.map Opd.data).reverse ++ s })
      else none
    | _ => none
  | .borrowLoc m i =>
    match c.locals[i]?, F.localTy i with
    | some (some (.box p)), some t => some (.next (c.push (.ref ⟨m, t, p⟩) c.stack))
    | _, _ => none
  | .borrowField m id fs k =>
    match c.stack with
    | .ref r :: s =>
      match r.place with
      | .node _ ps =>
        match ps[k]?, fs[k]? with
        | some p, some t =>
          if r.ty = .struct id fs ∧ (m = true → r.m = true) then
            some (.next (c.push (.ref ⟨m, t, p⟩) s))
          else none
        | _, _ => none
      | _ => none
    | _ => none
  | .readRef =>
    match c.stack with
    | .ref r :: s =>
      match r.place.read c.mem with
      | some d => if d.ty = r.ty then some (.next (c.push (.data d) s)) else none
      | none => none
    | _ => none
  | .writeRef =>
    match c.stack with
    | .ref r :: .data d :: s =>
      if r.m = true ∧ d.ty = r.ty then
        (r.place.write d c.mem).map (fun M => .next { c.next with stack := s, mem := M })
      else none
    | _ => none
  | .freeze =>
    match c.stack with
    | .ref r :: s => if r.m = true then some (.next (c.push (.ref { r with m := false }) s)) else none
    | _ => none
  | .call f =>
    match P.funs[f]? with
    | some G =>
      let args := (c.stack.take G.args.length).reverse
      if args.map (·.ty) = G.args then
        some (.call f args { c.next with stack := c.stack.drop G.args.length })
      else none
    | none => none
  | .query q =>
    if q.account then
      match c.stack with
      | .data (.num a) :: s =>
        if a.ty = .addr then (P.answer q a.n).map (fun n => .next (c.push (.num ⟨q.res, n⟩) s)) else none
      | _ => none
    else (P.answer q 0).map (fun n => .next (c.push (.num ⟨q.res, n⟩) c.stack))
  | .branch t => if c.stack = [] then some (.next { c with pc := t }) else none
  | .brTrue t =>
    match c.stack with
    | [.data (.num v)] =>
      if v.ty = .bool then some (.next { c with pc := if v.n = 1 then t else c.pc + 1, stack := [] })
      else none
    | _ => none
  | .brFalse t =>
    match c.stack with
    | [.data (.num v)] =>
      if v.ty = .bool then some (.next { c with pc := if v.n = 0 then t else c.pc + 1, stack := [] })
      else none
    | _ => none
  | .ret =>
    if c.stack.reverse.map (·.ty) = F.rets then some (.halt (.ret c.stack.reverse c.mem)) else none
  | .abort =>
    match c.stack with
    | .data (.num v) :: _ => if v.ty = .int (.reg .u64) then some (.halt (.abort v.n)) else none
    | _ => none

/-- One step.  A jump target is only reached with an empty operand stack (Move's bytecode verifier
checks that every block uses the stack in a balanced way). -/
def step (P : Prog) (F : MFun) (c : Cfg) : Option Act :=
  if F.isTarget c.pc ∧ c.stack ≠ [] then none
  else
    match F.code[c.pc]? with
    | some b => exec P F c b
    | none => none

/-- The arguments of a call as locals. -/
def bindArgs : List Opd → Mem → List (Option Loc) × Mem
  | [], M => ([], M)
  | .data d :: os, M =>
    (some (.box (d.place M).1) :: (bindArgs os (d.place M).2).1, (bindArgs os (d.place M).2).2)
  | .ref r :: os, M => (some (.ref r) :: (bindArgs os M).1, (bindArgs os M).2)

/-- The initial state of a call. -/
def MFun.start (F : MFun) (args : List Opd) (M : Mem) : Cfg :=
  ⟨0, (bindArgs args M).1 ++ F.locals.map (fun _ => none), [], (bindArgs args M).2⟩

/-- The work of a step: one, and one for every node of a value that is copied and every field of a
struct that is built. -/
def work (F : MFun) (c : Cfg) : Nat :=
  1 + match F.code[c.pc]? with
  | some (.copyLoc i) =>
    match c.locals[i]? with
    | some (some (.box p)) => ((p.read c.mem).map Data.count).getD 0
    | _ => 0
  | some .readRef =>
    match c.stack with
    | .ref r :: _ => ((r.place.read c.mem).map Data.count).getD 0
    | _ => 0
  | some (.pack _ fs) => fs.length
  | _ => 0

/-- From state `c` of function `F` the program ends with `h` after work `n` (that of called functions
included), and all states in which an instruction is executed satisfy `A`. -/
inductive Runs (P : Prog) (A : MFun → Cfg → Prop) : MFun → Cfg → Nat → Halt → Prop
  | next {F c c' n h} : A F c → step P F c = some (.next c') → Runs P A F c' n h →
      Runs P A F c (n + work F c) h
  | halt {F c h} : A F c → step P F c = some (.halt h) → Runs P A F c (work F c) h
  | call {F c f G args c' m vs M n h} : A F c → step P F c = some (.call f args c') →
      P.funs[f]? = some G → Runs P A G (G.start args c.mem) m (.ret vs M) →
      Runs P A F { c' with stack := vs.reverse ++ c'.stack, mem := M } n h → Runs P A F c (n + m + 1) h
  | callHalt {F c f G args c' m h} : A F c → step P F c = some (.call f args c') →
      P.funs[f]? = some G → Runs P A G (G.start args c.mem) m h → (∀ vs M, h ≠ .ret vs M) →
      Runs P A F c (m + 1) h

end Move
