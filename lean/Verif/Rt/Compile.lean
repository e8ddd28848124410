import Verif.Move
import Verif.Rt.HeapDiv
import Verif.Rt.HeapShift
import Verif.Rt.Equality
import Verif.Rt.Vector
import Verif.Rt.Natives

/-!
# The translation of Move functions to WebAssembly

Transcription of `translation.rs` (function prologue, control flow, instructions on booleans,
integers, addresses, structs and references, calls, aborts), of `translation/flow.rs`,
`translation/functions.rs`, `translation/bytecodes/structs.rs` and of the code for locals in
`translation/intermediate_types.rs` (all under `crates/move-bytecode-to-wasm/src`).

Simplifications: structs are those without the `key` ability (no owner in front, no `UID` or
`NamedId` field) and without type parameters; functions are called directly instead of through the function table, and a function
may only call functions compiled before it (no recursion); the locals of a WebAssembly function are
numbered in the order in which the code requests them; the relooper (an external crate) is not
modelled, its result is an input (`Flow`); `Flow::Switch` only arises from matches on enums and is
left out.
-/

namespace Move
open Wasm Rt

/-- `wasm_memory_data_size` (intermediate_types.rs 120-145). -/
def STy.size : STy → Nat
  | .bool => 1
  | .int (.reg .u8) => 1
  | .int (.reg .u16) => 2
  | .int (.reg .u64) => 8
  | _ => 4

/-- `is_stack_type` (intermediate_types.rs 949-969). -/
def STy.isReg : STy → Bool
  | .bool => true
  | .int (.reg _) => true
  | _ => false

/-- Bytes of a value kept on the heap (`HEAP_SIZE`). -/
def STy.heapSize : STy → Nat
  | .int .u128 => 16
  | _ => 32

/-- The types of the module `Verif.Rt.Values`. -/
def STy.mv : STy → Mv.Ty
  | .bool => .bool
  | .int (.reg .u8) => .u8
  | .int (.reg .u16) => .u16
  | .int (.reg .u32) => .u32
  | .int (.reg .u64) => .u64
  | .int .u128 => .u128
  | .int .u256 => .u256
  | .addr => .address

mutual
def Ty.mv : Ty → Mv.Ty
  | .sc t => t.mv
  | .struct _ fs => .struct (Ty.mvs fs)
  | .ref _ _ => .u32
def Ty.mvs : List Ty → List Mv.Ty
  | [] => []
  | t :: ts => t.mv :: Ty.mvs ts
end

/-- `wasm_memory_data_size` (intermediate_types.rs 120-145). -/
def Ty.size : Ty → Nat
  | .sc t => t.size
  | _ => 4

/-- `is_stack_type` (intermediate_types.rs 949-969). -/
def Ty.isReg : Ty → Bool
  | .sc t => t.isReg
  | _ => false

/-- The type is a reference. -/
def Ty.isRef : Ty → Bool
  | .ref _ _ => true
  | _ => false

/-- How the relooper says a jump is to be made (`BranchMode` of the relooper crate; the variants
`…IntoMulti` are treated as their base variants by `ControlTargets::resolve`, translation.rs
148-168). -/
inductive Mode | merged | loopBreak (id : Nat) | loopContinue (id : Nat) | other
  deriving DecidableEq, Repr

/-- `Flow` (translation/flow.rs 9-29) without `Switch`.  A `Simple` flow is the block of the `len`
instructions from `label` on. -/
inductive Flow
  | simple (label len : Nat) (branches : List (Nat × Mode)) (immediate next : Flow)
  | loop (id : Nat) (inner next : Flow)
  | ifElse (thn els : Flow)
  | empty
  deriving DecidableEq, Repr

/-- What the relooper returns (`ShapedBlock` of the relooper crate). -/
inductive Shape
  | simple (label : Nat) (immediate next : Option Shape) (branches : List (Nat × Mode))
  | loop (id : Nat) (inner : Shape) (next : Option Shape)
  | multiple1 (a : Shape)
  | multiple2 (a b : Shape)

/-- `Flow::build` (translation/flow.rs 66-150); `len` gives the length of the basic block at a
label. -/
def Flow.build (len : Nat → Nat) : Shape → Flow
  | .simple l im nx br => .simple l (len l) br
      (match im with | some s => Flow.build len s | none => .empty)
      (match nx with | some s => Flow.build len s | none => .empty)
  | .loop id inner nx => .loop id (Flow.build len inner)
      (match nx with | some s => Flow.build len s | none => .empty)
  | .multiple1 a => Flow.build len a
  | .multiple2 a b => .ifElse (Flow.build len a) (Flow.build len b)

/-- An enclosing WebAssembly block, as `ControlTargets` knows it (translation.rs 75-100): the block of
a `Simple` flow with the label of the flow after it, the block around a loop, a loop, the two blocks
of an `IfElse`, the block around the function. -/
inductive Tgt | simple (next : Option Nat) | brk (id : Nat) | cont (id : Nat) | plain | result
  deriving DecidableEq, Repr

/-- Branch depth of the nearest enclosing block that is `t`. -/
def depth (t : Tgt) (ts : List Tgt) : Option Nat := ts.findIdx? (· = t)

/-- `ControlTargets::resolve` (translation.rs 148-168), given the enclosing blocks, innermost first.
(Loop ids are unique, so the maps of the code hold the enclosing loops.) -/
def resolve (ts : List Tgt) (m : Mode) (label : Nat) : Option Nat :=
  match m with
  | .merged => depth (.simple (some label)) ts
  | .loopBreak id => (depth (.simple (some label)) ts).or (depth (.brk id) ts)
  | .loopContinue id => depth (.cont id) ts
  | .other => none

/-- State of the translation of a function: the next fresh local, the types stack (top first) and
`clever_error` (translation.rs 176-193). -/
structure CG where
  next : Nat
  tys : List Ty
  clever : Option Nat

/-- What does not change during the translation of a function: the constants, the functions compiled
before, the function, the WebAssembly locals of its Move locals, and the result local. -/
structure Ctx where
  E : ErrPtrs
  consts : List Const
  tbl : List (MFun × Fn)
  F : MFun
  map : List Nat
  res : Nat

/-- Return type of the compiled function: a pointer to the tuple of results
(`get_return_wasm_types`, translation/functions.rs 73-80). -/
def MFun.retTy (F : MFun) : RetTy := if F.rets = [] then .none else .i32

def Ctx.ty (x : Ctx) : RetTy := x.F.retTy

/-- `Bytecode::{Add, Sub, Mul, Div, Mod}` (translation.rs 2008-2227, 2457-2493): dispatch on the type. -/
def arithCode (E : ErrPtrs) (ty : RetTy) (o : ArithOp) (t : IntTy) : List Instr :=
  match t with
  | .reg r =>
    match o with
    | .add => intAdd E r ty | .sub => intSub E r ty | .mul => intMul E r ty
    | .div => intDiv r | .rem => intRem r
  | .u128 =>
    match o with
    | .add => hintAdd E .u128 ty | .sub => hintSub E .u128 ty | .mul => hintMul E .u128 ty
    | .div => hintDiv E .u128 ty | .rem => hintRem E .u128 ty
  | .u256 =>
    match o with
    | .add => hintAdd E .u256 ty | .sub => hintSub E .u256 ty | .mul => hintMul E .u256 ty
    | .div => hintDiv E .u256 ty | .rem => hintRem E .u256 ty

/-- `Bytecode::{BitOr, BitAnd, Xor}` (translation.rs 2544-2605, 2658-2688); second component: number
of fresh locals. -/
def bitCode (o : BitOp) (t : IntTy) (l : Nat) : List Instr × Nat :=
  match t with
  | .reg r => (intBitwise o r, 0)
  | .u128 => (hintBitwise o .u128 l, 3)
  | .u256 => (hintBitwise o .u256 l, 3)

/-- `Bytecode::{Shl, Shr}` (translation.rs 2689-2790). -/
def shlCode (E : ErrPtrs) (ty : RetTy) : IntTy → List Instr
  | .reg r => intShl E r ty
  | .u128 => hintShl E .u128 ty
  | .u256 => hintShl E .u256 ty

def shrCode (E : ErrPtrs) (ty : RetTy) : IntTy → List Instr
  | .reg r => intShr E r ty
  | .u128 => hintShr E .u128 ty
  | .u256 => hintShr E .u256 ty

/-- `Bytecode::{Lt, Le, Gt, Ge}` (translation.rs 2228-2456). -/
def cmpCode (o : CmpOp) (t : IntTy) (l : Nat) : List Instr × Nat :=
  match t with
  | .reg r => (intCmp o r, 0)
  | .u128 => (hintCmp o .u128 l, 2)
  | .u256 => (hintCmp o .u256 l, 2)

/-- `load_equality_instructions` (intermediate_types.rs 790-806). -/
def eqCode : STy → List Instr
  | .bool => code[Op.bin .w32 .eq]
  | .int (.reg r) => code[Op.bin r.w .eq]
  | .int .u128 => code[Op.c32 16, heapEq.call]
  | .int .u256 => code[Op.c32 32, heapEq.call]
  | .addr => code[Op.c32 32, heapEq.call]

/-- Binary operators on operands of types `s` and `t` (`t` is on top): code, result type, number of
fresh locals. -/
def binCode (E : ErrPtrs) (ty : RetTy) (l : Nat) (o : BOp) (s t : STy) : Option (List Instr × STy × Nat) :=
  match o with
  | .arith o =>
    match s with
    | .int u => if t = .int u then some (arithCode E ty o u, s, 0) else none
    | _ => none
  | .bit o =>
    match s with
    | .int u => if t = .int u then some ((bitCode o u l).1, s, (bitCode o u l).2) else none
    | _ => none
  | .shl =>
    match s with
    | .int u => if t = .int (.reg .u8) then some (shlCode E ty u, s, 0) else none
    | _ => none
  | .shr =>
    match s with
    | .int u => if t = .int (.reg .u8) then some (shrCode E ty u, s, 0) else none
    | _ => none
  | .cmp o =>
    match s with
    | .int u => if t = .int u then some ((cmpCode o u l).1, .bool, (cmpCode o u l).2) else none
    | _ => none
  | .eq => if s = t then some (eqCode s, .bool, 0) else none
  | .neq => if s = t then some (eqCode s ++ negate, .bool, 0) else none
  | .and => if s = .bool ∧ t = .bool then some (code[Op.bin .w32 .and], .bool, 0) else none
  | .or => if s = .bool ∧ t = .bool then some (code[Op.bin .w32 .or], .bool, 0) else none

/-- `Bytecode::{CastU8, …, CastU256}` (translation.rs 1943-2003). -/
def castCode (E : ErrPtrs) (ty : RetTy) (l : Nat) (dst src : IntTy) : List Instr × Nat :=
  match dst with
  | .reg r => (intCast E r src ty, 0)
  | .u128 => (hintCast E .u128 src l, 4)
  | .u256 => (hintCast E .u256 src l, 2)

/-- `box_local_instructions` (intermediate_types.rs 709-784) into local `dst`, with the fresh locals
from `l` on. -/
def boxCode (t : Ty) (dst l : Nat) : List Instr × Nat :=
  if t.isReg then
    (code[Op.lset l, Op.c32 4, alloc.call, Op.ltee dst, Op.c32 t.size, alloc.call, Op.ltee (l + 1),
      Op.store 4 0, Op.lget (l + 1), Op.lget l, Op.store t.size 0], 2)
  else
    (code[Op.lset l, Op.c32 4, alloc.call, Op.ltee dst, Op.lget l, Op.store 4 0], 1)

/-- `move_local_instructions` (intermediate_types.rs 322-369). -/
def moveCode (t : Ty) (src : Nat) : List Instr :=
  code[Op.lget src] ++ if t.isRef then [] else
    code[Op.load 4 0] ++ if t.isReg then code[Op.load t.size 0] else []

/-- Copy of the value whose middle pointer is on the stack, with the fresh locals from `l` on
(`copy_local_instructions`, intermediate_types.rs 396-462, and `add_read_ref_instructions`, 512-571). -/
def loadCopy (E : ErrPtrs) (t : Ty) (l : Nat) : List Instr :=
  if t.isReg then code[Op.load t.size 0] else copyP E t.mv l

/-- `copy_local_instructions` (intermediate_types.rs 371-467); second component: number of fresh
locals. -/
def copyCode (E : ErrPtrs) (t : Ty) (src l : Nat) : List Instr × Nat :=
  if t.isRef then (code[Op.lget src], 0)
  else (code[Op.lget src, Op.load 4 0] ++ loadCopy E t l, nlP t.mv)

/-- The fields of `pack` (translation/bytecodes/structs.rs 86-166), last field first: `p` the pointer,
`p + 1` ptr_to_data, `l` the next fresh local, `off` the offset of the field. -/
def packFields : List Ty → Nat → Nat → Nat → List Instr
  | [], _, _, _ => []
  | t :: ts, p, l, n =>
    (if t.isReg then code[Op.lset l, Op.c32 t.size, alloc.call, Op.ltee (p + 1), Op.lget l,
        Op.store t.size 0]
      else code[Op.lset (p + 1)]) ++
    code[Op.lget p, Op.lget (p + 1), Op.store 4 (4 * (n - 1))] ++
    packFields ts p (if t.isReg then l + 1 else l) (n - 1)

/-- `pack` (translation/bytecodes/structs.rs 58-169): `l` the pointer, `l + 1` ptr_to_data, then one
local for every field that is a number.  (`packLocals` is an upper bound.) -/
def packCode (fs : List Ty) (l : Nat) : List Instr :=
  code[Op.c32 (4 * fs.length), alloc.call, Op.lset l] ++
    packFields fs.reverse l (l + 2) fs.length ++ code[Op.lget l]

def packLocals (fs : List Ty) : Nat := 2 + fs.length

/-- `unpack_fields` (translation/bytecodes/structs.rs 204-…). -/
def unpackFields : List Ty → Nat → Nat → List Instr
  | [], _, _ => []
  | t :: ts, p, off =>
    code[Op.lget p, Op.load 4 off] ++ (if t.isReg then code[Op.load t.size 0] else []) ++
      unpackFields ts p (off + 4)

/-- `unpack` (translation/bytecodes/structs.rs 174-198). -/
def unpackCode (fs : List Ty) (l : Nat) : List Instr := code[Op.lset l] ++ unpackFields fs l 0

/-- `borrow_field` (translation/bytecodes/structs.rs 20-52). -/
def borrowFieldCode (k : Nat) : List Instr := code[Op.load 4 0, Op.c32 (4 * k), Op.bin .w32 .add]

/-- `load_equality_instructions` (intermediate_types.rs 786-933): code and number of fresh locals. -/
def eqTy (E : ErrPtrs) (t : Ty) (l : Nat) : Option (List Instr × Nat) :=
  match t with
  | .ref _ (.ref _ _) => none
  | .ref _ u => some (code[Op.load 4 0, Op.lset l, Op.load 4 0, Op.lset (l + 1),
      Op.lget l] ++ (if u.isReg then code[Op.load u.size 0] else []) ++
      code[Op.lget (l + 1)] ++ (if u.isReg then code[Op.load u.size 0] else []) ++
      eqP E u.mv (l + 2), 2 + nlE u.mv)
  | t => some (eqP E t.mv l, nlE t.mv)

/-- `load_constant_instructions` (intermediate_types.rs 227-318, simple_integers.rs, boolean.rs,
heap_integers.rs 75-114 and 467-506, address.rs 19-63) and the literals of translation.rs 585-644,
for the value `v`: code and number of fresh locals.  Address constants above 2^160 are rejected.
(A pool constant that is too short is not a constant in Move; the code would fill it up with
zeros.) -/
def constCode (v : MVal) (bytes : Nat) (l : Nat) : Option (List Instr × Nat) :=
  match v.ty with
  | .bool => some (code[Op.c32 v.n], 0)
  | .int (.reg .u64) => some (code[Op.c64 v.n], 0)
  | .int (.reg _) => some (code[Op.c32 v.n], 0)
  | .int .u128 => some (hintConst .u128 v.n l, 1)
  | .int .u256 => some (hintConst .u256 v.n l, 1)
  | .addr => if v.n < 2 ^ 160 then some (hintConst .u256 bytes l, 1) else none

/-- Values popped from the operand stack into fresh locals (last value first) when returning
(translation/functions.rs 202-210). -/
def popCode (n l : Nat) : List Instr := (List.range n).map (fun i => (Op.lset (l + i) : Instr))

/-- The stores of `prepare_function_return` (translation/functions.rs 215-226): value `i` of `n` is in
local `l + (n - 1 - i)`. -/
def storeRets (res l : Nat) : List Ty → Nat → List Instr
  | [], _ => []
  | t :: ts, off => code[Op.lget res, Op.lget (l + ts.length), Op.store t.size off] ++
      storeRets res l ts (off + t.size)

def tupleSize (ts : List Ty) : Nat := (ts.map Ty.size).sum

/-- `prepare_function_return` (translation/functions.rs 192-228); `d` is the depth of the result
block. -/
def retCode (rets : List Ty) (res d l : Nat) : List Instr :=
  (if rets = [] then [] else
    popCode rets.length l ++ code[Op.c32 (tupleSize rets), alloc.call, Op.lset res] ++
      storeRets res l rets 0) ++ code[.br d]

/-- The loads of `add_unpack_function_return_values_instructions`
(translation/functions.rs 172-186). -/
def loadRets (l : Nat) : List Ty → Nat → List Instr
  | [], _ => []
  | t :: ts, off => code[Op.lget l, Op.load t.size off] ++ loadRets l ts (off + t.size)

/-- The first half of `prepare_function_arguments` (translation/functions.rs 264-294), for the
arguments last to first: references are replaced by the pointers they point to. -/
def spillArgs : List Ty → Nat → List Instr
  | [], _ => []
  | t :: ts, l => (if t.isRef then code[Op.load 4 0] else []) ++ code[Op.lset l] ++ spillArgs ts (l + 1)

/-- The second half (translation/functions.rs 296-299). -/
def unspill : Nat → Nat → List Instr
  | 0, _ => []
  | n + 1, l => (Op.lget (l + n) : Instr) :: unspill n l

/-- `prepare_function_arguments` (translation/functions.rs 238-303), with the fresh locals from `l`
on. -/
def prepArgs (args : List Ty) (l : Nat) : List Instr × Nat :=
  if args.any Ty.isRef then (spillArgs args.reverse l ++ unspill args.length l, args.length) else ([], 0)

/-- `call_indirect` (translation.rs 3267-3290): call, error propagation, unpacking of the results. -/
def callCode (ty : RetTy) (f : Fn) (rets : List Ty) (l : Nat) : List Instr :=
  code[f.call, propagate ty] ++
    if rets = [] then [] else code[Op.lset l] ++ loadRets l rets 0

/-- The message of a clever error: the constant must be `[length][bytes]`, with as many bytes as
announced (`build_abort_error_message_from_constant`, abi_types/error_encoding.rs 355-380). -/
def cleverMsg (data : List UInt8) : Option (List UInt8) :=
  match data with
  | [] => none
  | b :: bs => if bs.length = b.toNat then some bs else none

/-- `Bytecode::Abort` (translation.rs 2606-2657); the fresh locals start at `l`. -/
def abortCode (consts : List Const) (clever : Option Nat) (l : Nat) : Option (List Instr × Nat) :=
  match clever with
  | some e =>
    match (consts[e % 65536]?).bind (fun c => cleverMsg c.data) with
    | some msg => some (code[Op.c64 e, Op.bin .w64 .eq, .ite 0 code[] code[Op.unreachable]] ++
        abortMessageConst msg l ++ abortEnd (l + 1), 4)
    | none => none
  | none => some (abortMessage l ++ abortEnd (l + 2), 5)

/-- Calls of the native functions of `stylus::tx_context` and `stylus::account`: functions of the contract
(native_functions/transaction.rs, native_functions/account.rs) or, for numbers of 64 bits, host functions
called directly (native_functions.rs 770-784).  None of them is fallible (`is_fallible`, 845-871). -/
def queryCode : Query → List Instr
  | .sender => code[nativeSender.call]
  | .value => code[nativeValue.call]
  | .number => code[Op.host .blockNumber]
  | .timestamp => code[Op.host .timestamp]
  | .gasLimit => code[Op.host .gasLimit]
  | .chainId => code[Op.host .chainId]
  | .baseFee => code[nativeBaseFee.call]
  | .gasPrice => code[nativeGasPrice.call]
  | .balance => code[nativeBalance.call]
  | .codeSize => code[nativeCodeSize.call]

def CG.push (g : CG) (t : Ty) (ts : List Ty) (n : Nat) : CG := ⟨g.next + n, t :: ts, none⟩

/-- `translate_instruction` (translation.rs 533-3262) for the instructions that do not jump. -/
def trOp (x : Ctx) (g : CG) : Bc → Option (List Instr × CG)
  | .ldTrue => some (code[Op.c32 1], g.push (.sc .bool) g.tys 0)
  | .ldFalse => some (code[Op.c32 0], g.push (.sc .bool) g.tys 0)
  | .ldInt t n =>
    match constCode ⟨.int t, n⟩ n g.next with
    | some (is, k) => some (is, { g.push (.sc (.int t)) g.tys k with
        clever := if t = .reg .u64 ∧ n / 2 ^ 48 = 0x8000 ∧ n % 65536 < x.consts.length then some n
          else none })
    | none => none
  | .ldConst i =>
    match x.consts[i]? with
    | some c =>
      match c.val with
      | some v =>
        match constCode v (leBytes c.data) g.next with
        | some (is, k) => some (is, g.push (.sc v.ty) g.tys k)
        | none => none
      | none => none
    | none => none
  | .bin o =>
    match g.tys with
    | .sc t :: .sc s :: ts =>
      match binCode x.E x.ty g.next o s t with
      | some (is, r, k) => some (is, g.push (.sc r) ts k)
      | none => none
    | t :: s :: ts =>
      if s = t then
        match o, eqTy x.E t g.next with
        | .eq, some (is, k) => some (is, g.push (.sc .bool) ts k)
        | .neq, some (is, k) => some (is ++ negate, g.push (.sc .bool) ts k)
        | _, _ => none
      else none
    | _ => none
  | .not =>
    match g.tys with
    | .sc .bool :: ts => some (code[Op.un .eqz], g.push (.sc .bool) ts 0)
    | _ => none
  | .cast t =>
    match g.tys with
    | .sc (.int s) :: ts =>
      some ((castCode x.E x.ty g.next t s).1, g.push (.sc (.int t)) ts (castCode x.E x.ty g.next t s).2)
    | _ => none
  | .copyLoc i =>
    match x.F.localTy i, x.map[i]? with
    | some t, some p => some ((copyCode x.E t p g.next).1, g.push t g.tys (copyCode x.E t p g.next).2)
    | _, _ => none
  | .moveLoc i =>
    match x.F.localTy i, x.map[i]? with
    | some t, some p => some (moveCode t p, g.push t g.tys 0)
    | _, _ => none
  | .stLoc i =>
    match x.F.localTy i, x.map[i]?, g.tys with
    | some t, some p, s :: ts =>
      if s = t then
        if t.isRef then some (code[Op.lset p], ⟨g.next, ts, none⟩)
        else some ((boxCode t p g.next).1, ⟨g.next + (boxCode t p g.next).2, ts, none⟩)
      else none
    | _, _, _ => none
  | .pop =>
    match g.tys with
    | _ :: ts => some (code[Op.drop], { g with tys := ts, clever := none })
    | _ => none
  | .nop => some ([], { g with clever := none })
  | .pack id fs =>
    if g.tys.take fs.length = fs.reverse ∧ fs.all (fun t => !t.isRef) then
      some (packCode fs g.next, g.push (.struct id fs) (g.tys.drop fs.length) (packLocals fs))
    else none
  | .unpack id fs =>
    match g.tys with
    | t :: ts =>
      if t = .struct id fs ∧ fs.all (fun t => !t.isRef) then
        some (unpackCode fs g.next, ⟨g.next + 1, fs.reverse ++ ts, none⟩)
      else none
    | _ => none
  | .borrowLoc m i =>
    match x.F.localTy i, x.map[i]? with
    | some t, some p => some (code[Op.lget p], g.push (.ref m t) g.tys 0)
    | _, _ => none
  | .borrowField m id fs k =>
    match g.tys, fs[k]? with
    | .ref n s :: ts, some t =>
      if s = .struct id fs ∧ (m = true → n = true) then
        some (borrowFieldCode k, g.push (.ref m t) ts 0)
      else none
    | _, _ => none
  | .readRef =>
    match g.tys with
    | .ref _ t :: ts =>
      if t.isRef then none
      else some (code[Op.load 4 0] ++ loadCopy x.E t g.next, g.push t ts (nlP t.mv))
    | _ => none
  | .writeRef =>
    match g.tys with
    | .ref m t :: s :: ts =>
      if m = true ∧ s = t ∧ t.isRef = false then some (writeRef t.mv g.next, ⟨g.next + 2, ts, none⟩)
      else none
    | _ => none
  | .freeze =>
    match g.tys with
    | .ref m t :: ts => if m = true then some ([], g.push (.ref false t) ts 0) else none
    | _ => none
  | .call f =>
    match x.tbl[f]? with
    | some (G, fn) =>
      if g.tys.take G.args.length = G.args.reverse then
        some ((prepArgs G.args g.next).1 ++ callCode x.ty fn G.rets (g.next + (prepArgs G.args g.next).2),
          ⟨g.next + (prepArgs G.args g.next).2 + 1, G.rets.reverse ++ g.tys.drop G.args.length, none⟩)
      else none
    | none => none
  | .query q =>
    if q.account then
      match g.tys with
      | .sc .addr :: ts => some (queryCode q, g.push (.sc q.res) ts 0)
      | _ => none
    else some (queryCode q, g.push (.sc q.res) g.tys 0)
  | _ => none

/-- `translate_instruction` (translation.rs 533-3262); `ts` are the enclosing blocks, `br` the branches
of the `Simple` flow. -/
def trInstr (x : Ctx) (ts : List Tgt) (br : List (Nat × Mode)) (b : Bc) (g : CG) :
    Option (List Instr × CG) :=
  match b with
  | .branch t =>
    match br.lookup t with
    | some m => (resolve ts m t).map (fun d => (code[.br d], { g with clever := none }))
    | none => some ([], { g with clever := none })
  | .brTrue t =>
    match br.lookup t with
    | some m => (resolve ts m t).map (fun d => (code[.brIf d], { g with clever := none }))
    | none => some ([], { g with clever := none })
  | .brFalse t =>
    match br.lookup t with
    | some m => (resolve ts m t).map (fun d => (code[Op.un .eqz, .brIf d], { g with clever := none }))
    | none => some ([], { g with clever := none })
  | .ret =>
    match depth .result ts with
    | some d =>
      if g.tys.take x.F.rets.length = x.F.rets.reverse then
        some (retCode x.F.rets x.res d g.next, ⟨g.next + x.F.rets.length, g.tys, none⟩)
      else none
    | none => none
  | .abort =>
    match g.tys with
    | .sc (.int (.reg .u64)) :: tys =>
      match abortCode x.consts g.clever g.next with
      | some (is, k) => some (is, ⟨g.next + k, tys, none⟩)
      | none => none
    | _ => none
  | b => trOp x g b

/-- The instructions of a block, one after the other (translation.rs 340-356). -/
def trBlock (x : Ctx) (ts : List Tgt) (br : List (Nat × Mode)) : List Bc → CG →
    Option (List Instr × CG)
  | [], g => some ([], g)
  | b :: bs, g =>
    match trInstr x ts br b g with
    | some (is, g1) =>
      match trBlock x ts br bs g1 with
      | some (js, g2) => some (is ++ js, g2)
      | none => none
    | none => none

def Flow.label? : Flow → Option Nat
  | .simple l _ _ _ _ => some l
  | _ => none

/-- `translate_flow` (translation.rs 313-530), without `Switch`. -/
def trFlow (x : Ctx) : List Tgt → Flow → CG → Option (List Instr × CG)
  | ts, .simple label len br im nx, g =>
    match trBlock x (.simple nx.label? :: ts) br ((x.F.code.drop label).take len) g with
    | some (is, g1) =>
      match trFlow x (.simple nx.label? :: ts) im g1 with
      | some (js, g2) =>
        match trFlow x ts nx g2 with
        | some (ks, g3) => some (.block 0 (is ++ js) :: ks, g3)
        | none => none
      | none => none
    | none => none
  | ts, .loop id inner nx, g =>
    match trFlow x (.cont id :: .brk id :: ts) inner g with
    | some (is, g1) =>
      match trFlow x ts nx g1 with
      | some (js, g2) => some (.block 0 [.loop 0 is] :: js, g2)
      | none => none
    | none => none
  | ts, .ifElse thn els, g =>
    match trFlow x (.plain :: .plain :: ts) els { g with next := g.next + 1 } with
    | some (is, g1) =>
      match trFlow x (.plain :: ts) thn g1 with
      | some (js, g2) =>
        some (code[Op.lset g.next,
          .block 0 (.block 0 (code[Op.lget g.next, .brIf 0] ++ is ++ code[.br 1]) :: js)], g2)
      | none => none
    | none => none
  | _, .empty, g => some ([], g)

/-- `box_args` (translation.rs 3332-3370): code, the locals of the arguments, next fresh local. -/
def boxArgs : List Ty → Nat → Nat → List Instr × List Nat × Nat
  | [], _, l => ([], [], l)
  | t :: ts, i, l =>
    if t = .sc (.int (.reg .u64)) then
      let r := boxArgs ts (i + 1) (l + 1 + (boxCode t l (l + 1)).2)
      ((Op.lget i : Instr) :: (boxCode t l (l + 1)).1 ++ r.1, l :: r.2.1, r.2.2)
    else
      let r := boxArgs ts (i + 1) (l + (boxCode t i l).2)
      ((Op.lget i : Instr) :: (boxCode t i l).1 ++ r.1, i :: r.2.1, r.2.2)

/-- `translate_function` (translation.rs 200-305). -/
def compileFun (E : ErrPtrs) (consts : List Const) (tbl : List (MFun × Fn)) (F : MFun) (flow : Flow) :
    Option Fn :=
  let na := F.args.length
  let nm := na + F.locals.length
  let ba := boxArgs F.args 0 nm
  let map := ba.2.1 ++ (List.range F.locals.length).map (na + ·)
  let res := ba.2.2
  match trFlow ⟨E, consts, tbl, F, map, res⟩ [.result] flow ⟨res + 1, [], none⟩ with
  | some (is, g) => some ⟨na, F.retTy.nr, g.next - na,
      ba.1 ++ code[.block 0 is] ++ if F.rets = [] then [] else code[Op.lget res]⟩
  | none => none

/-- The functions of a module, each compiled with those before it at hand. -/
def compileFuns (E : ErrPtrs) (consts : List Const) :
    List (MFun × Flow) → List (MFun × Fn) → Option (List (MFun × Fn))
  | [], tbl => some tbl
  | (F, flow) :: fs, tbl =>
    match compileFun E consts tbl F flow with
    | some fn => compileFuns E consts fs (tbl ++ [(F, fn)])
    | none => none

def compileProg (E : ErrPtrs) (P : Prog) (flows : List Flow) : Option (List (MFun × Fn)) :=
  if flows.length = P.funs.length then compileFuns E P.consts (P.funs.zip flows) [] else none

end Move
