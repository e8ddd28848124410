import Verif.Rt.Heap
import Verif.Rt.Ints

/-!
# u128 and u256

Transcription of the heap parts of `runtime/integers/{add,sub,mul,div,bitwise}.rs` and of
`translation/intermediate_types/heap_integers.rs`
(all under `crates/move-bytecode-to-wasm/src`).
-/

namespace Rt
open Wasm

variable (E : ErrPtrs)

/-- `heap_integers_add` (runtime/integers/add.rs 23-193).
Locals: n1_ptr, n2_ptr, pointer, type_heap_size; 4 offset, 5 overflowed, 6 partial_sum, 7 n1,
8 n2, 9 error tmp. -/
def heapAdd : Fn := ⟨4, 1, 6,
  code[Op.c32 0, Op.lset 4, Op.c32 0, Op.lset 5,
   .block 0
     code[.loop 0
       code[Op.lget 4, Op.lget 3, Op.bin .w32 .eq, .brIf 1,
        Op.lget 0, Op.lget 4, Op.bin .w32 .add, Op.load 8 0, Op.ltee 7,
        Op.lget 1, Op.lget 4, Op.bin .w32 .add, Op.load 8 0, Op.ltee 8,
        Op.bin .w64 .add, Op.lget 5, Op.un .extend, Op.bin .w64 .add, Op.lset 6,
        Op.lget 2, Op.lget 4, Op.bin .w32 .add, Op.lget 6, Op.store 8 0,
        Op.lget 7, Op.c64 0, Op.bin .w64 .ne, Op.lget 8, Op.c64 0, Op.bin .w64 .ne,
        Op.bin .w32 .and, Op.lget 5, Op.un .extend, Op.c64 0, Op.bin .w64 .ne, Op.bin .w32 .or,
        Op.lget 6, Op.lget 7, Op.bin .w64 .leU, Op.lget 6, Op.lget 8, Op.bin .w64 .leU,
        Op.bin .w32 .or, Op.bin .w32 .and, Op.lset 5,
        Op.lget 4, Op.c32 8, Op.bin .w32 .add, Op.lset 4, .br 0]],
   Op.lget 5, Op.c32 1, Op.bin .w32 .eq,
   .ite 1 (returnError (E .overflow) .i32 9) code[Op.lget 2]]⟩

/-- `heap_integers_sub` (runtime/integers/sub.rs 23-193).
Locals: n1_ptr, n2_ptr, pointer, type_heap_size; 4 offset, 5 borrow, 6 sum, 7 partial_sub, 8 n1,
9 n2, 10 error tmp. -/
def heapSub : Fn := ⟨4, 1, 7,
  code[Op.c64 0, Op.lset 5, Op.c32 0, Op.lset 4,
   .block 0
     code[.loop 0
       code[Op.lget 4, Op.lget 3, Op.bin .w32 .eq, .brIf 1,
        Op.lget 0, Op.lget 4, Op.bin .w32 .add, Op.load 8 0, Op.lset 8,
        Op.lget 1, Op.lget 4, Op.bin .w32 .add, Op.load 8 0, Op.lset 9,
        Op.lget 8, Op.lget 5, Op.bin .w64 .sub, Op.lget 9, Op.bin .w64 .sub, Op.ltee 7, Op.lset 7,
        Op.lget 2, Op.lget 4, Op.bin .w32 .add, Op.lget 7, Op.store 8 0,
        Op.lget 9, Op.lget 5, Op.bin .w64 .add, Op.lset 6,
        Op.lget 8, Op.lget 6, Op.bin .w64 .ltU, Op.lget 6, Op.lget 9, Op.bin .w64 .ltU,
        Op.bin .w32 .or, Op.un .extend, Op.lset 5,
        Op.lget 4, Op.c32 8, Op.bin .w32 .add, Op.lset 4, .br 0]],
   Op.lget 5, Op.c64 1, Op.bin .w64 .eq,
   .ite 1 (returnError (E .overflow) .i32 10) code[Op.lget 2]]⟩

/-- `heap_integers_mul` (runtime/integers/mul.rs 61-307).
Locals: a_ptr, b_ptr, type_heap_size; 3 pointer, 4 a, 5 b, 6 a_offset, 7 b_offset, 8 carry_mul,
9 carry_sum, 10 partial_mul_res, 11 partial_sum_res, 12 error tmp. -/
def heapMul : Fn := ⟨3, 1, 10,
  code[Op.lget 2, alloc.call, Op.lset 3,
   .block 0
     code[.loop 0
       code[Op.lget 7, Op.lget 2, Op.bin .w32 .eq, .brIf 1,
        Op.c32 0, Op.lset 6, Op.c64 0, Op.lset 11, Op.c64 0, Op.lset 10, Op.c64 0, Op.lset 9,
        Op.c64 0, Op.lset 8,
        Op.lget 1, Op.lget 7, Op.bin .w32 .add, Op.load 4 0, Op.un .extend, Op.lset 5,
        .block 0
          code[.loop 0
            code[Op.lget 6, Op.lget 7, Op.bin .w32 .add, Op.lget 2, Op.bin .w32 .eq,
             .ite 0
               code[Op.lget 8, Op.c64 0, Op.bin .w64 .ne,
                .ite 0 (returnError (E .overflow) .i32 12) code[.br 3]]
               code[],
             Op.lget 0, Op.lget 6, Op.bin .w32 .add, Op.load 4 0, Op.un .extend, Op.ltee 4,
             Op.lget 5, Op.bin .w64 .mul, Op.lget 8, Op.bin .w64 .add, Op.ltee 10,
             Op.c64 32, Op.bin .w64 .shrU, Op.lset 8,
             Op.lget 10, Op.c64 0xFFFFFFFF, Op.bin .w64 .and,
             Op.lget 6, Op.lget 7, Op.bin .w32 .add, Op.lget 3, Op.bin .w32 .add, Op.load 4 0,
             Op.un .extend, Op.bin .w64 .add, Op.lget 9, Op.bin .w64 .add, Op.lset 11,
             Op.lget 6, Op.lget 7, Op.bin .w32 .add, Op.lget 3, Op.bin .w32 .add,
             Op.lget 11, Op.c64 0xFFFFFFFF, Op.bin .w64 .and, Op.un .wrap, Op.store 4 0,
             Op.lget 11, Op.c64 32, Op.bin .w64 .shrU, Op.lset 9,
             Op.c32 4, Op.lget 6, Op.bin .w32 .add, Op.lset 6, .br 0]],
        Op.c32 4, Op.lget 7, Op.bin .w32 .add, Op.lset 7, .br 0]],
   Op.lget 3]⟩

/-- The two heap integer types; `HEAP_SIZE` (heap_integers.rs 73, 465). -/
inductive HeapInt | u128 | u256
  deriving DecidableEq, Repr

def HeapInt.bytes : HeapInt → Nat
  | .u128 => 16 | .u256 => 32

def HeapInt.bits (t : HeapInt) : Nat := 8 * t.bytes

/-- `IU128::add` (heap_integers.rs 277-301), `IU256::add` (641-664). -/
def hintAdd (t : HeapInt) (ty : RetTy) : List Instr :=
  ([Op.c32 t.bytes, alloc.call, Op.c32 t.bytes] : List Instr) ++ callF (heapAdd E) ty

/-- `IU128::sub` (heap_integers.rs 347-371), `IU256::sub` (710-734). -/
def hintSub (t : HeapInt) (ty : RetTy) : List Instr :=
  ([Op.c32 t.bytes, alloc.call, Op.c32 t.bytes] : List Instr) ++ callF (heapSub E) ty

/-- `IU128::mul` (heap_integers.rs 373-394), `IU256::mul` (736-755). -/
def hintMul (t : HeapInt) (ty : RetTy) : List Instr :=
  ([Op.c32 t.bytes] : List Instr) ++ callF (heapMul E) ty

/-- Bitwise operators. -/
inductive BitOp | and | or | xor
  deriving DecidableEq, Repr

/-- The WebAssembly operator passed to `compare_heap_integers_bitwise`. -/
def BitOp.bin : BitOp → BinOp
  | .and => .and | .or => .or | .xor => .xor

/-- `compare_heap_integers_bitwise` (heap_integers.rs 13-66); `num_1`, `num_2`, `pointer` are the
locals `l`, `l + 1`, `l + 2`. -/
def hintBitwise (o : BitOp) (t : HeapInt) (l : Nat) : List Instr :=
  code[Op.lset (l + 1), Op.lset l, Op.c32 t.bytes, alloc.call, Op.lset (l + 2)] ++
  (List.range (t.bytes / 8)).flatMap (fun i =>
    code[Op.lget (l + 2), Op.lget l, Op.load 8 (i * 8), Op.lget (l + 1), Op.load 8 (i * 8),
      Op.bin .w64 o.bin, Op.store 8 (i * 8)]) ++
  code[Op.lget (l + 2)]

/-- `Bytecode::{BitOr, BitAnd, Xor}` (translation.rs 2544-2605, 2658-2688) on register types. -/
def intBitwise (o : BitOp) (t : RegInt) : List Instr := code[Op.bin t.w o.bin]

/-- Comparison operators. -/
inductive CmpOp | lt | le | gt | ge
  deriving DecidableEq, Repr

def CmpOp.bin : CmpOp → BinOp
  | .lt => .ltU | .le => .leU | .gt => .gtU | .ge => .geU

/-- `Bytecode::{Lt, Le, Gt, Ge}` (translation.rs 2228-2456) on register types. -/
def intCmp (o : CmpOp) (t : RegInt) : List Instr := code[Op.bin t.w o.bin]

/-- `Bytecode::{Lt, Le, Gt, Ge}` (translation.rs 2228-2456) on u128/u256; the locals `a`, `b` used
for swapping are `l`, `l + 1`. -/
def hintCmp (o : CmpOp) (t : HeapInt) (l : Nat) : List Instr :=
  match o with
  | .lt => code[Op.c32 t.bytes, lessThan.call]
  | .le => swap l (l + 1) ++ code[Op.c32 t.bytes, lessThan.call] ++ negate
  | .gt => swap l (l + 1) ++ code[Op.c32 t.bytes, lessThan.call]
  | .ge => code[Op.c32 t.bytes, lessThan.call] ++ negate

/-- Width of the store (`StoreKind::I32` / `StoreKind::I64`). -/
def RegInt.storeBytes : RegInt → Nat
  | .u64 => 8
  | _ => 4

/-- `IU128::cast_from` (heap_integers.rs 158-275) and `IU256::cast_from` (550-639).  The two locals
are `l`, `l + 1`, the error temporaries of u256→u128 are `l + 2`, `l + 3`. -/
def hintCast (dst : HeapInt) (src : IntTy) (l : Nat) : List Instr :=
  match src with
  | .reg r => code[Op.lset l, Op.c32 dst.bytes, alloc.call, Op.ltee (l + 1), Op.lget l,
      Op.store r.storeBytes 0, Op.lget (l + 1)]
  | .u128 =>
    match dst with
    | .u128 => code[]
    | .u256 => code[Op.lset l, Op.c32 32, alloc.call, Op.lset (l + 1),
        Op.lget (l + 1), Op.lget l, Op.load 8 0, Op.store 8 0,
        Op.lget (l + 1), Op.lget l, Op.load 8 8, Op.store 8 8,
        Op.lget (l + 1)]
  | .u256 =>
    match dst with
    | .u256 => code[]
    | .u128 => code[Op.lset l, Op.c32 16, alloc.call, Op.lset (l + 1),
        Op.lget (l + 1), Op.lget l, Op.load 8 0, Op.store 8 0,
        Op.lget (l + 1), Op.lget l, Op.load 8 8, Op.store 8 8,
        .block 0 (code[Op.lget (l + 1), Op.load 8 16, Op.un .eqz, .brIf 0] ++
          returnError (E .overflow) .i32 (l + 2)),
        .block 0 (code[Op.lget (l + 1), Op.load 8 24, Op.un .eqz, .brIf 0] ++
          returnError (E .overflow) .i32 (l + 3)),
        Op.lget (l + 1)]

/-- `load_constant_instructions` (heap_integers.rs 75-114, 467-506) for the constant `v`; `pointer`
is the local `l`. -/
def hintConst (t : HeapInt) (v l : Nat) : List Instr :=
  code[Op.c32 t.bytes, alloc.call, Op.lset l] ++
  (List.range (t.bytes / 8)).flatMap (fun i =>
    code[Op.lget l, Op.c64 (v / 256 ^ (8 * i) % 256 ^ 8), Op.store 8 (i * 8)]) ++
  code[Op.lget l]

end Rt
