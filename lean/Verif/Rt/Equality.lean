import Verif.Rt.Ext
import Verif.Rt.Alloc

/-!
# Equality, copies and byte order

Transcription of `runtime/equality.rs`, `runtime/copy.rs` and `runtime/swap.rs`.
-/

namespace Rt
open Wasm

/-- `a_equals_b` (runtime/equality.rs 18-109). Locals: a_ptr, b_ptr, type_heap_size; 3 offset. -/
def heapEq : Fn := ⟨3, 1, 1,
  code[.block 0
     code[Op.lget 0, Op.lget 1, Op.bin .w32 .eq, .brIf 0,
      .loop 0
        code[Op.lget 3, Op.lget 2, Op.bin .w32 .eq, .brIf 1,
         Op.lget 0, Op.lget 3, Op.bin .w32 .add, Op.load 1 0,
         Op.lget 1, Op.lget 3, Op.bin .w32 .add, Op.load 1 0,
         Op.bin .w32 .ne, .ite 0 code[Op.c32 0, .ret] code[],
         Op.lget 3, Op.c32 1, Op.bin .w32 .add, Op.lset 3, .br 0]],
   Op.c32 1]⟩

/-- `vec_equality_heap_type` (runtime/equality.rs 122-235).
Locals: v1_ptr, v2_ptr, length, type_heap_size; 4 size, 5 offset, 6 res. -/
def vecEqHeap : Fn := ⟨4, 1, 3,
  code[Op.c32 1, Op.lset 6, Op.c32 0, Op.lset 5] ++
  skipVecHeader 0 ++ code[Op.lset 0] ++ skipVecHeader 1 ++
  code[Op.lset 1,
   Op.lget 2, Op.c32 4, Op.bin .w32 .mul, Op.lset 4,
   .block 0
     code[.loop 0
       code[Op.lget 4, Op.lget 5, Op.bin .w32 .eq, .brIf 1,
        Op.lget 0, Op.lget 5, Op.bin .w32 .add, Op.load 4 0,
        Op.lget 1, Op.lget 5, Op.bin .w32 .add, Op.load 4 0,
        Op.lget 3, heapEq.call,
        .ite 0
          code[Op.lget 5, Op.c32 4, Op.bin .w32 .add, Op.lset 5, .br 1]
          code[Op.c32 0, Op.lset 6, .br 2]]],
   Op.lget 6]⟩

/-- `is_zero` (runtime/equality.rs 245-318). Locals: ptr, len; 2 i, 3 out. -/
def isZero : Fn := ⟨2, 1, 2,
  code[.block 0
     code[Op.c32 0, Op.lset 2, Op.c32 1, Op.lset 3,
      .loop 0
        code[Op.lget 2, Op.lget 1, Op.bin .w32 .geU, .brIf 1,
         Op.lget 0, Op.lget 2, Op.bin .w32 .add, Op.load 4 0,
         Op.c32 0, Op.bin .w32 .ne,
         .ite 0
           code[Op.c32 0, Op.lset 3, .br 2]
           code[Op.lget 2, Op.c32 4, Op.bin .w32 .add, Op.lset 2, .br 1]]],
   Op.lget 3]⟩

/-- `copy_heap_int_function::<SIZE>` (runtime/copy.rs 5-30). Locals: src_ptr; 1 dst_ptr. -/
def copyHeap (size : Nat) : Fn := ⟨1, 1, 1,
  code[Op.c32 size, alloc.call, Op.ltee 1, Op.lget 0, Op.c32 size, Op.memCopy, Op.lget 1]⟩

/-- `swap_i32_bytes_function` (runtime/swap.rs 20-73). -/
def swap32 : Fn := ⟨1, 1, 0,
  code[Op.lget 0, Op.c32 24, Op.bin .w32 .shrU, Op.c32 0x000000FF, Op.bin .w32 .and,
   Op.lget 0, Op.c32 8, Op.bin .w32 .shrU, Op.c32 0x0000FF00, Op.bin .w32 .and, Op.bin .w32 .or,
   Op.lget 0, Op.c32 8, Op.bin .w32 .shl, Op.c32 0x00FF0000, Op.bin .w32 .and, Op.bin .w32 .or,
   Op.lget 0, Op.c32 24, Op.bin .w32 .shl, Op.c32 0xFF000000, Op.bin .w32 .and,
   Op.bin .w32 .or]⟩

/-- `swap_i64_bytes_function` (runtime/swap.rs 85-123). Locals: input_param; 1 upper. -/
def swap64 : Fn := ⟨1, 1, 1,
  code[Op.lget 0, Op.c64 32, Op.bin .w64 .shrU, Op.un .wrap, swap32.call, Op.lset 1,
   Op.lget 0, Op.un .wrap, swap32.call, Op.un .extend, Op.c64 32, Op.bin .w64 .shl,
   Op.lget 1, Op.un .extend, Op.bin .w64 .or]⟩

/-- `swap_bytes_function::<N>` (runtime/swap.rs 131-181); N = 2 for u128, 4 for u256 (also the
20-byte address helper uses other code).  All words are loaded and swapped first; the stores pop
them in reverse order.  Locals: origin_ptr, dest_ptr. -/
def swapBytes (N : Nat) : Fn := ⟨2, 0, 0,
  (List.range N).flatMap (fun i =>
    code[Op.lget 1, Op.lget 0, Op.load 8 (i * 8), swap64.call]) ++
  (List.range N).flatMap (fun i => code[Op.store 8 (i * 8)])⟩

end Rt
