import Verif.Rt.HeapInts

/-!
# Shifts of u128 and u256

Transcription of `runtime/integers/bitwise.rs`.
-/

namespace Rt
open Wasm

variable (E : ErrPtrs)

/-- `heap_int_shift_left` (runtime/integers/bitwise.rs 22-272).
Locals: n_ptr, shift_amount, type_heap_size; 3 pointer, 4 word_shift, 5 bit_shift, 6 total_words,
7 i, 8 j. -/
def heapShl : Fn := ⟨3, 1, 6,
  code[Op.lget 1, Op.lget 2, Op.c32 8, Op.bin .w32 .mul, Op.c32 1, Op.bin .w32 .sub] ++
  callF (checkOverflow E) .i32 ++
  code[Op.drop,
   Op.lget 2, alloc.call, Op.lset 3,
   Op.lget 1, Op.c32 64, Op.bin .w32 .divU, Op.lset 4,
   Op.lget 1, Op.c32 64, Op.bin .w32 .remU, Op.lset 5,
   Op.lget 2, Op.c32 8, Op.bin .w32 .divU, Op.ltee 6, Op.c32 1, Op.bin .w32 .sub, Op.lset 7,
   .loop 0
     code[Op.lget 7, Op.lget 4, Op.bin .w32 .add, Op.lset 8,
      .block 0
        code[Op.lget 8, Op.lget 6, Op.bin .w32 .geU, .brIf 0,
         Op.lget 3, Op.lget 8, Op.c32 8, Op.bin .w32 .mul, Op.bin .w32 .add,
         Op.lget 3, Op.lget 8, Op.c32 8, Op.bin .w32 .mul, Op.bin .w32 .add, Op.load 8 0,
         Op.lget 0, Op.lget 7, Op.c32 8, Op.bin .w32 .mul, Op.bin .w32 .add, Op.load 8 0,
         Op.lget 5, Op.un .extend, Op.bin .w64 .shl,
         Op.bin .w64 .or, Op.store 8 0],
      .block 0
        code[Op.lget 5, Op.un .eqz, Op.lget 8, Op.c32 1, Op.bin .w32 .add, Op.lget 6,
         Op.bin .w32 .geU, Op.bin .w32 .or, .brIf 0,
         Op.lget 3, Op.lget 8, Op.c32 1, Op.bin .w32 .add, Op.c32 8, Op.bin .w32 .mul,
         Op.bin .w32 .add,
         Op.lget 3, Op.lget 8, Op.c32 1, Op.bin .w32 .add, Op.c32 8, Op.bin .w32 .mul,
         Op.bin .w32 .add, Op.load 8 0,
         Op.lget 0, Op.lget 7, Op.c32 8, Op.bin .w32 .mul, Op.bin .w32 .add, Op.load 8 0,
         Op.c32 64, Op.lget 5, Op.bin .w32 .sub, Op.un .extend, Op.bin .w64 .shrU,
         Op.bin .w64 .or, Op.store 8 0],
      Op.lget 7, Op.c32 0, Op.bin .w32 .gtU,
      .ite 0 code[Op.lget 7, Op.c32 1, Op.bin .w32 .sub, Op.lset 7, .br 1] code[]],
   Op.lget 3]⟩

/-- `heap_int_shift_right` (runtime/integers/bitwise.rs 283-531).
Locals: n_ptr, shift_amount, type_heap_size; 3 pointer, 4 word_shift, 5 bit_shift, 6 total_words,
7 i, 8 j. -/
def heapShr : Fn := ⟨3, 1, 6,
  code[Op.lget 1, Op.lget 2, Op.c32 8, Op.bin .w32 .mul, Op.c32 1, Op.bin .w32 .sub] ++
  callF (checkOverflow E) .i32 ++
  code[Op.drop,
   Op.lget 2, alloc.call, Op.lset 3,
   Op.lget 1, Op.c32 64, Op.bin .w32 .divU, Op.lset 4,
   Op.lget 1, Op.c32 64, Op.bin .w32 .remU, Op.lset 5,
   Op.lget 2, Op.c32 8, Op.bin .w32 .divU, Op.lset 6,
   Op.c32 0, Op.lset 7,
   .loop 0
     code[Op.lget 7, Op.lget 4, Op.bin .w32 .add, Op.lset 8,
      .block 0
        code[Op.lget 8, Op.lget 6, Op.bin .w32 .geU, .brIf 0,
         Op.lget 3, Op.lget 7, Op.c32 8, Op.bin .w32 .mul, Op.bin .w32 .add,
         Op.lget 3, Op.lget 7, Op.c32 8, Op.bin .w32 .mul, Op.bin .w32 .add, Op.load 8 0,
         Op.lget 0, Op.lget 8, Op.c32 8, Op.bin .w32 .mul, Op.bin .w32 .add, Op.load 8 0,
         Op.lget 5, Op.un .extend, Op.bin .w64 .shrU,
         Op.bin .w64 .or, Op.store 8 0],
      .block 0
        code[Op.lget 5, Op.un .eqz, Op.lget 8, Op.c32 1, Op.bin .w32 .add, Op.lget 6,
         Op.bin .w32 .geU, Op.bin .w32 .or, .brIf 0,
         Op.lget 3, Op.lget 7, Op.c32 8, Op.bin .w32 .mul, Op.bin .w32 .add,
         Op.lget 3, Op.lget 7, Op.c32 8, Op.bin .w32 .mul, Op.bin .w32 .add, Op.load 8 0,
         Op.lget 0, Op.lget 8, Op.c32 1, Op.bin .w32 .add, Op.c32 8, Op.bin .w32 .mul,
         Op.bin .w32 .add, Op.load 8 0,
         Op.c32 64, Op.lget 5, Op.bin .w32 .sub, Op.un .extend, Op.bin .w64 .shl,
         Op.bin .w64 .or, Op.store 8 0],
      Op.lget 7, Op.lget 6, Op.c32 1, Op.bin .w32 .sub, Op.bin .w32 .ltU,
      .ite 0 code[Op.lget 7, Op.c32 1, Op.bin .w32 .add, Op.lset 7, .br 1] code[]],
   Op.lget 3]⟩

/-- `IU128::bit_shift_left` (heap_integers.rs 303-323), `IU256::bit_shift_left` (666-686). -/
def hintShl (t : HeapInt) (ty : RetTy) : List Instr := code[Op.c32 t.bytes] ++ callF (heapShl E) ty

/-- `IU128::bit_shift_right` (heap_integers.rs 325-345), `IU256::bit_shift_right` (688-708). -/
def hintShr (t : HeapInt) (ty : RetTy) : List Instr := code[Op.c32 t.bytes] ++ callF (heapShr E) ty

end Rt
