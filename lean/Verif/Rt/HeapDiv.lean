import Verif.Rt.HeapInts
import Verif.Rt.Equality

/-!
# Division of u128 and u256

Transcription of `runtime/integers/div.rs`.
-/

namespace Rt
open Wasm

variable (E : ErrPtrs)

/-- `shift_1bit_left` (runtime/integers/div.rs 251-338).
Locals: a_ptr, n; 2 i, 3 addr, 4 word, 5 carry, 6 next. -/
def shift1 : Fn := ⟨2, 0, 5,
  code[Op.c64 0, Op.lset 5, Op.c32 0, Op.lset 2,
   .loop 0
     code[Op.lget 2, Op.c32 3, Op.bin .w32 .shl, Op.lget 0, Op.bin .w32 .add, Op.ltee 3,
      Op.load 8 0, Op.lset 4,
      Op.lget 4, Op.c64 63, Op.bin .w64 .shrU, Op.c64 1, Op.bin .w64 .and, Op.lset 6,
      Op.lget 4, Op.c64 1, Op.bin .w64 .shl, Op.lget 5, Op.bin .w64 .or, Op.lset 4,
      Op.lget 3, Op.lget 4, Op.store 8 0,
      Op.lget 6, Op.lset 5,
      Op.lget 2, Op.c32 1, Op.bin .w32 .add, Op.lset 2,
      Op.lget 2, Op.c32 3, Op.bin .w32 .shl, Op.lget 1, Op.bin .w32 .ltU, .brIf 0]]⟩

/-- `get_bit` (runtime/integers/div.rs 354-409). Locals: ptr, i, n; 3 byte_idx, 4 bit_offset. -/
def getBit : Fn := ⟨3, 1, 2,
  code[Op.lget 1, Op.c32 3, Op.bin .w32 .shrU, Op.lset 3,
   Op.lget 1, Op.c32 7, Op.bin .w32 .and, Op.lset 4,
   Op.lget 0, Op.lget 3, Op.bin .w32 .add, Op.load 1 0,
   Op.lget 4, Op.bin .w32 .shrU, Op.c32 1, Op.bin .w32 .and, Op.un .extend]⟩

/-- `set_bit` (runtime/integers/div.rs 422-496).
Locals: ptr, i, n; 3 byte_idx, 4 bit_offset, 5 addr, 6 byte_val, 7 mask. The address left on the
stack by `local.tee` is consumed by the load. -/
def setBit : Fn := ⟨3, 0, 5,
  code[Op.lget 1, Op.c32 3, Op.bin .w32 .shrU, Op.lset 3,
   Op.lget 1, Op.c32 7, Op.bin .w32 .and, Op.lset 4,
   Op.lget 0, Op.lget 3, Op.bin .w32 .add, Op.ltee 5,
   Op.load 1 0, Op.lset 6,
   Op.c32 1, Op.lget 4, Op.bin .w32 .shl, Op.lset 7,
   Op.lget 5, Op.lget 6, Op.lget 7, Op.bin .w32 .or, Op.store 1 0]⟩

/-- `heap_integers_div_mod` (runtime/integers/div.rs 43-236).
Locals: dividend_ptr, divisor_ptr, n, quotient_or_reminder; 4 remainder_ptr, 5 quotient_ptr, 6 i,
7 n_bytes. -/
def heapDivMod : Fn := ⟨4, 1, 4,
  code[Op.lget 2, Op.c32 8, Op.bin .w32 .divU, Op.lset 7,
   Op.lget 1, Op.lget 7, isZero.call,
   .ite 0 code[Op.c32 0, Op.c32 0, Op.bin .w32 .divU, Op.drop] code[],
   Op.lget 7, alloc.call, Op.lset 4, Op.lget 7, alloc.call, Op.lset 5,
   Op.lget 2, Op.c32 1, Op.bin .w32 .sub, Op.lset 6,
   .loop 0
     (code[Op.lget 4, Op.lget 7, shift1.call,
      Op.lget 4, Op.lget 4, Op.load 1 0, Op.lget 0, Op.lget 6, Op.lget 2, getBit.call,
      Op.bin .w64 .or, Op.store 1 0,
      .block 0
        (code[Op.lget 4, Op.lget 1, Op.lget 7, lessThan.call, .brIf 0,
         Op.lget 4, Op.lget 1, Op.lget 4, Op.lget 7] ++ callF (heapSub E) .i32 ++
         code[Op.drop, Op.lget 5, Op.lget 6, Op.lget 2, setBit.call]),
      Op.lget 6, Op.c32 1, Op.bin .w32 .sub, Op.ltee 6,
      Op.c32 0, Op.bin .w32 .geS, .brIf 0]),
   Op.lget 3, .ite 1 code[Op.lget 5] code[Op.lget 4]]⟩

/-- `IU128::div` (heap_integers.rs 396-417), `IU256::div` (757-778): quotient. -/
def hintDiv (t : HeapInt) (ty : RetTy) : List Instr :=
  code[Op.c32 t.bits, Op.c32 1] ++ callF (heapDivMod E) ty

/-- `IU128::remainder` (heap_integers.rs 419-440), `IU256::remainder` (780-801). -/
def hintRem (t : HeapInt) (ty : RetTy) : List Instr :=
  code[Op.c32 t.bits, Op.c32 0] ++ callF (heapDivMod E) ty

end Rt
