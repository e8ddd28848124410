import Verif.Rt.Equality

/-!
# Abort messages built at run time

Transcription of `runtime/integers/ascii.rs` and of the run-time half of
`abi_types/error_encoding.rs`, and of the `Abort` bytecode (translation.rs).
-/

namespace Rt
open Wasm

/-- `u64_to_ascii_base_10` (runtime/integers/ascii.rs 32-186).
Locals: n; 1 len, 2 ptr, 3 scale, 4 write_ptr. -/
def ascii : Fn := ⟨1, 1, 4,
  code[Op.lget 0, Op.un .eqz,
   .ite 0
     code[Op.c32 1, alloc.call, Op.ltee 2, Op.c32 1, Op.store 1 0,
      Op.c32 1, alloc.call, Op.c32 48, Op.store 1 0]
     code[Op.c64 10000000000000000000, Op.lset 3, Op.c32 20, Op.lset 1,
      Op.c32 1, alloc.call, Op.lset 2,
      .block 0
        code[.loop 0
          code[Op.lget 3, Op.lget 0, Op.bin .w64 .leU, .brIf 1,
           Op.lget 3, Op.c64 10, Op.bin .w64 .divU, Op.lset 3,
           Op.lget 1, Op.c32 1, Op.bin .w32 .sub, Op.lset 1, .br 0]],
      .block 0
        code[.loop 0
          code[Op.c32 1, alloc.call, Op.ltee 4,
           Op.lget 0, Op.lget 3, Op.bin .w64 .divU, Op.c64 48, Op.bin .w64 .add, Op.un .wrap,
           Op.store 1 0,
           Op.lget 0, Op.lget 3, Op.bin .w64 .remU, Op.lset 0,
           Op.lget 3, Op.c64 1, Op.bin .w64 .eq, .brIf 1,
           Op.lget 3, Op.c64 10, Op.bin .w64 .divU, Op.lset 3, .br 0]],
      Op.lget 2, Op.lget 1, Op.store 1 0],
   Op.lget 2]⟩

/-- `build_abi_error_structure` (abi_types/error_encoding.rs 168-265) with its fresh locals
ptr, total_len, padded_error_len. -/
def abiErrorStructure (errLen ptr total padded : Nat) : List Instr :=
  code[Op.lget errLen, Op.c32 31, Op.bin .w32 .add, Op.c32 0xFFFFFFE0, Op.bin .w32 .and,
   Op.lset padded,
   Op.c32 68, Op.lget padded, Op.bin .w32 .add, Op.lset total,
   Op.c32 4, Op.lget total, Op.bin .w32 .add, alloc.call, Op.ltee ptr, Op.lget total, Op.store 4 0,
   Op.lget ptr, Op.c32 0x08, Op.store 1 4, Op.lget ptr, Op.c32 0xc3, Op.store 1 5,
   Op.lget ptr, Op.c32 0x79, Op.store 1 6, Op.lget ptr, Op.c32 0xa0, Op.store 1 7,
   Op.lget ptr, Op.c32 32, Op.store 1 39,
   Op.lget ptr, Op.lget errLen, swap32.call, Op.store 4 68]

/-- `build_abort_error_message` (abi_types/error_encoding.rs 291-340); the abort code is on the
stack.  Fresh locals from `l`: error_ptr, error_len, ptr, total_len, padded_error_len. -/
def abortMessage (l : Nat) : List Instr :=
  code[ascii.call, Op.ltee l, Op.load 1 0, Op.lset (l + 1),
   Op.lget l, Op.c32 1, Op.bin .w32 .add, Op.lset l] ++
  abiErrorStructure (l + 1) (l + 2) (l + 3) (l + 4) ++
  code[Op.lget (l + 2), Op.c32 72, Op.bin .w32 .add, Op.lget l, Op.lget (l + 1), Op.memCopy]

/-- The little-endian number made of a list of bytes (`i64::from_le_bytes`). -/
def leBytes : List UInt8 → Nat
  | [] => 0
  | b :: bs => b.toNat + 256 * leBytes bs

/-- The chunked writes of `build_abort_error_message_from_constant`
(abi_types/error_encoding.rs 381-403): eight bytes at a time, the last chunk padded with zeros. -/
def writeChunks (ptr : Nat) (off : Nat) : List UInt8 → List Instr
  | [] => []
  | b :: bs =>
    code[Op.lget ptr, Op.c32 (72 + off), Op.bin .w32 .add,
      Op.c64 (leBytes ((b :: bs).take 8)), Op.store 8 0] ++
    writeChunks ptr (off + 8) ((b :: bs).drop 8)
  termination_by bs => bs.length

/-- `build_abort_error_message_from_constant` (abi_types/error_encoding.rs 355-406) for a constant
`[length][msg]` that passes its checks (length byte = number of bytes that follow).
Fresh locals from `l`: error_len, ptr, total_len, padded_error_len. -/
def abortMessageConst (msg : List UInt8) (l : Nat) : List Instr :=
  code[Op.c32 msg.length, Op.lset l] ++ abiErrorStructure l (l + 1) (l + 2) (l + 3) ++
  writeChunks (l + 1) 0 msg

/-- End of the `Abort` bytecode (translation.rs 2642-2657). -/
def abortEnd (ptr : Nat) : List Instr :=
  code[Op.c32 abortPtr, Op.lget ptr, Op.store 4 0, Op.c32 1, .ret]

/-- A Move function `fun f(code: u64) { abort code }` (translation.rs 2610-2657, no clever
error). -/
def abortFn (ty : RetTy) : Fn := ⟨1, ty.nr, 5,
  code[Op.lget 0] ++ abortMessage 1 ++ abortEnd 3⟩

/-- A Move function aborting with a clever error whose encoding is `code` and whose message is
`msg` (translation.rs 2610-2657). -/
def abortConstFn (code : Nat) (msg : List UInt8) (ty : RetTy) : Fn := ⟨1, ty.nr, 4,
  code[Op.lget 0, Op.c64 code, Op.bin .w64 .eq, .ite 0 code[] code[Op.unreachable]] ++
  abortMessageConst msg 1 ++ abortEnd 2⟩

end Rt
