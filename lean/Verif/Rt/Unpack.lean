import Verif.Rt.Pack

/-!
# ABI unpacking

Transcription of `runtime/unpacking/*.rs`, `runtime/abi.rs`, `abi_types/unpacking.rs` and of the
allocation of vectors (`runtime/vector.rs`).
-/

namespace Rt
open Wasm

/-- `unpack_u32_function` (runtime/unpacking/uint.rs 12-52).  Locals: reader_pointer,
encoded_size. -/
def unpackU32 : Fn := ⟨2, 1, 0,
  code[Op.lget 0, Op.load 4 28, swap32.call, Op.lget 0, Op.lget 1, Op.bin .w32 .add, Op.gset .reader]⟩

/-- `unpack_u64_function` (runtime/unpacking/uint.rs 54-91). -/
def unpackU64 : Fn := ⟨1, 1, 0,
  code[Op.lget 0, Op.load 8 24, swap64.call, Op.lget 0, Op.c32 32, Op.bin .w32 .add, Op.gset .reader]⟩

/-- `unpack_u128_function` (runtime/unpacking/heap_uint.rs 9-47). -/
def unpackU128 : Fn := ⟨1, 1, 1,
  code[Op.lget 0, Op.c32 16, Op.bin .w32 .add, Op.c32 16, alloc.call, Op.ltee 1, (swapBytes 2).call,
   Op.lget 0, Op.c32 32, Op.bin .w32 .add, Op.gset .reader, Op.lget 1]⟩

/-- `unpack_u256_function` (runtime/unpacking/heap_uint.rs 49-83). -/
def unpackU256 : Fn := ⟨1, 1, 1,
  code[Op.lget 0, Op.c32 32, alloc.call, Op.ltee 1, (swapBytes 4).call,
   Op.lget 0, Op.c32 32, Op.bin .w32 .add, Op.gset .reader, Op.lget 1]⟩

/-- `unpack_address_function` (runtime/unpacking/heap_uint.rs 85-120). -/
def unpackAddress : Fn := ⟨1, 1, 1,
  code[Op.c32 32, alloc.call, Op.lset 1, Op.lget 1, Op.lget 0, Op.c32 32, Op.memCopy,
   Op.lget 0, Op.c32 32, Op.bin .w32 .add, Op.gset .reader, Op.lget 1]⟩

/-- `unpack_bytes_function` (runtime/unpacking/bytes.rs 7-28). -/
def unpackBytes : Fn := ⟨1, 1, 0,
  code[Op.lget 0, Op.c32 32, Op.bin .w32 .add, Op.gset .reader, Op.lget 0]⟩

/-- `unpack_enum_function` (runtime/unpacking/enums.rs 16-89) for an enum of `n` variants without
fields.  Locals: reader_pointer; 1 variant_number, 2 enum_ptr, 3 the error pointer. -/
def unpackEnum (E : ErrPtrs) (n : Nat) : Fn := ⟨1, 1, 3,
  code[Op.lget 0, Op.c32 32, unpackU32.call, Op.ltee 1, Op.c32 (n - 1), Op.bin .w32 .gtU,
   .ite 0 (returnError (E .outOfBounds) .i32 3) code[],
   Op.c32 4, alloc.call, Op.ltee 2, Op.lget 1, Op.store 4 0, Op.lget 2]⟩

/-- One step of `validate_pointer_32_bit` (runtime/abi.rs 37-62). -/
def validateWord (E : ErrPtrs) (i : Nat) : Instr :=
  .block 0 (code[Op.lget 0, Op.load 4 (i * 4), Op.un .eqz, .brIf 0] ++
    returnError (E .memoryAccessOutOfBounds) .none (1 + i))

/-- `validate_pointer_32_bit` (runtime/abi.rs 25-66). -/
def validatePtr (E : ErrPtrs) : Fn := ⟨1, 0, 7, (List.range 7).map (validateWord E)⟩

/-- `allocate_vector_with_header_function` (runtime/vector.rs 765-845).  Locals: len, capacity,
data_size; 3 pointer. -/
def allocVec : Fn := ⟨3, 1, 1,
  code[Op.lget 1, Op.un .eqz,
   .ite 0
     code[Op.c32 8, alloc.call, Op.lset 3]
     code[Op.lget 0, Op.lget 1, Op.bin .w32 .gtU, .ite 0 code[Op.unreachable] code[],
      Op.lget 1, Op.lget 2, Op.bin .w32 .mul, Op.c32 8, Op.bin .w32 .add, alloc.call, Op.lset 3,
      Op.lget 3, Op.lget 0, Op.store 4 0,
      Op.lget 3, Op.lget 1, Op.store 4 4],
   Op.lget 3]⟩

/-- The beginning of `unpack_string_function` and `unpack_vector_function`
(runtime/unpacking/string.rs 43-105, runtime/unpacking/vector.rs 66-128): find the data and its
length.  Locals: reader_pointer, base; 2 data_reader_pointer, 3 length. -/
def findData (E : ErrPtrs) : List Instr :=
  code[Op.lget 0, (validatePtr E).call, propagate .i32,
   Op.lget 0, Op.load 4 28, swap32.call, Op.lget 1, Op.bin .w32 .add, Op.lset 2,
   Op.lget 0, Op.c32 32, Op.bin .w32 .add, Op.gset .reader,
   Op.lget 2, (validatePtr E).call, propagate .i32,
   Op.lget 2, Op.load 4 28, swap32.call, Op.lset 3,
   Op.lget 2, Op.c32 32, Op.bin .w32 .add, Op.lset 2]

/-- `unpack_string_function` (runtime/unpacking/string.rs 12-208).  Locals: reader_pointer,
calldata_reader_pointer; 2 data_reader_pointer, 3 length, 4 vector_pointer, 5 writer_pointer, 6 i,
7 struct_ptr. -/
def unpackString (E : ErrPtrs) : Fn := ⟨2, 1, 6,
  findData E ++
  code[Op.lget 3, Op.lget 3, Op.c32 1, allocVec.call, Op.lset 4,
   Op.lget 4, Op.lset 5] ++ skipVecHeader 5 ++
  code[Op.lset 5,
   Op.c32 0, Op.lset 6,
   .loop 0
     code[Op.lget 5, Op.lget 2, Op.load 1 0, Op.store 4 0,
      Op.lget 2, Op.c32 1, Op.bin .w32 .add, Op.lset 2,
      Op.lget 5, Op.c32 1, Op.bin .w32 .add, Op.lset 5,
      Op.lget 6, Op.c32 1, Op.bin .w32 .add, Op.ltee 6,
      Op.lget 3, Op.bin .w32 .ltU, .brIf 0],
   Op.c32 4, alloc.call, Op.ltee 7, Op.lget 4, Op.store 4 0, Op.lget 7]⟩

/-- `unpack_vector_function` (runtime/unpacking/vector.rs 29-234) for elements of memory size
`size` unpacked by `inner` from the address in local 2 relative to local 7.  Locals:
reader_pointer, calldata_base_pointer; 2 data_reader_pointer, 3 length, 4 vector_pointer,
5 writer_pointer, 6 i, 7 calldata_base_pointer_. -/
def unpackVec (E : ErrPtrs) (size : Nat) (inner : List Instr) : Fn := ⟨2, 1, 6,
  findData E ++
  code[Op.lget 3, Op.lget 3, Op.c32 size, allocVec.call, Op.lset 4] ++ skipVecHeader 4 ++
  code[Op.lset 5,
   .block 0
     code[Op.lget 3, Op.un .eqz, .brIf 0,
      Op.c32 0, Op.lset 6,
      Op.lget 2, Op.lset 7,
      .loop 0
        (code[Op.lget 5] ++ inner ++
         code[Op.store size 0,
          Op.lget 5, Op.c32 size, Op.bin .w32 .add, Op.lset 5,
          Op.lget 6, Op.c32 1, Op.bin .w32 .add, Op.ltee 6,
          Op.lget 3, Op.bin .w32 .ltU, .brIf 0])],
   Op.lget 0, Op.c32 32, Op.bin .w32 .add, Op.gset .reader, Op.lget 4]⟩

/-- `unpack_struct_function` (runtime/unpacking/structs.rs 81-246) for `n` fields of total encoded
size `size`, dynamic or not, unpacked by `fields`.  Locals: reader_pointer,
calldata_reader_pointer; 2 data_reader_pointer, 3 calldata_ptr, 4 struct_ptr, 5 field_ptr; from 6
on one local for each field. -/
def unpackStruct (E : ErrPtrs) (n size : Nat) (dyn : Bool) (fields : List Instr) : Fn := ⟨2, 1, 4 + n,
  (if dyn then
    code[Op.lget 0, (validatePtr E).call, propagate .i32,
     Op.lget 0, Op.load 4 28, swap32.call, Op.lget 1, Op.bin .w32 .add, Op.ltee 2, Op.lset 3]
   else code[Op.lget 0, Op.lset 2, Op.lget 1, Op.lset 3]) ++
  code[Op.c32 (4 * n), alloc.call, Op.lset 4] ++ fields ++
  code[Op.lget 0, Op.c32 (if dyn then 32 else size), Op.bin .w32 .add, Op.gset .reader, Op.lget 4]⟩

/-- Storing a field after unpacking it (runtime/unpacking/structs.rs 180-220). -/
def storeField (t : MTy) (i : Nat) : List Instr :=
  (if t.isScalar then
    code[Op.lset (6 + i), Op.c32 t.size, alloc.call, Op.ltee 5, Op.lget (6 + i), Op.store t.size 0]
   else code[Op.lset 5]) ++
  code[Op.lget 4, Op.lget 5, Op.store 4 (4 * i)]

mutual
/-- `add_unpack_instructions` (abi_types/unpacking.rs 119-367): the reader is in local `r`, the
base of offsets in local `b`; `pc` is the error check after unpacking a vector or struct.
`UnpackString` and `UnpackEnum` are not checked (264-266, 340-352, runtime.rs 703-794). -/
def unpackT (E : ErrPtrs) (pc : Instr) (r b : Nat) : MTy → List Instr
  | .bool | .u8 | .u16 | .u32 =>
      code[Op.lget r, Op.c32 32, unpackU32.call, Op.gget .reader, Op.lset r]
  | .u64 => code[Op.lget r, unpackU64.call, Op.gget .reader, Op.lset r]
  | .u128 => code[Op.lget r, unpackU128.call, Op.gget .reader, Op.lset r]
  | .u256 => code[Op.lget r, unpackU256.call, Op.gget .reader, Op.lset r]
  | .address => code[Op.lget r, unpackAddress.call, Op.gget .reader, Op.lset r]
  | .vec t => code[Op.lget r, Op.lget b,
      (unpackVec E t.size (unpackT E (propagate .i32) 2 7 t)).call, pc, Op.gget .reader, Op.lset r]
  | .struct fs => code[Op.lget r, Op.lget b,
      (unpackStruct E fs.length (MTy.encSizeFs fs) (MTy.dynFs fs) (unpackFs E 0 fs)).call, pc,
      Op.gget .reader, Op.lset r]
  | .enum n => code[Op.lget r, (unpackEnum E n).call, Op.gget .reader, Op.lset r]
  | .string => code[Op.lget r, Op.lget b, (unpackString E).call, Op.gget .reader, Op.lset r]
/-- The loop over the fields (runtime/unpacking/structs.rs 163-221), from field `i`. -/
def unpackFs (E : ErrPtrs) (i : Nat) : List MTy → List Instr
  | [] => []
  | t :: ts => unpackT E (propagate .i32) 2 3 t ++ storeField t i ++ unpackFs E (i + 1) ts
end

/-- `unpack_reference_function` (runtime/unpacking/reference.rs 11-105) for scalars.  Locals:
reader_pointer, calldata_reader_pointer; 2 ptr_local. -/
def unpackRef (E : ErrPtrs) (t : MTy) : Fn := ⟨2, 1, 1,
  code[Op.c32 t.size, alloc.call, Op.ltee 2] ++ unpackT E (propagate .i32) 0 1 t ++
  code[Op.store t.size 0, Op.lget 2]⟩

/-- Unpacking an argument (abi_types/unpacking.rs 205-246 for references). -/
def unpackP (E : ErrPtrs) (pc : Instr) (r b : Nat) : PTy → List Instr
  | .val t => unpackT E pc r b t
  | .ref t =>
    if t.isScalar then
      code[Op.lget r, Op.lget b, (unpackRef E t).call, pc, Op.gget .reader, Op.lset r]
    else unpackT E pc r b t ++ code[Op.gget .reader, Op.lset r]

/-- `build_unpack_instructions` (abi_types/unpacking.rs 71-116): the arguments start at the address
in local `a`; reader_pointer is local `r`, calldata_base_pointer local `r + 1`. -/
def unpackAll (E : ErrPtrs) (pc : Instr) (a r : Nat) (ts : List PTy) : List Instr :=
  code[Op.lget a, Op.ltee r, Op.lset (r + 1), Op.lget r, Op.gset .reader] ++
  ts.flatMap (unpackP E pc r (r + 1))

end Rt
