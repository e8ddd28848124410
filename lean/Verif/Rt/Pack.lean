import Verif.Rt.Ascii

/-!
# ABI packing

Transcription of `runtime/packing/*.rs` and `abi_types/packing.rs`.
-/

namespace Rt
open Wasm

/-- Types of public function results (translation/intermediate_types.rs 30-80): references,
signers and type parameters excluded; a struct is given by its field types (generic structs after
instantiation), an enum without fields by the number of its variants. -/
inductive MTy
  | bool | u8 | u16 | u32 | u64 | u128 | u256 | address
  | vec (t : MTy) | struct (fs : List MTy) | enum (n : Nat) | string

/-- `wasm_memory_data_size`, also the width of `load_kind` and `store_kind`
(translation/intermediate_types.rs 120-195). -/
def MTy.size : MTy → Nat
  | .bool | .u8 => 1
  | .u16 => 2
  | .u64 => 8
  | _ => 4

/-- Types whose values are WebAssembly numbers rather than pointers. -/
def MTy.isScalar : MTy → Bool
  | .bool | .u8 | .u16 | .u32 | .u64 => true
  | _ => false

mutual
/-- `is_dynamic` (abi_types/packing.rs 513-543) and `solidity_abi_encode_is_dynamic`
(translation/intermediate_types/structs.rs 236-279). -/
def MTy.dyn : MTy → Bool
  | .vec _ | .string => true
  | .struct fs => MTy.dynFs fs
  | _ => false
def MTy.dynFs : List MTy → Bool
  | [] => false
  | t :: ts => t.dyn || MTy.dynFs ts
end

mutual
/-- `encoded_size` (abi_types/packing.rs 463-511); the sizes of the `sol_data` types are 32. -/
def MTy.encSize : MTy → Nat
  | .struct fs => MTy.encSizeFs fs
  | _ => 32
/-- `solidity_abi_encode_size` (translation/intermediate_types/structs.rs 282-327). -/
def MTy.encSizeFs : List MTy → Nat
  | [] => 0
  | t :: ts => (if t.dyn then 32 else t.encSize) + MTy.encSizeFs ts
end

/-- Width of the head of a component (abi_types/packing.rs 128-132,
runtime/packing/vector.rs 59-63). -/
def MTy.headSize (t : MTy) : Nat := if t.dyn then 32 else t.encSize

/-- `pack_u32_function` (runtime/packing/uint.rs 21-57). -/
def packU32 : Fn := ⟨2, 0, 0, code[Op.lget 1, Op.lget 0, swap32.call, Op.store 4 28]⟩

/-- `pack_u64_function` (runtime/packing/uint.rs 70-106). -/
def packU64 : Fn := ⟨2, 0, 0, code[Op.lget 1, Op.lget 0, swap64.call, Op.store 8 24]⟩

/-- `pack_u128_function` (runtime/packing/heap_uint.rs 22-68), the loop over `i` unrolled as the
generator does. -/
def packU128 : Fn := ⟨2, 0, 0,
  code[Op.lget 1, Op.lget 0, Op.load 8 8, swap64.call, Op.store 8 16,
   Op.lget 1, Op.lget 0, Op.load 8 0, swap64.call, Op.store 8 24]⟩

/-- `pack_u256_function` (runtime/packing/heap_uint.rs 82-127). -/
def packU256 : Fn := ⟨2, 0, 0,
  code[Op.lget 1, Op.lget 0, Op.load 8 24, swap64.call, Op.store 8 0,
   Op.lget 1, Op.lget 0, Op.load 8 16, swap64.call, Op.store 8 8,
   Op.lget 1, Op.lget 0, Op.load 8 8, swap64.call, Op.store 8 16,
   Op.lget 1, Op.lget 0, Op.load 8 0, swap64.call, Op.store 8 24]⟩

/-- `pack_address_function` (runtime/packing/heap_uint.rs 141-161). -/
def packAddress : Fn := ⟨2, 0, 0, code[Op.lget 1, Op.lget 0, Op.c32 32, Op.memCopy]⟩

/-- `pack_enum_function` (runtime/packing/enums.rs 13-77).  Locals: enum_ptr, writer_pointer;
2 value, 3 the error pointer. -/
def packEnum (E : ErrPtrs) : Fn := ⟨2, 0, 2,
  code[Op.lget 1, Op.lget 0, Op.load 4 0, Op.ltee 2, Op.c32 255, Op.bin .w32 .gtU,
   .ite 0 (returnError (E .enumSizeTooLarge) .i32 3) code[],
   Op.lget 2, swap32.call, Op.store 4 28]⟩

/-- `pack_string_function` (runtime/packing/string.rs 29-139).  Locals: string_pointer,
writer_pointer, calldata_reference_pointer; 3 data_pointer, 4 vector_pointer, 5 len,
6 reference_value. -/
def packString : Fn := ⟨3, 0, 4,
  code[Op.lget 0, Op.load 4 0, Op.lset 4,
   Op.lget 4, Op.load 4 0, Op.lset 5,
   Op.lget 5, Op.c32 31, Op.bin .w32 .add, Op.c32 0xFFFFFFE0, Op.bin .w32 .and,
   Op.c32 32, Op.bin .w32 .add, alloc.call, Op.lset 3,
   Op.lget 3, Op.lget 2, Op.bin .w32 .sub, Op.lset 6,
   Op.lget 6, Op.lget 1, packU32.call] ++ skipVecHeader 4 ++
  code[Op.lset 4,
   Op.lget 5, Op.lget 3, packU32.call,
   Op.lget 3, Op.c32 32, Op.bin .w32 .add, Op.lset 3,
   Op.lget 3, Op.lget 4, Op.lget 5, Op.memCopy]⟩

/-- `pack_vector_function` (runtime/packing/vector.rs 25-201) for elements of memory size `size`,
head size `hs`, packed by `inner` from local 8 to the address in local 3 relative to local 4.
Locals: vector_pointer, writer_pointer, calldata_reference_pointer; 3 data_pointer,
4 inner_data_reference, 5 len, 6 reference_value, 7 i, 8 inner_local. -/
def packVec (size hs : Nat) (inner : List Instr) : Fn := ⟨3, 0, 6,
  code[Op.lget 0, Op.load 4 0, Op.lset 5,
   Op.lget 5, Op.c32 hs, Op.bin .w32 .mul, Op.c32 32, Op.bin .w32 .add, alloc.call, Op.ltee 3,
   Op.lget 2, Op.bin .w32 .sub, Op.lset 6,
   Op.lget 6, Op.lget 1, packU32.call] ++ skipVecHeader 0 ++
  code[Op.lset 0,
   Op.lget 5, Op.lget 3, packU32.call,
   Op.lget 3, Op.c32 32, Op.bin .w32 .add, Op.ltee 3, Op.lset 4,
   .block 0
     code[Op.lget 5, Op.c32 0, Op.bin .w32 .eq, .brIf 0,
      Op.c32 0, Op.lset 7,
      .loop 0
        (code[Op.lget 0, Op.load size 0, Op.lset 8] ++ inner ++
         code[Op.lget 0, Op.c32 size, Op.bin .w32 .add, Op.lset 0,
          Op.lget 3, Op.c32 hs, Op.bin .w32 .add, Op.lset 3,
          Op.lget 7, Op.c32 1, Op.bin .w32 .add, Op.ltee 7,
          Op.lget 5, Op.bin .w32 .ltU, .brIf 0])]]⟩

/-- `pack_struct_function` (runtime/packing/structs.rs 34-254) for a struct of encoded size `size`
whose fields are packed by `fields`.  Locals: struct_pointer, writer_pointer,
calldata_reference_pointer, is_nested; 4 val_32, 5 val_64, 6 reference_value, 7 data_ptr,
8 inner_data_reference. -/
def packStruct (size : Nat) (fields : List Instr) : Fn := ⟨4, 0, 5,
  code[Op.lget 3,
   .ite 0
     code[Op.c32 size, alloc.call, Op.ltee 7, Op.ltee 8,
      Op.lget 2, Op.bin .w32 .sub, Op.lset 6, Op.lget 6, Op.lget 1, packU32.call]
     code[Op.lget 1, Op.lset 7]] ++ fields⟩

/-- Local used for a field (runtime/packing/structs.rs 135-163). -/
def MTy.fieldLocal : MTy → Nat
  | .u64 => 5
  | _ => 4

/-- Part of a field's code before packing it (runtime/packing/structs.rs 125-174). -/
def loadField (t : MTy) (i : Nat) : List Instr :=
  code[Op.lget 0, Op.load 4 (4 * i)] ++
  (if t.isScalar then code[Op.load t.size 0] else code[]) ++
  code[Op.lset t.fieldLocal, .block 0 code[Op.lget 3, .brIf 0, Op.lget 2, Op.lset 8]]

mutual
/-- `add_pack_instructions_dynamic` for dynamic and `add_pack_instructions` for static types
(abi_types/packing.rs 224-461): all callers select between the two by `is_dynamic`.  The value is
in local `l`, the writer in local `w`, the reference in local `b`; `pv` is the error check after
packing a vector, `pc` the one after packing a struct or enum. -/
def packT (E : ErrPtrs) (pv pc : Instr) (l w b : Nat) : MTy → List Instr
  | .bool | .u8 | .u16 | .u32 => code[Op.lget l, Op.lget w, packU32.call]
  | .u64 => code[Op.lget l, Op.lget w, packU64.call]
  | .u128 => code[Op.lget l, Op.lget w, packU128.call]
  | .u256 => code[Op.lget l, Op.lget w, packU256.call]
  | .address => code[Op.lget l, Op.lget w, packAddress.call]
  | .vec t => code[Op.lget l, Op.lget w, Op.lget b,
      (packVec t.size t.headSize (packT E (propagate .none) (propagate .none) 8 3 4 t)).call, pv]
  | .struct fs => code[Op.lget l, Op.lget w, Op.lget b, Op.c32 (if MTy.dynFs fs then 1 else 0),
      (packStruct (MTy.encSizeFs fs) (packFs E 0 fs)).call, pc]
  | .enum _ => code[Op.lget l, Op.lget w, (packEnum E).call, pc]
  | .string => code[Op.lget l, Op.lget w, Op.lget b, packString.call]
/-- The loop over the fields of a struct (runtime/packing/structs.rs 123-243), from field `i`. -/
def packFs (E : ErrPtrs) (i : Nat) : List MTy → List Instr
  | [] => []
  | t :: ts => loadField t i ++
      packT E (propagate .none) (propagate .none) t.fieldLocal 7 8 t ++
      code[Op.c32 t.headSize, Op.lget 7, Op.bin .w32 .add, Op.lset 7] ++ packFs E (i + 1) ts
end

/-- `pack_reference_function` (runtime/packing/reference.rs 31-151).  Locals: reference_pointer,
writer_pointer, calldata_reference_pointer; 3 value_local. -/
def packRef (E : ErrPtrs) (t : MTy) : Fn :=
  if t.isScalar then ⟨3, 0, 1,
    code[Op.lget 0, Op.load 4 0, Op.ltee 0, Op.load t.size 0, Op.lset 3] ++
    packT E (propagate .none) (propagate .none) 3 1 2 t⟩
  else ⟨3, 0, 0, code[Op.lget 0, Op.load 4 0, Op.lset 0] ++
    packT E (propagate .none) (propagate .none) 0 1 2 t⟩

/-- Types of results of a public function: values and references to values. -/
inductive PTy
  | val (t : MTy)
  | ref (t : MTy)

/-- The type of the value. -/
def PTy.ty : PTy → MTy
  | .val t => t
  | .ref t => t

/-- Packing a result (abi_types/packing.rs 290-310 and 385-412 for references). -/
def packP (E : ErrPtrs) (pv pc : Instr) (l w b : Nat) : PTy → List Instr
  | .val t => packT E pv pc l w b t
  | .ref t =>
    if t.dyn then code[Op.lget l, Op.load 4 0, Op.lset l] ++ packT E pv pc l w b t
    else code[Op.lget l, Op.lget w, Op.lget b, (packRef E t).call, pc]

/-- Packing the results one after the other: result `j` is in local `top - j`, the pointer in local
`top + 1`, the writer in local `top + 3`, the reference in local `top + 4`
(abi_types/packing.rs 147-196). -/
def packEach (E : ErrPtrs) (pv pc : Instr) (top : Nat) (j : Nat) : List PTy → List Instr
  | [] => []
  | t :: ts => code[Op.lget (top + 1), Op.lset (top + 4)] ++
      packP E pv pc (top - j) (top + 3) (top + 4) t ++
      code[Op.lget (top + 3), Op.c32 t.ty.headSize, Op.bin .w32 .add, Op.lset (top + 3)] ++
      packEach E pv pc top (j + 1) ts

/-- `build_pack_instructions` (abi_types/packing.rs 108-210); `k` is the first unused local.  The
values are popped into locals, the last one first; the locals following them are pointer, len,
writer_pointer and calldata_reference_pointer. -/
def packAll (E : ErrPtrs) (pv pc : Instr) (k : Nat) (ts : List PTy) : List Instr :=
  (List.range ts.length).map (fun i => (Op.lset (k + i) : Instr)) ++
  code[Op.c32 (ts.map (fun t => t.ty.headSize)).sum, alloc.call,
   Op.ltee (k + ts.length), Op.lset (k + ts.length + 2)] ++
  packEach E pv pc (k + ts.length - 1) 0 ts ++
  code[Op.c32 0, alloc.call, Op.lget (k + ts.length), Op.bin .w32 .sub, Op.lset (k + ts.length + 1)]

end Rt
