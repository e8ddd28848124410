import Verif.Rt.Slots
import Verif.Rt.Vector

/-!
# Objects in storage

Transcription of `storage/storage_layout.rs`, `storage/encoding.rs`, `storage/decoding.rs`,
`storage/common.rs`, `runtime/enums.rs` and of the parts of `runtime/storage.rs` that call them.

The first field of a struct with the `key` ability is its `UID`, which is not stored
(encoding.rs 92, decoding.rs 138, common.rs 45); no other field is a `UID` or `NamedId`.  `T` is the
type hash of an object type (`get_type_hash`).

Locals added by the generator while it emits a piece of code are numbered upwards from a
parameter `k`.
-/

namespace Rt
open Wasm Mv

/-! ## Sizes known to the compiler -/

/-- `field_size` (storage/storage_layout.rs 188-236). -/
def fsize : Ty → Nat
  | .bool | .u8 => 1
  | .u16 => 2
  | .u32 => 4
  | .u64 => 8
  | .u128 => 16
  | .u256 => 32
  | .address => 20
  | .vec _ => 32
  | .object _ => 32
  | .struct _ => 0
  | .enum _ => 0

mutual
/-- One round of the loop of `compute_fields_storage_size` (storage/storage_layout.rs 82-176); the
state is size and offset. -/
def sizeStep : Ty → Nat × Nat → Nat × Nat
  | .object _, (size, off) => (size + (32 + (32 - off) % 32), 32)
  | .struct fs, (size, off) =>
    let n := (sizeSteps fs (0, off)).1
    (size + n, (off + n) % 32)
  | .enum vss, (size, off) =>
    let n := variantMax vss ((off + 1) % 32) + 1
    (size + n, (off + n) % 32)
  | t, (size, off) =>
    if 32 - off < fsize t then (size + (fsize t + (32 - off) % 32), fsize t)
    else (size + fsize t, off + fsize t)
/-- The loop of `compute_fields_storage_size`. -/
def sizeSteps : List Ty → Nat × Nat → Nat × Nat
  | [], s => s
  | t :: ts, s => sizeSteps ts (sizeStep t s)
/-- The loop of `compute_enum_storage_size` (storage/storage_layout.rs 39-54). -/
def variantMax : List (List Ty) → Nat → Nat
  | [], _ => 0
  | fs :: vss, off => max (sizeSteps fs (0, off)).1 (variantMax vss off)
end

/-- `compute_enum_storage_size` (storage/storage_layout.rs 31-58). -/
def enumSize (vss : List (List Ty)) (off : Nat) : Nat := variantMax vss ((off + 1) % 32) + 1

/-! ## Runtime functions -/

variable (E : ErrPtrs)

/-- Address of the current field in the slot buffer
(`slot_data_ptr_plus_offset`, wasm_builder_extensions.rs 197-225). -/
def slotPtr (so : Nat) : List Instr :=
  code[Op.lget so, Op.un .eqz,
   .ite 0 code[Op.unreachable]
     code[Op.lget so, Op.c32 32, Op.bin .w32 .gtU, .ite 0 code[Op.unreachable] code[]],
   Op.c32 64, Op.c32 32, Op.lget so, Op.bin .w32 .sub, Op.bin .w32 .add]

/-- The common frame of the three functions below.  Locals: slot_ptr, slot_offset, field_size. -/
def accumulate (mode : List Instr) : Fn := ⟨3, 1, 0,
  code[Op.lget 1, Op.lget 2, Op.bin .w32 .add, Op.c32 32, Op.bin .w32 .gtU,
   .ite 0 (mode ++ code[Op.lget 2, Op.lset 1])
     code[Op.lget 1, Op.lget 2, Op.bin .w32 .add, Op.lset 1],
   Op.lget 1]⟩

/-- `accumulate_or_advance_slot_write` (runtime/storage.rs 1521-1617). -/
def accW : Fn := accumulate
  code[Op.lget 0, Op.c32 64, Op.host .storageCache, Op.c32 64, Op.c32 0, Op.c32 32, Op.memFill,
   Op.lget 0, (nextSlot E).call, Op.lset 0]

/-- `accumulate_or_advance_slot_read` (runtime/storage.rs 1480-1519). -/
def accR : Fn := accumulate
  code[Op.lget 0, (nextSlot E).call, Op.ltee 0, Op.c32 64, Op.host .storageLoad]

/-- `accumulate_or_advance_slot_delete` (runtime/storage.rs 1437-1478). -/
def accD : Fn := accumulate
  code[Op.lget 0, Op.c32 0, Op.host .storageCache, Op.lget 0, (nextSlot E).call, Op.lset 0]

/-- `get_storage_size_by_offset` (runtime/enums.rs 21-75): the 32 sizes are written to the table at
260 by every call. -/
def storageSize (vss : List (List Ty)) : Fn := ⟨1, 1, 0,
  (List.range 32).flatMap (fun i => code[Op.c32 260, Op.c32 (enumSize vss i), Op.store 4 (4 * i)]) ++
  code[Op.c32 260, Op.lget 0, Op.c32 32, Op.bin .w32 .remU, Op.c32 4, Op.bin .w32 .mul,
   Op.bin .w32 .add, Op.load 4 0]⟩

/-- `compute_enum_storage_tail_position` (runtime/enums.rs 92-248).  Locals: head_slot_ptr,
head_slot_offset; 2 enum_size, 3 tail_slot_offset, 4 tail_slot_ptr, 5 free_bytes, 6 delta_slot_ptr. -/
def tailPos (vss : List (List Ty)) : Fn := ⟨2, 1, 5,
  code[Op.lget 1, (storageSize vss).call, Op.lset 2,
   Op.c32 36, alloc.call, Op.ltee 4, Op.lget 0, Op.c32 32, Op.memCopy,
   Op.c32 32, Op.lget 1, Op.bin .w32 .sub, Op.lset 5,
   Op.lget 2, Op.lget 5, Op.bin .w32 .geU,
   .ite 0
     code[Op.c32 32, alloc.call, Op.ltee 6, Op.lget 2, Op.lget 5, Op.bin .w32 .sub, Op.c32 32,
       Op.bin .w32 .divS, Op.c32 1, Op.bin .w32 .add, Op.store 4 0,
       Op.lget 4, Op.lget 4, (swapBytes 4).call,
       Op.lget 6, Op.lget 4, Op.lget 4, Op.c32 32, (heapAdd E).call, Op.lset 4,
       Op.lget 4, Op.lget 4, (swapBytes 4).call,
       Op.lget 2, Op.lget 5, Op.bin .w32 .sub, Op.c32 32, Op.bin .w32 .remS, Op.lset 3]
     code[Op.lget 1, Op.lget 2, Op.bin .w32 .add, Op.lset 3],
   Op.lget 4, Op.lget 3, Op.store 4 32,
   Op.lget 4]⟩

/-! ## Deletion -/

mutual
/-- Number of locals added by `delT`. -/
def nlDel : Ty → Nat
  | .struct fs => nlDelFs fs
  | .enum _ => 1
  | .vec t => 4 + nlDel t
  | _ => 0
def nlDelFs : List Ty → Nat
  | [] => 0
  | t :: ts => nlDel t + nlDelFs ts
end

mutual
/-- `add_delete_field_instructions` (storage/common.rs 267-371) after the slot has been advanced;
`sp` slot_ptr, `so` slot_offset.  Structs: common.rs 30-68; enums: 70-143, `k` tail_slot_ptr;
vectors: 145-265, `k` len, `k + 1` elem_slot_ptr, `k + 2` i, `k + 3` elem_slot_offset. -/
def delT (sp so : Nat) : Ty → Nat → List Instr
  | .struct fs, k => delFs sp so fs k ++ code[Op.lget sp, Op.c32 0, Op.host .storageCache]
  | .enum vss, k =>
    code[Op.lget sp, Op.lget so, (tailPos E vss).call, Op.lset k,
     .loop 0
       code[Op.lget sp, Op.lget k, Op.c32 32, heapEq.call,
        .ite 0 code[]
          code[Op.lget sp, Op.c32 0, Op.host .storageCache, Op.lget sp, (nextSlot E).call, Op.lset sp,
           .br 1]],
     Op.lget k, Op.load 4 32, Op.lset so]
  | .vec t, k =>
    code[Op.c32 32, alloc.call, Op.lset (k + 1),
     Op.lget sp, Op.c32 64, Op.host .storageLoad,
     Op.c32 64, Op.load 4 28, swap32.call, Op.lset k,
     Op.lget sp, Op.c32 0, Op.host .storageCache,
     .block 0
       code[Op.lget k, Op.un .eqz, .brIf 0,
        Op.lget sp, Op.c32 32, Op.lget (k + 1), Op.host .keccak,
        Op.c32 0, Op.lset (k + 2), Op.c32 0, Op.lset (k + 3),
        .block 0
          code[.loop 0
            (code[Op.lget (k + 1), Op.lget (k + 3), Op.c32 (fsize t), (accD E).call, Op.lset (k + 3)] ++
             delT (k + 1) (k + 3) t (k + 4) ++
             code[Op.lget (k + 2), Op.lget k, Op.c32 1, Op.bin .w32 .sub, Op.bin .w32 .eq, .brIf 1,
              Op.lget (k + 2), Op.c32 1, Op.bin .w32 .add, Op.lset (k + 2), .br 0])],
        Op.lget (k + 1), Op.c32 0, Op.host .storageCache]]
  | _, _ => []
/-- The fields of a struct. -/
def delFs (sp so : Nat) : List Ty → Nat → List Instr
  | [], _ => []
  | t :: ts, k =>
    code[Op.lget sp, Op.lget so, Op.c32 (fsize t), (accD E).call, Op.lset so] ++
    delT sp so t k ++ delFs sp so ts (k + nlDel t)
end

/-- `delete_struct_from_storage` (runtime/storage.rs 945-1033) of an object type with fields
`u :: fs`.  Locals: struct_ptr; 1 error tmp, 2 slot_ptr, 3 slot_offset. -/
def deleteObject (fs : List Ty) : Fn := ⟨1, 0, 3 + nlDelFs fs,
  code[.block 0
     (code[Op.lget 0, getStructOwner.call, Op.c32 192, Op.c32 32, heapEq.call, Op.un .eqz, .brIf 0] ++
      returnError (E .frozenCannotBeDeleted) .none 1),
   Op.c32 64, Op.c32 0, Op.c32 32, Op.memFill,
   Op.lget 0, locateStructSlot.call, Op.c32 128, Op.lset 2,
   Op.c32 8, Op.lset 3] ++
  delFs E 2 3 fs 4 ++
  code[Op.lget 2, Op.c32 0, Op.host .storageCache,
   Op.lget 0, getStructOwner.call, Op.c32 0, Op.c32 32, Op.memFill]⟩

/-! ## Encoding -/

mutual
/-- Number of locals added by `encT`. -/
def nlEnc : Ty → Nat
  | .struct fs => 4 + nlEncFs fs
  | .object (_ :: fs) => 6 + nlEncFs fs
  | .object [] => 6
  | .enum vss => 4 + nlEncVs vss
  | .vec t => 8 + nlDel t + nlEnc t
  | _ => 2
def nlEncFs : List Ty → Nat
  | [] => 0
  | t :: ts => nlEnc t + nlEncFs ts
def nlEncVs : List (List Ty) → Nat
  | [] => 1
  | fs :: vss => nlEncFs fs + nlEncVs vss
end

/-- A number is taken from its cell, if it is the field of a struct (encoding.rs 705-840). -/
def unbox (fld : Bool) (t : Ty) : List Instr := if fld then code[Op.load t.size 0] else []

mutual
/-- `add_encode_intermediate_type_instructions` (storage/encoding.rs 692-973) after the slot has been
advanced; the value, or the pointer to it, is on the stack.  `sp` slot_ptr, `so` slot_offset, `ow`
owner_ptr; `k` val_32, `k + 1` val_64, `k + 2` child_struct_ptr, then for objects child_struct_id_ptr and
child_struct_slot_ptr.

Structs (encoding.rs 40-150): the next local is field_owner_ptr.
Enums (152-398): `k + 2` tail_slot_ptr, `k + 3` variant_index.
Vectors (400-690): `k + 2` elem_slot_ptr, `k + 3` len, `k + 4` stored_vec_len, `k + 5` i,
`k + 6` elem_slot_offset, `k + 7` elem_size. -/
def encT (T : Ty → Nat) (sp so ow : Nat) (fld : Bool) : Ty → Nat → List Instr
  | .bool, k => unbox fld .bool ++ code[swap32.call, Op.c32 24, Op.bin .w32 .shrU, Op.lset k] ++
      slotPtr so ++ code[Op.lget k, Op.store 1 0]
  | .u8, k => unbox fld .u8 ++ code[swap32.call, Op.c32 24, Op.bin .w32 .shrU, Op.lset k] ++
      slotPtr so ++ code[Op.lget k, Op.store 1 0]
  | .u16, k => unbox fld .u16 ++ code[swap32.call, Op.c32 16, Op.bin .w32 .shrU, Op.lset k] ++
      slotPtr so ++ code[Op.lget k, Op.store 2 0]
  | .u32, k => unbox fld .u32 ++ code[swap32.call, Op.lset k] ++
      slotPtr so ++ code[Op.lget k, Op.store 4 0]
  | .u64, k => unbox fld .u64 ++ code[swap64.call, Op.lset (k + 1)] ++
      slotPtr so ++ code[Op.lget (k + 1), Op.store 8 0]
  | .u128, _ => slotPtr so ++ code[(swapBytes 2).call]
  | .u256, _ => slotPtr so ++ code[(swapBytes 4).call]
  | .address, k => code[Op.lset k] ++ slotPtr so ++
      code[Op.lget k, Op.c32 12, Op.bin .w32 .add, Op.c32 20, Op.memCopy]
  | .struct fs, k => code[Op.lset (k + 2), Op.lget ow, Op.lset (k + 3)] ++
      encFs T (k + 2) sp so (k + 3) fs (k + 4) 0 ++
      code[Op.lget sp, Op.c32 64, Op.host .storageCache]
  | .object [], k => code[Op.lset k, Op.unreachable]
  | .object (u :: fs), k =>
      code[Op.lset (k + 2), Op.lget (k + 2), getIdBytesPtr.call, Op.lset (k + 3),
       Op.c32 32, alloc.call, Op.lset (k + 4),
       Op.lget ow, Op.lget (k + 3), Op.lget (k + 4), writeObjectSlot.call,
       Op.c32 0, Op.lset so,
       Op.c32 64, Op.c32 0, Op.c32 32, Op.memCopy, Op.c32 64, Op.c64 (T (.object (u :: fs))), Op.store 8 24,
       Op.c32 8, Op.lset so, Op.lget (k + 2), getIdBytesPtr.call, Op.lset (k + 5)] ++
      encFs T (k + 2) (k + 4) so (k + 5) fs (k + 6) 4 ++
      code[Op.lget (k + 4), Op.c32 64, Op.host .storageCache,
       Op.c32 32, Op.lset so, Op.c32 64, Op.lget (k + 3), Op.c32 32, Op.memCopy]
  | .enum vss, k =>
      code[Op.lset k,
       Op.lget sp, Op.lget so, (tailPos E vss).call, Op.lset (k + 2),
       Op.lget k, Op.load 4 0, Op.lset (k + 3),
       .block 0 (encArms T k sp so ow (k + 2) (k + 3) vss (k + 4) 0),
       Op.lget (k + 2), Op.load 4 32, Op.lset so]
  | .vec t, k =>
      code[Op.lset k,
       Op.c32 64, Op.c32 0, Op.c32 32, Op.memFill,
       Op.c32 32, alloc.call, Op.lset (k + 2),
       Op.lget k, Op.load 4 0, Op.lset (k + 3),
       Op.lget sp, Op.c32 64, Op.host .storageLoad,
       Op.c32 64, Op.load 4 28, swap32.call, Op.lset (k + 4),
       .block 0
         code[Op.lget (k + 4), Op.lget (k + 3), Op.bin .w32 .leU, .brIf 0,
          .block 0
            (code[Op.lget (k + 3), Op.lset (k + 5), Op.c32 (fsize t), Op.lset (k + 7),
              Op.lget sp, Op.lget (k + 3), Op.lget (k + 7), Op.lget (k + 2)] ++
             callF (deriveDynArraySlot E) .i32 ++
             code[.loop 0
               (code[Op.lget (k + 2), Op.lget (k + 6), Op.c32 (fsize t), (accD E).call, Op.lset (k + 6)] ++
                delT E (k + 2) (k + 6) t (k + 8) ++
                code[Op.lget (k + 5), Op.lget (k + 4), Op.c32 1, Op.bin .w32 .sub, Op.bin .w32 .geU, .brIf 1,
                 Op.lget (k + 5), Op.c32 1, Op.bin .w32 .add, Op.lset (k + 5), .br 0])]),
          Op.lget (k + 2), Op.c32 0, Op.host .storageCache],
       Op.c32 0, Op.lset (k + 5), Op.c32 0, Op.lset (k + 6),
       .block 0
         code[Op.lget (k + 3), Op.un .eqz, .brIf 0,
          Op.lget sp, Op.c32 32, Op.lget (k + 2), Op.host .keccak,
          .block 0
            code[.loop 0
              (code[Op.lget (k + 2), Op.lget (k + 6), Op.c32 (fsize t), (accW E).call, Op.lset (k + 6)] ++
               vecElemPtr k (k + 5) t.size ++ code[Op.load t.size 0] ++
               encT T (k + 2) (k + 6) ow false t (k + 8 + nlDel t) ++
               code[Op.lget (k + 5), Op.lget (k + 3), Op.c32 1, Op.bin .w32 .sub, Op.bin .w32 .eq, .brIf 1,
                Op.lget (k + 5), Op.c32 1, Op.bin .w32 .add, Op.lset (k + 5), .br 0])],
          Op.lget (k + 2), Op.c32 64, Op.host .storageCache],
       Op.c32 64, Op.c32 0, Op.c32 32, Op.memFill,
       Op.c32 64, Op.lget (k + 3), swap32.call, Op.store 4 28,
       Op.c32 32, Op.lset so]
/-- The fields of the struct or variant in local `p`, the pointers to them from offset `off` on
(encoding.rs 90-141, 226-270). -/
def encFs (T : Ty → Nat) (p sp so ow : Nat) : List Ty → Nat → Nat → List Instr
  | [], _, _ => []
  | t :: ts, k, off =>
    code[Op.lget sp, Op.lget so, Op.c32 (fsize t), (accW E).call, Op.lset so, Op.lget p, Op.load 4 off] ++
    encT T sp so ow true t k ++ encFs T p sp so ow ts (k + nlEnc t) (off + 4)
/-- The arms of the encoding of an enum (encoding.rs 205-390) and the error return behind them
(`match_on_variant`, enums.rs 353-389): `p` enum_ptr, `tl` tail_slot_ptr, `vi` variant_index. -/
def encArms (T : Ty → Nat) (p sp so ow tl vi : Nat) : List (List Ty) → Nat → Nat → List Instr
  | [], k, _ => returnError (E .outOfBounds) .i32 k
  | fs :: vss, k, i =>
    .block 0
      (code[Op.lget vi, Op.c32 i, Op.bin .w32 .ne, .brIf 0,
        Op.lget sp, Op.lget so, Op.c32 1, (accW E).call, Op.lset so] ++
       slotPtr so ++ code[Op.lget vi, Op.store 1 0] ++
       encFs T p sp so ow fs k 4 ++
       code[Op.lget sp, Op.lget tl, Op.c32 32, heapEq.call,
        .ite 0 code[]
          code[Op.lget sp, Op.c32 64, Op.host .storageCache,
           Op.c32 64, Op.c32 0, Op.c32 32, Op.memCopy,
           Op.lget sp, (nextSlot E).call, Op.lset sp,
           Op.lget sp, Op.c32 64, Op.host .storageCache,
           .loop 0
             code[Op.lget sp, Op.lget tl, Op.c32 32, heapEq.call,
              .ite 0 code[]
                code[Op.lget sp, (nextSlot E).call, Op.lset sp,
                 Op.lget sp, Op.c32 0, Op.host .storageCache, .br 1]]],
        .br 1]) ::
    encArms T p sp so ow tl vi vss (k + nlEncFs fs) (i + 1)
end

/-- `encode_and_save_in_storage` (runtime/storage.rs 837-874) of an object type with fields `u :: fs`.
Locals: struct_ptr, slot_ptr; 2 slot_offset, 3 field_owner_ptr. -/
def saveObject (T : Ty → Nat) (u : Ty) (fs : List Ty) : Fn := ⟨2, 0, 2 + nlEncFs fs,
  code[Op.c32 0, Op.lset 2,
   Op.c32 64, Op.c32 0, Op.c32 32, Op.memCopy, Op.c32 64, Op.c64 (T (.object (u :: fs))), Op.store 8 24,
   Op.c32 8, Op.lset 2, Op.lget 0, getIdBytesPtr.call, Op.lset 3] ++
  encFs E T 0 1 2 3 fs 4 4 ++
  code[Op.lget 1, Op.c32 64, Op.host .storageCache]⟩

/-! ## Decoding -/

mutual
/-- Number of locals added by `decT`. -/
def nlDec : Ty → Nat
  | .struct fs => 3 + nlDecFs fs
  | .object (_ :: fs) => 8 + nlDecFs fs
  | .object [] => 0
  | .enum vss => 4 + nlDecVs vss
  | .vec t => 5 + nlDec t
  | _ => 0
def nlDecFs : List Ty → Nat
  | [] => 0
  | t :: ts => nlDec t + nlDecFs ts
def nlDecVs : List (List Ty) → Nat
  | [] => 1
  | fs :: vss => nlDecFs fs + nlDecVs vss
end

/-- `add_check_storage_struct...`: the checks in front of an object (decoding.rs 62-117); the slot is
in local `sp`; `tmp` the locals of the two error returns. -/
def decHead (T : Ty → Nat) (t : Ty) (sp so ow id fop tmp : Nat) : List Instr :=
  code[Op.c32 32, alloc.call, Op.lget ow, Op.c32 32, Op.memCopy,
   Op.lget sp, Op.c32 64, Op.host .storageLoad,
   Op.c32 64, Op.c32 32, isZero.call, .ite 0 (returnError (E .objectNotFound) .i32 tmp) code[],
   Op.c32 64, Op.load 8 24, Op.c64 (T t), Op.bin .w64 .eq,
   .ite 0 code[Op.c32 8, Op.lset so] (returnError (E .typeMismatch) .i32 (tmp + 1)),
   Op.lget id, Op.lset fop]

/-- The `UID` field of an object (decoding.rs 138-196): `p` struct_ptr, `fp` field_ptr, `wr` the
wrapper of the id. -/
def decUid (p fp wr id : Nat) : List Instr :=
  code[Op.c32 4, alloc.call, Op.lget p, Op.store 4 0,
   Op.c32 4, alloc.call, Op.lset fp,
   Op.c32 4, alloc.call, Op.lset wr,
   Op.lget wr, Op.lget id, Op.store 4 0,
   Op.lget fp, Op.lget wr, Op.store 4 0,
   Op.lget p, Op.lget fp, Op.store 4 0]

mutual
/-- `add_decode_intermediate_type_instructions` (storage/decoding.rs 632-902) after the slot has been
advanced; the pointer to the value is left in local `dp`.  `sp` slot_ptr, `so` slot_offset, `ow` owner_ptr.

Structs (decoding.rs 38-248): `k` struct_ptr, `k + 1` field_ptr, `k + 2` field_owner_ptr.
Objects: before that child_struct_id_ptr `k + 3` and child_struct_slot_ptr `k + 4`, after that the wrapper `k + 5` and
the locals of the error returns.
Enums (250-426): `k` tail_slot_ptr, `k + 1` enum_ptr, `k + 2` field_ptr, `k + 3` variant_index.
Vectors (428-630): `k` len, `k + 1` elem_slot_ptr, `k + 2` elem_data_ptr, `k + 3` i, `k + 4` slot_offset. -/
def decT (T : Ty → Nat) (dp sp so ow : Nat) : Ty → Nat → List Instr
  | .bool, _ => code[Op.c32 1, alloc.call, Op.ltee dp] ++ slotPtr so ++
      code[Op.load 1 0, swap32.call, Op.c32 24, Op.bin .w32 .shrU, Op.store 4 0]
  | .u8, _ => code[Op.c32 1, alloc.call, Op.ltee dp] ++ slotPtr so ++
      code[Op.load 1 0, swap32.call, Op.c32 24, Op.bin .w32 .shrU, Op.store 4 0]
  | .u16, _ => code[Op.c32 2, alloc.call, Op.ltee dp] ++ slotPtr so ++
      code[Op.load 2 0, swap32.call, Op.c32 16, Op.bin .w32 .shrU, Op.store 4 0]
  | .u32, _ => code[Op.c32 4, alloc.call, Op.ltee dp] ++ slotPtr so ++
      code[Op.load 4 0, swap32.call, Op.store 4 0]
  | .u64, _ => code[Op.c32 8, alloc.call, Op.ltee dp] ++ slotPtr so ++
      code[Op.load 8 0, swap64.call, Op.store 8 0]
  | .u128, _ => slotPtr so ++ code[(copyHeap 16).call, Op.lset dp, Op.lget dp, Op.lget dp, (swapBytes 2).call]
  | .u256, _ => slotPtr so ++ code[(copyHeap 32).call, Op.lset dp, Op.lget dp, Op.lget dp, (swapBytes 4).call]
  | .address, _ => code[Op.c32 32, alloc.call, Op.ltee dp, Op.c32 12, Op.bin .w32 .add] ++ slotPtr so ++
      code[Op.c32 20, Op.memCopy]
  | .struct fs, k =>
      code[Op.lget ow, Op.lset (k + 2), Op.c32 (4 * fs.length), alloc.call, Op.lset k] ++
      decFs T k (k + 1) sp so (k + 2) fs (k + 3) 0 ++
      code[Op.lget k, Op.lset dp]
  | .object [], _ => code[Op.unreachable]
  | .object (u :: fs), k =>
      code[Op.c32 32, alloc.call, Op.lset (k + 3), Op.lget sp, Op.lget (k + 3), Op.host .storageLoad,
       Op.c32 32, alloc.call, Op.lset (k + 4),
       Op.lget ow, Op.lget (k + 3), Op.lget (k + 4), writeObjectSlot.call,
       Op.c32 0, Op.lset so] ++
      decHead E T (.object (u :: fs)) (k + 4) so ow (k + 3) (k + 2) (k + 6) ++
      code[Op.c32 (4 * (fs.length + 1)), alloc.call, Op.lset k] ++
      decUid k (k + 1) (k + 5) (k + 3) ++
      decFs T k (k + 1) (k + 4) so (k + 2) fs (k + 8) 4 ++
      code[Op.c32 32, Op.lset so, Op.lget k, Op.lset dp]
  | .enum vss, k =>
      code[Op.lget sp, Op.lget so, (tailPos E vss).call, Op.lset k,
       Op.c32 (enumHeap vss), alloc.call, Op.lset (k + 1),
       Op.lget sp, Op.lget so, Op.c32 1, (accR E).call, Op.lset so] ++ slotPtr so ++
      code[Op.load 1 0, Op.lset (k + 3), Op.lget (k + 1), Op.lget (k + 3), Op.store 4 0,
       .block 0 (decArms T (k + 1) (k + 2) sp so ow (k + 3) vss (k + 4) 0),
       Op.lget k, Op.load 4 32, Op.lset so, Op.lget k, Op.lset sp,
       Op.lget (k + 1), Op.lset dp]
  | .vec t, k =>
      code[Op.c32 32, alloc.call, Op.lset (k + 1),
       Op.c32 64, Op.c32 0, Op.c32 32, Op.memFill,
       Op.lget sp, Op.c32 64, Op.host .storageLoad,
       Op.c32 64, Op.load 4 28, swap32.call, Op.lset k,
       Op.lget k, Op.lget k, Op.c32 t.size, allocVec.call, Op.lset dp,
       .block 0
         code[Op.lget k, Op.un .eqz, .brIf 0,
          Op.lget sp, Op.c32 32, Op.lget (k + 1), Op.host .keccak,
          Op.lget (k + 1), Op.c32 64, Op.host .storageLoad,
          .block 0
            code[Op.c32 0, Op.lset (k + 3), Op.c32 0, Op.lset (k + 4),
             .loop 0
              (code[Op.lget (k + 1), Op.lget (k + 4), Op.c32 (fsize t), (accR E).call, Op.lset (k + 4)] ++
               decT T (k + 2) (k + 1) (k + 4) ow t (k + 5) ++
               vecElemPtr dp (k + 3) t.size ++ code[Op.lget (k + 2)] ++
               (if t.scalar then code[Op.load (copyStore t) 0] else []) ++
               code[Op.store (copyStore t) 0,
                Op.lget (k + 3), Op.lget k, Op.c32 1, Op.bin .w32 .sub, Op.bin .w32 .eq, .brIf 1,
                Op.lget (k + 3), Op.c32 1, Op.bin .w32 .add, Op.lset (k + 3), .br 0])]]]
/-- The fields of the struct or variant in local `p`, the pointers to them from offset `off` on
(decoding.rs 198-240, 318-398); `fp` field_ptr. -/
def decFs (T : Ty → Nat) (p fp sp so ow : Nat) : List Ty → Nat → Nat → List Instr
  | [], _, _ => []
  | t :: ts, k, off =>
    code[Op.lget sp, Op.lget so, Op.c32 (fsize t), (accR E).call, Op.lset so] ++
    decT T fp sp so ow t k ++
    code[Op.lget p, Op.lget fp, Op.store 4 off] ++
    decFs T p fp sp so ow ts (k + nlDec t) (off + 4)
/-- The arms of the decoding of an enum (decoding.rs 310-405) and the error return behind them. -/
def decArms (T : Ty → Nat) (p fp sp so ow vi : Nat) : List (List Ty) → Nat → Nat → List Instr
  | [], k, _ => returnError (E .outOfBounds) .i32 k
  | fs :: vss, k, i =>
    .block 0 (code[Op.lget vi, Op.c32 i, Op.bin .w32 .ne, .brIf 0] ++
      decFs T p fp sp so ow fs k 4 ++ code[.br 1]) ::
    decArms T p fp sp so ow vi vss (k + nlDecFs fs) (i + 1)
end

/-- `read_and_decode_from_storage` (runtime/storage.rs 889-933) of an object type with fields `u :: fs`.
Locals: slot_ptr, struct_id_ptr, owner_ptr; 3 slot_offset, 4 struct_ptr, 5 field_ptr, 6 field_owner_ptr,
7 wrapper, 8 and 9 error tmp. -/
def readObject (T : Ty → Nat) (u : Ty) (fs : List Ty) : Fn := ⟨3, 1, 7 + nlDecFs fs,
  code[Op.c32 0, Op.lset 3] ++
  decHead E T (.object (u :: fs)) 0 3 2 1 6 8 ++
  code[Op.c32 (4 * (fs.length + 1)), alloc.call, Op.lset 4] ++
  decUid 4 5 7 1 ++
  decFs E T 4 5 0 3 6 fs 10 4 ++
  code[Op.lget 4]⟩

end Rt
