import Verif.Rt.Storage

/-!
# Moving objects: transfer, share, freeze, and saving objects at the end of a function

Transcription of `native_functions/transfer.rs` and of the parts of `runtime/storage.rs` it calls.
`u :: fs` are the fields of an object type, `u` the `UID`.
-/

namespace Rt
open Wasm Mv

variable (E : ErrPtrs)

/-- `add_delete_tto_object_fn` (runtime/storage.rs 1227-1312) for the type of the child; without the
`key` ability the body is empty.  Locals: parent_struct_ptr, child_struct_ptr; 2 child_struct_owner_ptr. -/
def deleteTto : Ty → Fn
  | .object (_ :: fs) => ⟨2, 0, 1,
    code[.block 0
      code[Op.lget 1, getStructOwner.call, Op.lset 2,
       Op.lget 2, Op.c32 32, isZero.call, .brIf 0,
       Op.lget 0, getIdBytesPtr.call, Op.lget 2, Op.c32 32, heapEq.call, .brIf 0,
       Op.lget 1, (deleteObject E fs).call]]⟩
  | _ => ⟨2, 0, 0, []⟩

/-- `IStruct` or `IGenericStructInstance` (runtime/storage.rs 1082-1085, 1126-1129). -/
def isStruct : Ty → Bool
  | .struct _ | .object _ => true
  | _ => false

/-- Number of locals added for a field. -/
def nlTto : Ty → Nat
  | .struct _ | .object _ => 1
  | .vec t => if isStruct t then 4 else 0
  | _ => 0

mutual
/-- `add_check_and_delete_struct_tto_fields_fn` (runtime/storage.rs 1059-1225) for a struct type. -/
def ttoFn : Ty → Fn
  | .struct fs => ⟨1, 0, (fs.map nlTto).sum, ttoFs fs 1 0⟩
  | .object fs => ⟨1, 0, (fs.map nlTto).sum, ttoFs fs 1 0⟩
  | _ => ⟨1, 0, 0, []⟩
/-- A field at offset `off`.  Structs: `k` child_struct_ptr (1082-1122).  Vectors of structs: `k` vector_ptr,
`k + 1` len, `k + 2` i, `k + 3` elem_ptr (1124-1218). -/
def ttoT : Ty → Nat → Nat → List Instr
  | .struct fs, k, off =>
    code[Op.lget 0, Op.load 4 off, Op.lset k,
     Op.lget k, Fn.call ⟨1, 0, (fs.map nlTto).sum, ttoFs fs 1 0⟩,
     Op.lget 0, Op.lget k, (deleteTto E (.struct fs)).call]
  | .object fs, k, off =>
    code[Op.lget 0, Op.load 4 off, Op.lset k,
     Op.lget k, Fn.call ⟨1, 0, (fs.map nlTto).sum, ttoFs fs 1 0⟩,
     Op.lget 0, Op.lget k, (deleteTto E (.object fs)).call]
  | .vec t, k, off =>
    if isStruct t then
      code[Op.lget 0, Op.load 4 off, Op.ltee k, Op.load 4 0, Op.lset (k + 1),
       .block 0
         code[Op.lget (k + 1), Op.un .eqz, .brIf 0,
          .block 0
            code[Op.c32 0, Op.lset (k + 2),
             .loop 0
               (vecElemPtr k (k + 2) 4 ++
                code[Op.load 4 0, Op.lset (k + 3),
                 Op.lget (k + 3), (ttoFn t).call,
                 Op.lget 0, Op.lget (k + 3), (deleteTto E t).call,
                 Op.lget (k + 2), Op.lget (k + 1), Op.c32 1, Op.bin .w32 .sub, Op.bin .w32 .eq, .brIf 1,
                 Op.lget (k + 2), Op.c32 1, Op.bin .w32 .add, Op.lset (k + 2), .br 0])]]]
    else []
  | _, _, _ => []
/-- The loop over the fields (1079-1221). -/
def ttoFs : List Ty → Nat → Nat → List Instr
  | [], _, _ => []
  | t :: ts, k, off => ttoT t k off ++ ttoFs ts (k + nlTto t) (off + 4)
end

variable (T : Ty → Nat)

/-- The deletion from the storage of the previous owner, common to the three functions below
(transfer.rs 120-131, 251-262, 397-408). -/
def dropOld (fs : List Ty) (ow : Nat) : Instr :=
  .block 0 code[Op.lget ow, Op.c32 32, isZero.call, .brIf 0, Op.lget 0, (deleteObject E fs).call]

/-- `add_transfer_object_fn` (native_functions/transfer.rs 22-165).  In the second check `eqz` is applied to the
length (106-111).  Locals: struct_ptr, recipient_ptr; 2 owner_ptr, 3 id_bytes_ptr, 4 slot_ptr, 5 and 6 error tmp. -/
def transferObject (u : Ty) (fs : List Ty) : Fn := ⟨2, 0, 5,
  code[Op.lget 0, Op.c32 32, Op.bin .w32 .sub, Op.lset 2,
   .block 0 (code[Op.lget 2, Op.c32 160, Op.c32 32, heapEq.call, Op.un .eqz, .brIf 0] ++
     returnError (E .sharedCannotBeTransferred) .none 5),
   .block 0 (code[Op.lget 2, Op.c32 192, Op.c32 32, Op.un .eqz, heapEq.call, .brIf 0] ++
     returnError (E .frozenCannotBeTransferred) .none 6),
   dropOld E fs 2,
   Op.lget 0, (ttoFn E (.object (u :: fs))).call,
   Op.lget 2, Op.lget 1, Op.c32 32, Op.memCopy,
   Op.lget 0, getIdBytesPtr.call, Op.lset 3,
   Op.c32 32, alloc.call, Op.lset 4,
   Op.lget 1, Op.lget 3, Op.lget 4, writeObjectSlot.call,
   Op.lget 0, Op.lget 4, (saveObject E T u fs).call]⟩

/-- `add_share_object_fn` (native_functions/transfer.rs 168-301) with `key = 160`, `other = 192`, and
`add_freeze_object_fn` (304-448) with `key = 192`, `other = 160`: the two differ in the keys, the error
and in that the latter tees owner_ptr.  Locals: struct_ptr; 1 owner_ptr, 2 slot_ptr, 3 error tmp. -/
def publishObject (key other : Nat) (e : RtErr) (u : Ty) (fs : List Ty) : Fn := ⟨1, 0, 3,
  code[.block 0
    code[Op.lget 0, Op.c32 32, Op.bin .w32 .sub, Op.lset 1,
     Op.lget 1, Op.c32 key, Op.c32 32, heapEq.call, .brIf 0,
     Op.lget 1, Op.c32 other, Op.c32 32, heapEq.call,
     .ite 0 (returnError (E e) .none 3)
       code[dropOld E fs 1,
        Op.lget 0, (ttoFn E (.object (u :: fs))).call,
        Op.lget 1, Op.c32 key, Op.c32 32, Op.memCopy,
        Op.c32 32, alloc.call, Op.lset 2,
        Op.c32 key, Op.lget 0, getIdBytesPtr.call, Op.lget 2, writeObjectSlot.call,
        Op.lget 0, Op.lget 2, (saveObject E T u fs).call]]]⟩

/-- `add_share_object_fn` (native_functions/transfer.rs 168-301). -/
def shareObject := publishObject E T 160 192 .frozenCannotBeShared

/-- `add_freeze_object_fn` (native_functions/transfer.rs 304-448). -/
def freezeObject := publishObject E T 192 160 .sharedCannotBeFrozen

/-- `cache_storage_object_changes` (runtime/storage.rs 1622-1705), called for every parameter of an object type when a function
returns.  Locals: struct_ptr_ref; 1 struct_ptr, 2 slot_ptr. -/
def cacheChanges (u : Ty) (fs : List Ty) : Fn := ⟨1, 0, 2,
  code[Op.lget 0, Op.load 4 0, Op.ltee 1, locateStructSlot.call,
   Op.lget 1, getStructOwner.call, Op.c32 32, isZero.call,
   .ite 0 code[]
     code[Op.c32 32, alloc.call, Op.ltee 2, Op.c32 128, Op.c32 32, Op.memCopy,
      Op.lget 1, (ttoFn E (.object (u :: fs))).call,
      Op.lget 1, Op.lget 2, (saveObject E T u fs).call]]⟩

end Rt
