import Verif.Rt.Natives
import Verif.Rt.Storage

/-!
# Dynamic fields

Transcription of native_functions/dynamic_field.rs and of the saving of mutably borrowed fields in
`add_commit_changes_to_storage_fn` (runtime/storage.rs 1339-1430).

A dynamic field of an object is an object `Field<Name, Value>` with the fields `id`, `name` and `value`
(move-packages/stylus-framework/sources/dynamic_field.move 29-37), stored under the id of the object it is a field
of; its own id is the hash computed by `hashKey`.
-/

namespace Rt
open Wasm Mv

variable (E : ErrPtrs)

mutual
/-- Number of locals added by `copyKey`. -/
def nlKey : Ty → Nat
  | .struct fs => 2 + nlKeyFs fs
  | .vec t => 3 + nlKey t
  | _ => 0
def nlKeyFs : List Ty → Nat
  | [] => 0
  | t :: ts => nlKey t + nlKeyFs ts
end

mutual
/-- `copy_data_to_memory` (native_functions/dynamic_field.rs 490-668); `d` is the local with the key, the new
locals are from `k` on.  Structs: `k` field_data_32, `k + 1` field_data_64; vectors: `k` len, `k + 1` i, `k + 2` field_data.
Other types are rejected by the compiler (line 664). -/
def copyKey (d : Nat) : Ty → Nat → List Instr
  | .address, _ => code[Op.c32 32, alloc.call, Op.lget d, Op.c32 32, Op.memCopy]
  | .bool, _ => code[Op.c32 1, alloc.call, Op.lget d, Op.store 1 0]
  | .u8, _ => code[Op.c32 1, alloc.call, Op.lget d, Op.store 1 0]
  | .u16, _ => code[Op.c32 2, alloc.call, Op.lget d, Op.store 2 0]
  | .u32, _ => code[Op.c32 4, alloc.call, Op.lget d, Op.store 4 0]
  | .u64, _ => code[Op.c32 8, alloc.call, Op.lget d, Op.store 8 0]
  | .u128, _ => code[Op.c32 16, alloc.call, Op.lget d, Op.c32 16, Op.memCopy]
  | .u256, _ => code[Op.c32 32, alloc.call, Op.lget d, Op.c32 32, Op.memCopy]
  | .struct fs, k => copyKeyFs d k fs (k + 2) 0
  | .vec t, k =>
    code[Op.lget d, Op.load 4 0, Op.lset k, Op.c32 0, Op.lset (k + 1)] ++ skipVecHeader d ++ code[Op.lset d,
     .block 0
       code[.loop 0
         (code[Op.lget d, Op.c32 t.size, Op.lget (k + 1), Op.bin .w32 .mul, Op.bin .w32 .add, Op.load t.size 0, Op.lset (k + 2)] ++
          copyKey (k + 2) t (k + 3) ++
          code[Op.lget (k + 1), Op.lget k, Op.c32 1, Op.bin .w32 .sub, Op.bin .w32 .eq, .brIf 1,
           Op.lget (k + 1), Op.c32 1, Op.bin .w32 .add, Op.lset (k + 1), .br 0])]]
  | .object _, _ => code[Op.unreachable]
  | .enum _, _ => code[Op.unreachable]
/-- The fields of a struct (dynamic_field.rs 572-597), from offset `off` on; `f` is field_data_32. -/
def copyKeyFs (d f : Nat) : List Ty → Nat → Nat → List Instr
  | [], _, _ => []
  | t :: ts, k, off =>
    code[Op.lget d, Op.load 4 off] ++ (if t.scalar then code[Op.load t.size 0] else []) ++
    code[Op.lset (if t.size = 8 then f + 1 else f)] ++
    copyKey (if t.size = 8 then f + 1 else f) t k ++ copyKeyFs d f ts (k + nlKey t) (off + 4)
end

/-- The name of the type of the key, byte by byte (dynamic_field.rs 459-472). -/
def copyName : List UInt8 → List Instr
  | [] => []
  | b :: bs => code[Op.c32 1, alloc.call, Op.c32 b.toNat, Op.store 1 0] ++ copyName bs

/-- `add_hash_type_and_key_fn` (dynamic_field.rs 411-488) for keys of type `t`, whose name is `name`
(`get_name`, translation/intermediate_types.rs 971-1043; of a struct, the identifier without its module).
Locals: parent_address, key; 2 data_start, 3 result_ptr. -/
def hashKey (t : Ty) (name : List UInt8) : Fn := ⟨2, 1, 2 + nlKey t,
  code[Op.c32 32, alloc.call, Op.lset 2,
   Op.lget 2, Op.lget 0, Op.c32 32, Op.memCopy] ++
  copyKey 1 t 4 ++ copyName name ++
  code[Op.lget 2, Op.c32 0, alloc.call, Op.lget 2, Op.bin .w32 .sub,
   Op.c32 32, alloc.call, Op.ltee 3, Op.host .keccak, Op.lget 3]⟩

variable (T : Ty → Nat)

/-- `add_child_object_fn` (dynamic_field.rs 32-94).  Locals: parent_address, child_ptr; 2 slot_ptr. -/
def addChild (u : Ty) (fs : List Ty) : Fn := ⟨2, 0, 1,
  code[Op.c32 32, alloc.call, Op.lset 2,
   Op.lget 0, Op.lget 1, getIdBytesPtr.call, Op.lget 2, writeObjectSlot.call,
   Op.lget 1, Op.lget 2] ++ callF (saveObject E T u fs) .none⟩

/-- `add_borrow_object_fn` (dynamic_field.rs 96-212).  Locals: parent_uid, child_id; 2 slot_ptr, 3 result_struct,
4 result. -/
def borrowChild (u : Ty) (fs : List Ty) : Fn := ⟨2, 1, 3,
  code[Op.c32 32, alloc.call, Op.lset 2,
   Op.lget 0, Op.load 4 0, Op.load 4 0, Op.ltee 0, Op.lget 1, Op.lget 2, writeObjectSlot.call,
   Op.lget 2, Op.lget 1, Op.lget 0] ++ callF (readObject E T u fs) .i32 ++
  code[Op.lset 3, Op.c32 4, alloc.call, Op.ltee 4, Op.lget 3, Op.store 4 0, Op.lget 4]⟩

/-- `add_remove_child_object_fn` (dynamic_field.rs 214-268); the field is deleted from storage by `id.delete()` in
`remove` (dynamic_field.move 95).  Locals: parent_uid, child_id. -/
def removeChild (u : Ty) (fs : List Ty) : Fn := ⟨2, 1, 0,
  code[Op.lget 0, Op.lget 1, (borrowChild E T u fs).call, Op.load 4 0]⟩

/-- `add_has_child_object_fn` (dynamic_field.rs 270-327).  Locals: parent_address, child_address. -/
def hasChild : Fn := ⟨2, 1, 0,
  code[Op.lget 0, Op.lget 1, Op.c32 128, writeObjectSlot.call,
   Op.c32 128, Op.c32 64, Op.host .storageLoad,
   Op.c32 64, Op.c32 32, isZero.call] ++ negate⟩

/-- `add_has_child_object_with_ty_fn` (dynamic_field.rs 329-398); `h` is the hash of the type. -/
def hasChildTy (h : Nat) : Fn := ⟨2, 1, 0,
  code[Op.lget 0, Op.lget 1, hasChild.call,
   .ite 1 code[Op.c32 64, Op.load 8 24, Op.c64 h, Op.bin .w64 .eq] code[Op.c32 0]]⟩

/-- The value of the global variable of a call of `borrow_mut` after the call has returned the fields `ws`, in this order
(translation/bytecodes/dynamic_fields.rs 29-46). -/
def borrowVar (ws : List Nat) : Nat := ws.getLastD 4294967295

/-- The part of `add_commit_changes_to_storage_fn` (runtime/storage.rs 1375-1424) for one of the global variables that hold
the fields borrowed mutably; its value (`borrowVar`) is the argument.
Locals: the value of the variable; 1 owner_ptr, 2 slot_ptr. -/
def commitField (u : Ty) (fs : List Ty) : Fn := ⟨1, 0, 2,
  code[.block 0
    code[Op.lget 0, Op.c32 4294967295, Op.bin .w32 .eq, .brIf 0,
     Op.lget 0, getStructOwner.call, Op.ltee 1, Op.c32 32, isZero.call, .brIf 0,
     Op.c32 32, alloc.call, Op.lset 2,
     Op.lget 1, Op.lget 0, getIdBytesPtr.call, Op.lget 2, writeObjectSlot.call,
     Op.lget 0, Op.lget 2, (saveObject E T u fs).call]]⟩

end Rt
