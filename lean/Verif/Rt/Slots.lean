import Verif.Rt.HeapInts
import Verif.Rt.Equality

/-!
# Storage slots

Transcription of the slot arithmetic and the object lookup of `runtime/storage.rs`.

Fixed addresses (data.rs 36-60): zero word 0, the number one 32, current slot data 64, slot of the
objects mapping 96, slot of the current object 128, key of shared objects 160, key of frozen objects
192, owner of the current object 224, buffer for hashing 404.
-/

namespace Rt
open Wasm

variable (E : ErrPtrs)

/-- `derive_mapping_slot` (runtime/storage.rs 621-667).
Locals: mapping_slot_ptr, key_ptr, derived_slot_ptr. -/
def deriveMappingSlot : Fn := ⟨3, 0, 0,
  code[Op.c32 404, Op.lget 1, Op.c32 32, Op.memCopy,
   Op.c32 436, Op.lget 0, Op.c32 32, Op.memCopy,
   Op.c32 404, Op.c32 64, Op.lget 2, Op.host .keccak]⟩

/-- `write_object_slot` (runtime/storage.rs 483-519).  Locals: owner_ptr, uid_ptr, slot_ptr. -/
def writeObjectSlot : Fn := ⟨3, 0, 0,
  code[Op.c32 96, Op.lget 0, Op.lget 2, deriveMappingSlot.call,
   Op.lget 2, Op.lget 1, Op.lget 2, deriveMappingSlot.call]⟩

/-- `get_id_bytes_ptr` (runtime/storage.rs 561-610). -/
def getIdBytesPtr : Fn := ⟨1, 1, 0, code[Op.lget 0, Op.load 4 0, Op.load 4 0, Op.load 4 0]⟩

/-- `get_struct_owner_fn` (runtime/storage.rs 1316-1330). -/
def getStructOwner : Fn := ⟨1, 1, 0, code[Op.lget 0, Op.c32 32, Op.bin .w32 .sub]⟩

/-- `locate_struct_slot` (runtime/storage.rs 445-475). -/
def locateStructSlot : Fn := ⟨1, 0, 0,
  code[Op.lget 0, getStructOwner.call, Op.lget 0, getIdBytesPtr.call, Op.c32 128,
   writeObjectSlot.call]⟩

/-- `storage_next_slot_function` (runtime/storage.rs 521-558).  The result is the pointer left by the
addition. -/
def nextSlot : Fn := ⟨1, 1, 0,
  code[Op.lget 0, Op.lget 0, (swapBytes 4).call,
   Op.lget 0, Op.c32 32, Op.lget 0, Op.c32 32, (heapAdd E).call,
   Op.lget 0, Op.lget 0, (swapBytes 4).call]⟩

/-- `derive_dyn_array_slot` (runtime/storage.rs 680-830).
Locals: array_slot_ptr, elem_index, elem_size, derived_elem_slot_ptr; 4 base_slot_ptr.
The guard `elem_size <= 0` is unsigned. -/
def deriveDynArraySlot : Fn := ⟨4, 0, 1,
  code[Op.lget 2, Op.c32 0, Op.bin .w32 .leU, .ite 0 code[Op.unreachable] code[],
   Op.c32 32, alloc.call, Op.lset 4,
   Op.lget 0, Op.c32 32, Op.lget 4, Op.host .keccak,
   Op.lget 2, Op.c32 32, Op.bin .w32 .ltU,
   .ite 1
     code[Op.lget 1, Op.c32 32, Op.lget 2, Op.bin .w32 .divU, Op.bin .w32 .divU]
     code[Op.lget 1, Op.lget 2, Op.c32 31, Op.bin .w32 .add, Op.c32 32, Op.bin .w32 .divU,
       Op.bin .w32 .mul],
   swap32.call, Op.lset 2,
   Op.c32 32, alloc.call, Op.lset 1, Op.lget 1, Op.lget 2, Op.store 4 28,
   Op.lget 3, Op.lget 1, Op.lget 4, Op.c32 32, alloc.call, Op.c32 32, (heapAdd E).call,
   Op.c32 32, Op.memCopy]⟩

/-- The owner of the objects of the sender of the transaction is written to 224, left padded
(runtime/storage.rs 88-98, 228-238). -/
def writeSigner : List Instr :=
  code[Op.c32 224, Op.c32 0, Op.c32 12, Op.memFill, Op.c32 236, Op.host .txOrigin]

/-- The slot of the object with the id in local 0 under the owner at `key` is written to 128 and its
content to 64 (runtime/storage.rs 100-110 and five more times). -/
def loadUnder (key : Nat) : List Instr :=
  code[Op.c32 key, Op.lget 0, Op.c32 128, writeObjectSlot.call,
   Op.c32 128, Op.c32 64, Op.host .storageLoad]

/-- `locate_storage_data` (runtime/storage.rs 49-191).
Locals: uid_ptr, search_frozen; 2 error tmp. -/
def locateData : Fn := ⟨2, 1, 1,
  code[.block 1 (
    writeSigner ++ loadUnder 224 ++
    code[Op.c32 224, Op.c32 64, Op.c32 32, isZero.call] ++ negate ++ code[.brIf 0, Op.drop] ++
    loadUnder 160 ++
    code[Op.c32 160, Op.c32 64, Op.c32 32, isZero.call] ++ negate ++ code[.brIf 0, Op.drop] ++
    code[.block 0 (
      code[Op.lget 1, Op.un .eqz, .brIf 0] ++
      loadUnder 192 ++
      code[Op.c32 192, Op.c32 64, Op.c32 32, isZero.call] ++ negate ++ code[.brIf 1, Op.drop])] ++
    returnError (E .objectNotFound) .i32 2)]⟩

/-- The common end of the three lookups below. -/
def foundOr (key : Nat) : List Instr :=
  code[Op.c32 64, Op.c32 32, isZero.call,
   .ite 0 (returnError (E .objectNotFound) .i32 1) code[],
   Op.c32 key]

/-- `locate_storage_owned_data` (runtime/storage.rs 209-281).  Locals: uid_ptr; 1 error tmp. -/
def locateOwned : Fn := ⟨1, 1, 1, writeSigner ++ loadUnder 224 ++ foundOr E 224⟩

/-- `locate_storage_shared_data` (runtime/storage.rs 299-358). -/
def locateShared : Fn := ⟨1, 1, 1, loadUnder 160 ++ foundOr E 160⟩

/-- `locate_storage_frozen_data` (runtime/storage.rs 376-433). -/
def locateFrozen : Fn := ⟨1, 1, 1, loadUnder 192 ++ foundOr E 192⟩

end Rt
