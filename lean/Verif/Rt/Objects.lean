import Verif.Rt.Natives
import Verif.Rt.Signature
import Verif.Rt.Storage
import Verif.Rt.Unpack

/-!
# Stored objects in function signatures

Transcription of the code that loads the objects passed to a function (abi_types/unpacking.rs 272-313,
runtime/unpacking/structs.rs 248-392), of `peep` (native_functions/peep.rs), of the code that reads objects again after
a delegated call (native_functions/contract_calls.rs 662-804), and of named ids (native_functions/object.rs 20-106).
-/

namespace Rt
open Wasm Mv

variable (E : ErrPtrs) (T : Ty → Nat)

/-- `unpack_storage_struct` (runtime/unpacking/structs.rs 262-392) with `object_kind` known; the object has the fields
`u :: fs`.  Locals: uid_ptr; 1 owner_id_ptr, 2 slot_ptr. -/
def unpackKind (locate : Fn) (u : Ty) (fs : List Ty) : Fn := ⟨1, 1, 2,
  code[Op.lget 0] ++ callF locate .i32 ++
  code[Op.lset 1,
   Op.c32 32, alloc.call, Op.ltee 2, Op.c32 128, Op.c32 32, Op.memCopy,
   Op.lget 2, Op.lget 0, Op.lget 1, (readObject E T u fs).call]⟩

/-- `unpack_storage_struct` (structs.rs 262-392) with `object_kind` unknown.  Locals: uid_ptr, unpack_frozen; 2 owner_id_ptr,
3 slot_ptr. -/
def unpackAny (u : Ty) (fs : List Ty) : Fn := ⟨2, 1, 2,
  code[Op.lget 0, Op.lget 1] ++ callF (locateData E) .i32 ++
  code[Op.lset 2,
   Op.c32 32, alloc.call, Op.ltee 3, Op.c32 128, Op.c32 32, Op.memCopy,
   Op.lget 3, Op.lget 0, Op.lget 2, (readObject E T u fs).call]⟩

/-- The lookup that belongs to a modifier of the function (structs.rs 299-341). -/
def locateKind : Sig.Kind → Fn
  | .owned => locateOwned E
  | .shared => locateShared E
  | .frozen => locateFrozen E

/-- The call of `unpack_storage_struct` (abi_types/unpacking.rs 284-312); `imm`: the parameter is an immutable reference. -/
def loadObject (kind : Option Sig.Kind) (imm : Bool) (u : Ty) (fs : List Ty) : List Instr :=
  match kind with
  | some k => callF (unpackKind E T (locateKind E k) u fs) .i32
  | none => (Op.c32 (if imm then 1 else 0) : Instr) :: callF (unpackAny E T u fs) .i32

/-- `add_unpack_instructions` (abi_types/unpacking.rs 272-313, 354-361, 385-394) of an object with a `UID`, as a function:
the entry point is the caller, and an error ends it (`return_block_id`).  Locals: reader_pointer. -/
def loadArg (kind : Option Sig.Kind) (imm : Bool) (u : Ty) (fs : List Ty) : Fn := ⟨1, 1, 0,
  code[Op.lget 0, unpackAddress.call] ++ loadObject E T kind imm u fs ++
  code[Op.gget .reader, Op.lset 0]⟩

/-- The struct that a `NamedId` is instantiated with: its module, and its identifier. -/
structure Marker where
  module : List UInt8
  ident : List UInt8

/-- The hash that `compute_named_id` writes (native_functions/object.rs 46-49): that of `struct_.identifier`. -/
def namedHash (K : List UInt8 → Nat) (m : Marker) : Nat := K m.ident

/-- `compute_named_id` (native_functions/object.rs 20-66); `h` is the hash of the name of the struct that the `NamedId` is
instantiated with (line 49: the identifier, without the module).  Locals: 0 id_ptr. -/
def computeNamedId (h : Nat) : Fn := ⟨0, 1, 1,
  code[Op.c32 32, alloc.call, Op.lset 0] ++ storeHash h 0 ++ code[Op.lget 0]⟩

/-- `add_unpack_instructions` (abi_types/unpacking.rs 272-313, 354-361, 395-420) of an object with a `NamedId`: nothing is read from
the calldata.  Locals: reader_pointer. -/
def loadNamed (h : Nat) (kind : Option Sig.Kind) (imm : Bool) (u : Ty) (fs : List Ty) : Fn := ⟨1, 1, 0,
  code[(computeNamedId h).call] ++ loadObject E T kind imm u fs ++
  code[Op.gget .reader, Op.lset 0]⟩

/-- `as_uid`, `as_uid_mut` (native_functions/object.rs 71-106).  Locals: named_id_ptr; 1 result. -/
def asUid : Fn := ⟨1, 1, 1,
  code[Op.c32 4, alloc.call, Op.ltee 1, Op.lget 0, Op.store 4 0, Op.lget 1]⟩

/-- `peep` (native_functions/peep.rs 27-158).  Locals: owner_address_ptr, uid_ptr; 2 slot_ptr, 3 the error pointer, 4 ref_ptr. -/
def peep (u : Ty) (fs : List Ty) : Fn := ⟨2, 1, 3,
  code[Op.lget 1, Op.load 4 0, Op.load 4 0, Op.lset 1,
   Op.c32 32, alloc.call, Op.lset 2,
   .block 0 (
     code[Op.lget 0, Op.lget 1, Op.lget 2, writeObjectSlot.call,
      Op.lget 2, Op.c32 64, Op.host .storageLoad,
      Op.c32 64, Op.c32 32, isZero.call] ++ negate ++ code[.brIf 0] ++
     returnError (E .objectNotFound) .i32 3),
   Op.c32 4, alloc.call, Op.ltee 4,
   Op.lget 2, Op.lget 1, Op.lget 0, (readObject E T u fs).call,
   Op.store 4 0, Op.lget 4]⟩

/-- One object of the loop (native_functions/contract_calls.rs 685-802): `i` is the local with the reference to its `UID`, the locals
from `k` on are uid_ptr, owner_ptr, original_struct_ptr and new_struct_ptr. -/
def reloadOne (u : Ty) (fs : List Ty) (i k : Nat) : List Instr :=
  code[Op.lget i, Op.c32 4, Op.bin .w32 .sub, Op.load 4 0, Op.lset (k + 2),
   Op.lget i, Op.load 4 0, Op.load 4 0, Op.ltee k, Op.c32 0] ++ callF (locateData E) .i32 ++
  code[Op.lset (k + 1),
   Op.c32 128, Op.lget k, Op.lget (k + 1)] ++ callF (readObject E T u fs) .i32 ++
  code[Op.lset (k + 3),
   Op.lget (k + 2), Op.lget (k + 3), Op.c32 (4 * (fs.length + 1)), Op.memCopy]

/-- The end of the function emitted for an external call (contract_calls.rs 662-806) that takes one object, as a function.
Locals: call_result, is_delegate_call, the reference to the `UID` of the object; 3 uid_ptr, 4 owner_ptr, 5 original_struct_ptr,
6 new_struct_ptr.  The loop is unrolled at compile time; for a call that takes several objects `reloadOne` is emitted once for each. -/
def reload (u : Ty) (fs : List Ty) : Fn := ⟨3, 1, 4,
  code[.block 0 (
     code[Op.lget 1, Op.c32 0, Op.bin .w32 .eq, .brIf 0] ++ reloadOne E T u fs 2 3),
   Op.lget 0]⟩

end Rt
