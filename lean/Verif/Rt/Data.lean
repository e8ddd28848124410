import Verif.Rt.Heap

/-!
# The data segment

Transcription of `data.rs`, of the messages of `error.rs`, and of the initial values of the
allocator globals (memory.rs, hostio/entrypoint_router.rs).
-/

namespace Rt
open Wasm

/-- ASCII bytes of a Rust byte-string literal. -/
def ascii8 (s : String) : List UInt8 := s.toList.map (fun c => UInt8.ofNat c.toNat)

/-- `RuntimeError::as_bytes` (error.rs 183-206). -/
def RtErr.msg : RtErr → List UInt8
  | .frozenCannotBeShared => ascii8 "Frozen objects cannot be shared"
  | .sharedCannotBeFrozen => ascii8 "Shared objects cannot be frozen"
  | .frozenCannotBeTransferred => ascii8 "Frozen objects cannot be transferred"
  | .sharedCannotBeTransferred => ascii8 "Shared objects cannot be transferred"
  | .objectNotFound => ascii8 "Object not found"
  | .frozenCannotBeDeleted => ascii8 "Frozen objects cannot be deleted"
  | .typeMismatch => ascii8 "Storage object type mismatch"
  | .overflow => ascii8 "Overflow"
  | .outOfBounds => ascii8 "Out of bounds"
  | .memoryAccessOutOfBounds => ascii8 "Memory access out of bounds"
  | .enumSizeTooLarge => ascii8 "Enum size too large"
  | .vectorNotEmpty => ascii8 "Attempted to destroy an non-empty vector"

/-- `u32::to_le_bytes`. -/
def le4 (v : Nat) : List UInt8 :=
  [UInt8.ofNat v, UInt8.ofNat (v / 256), UInt8.ofNat (v / 65536), UInt8.ofNat (v / 16777216)]

/-- `u32::to_be_bytes`. -/
def be4 (v : Nat) : List UInt8 :=
  [UInt8.ofNat (v / 16777216), UInt8.ofNat (v / 65536), UInt8.ofNat (v / 256), UInt8.ofNat v]

/-- `(n + 31) & !31` on `usize` (data.rs 172). -/
def padUp (n : Nat) : Nat := (n + 31) &&& (2 ^ 64 - 32)

/-- `abi_encode_error_message` (data.rs 162-203), for an arbitrary message. -/
def encodeError (msg : List UInt8) : List UInt8 :=
  le4 (68 + padUp msg.length) ++ [0x08, 0xc3, 0x79, 0xa0] ++
  (List.replicate 31 0 ++ [0x20]) ++
  (List.replicate 28 0 ++ be4 msg.length) ++
  msg ++ List.replicate (padUp msg.length - msg.length) 0

/-- `RuntimeErrorData` (data.rs 102-106) together with the data segments added to the module so
far (`module.data`), each an offset and its bytes. -/
structure ErrTable where
  next : Nat
  errors : List (RtErr × Nat)
  segs : List (Nat × List UInt8)

/-- `U256::to_le_bytes_vec`, `to_be_bytes_vec` of a small number. -/
def u256le (v : UInt8) : List UInt8 := v :: List.replicate 31 0
def u256be (v : UInt8) : List UInt8 := List.replicate 31 0 ++ [v]

/-- `setup_data_segment` (data.rs 72-100). -/
def baseSegs : List (Nat × List UInt8) := [(32, u256le 1), (160, u256be 1), (192, u256be 2)]

/-- `RuntimeErrorData::new` (data.rs 114-120) after `setup_data_segment`. -/
def ErrTable.new : ErrTable := ⟨468, [], baseSegs⟩

/-- `RuntimeErrorData::get` (data.rs 128-152); `none` is the panic. -/
def ErrTable.get (t : ErrTable) (e : RtErr) : Option (Nat × ErrTable) :=
  match t.errors.lookup e with
  | some off => some (off, t)
  | none =>
    let enc := encodeError e.msg
    if 255 < enc.length then none
    else some (t.next, ⟨t.next + enc.length, (e, t.next) :: t.errors, t.segs ++ [(t.next, enc)]⟩)

/-- The requests made while a contract is compiled, in order. -/
def ErrTable.gets (t : ErrTable) : List RtErr → Option (List Nat × ErrTable)
  | [] => some ([], t)
  | e :: es =>
    match t.get e with
    | none => none
    | some (p, t') =>
      match t'.gets es with
      | none => none
      | some (ps, t'') => some (p :: ps, t'')

/-- Linear memory after instantiation: zero, then the active data segments in order. -/
def segMem : List (Nat × List UInt8) → Bytes → Bytes
  | [], f => f
  | (a, bs) :: r, f => segMem r (wrBytes f a bs)

/-- The machine when the entry point is called: one page of memory (memory.rs 27), the data
segments, and the globals as set by memory.rs 30-42, 162-166 and
hostio/entrypoint_router.rs 299-315. -/
def initStore (t : ErrTable) (maxPages : Nat) (host : Host) : Store :=
  ⟨segMem t.segs (fun _ => 0), 65536, maxPages, t.next, 65536 - t.next, 0, host⟩

end Rt
