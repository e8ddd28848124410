import Verif.Rt.Export
import Verif.Rt.Rep

/-!
# The types by which the contract reads arguments and writes results
-/

namespace Export
open Abi Rt

mutual
/-- What `add_pack_instructions` and `add_pack_instructions_dynamic` (abi_types/packing.rs 224-461) and `is_dynamic` (513-543) do
with a value of the type: strings, then structs by all their fields, whatever they are; `none` is a compile error.  `k` gives
the number of variants of an enum. -/
def wireTy (k : Mod → String → Nat) : ITy → Option MTy
  | .bool => some .bool
  | .u8 => some .u8
  | .u16 => some .u16
  | .u32 => some .u32
  | .u64 => some .u64
  | .u128 => some .u128
  | .u256 => some .u256
  | .address => some .address
  | .signer => none
  | .param _ => none
  | .vec t => (wireTy k t).map .vec
  | .ref _ => none
  | .mutRef _ => none
  | .enum m n _ simple => if simple then some (.enum (k m n)) else none
  | .struct m n args _ fields _ =>
    match (if args.isEmpty then isVm "String" stringMods m n else some false) with
    | none => none
    | some true => some .string
    | some false => (wireTys k fields).map .struct
def wireTys (k : Mod → String → Nat) : List ITy → Option (List MTy)
  | [] => some []
  | t :: ts => (wireTy k t).bind fun m => (wireTys k ts).map (m :: ·)
end

/-- A result: a value or a reference to one (abi_types/packing.rs 290-310, 385-412). -/
def wireP (k : Mod → String → Nat) : ITy → Option PTy
  | .ref t => (wireTy k t).map .ref
  | .mutRef t => (wireTy k t).map .ref
  | t => (wireTy k t).map .val

/-- How an argument is obtained: it is not in the call data (the sender, the transaction context, an object found by a name), it
is a word naming an object, a word of fixed bytes, or an encoded value. -/
inductive Arg where
  | absent
  | object
  | bytes (n : String)
  | value (t : MTy)

/-- `load_struct_storage_id` (abi_types/unpacking.rs 363-417), for the fields of the object. -/
def storageArg : List ITy → Option Arg
  | .struct m n [] _ _ _ :: _ => (isVm "UID" [objectMod] m n).bind fun b => if b then some .object else none
  | .struct m n (_ :: _) _ _ _ :: _ => (isVm "NamedId" [objectMod] m n).bind fun b => if b then some .absent else none
  | _ => none

/-- `add_unpack_instructions` (abi_types/unpacking.rs 116-350) of a type that is not a reference. -/
def argOf1 (k : Mod → String → Nat) : ITy → Option Arg
  | .signer => some .absent
  | .struct m n args key fields names => do
    if args.isEmpty then
      if ← isVm "TxContext" [txMod] m n then return .absent
      if ← isVm "String" stringMods m n then return .value .string
      if ← isBytes m n then return .bytes n
    if key then storageArg fields
    else (wireTy k (.struct m n args key fields names)).map .value
  | t => (wireTy k t).map .value

/-- The same, with references (abi_types/unpacking.rs 201-243): the target is read. -/
def argOf (k : Mod → String → Nat) (t : ITy) : Option Arg := argOf1 k (strip t)

end Export
