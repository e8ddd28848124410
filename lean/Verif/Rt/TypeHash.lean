import Verif.Rt.Ascii

/-!
# Hashes of types

The compiler identifies types by a 64-bit hash: the first 8 bytes of a stored object are the hash of its
type (storage/encoding.rs 76-88), checked when it is loaded (storage/decoding.rs 107-135), and the
functions generated for a type are found again by a name that contains the hash of the type
(`RuntimeFunction::get_generic_function_name`, runtime.rs 685-701;
`NativeFunction::get_generic_function_name`, native_functions.rs 823-843).

Strings are lists of bytes.  The hasher is `FxHasher` of the crate `fxhash` 0.2.1 on a 64-bit host; the crate is not
part of the repository, its algorithm is written down here from its documentation.
-/

namespace TyHash
open Rt

/-- `FxHasher::add_to_hash`: rotate by 5, exclusive or, multiply. -/
def fxWord (h w : Nat) : Nat :=
  (((h <<< 5 ||| h >>> 59) % 2 ^ 64) ^^^ w) * 0x517cc1b727220a95 % 2 ^ 64

/-- The hash of a sequence of words (`finish`). -/
def fx (ws : List Nat) : Nat := ws.foldl fxWord 0

/-- `FxHasher::write`: words of 8 bytes, then at most one of 4 bytes, then single bytes.  The first
argument bounds the number of words. -/
def words : Nat → List UInt8 → List Nat
  | 0, _ => []
  | k + 1, bs =>
    if 8 ≤ bs.length then leBytes (bs.take 8) :: words k (bs.drop 8)
    else if 4 ≤ bs.length then leBytes (bs.take 4) :: (bs.drop 4).map (·.toNat)
    else bs.map (·.toNat)

/-- `Hash for str`: the bytes and 0xff. -/
def strW (s : List UInt8) : List Nat := words (s.length + 1) s ++ [255]

/-- `ModuleId` (compilation_context/module_data.rs 97-101). -/
structure ModId where
  addr : List UInt8
  name : List UInt8
  deriving DecidableEq, Repr

/-- `Hash for ModuleId` (module_data.rs 121-126); slices are preceded by their length. -/
def modW (m : ModId) : List Nat := m.addr.length :: (words (m.addr.length + 1) m.addr ++ strW m.name)

mutual
/-- `IntermediateType` (translation/intermediate_types.rs 59-117). -/
inductive ITy
  | bool | u8 | u16 | u32 | u64 | u128 | u256 | address | signer
  | vec (t : ITy) | ref (t : ITy) | mref (t : ITy)
  | param (i : Nat)
  | struct (m : ModId) (i : Nat) (vm : Vm)
  | gstruct (m : ModId) (i : Nat) (ts : List ITy) (vm : Vm)
  | enum (m : ModId) (i : Nat)
  | genum (m : ModId) (i : Nat) (ts : List ITy)
/-- `VmHandledStruct` (intermediate_types.rs 45-57): `id` and `idG` are `StorageId` without and with instance types. -/
inductive Vm
  | id (m : ModId) (i : Nat) | idG (m : ModId) (i : Nat) (ts : List ITy) | none
end

mutual
/-- The derived `Hash for IntermediateType`: the number of the variant, then the fields. -/
def dW : ITy → List Nat
  | .bool => [0] | .u8 => [1] | .u16 => [2] | .u32 => [3] | .u64 => [4] | .u128 => [5] | .u256 => [6]
  | .address => [7] | .signer => [8]
  | .vec t => 9 :: dW t
  | .ref t => 10 :: dW t
  | .mref t => 11 :: dW t
  | .param i => [12, i]
  | .struct m i vm => 13 :: (modW m ++ i :: vmW vm)
  | .gstruct m i ts vm => 14 :: (modW m ++ i :: ts.length :: (dWs ts ++ vmW vm))
  | .enum m i => 15 :: (modW m ++ [i])
  | .genum m i ts => 16 :: (modW m ++ i :: ts.length :: dWs ts)
def dWs : List ITy → List Nat
  | [] => []
  | t :: ts => dW t ++ dWs ts
/-- The derived `Hash for VmHandledStruct`. -/
def vmW : Vm → List Nat
  | .id m i => 0 :: (modW m ++ [i, 0])
  | .idG m i ts => 0 :: (modW m ++ i :: 1 :: ts.length :: dWs ts)
  | .none => [1]
end

/-- What the hash looks up: the names of the structs of a module, and the module given in the attribute
`external_struct` of a struct, if it has one. -/
structure Ctx where
  name : ModId → Nat → List UInt8
  ext : ModId → List UInt8 → Option ModId

/-- The module by which a struct is hashed (intermediate_types.rs 1165-1178). -/
def Ctx.home (C : Ctx) (m : ModId) (i : Nat) : ModId := (C.ext m (C.name m i)).getD m

mutual
/-- `process_hash` (intermediate_types.rs 1154-1215). -/
def pW (C : Ctx) : ITy → List Nat
  | .struct m i _ => modW (C.home m i) ++ strW (C.name m i)
  | .gstruct m i ts _ => modW (C.home m i) ++ (pWs C ts ++ strW (C.name m i))
  | t => dW t
def pWs (C : Ctx) : List ITy → List Nat
  | [] => []
  | t :: ts => pW C t ++ pWs C ts
end

/-- `get_hash` (intermediate_types.rs 1144-1152). -/
def tag (C : Ctx) (t : ITy) : Nat := fx (pW C t)

/-- The name of a generated function: what is generated (`kind`: the runtime function, or the native
function and its module) and the hash of the types (runtime.rs 694-700, native_functions.rs 836-842).  In
the code it is a string, with the hash in hexadecimal digits. -/
def fnName {K : Type} (C : Ctx) (kind : K) (ts : List ITy) : K × Nat := (kind, fx (pWs C ts))

/-- What every generator does: the function of that name if there is one (`module.funcs.by_name`),
otherwise it is generated (`gen`) and added. -/
def request {K F : Type} [DecidableEq K] (C : Ctx) (gen : K → List ITy → F) (reg : List ((K × Nat) × F)) (kind : K)
    (ts : List ITy) : F × List ((K × Nat) × F) :=
  match reg.lookup (fnName C kind ts) with
  | some f => (f, reg)
  | none => (gen kind ts, (fnName C kind ts, gen kind ts) :: reg)

/-- The functions used for a sequence of requests. -/
def requests {K F : Type} [DecidableEq K] (C : Ctx) (gen : K → List ITy → F) :
    List ((K × Nat) × F) → List (K × List ITy) → List F
  | _, [] => []
  | reg, (k, ts) :: rs => (request C gen reg k ts).1 :: requests C gen (request C gen reg k ts).2 rs

end TyHash
