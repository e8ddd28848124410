import Verif.Rt.TypeHash
import Verif.Rt.Unpack

/-!
# Names of types

`std::type_name::get<T>()` (native_functions/type_name.rs): the name is computed by the compiler and written
to memory byte by byte.
-/

namespace TyHash
open Wasm Rt

/-- A lowercase hexadecimal digit. -/
def hexDigit (n : Nat) : UInt8 := if n < 10 then UInt8.ofNat (48 + n) else UInt8.ofNat (87 + n)

/-- `address_to_type_name_hex` (translation/intermediate_types.rs 1134-1142). -/
def hexAddr (a : List UInt8) : List UInt8 := a.flatMap fun b => [hexDigit (b.toNat / 16), hexDigit (b.toNat % 16)]

/-- Names of structs and enums (`get_struct_by_index`, `get_enum_by_index`). -/
structure Names where
  sn : ModId → Nat → List UInt8
  en : ModId → Nat → List UInt8

/-- `<address>::<module>::<name>`. -/
def qualified (m : ModId) (n : List UInt8) : List UInt8 := hexAddr m.addr ++ 58 :: 58 :: (m.name ++ 58 :: 58 :: n)

mutual
/-- `get_type_name` (intermediate_types.rs 1051-1130).  The characters 58, 60, 62 and 44 are `:`, `<`, `>` and `,`. -/
def typeName (N : Names) : ITy → Option (List UInt8)
  | .bool => some [98, 111, 111, 108]
  | .u8 => some [117, 56]
  | .u16 => some [117, 49, 54]
  | .u32 => some [117, 51, 50]
  | .u64 => some [117, 54, 52]
  | .u128 => some [117, 49, 50, 56]
  | .u256 => some [117, 50, 53, 54]
  | .address => some [97, 100, 100, 114, 101, 115, 115]
  | .signer => some [115, 105, 103, 110, 101, 114]
  | .vec t => do some ([118, 101, 99, 116, 111, 114] ++ 60 :: ((← typeName N t) ++ [62]))
  | .ref _ => none
  | .mref _ => none
  | .struct m i _ => some (qualified m (N.sn m i))
  | .gstruct m i ts _ => do some (qualified m (N.sn m i) ++ 60 :: ((← typeNames N ts) ++ [62]))
  | .param _ => none
  | .enum m i => some (qualified m (N.en m i))
  | .genum m i ts => do some (qualified m (N.en m i) ++ 60 :: ((← typeNames N ts) ++ [62]))
/-- The names, separated by commas (`join(",")`). -/
def typeNames (N : Names) : List ITy → Option (List UInt8)
  | [] => some []
  | [t] => typeName N t
  | t :: u :: ts => do some ((← typeName N t) ++ 44 :: (← typeNames N (u :: ts)))
end

/-- Step 6: each byte of the name is written into the vector (type_name.rs 108-121). -/
def writeName (bs : List UInt8) (o : Nat) : List Instr :=
  match bs with
  | [] => []
  | b :: bs => code[Op.lget 2, Op.c32 b.toNat, Op.store 1 o] ++ writeName bs (o + 1)

/-- `add_type_name_get_fn` (type_name.rs 22-127).  Locals: type_name_ptr, string_ptr, vector_ptr. -/
def typeNameGet (bs : List UInt8) : Fn := ⟨0, 1, 3,
  code[Op.c32 4, alloc.call, Op.lset 0,
   Op.c32 4, alloc.call, Op.lset 1,
   Op.lget 0, Op.lget 1, Op.store 4 0,
   Op.c32 bs.length, Op.c32 bs.length, Op.c32 1, allocVec.call, Op.lset 2,
   Op.lget 1, Op.lget 2, Op.store 4 0] ++ writeName bs 8 ++ code[Op.lget 0]⟩

end TyHash
