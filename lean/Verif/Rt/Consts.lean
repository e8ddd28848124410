import Verif.Rt.Vector
import Verif.Rt.HeapInts
import Verif.Rt.Ascii
import Verif.Rt.Values
import Verif.Rt.Unpack

/-!
# Constants and vector literals

The code emitted for constants of the constant pool (`LdConst`), for vector literals (`VecPack`) and for
`VecUnpack`.
-/

namespace Rt
open Wasm Mv

/-- `decode_uleb128` (utils.rs 66-80): the number and the bytes left.  (`none` also if the shift exceeds the width of `u64`,
where the code panics or wraps.) -/
def decodeUleb (shift value : Nat) : List UInt8 → Option (Nat × List UInt8)
  | [] => none
  | b :: bs =>
    if 64 ≤ shift then none
    else
      let v := value ||| (b.toNat % 128 * 2 ^ shift % 2 ^ 64)
      if b.toNat < 128 then some (v, bs) else decodeUleb (shift + 7) v bs

/-- The next `n` bytes; missing ones are zero (`bytes.next().copied().unwrap_or(0)`, e.g. simple_integers.rs 27). -/
def takeZ (n : Nat) (bs : List UInt8) : List UInt8 := (bs ++ List.replicate n 0).take n

/-- The loop over the elements of a vector constant (intermediate_types/vector.rs 50-66); `f` is the code for one of them, `ptr`
the local with the address of the vector. -/
def loadElems (f : List UInt8 → Nat → Option (List Instr × List UInt8 × Nat)) (ptr size : Nat) :
    Nat → Nat → List UInt8 → Nat → Option (List Instr × List UInt8 × Nat)
  | 0, _, bs, k => some ([], bs, k)
  | n + 1, off, bs, k =>
    match f bs k with
    | none => none
    | some (is, bs, k) =>
      match loadElems f ptr size n (off + size) bs k with
      | none => none
      | some (js, bs, k) => some (is ++ (code[Op.store size off, Op.lget ptr] ++ js), bs, k)

/-- `load_constant_instructions` (intermediate_types.rs 279-320; boolean.rs 11-19; simple_integers.rs 23-31, 246-254, 472-480,
668-676; heap_integers.rs 75-114, 467-506; address.rs 17-61; vector.rs 15-74): code, bytes left, next fresh local. -/
def loadConst : Ty → List UInt8 → Nat → Option (List Instr × List UInt8 × Nat)
  | .bool, bs, k => some (code[Op.c32 (leBytes (takeZ 1 bs))], bs.drop 1, k)
  | .u8, bs, k => some (code[Op.c32 (leBytes (takeZ 1 bs))], bs.drop 1, k)
  | .u16, bs, k => some (code[Op.c32 (leBytes (takeZ 2 bs))], bs.drop 2, k)
  | .u32, bs, k => some (code[Op.c32 (leBytes (takeZ 4 bs))], bs.drop 4, k)
  | .u64, bs, k => some (code[Op.c64 (leBytes (takeZ 8 bs))], bs.drop 8, k)
  | .u128, bs, k => some (hintConst .u128 (leBytes (takeZ 16 bs)) k, bs.drop 16, k + 1)
  | .u256, bs, k => some (hintConst .u256 (leBytes (takeZ 32 bs)) k, bs.drop 32, k + 1)
  | .address, bs, k =>
    if ((takeZ 32 bs).take 12).all (· == 0) then some (hintConst .u256 (leBytes (takeZ 32 bs)) k, bs.drop 32, k + 1)
    else none
  | .vec t, bs, k =>
    match decodeUleb 0 0 bs with
    | none => none
    | some (n, bs) =>
      match loadElems (loadConst t) k t.size n 8 bs (k + 2) with
      | none => none
      | some (is, bs, k') =>
        some (code[Op.c32 n, Op.lset (k + 1), Op.lget (k + 1), Op.lget (k + 1), Op.c32 t.size, allocVec.call, Op.lset k,
          Op.lget k] ++ is, bs, k')
  | _, _, _ => none

/-- `LdConst` (translation.rs 570-582): all bytes have to be used.  Here as a function of its own. -/
def constFn (t : Ty) (bs : List UInt8) : Option Fn :=
  match loadConst t bs 0 with
  | some (is, [], k) => some ⟨0, 1, k, is⟩
  | _ => none

/-- `vec_pack_instructions` (intermediate_types/vector.rs 76-131) for `n` elements, the last of which is on top of the stack.  Locals:
`k` pointer, `k + 1` length, `k + 2` element. -/
def vecPack (t : Ty) (n k : Nat) : List Instr :=
  code[Op.c32 n, Op.lset (k + 1), Op.lget (k + 1), Op.lget (k + 1), Op.c32 t.size, allocVec.call, Op.lset k] ++
  (List.range n).flatMap (fun i =>
    code[Op.lget k, Op.lset k, Op.lset (k + 2), Op.lget k, Op.lget (k + 2), Op.store t.size (8 + (n - 1 - i) * t.size)]) ++
  code[Op.lget k]

/-- `vec_unpack_instructions` (intermediate_types/vector.rs 133-240) for `n` elements; the error is returned as `i32`, whatever the
function returns (line 166).  Locals: `k`
vector, `k + 1` index, `k + 2` on used by `returnError`. -/
def vecUnpack (E : ErrPtrs) (t : Ty) (n k : Nat) : List Instr :=
  code[Op.lset k,
   .block 0 (code[Op.lget k, Op.load 4 0, Op.c32 n, Op.bin .w32 .eq, .brIf 0] ++ returnError (E .vectorNotEmpty) .i32 (k + 2)),
   Op.c32 0, Op.lset (k + 1),
   .block 0 [.loop 0 (code[Op.lget (k + 1), Op.c32 n, Op.bin .w32 .geU, .brIf 1] ++
     code[Op.lget k, Op.c32 8, Op.bin .w32 .add, Op.lget (k + 1), Op.c32 t.size, Op.bin .w32 .mul, Op.bin .w32 .add, Op.load t.size 0,
      Op.lget (k + 1), Op.c32 1, Op.bin .w32 .add, Op.lset (k + 1), .br 0])]]

/-- `VecPack` (translation.rs) of `n` elements as a function of its own: the elements are its arguments. -/
def vecLit (t : Ty) (n : Nat) : Fn := ⟨n, 1, 3, (List.range n).map (fun i => (Op.lget i : Instr)) ++ vecPack t n n⟩

/-- `VecUnpack` with no elements (translation.rs 1517-1539), which is `vector::destroy_empty`, in a function without results. -/
def destroyEmpty (E : ErrPtrs) (t : Ty) : Fn := ⟨1, 0, 3, code[Op.lget 0] ++ vecUnpack E t 0 1⟩

end Rt
