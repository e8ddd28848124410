import Verif.Rt.Ext

/-!
# Runtime functions on integers held in registers

Transcription of `runtime/integers.rs`, `runtime/integers/{add,sub,mul}.rs` (u32/u64 parts) and
of the instruction sequences of `translation/intermediate_types/simple_integers.rs`
(all under `crates/move-bytecode-to-wasm/src`).
-/

namespace Rt
open Wasm

variable (E : ErrPtrs)

/-- `add_u32` (runtime/integers/add.rs 208-259). Locals: n1, n2, res, tmp. -/
def addU32 : Fn := ⟨2, 1, 2,
  [Op.lget 0, Op.lget 1, Op.bin .w32 .add,
   Op.ltee 2, Op.lget 0, Op.bin .w32 .ltU, Op.lget 2, Op.lget 1, Op.bin .w32 .ltU,
   Op.bin .w32 .or,
   .ite 1 (returnError (E .overflow) .i32 3) [Op.lget 2]]⟩

/-- `add_u64` (runtime/integers/add.rs 274-328). -/
def addU64 : Fn := ⟨2, 1, 2,
  [Op.lget 0, Op.lget 1, Op.bin .w64 .add,
   Op.ltee 2, Op.lget 0, Op.bin .w64 .ltU, Op.lget 2, Op.lget 1, Op.bin .w64 .ltU,
   Op.bin .w32 .or,
   .ite 1 (returnError (E .overflow) .i64 3) [Op.lget 2]]⟩

/-- `sub_u32` (runtime/integers/sub.rs 203-243). Locals: n1, n2, tmp. -/
def subU32 : Fn := ⟨2, 1, 1,
  [Op.lget 0, Op.lget 1, Op.bin .w32 .ltU,
   .ite 1 (returnError (E .overflow) .i32 2) [Op.lget 0, Op.lget 1, Op.bin .w32 .sub]]⟩

/-- `sub_u64` (runtime/integers/sub.rs 253-293). -/
def subU64 : Fn := ⟨2, 1, 1,
  [Op.lget 0, Op.lget 1, Op.bin .w64 .ltU,
   .ite 1 (returnError (E .overflow) .i64 2) [Op.lget 0, Op.lget 1, Op.bin .w64 .sub]]⟩

/-- `mul_u32` (runtime/integers/mul.rs 324-378). Locals: n1, n2, tmp. -/
def mulU32 : Fn := ⟨2, 1, 1,
  [Op.lget 1, Op.c32 0, Op.bin .w32 .ne,
   .ite 1
     [Op.lget 0, Op.c32 4294967295, Op.lget 1, Op.bin .w32 .divU, Op.bin .w32 .gtU,
      .ite 1 (returnError (E .overflow) .i32 2) [Op.lget 0, Op.lget 1, Op.bin .w32 .mul]]
     [Op.c32 0]]⟩

/-- `mul_u64` (runtime/integers/mul.rs 395-449). -/
def mulU64 : Fn := ⟨2, 1, 1,
  [Op.lget 1, Op.c64 0, Op.bin .w64 .ne,
   .ite 1
     [Op.lget 0, Op.c64 18446744073709551615, Op.lget 1, Op.bin .w64 .divU, Op.bin .w64 .gtU,
      .ite 1 (returnError (E .overflow) .i64 2) [Op.lget 0, Op.lget 1, Op.bin .w64 .mul]]
     [Op.c64 0]]⟩

/-- `check_overflow_u8_u16` (runtime/integers.rs 31-69). Locals: n, max, tmp. -/
def checkOverflow : Fn := ⟨2, 1, 1,
  [Op.lget 0, Op.lget 1, Op.bin .w32 .gtU,
   .ite 1 (returnError (E .overflow) .i32 2) [Op.lget 0]]⟩

/-- `downcast_u64_to_u32` (runtime/integers.rs 80-113). Locals: n, tmp. -/
def downcast64to32 : Fn := ⟨1, 1, 1,
  [Op.lget 0, Op.c64 4294967295, Op.bin .w64 .gtU,
   .ite 1 (returnError (E .outOfBounds) .i32 1) [Op.lget 0, Op.un .wrap]]⟩

/-- `downcast_u128_u256_to_u32` (runtime/integers.rs 125-207).
Locals: reader_pointer, heap_size, offset, tmp. -/
def downcastHeap32 : Fn := ⟨2, 1, 2,
  [Op.lget 0, Op.load 4 0,
   .block 0
     [Op.c32 4, Op.lset 2,
      .loop 0
        [Op.lget 0, Op.lget 2, Op.bin .w32 .add, Op.load 4 0, Op.un .eqz,
         .ite 0
           [Op.lget 1, Op.c32 4, Op.bin .w32 .sub, Op.lget 2, Op.bin .w32 .eq, .brIf 2,
            Op.c32 4, Op.lget 2, Op.bin .w32 .add, Op.lset 2, .br 1]
           (returnError (E .outOfBounds) .i32 3)]]]⟩

/-- `downcast_u128_u256_to_u64` (runtime/integers.rs 219-301).
Locals: reader_pointer, heap_size, offset, tmp. -/
def downcastHeap64 : Fn := ⟨2, 1, 2,
  [Op.lget 0, Op.load 8 0,
   .block 0
     [Op.c32 8, Op.lset 2,
      .loop 0
        [Op.lget 0, Op.lget 2, Op.bin .w32 .add, Op.load 8 0, Op.un .eqz,
         .ite 0
           [Op.lget 1, Op.c32 8, Op.bin .w32 .sub, Op.lget 2, Op.bin .w32 .eq, .brIf 2,
            Op.c32 8, Op.lget 2, Op.bin .w32 .add, Op.lset 2, .br 1]
           (returnError (E .outOfBounds) .i64 3)]]]⟩

/-- `check_if_a_less_than_b` (runtime/integers.rs 321-432).
Locals: a_ptr, b_ptr, type_heap_size, a, b, res, offset. -/
def lessThan : Fn := ⟨3, 1, 4,
  [Op.lget 2, Op.c32 8, Op.bin .w32 .sub, Op.lset 6,
   .block 0
     [.loop 0
       [Op.lget 6, Op.c32 0, Op.bin .w32 .ltS,
        .ite 0 [Op.c32 0, Op.lset 5, .br 2] [],
        Op.lget 0, Op.lget 6, Op.bin .w32 .add, Op.load 8 0, Op.ltee 3,
        Op.lget 1, Op.lget 6, Op.bin .w32 .add, Op.load 8 0, Op.ltee 4,
        Op.bin .w64 .ltU, Op.ltee 5, .brIf 1,
        Op.lget 3, Op.lget 4, Op.bin .w64 .eq,
        .ite 0
          [Op.lget 6, Op.c32 8, Op.bin .w32 .sub, Op.lset 6, .br 1]
          [Op.c32 0, .ret]]],
   Op.lget 5]⟩

/-! ## Inline code for the integer types (simple_integers.rs)

`ty` is the return type of the Move function the code is emitted into. -/

/-- The four integer types held in registers. -/
inductive RegInt | u8 | u16 | u32 | u64
  deriving DecidableEq, Repr

def RegInt.bits : RegInt → Nat
  | .u8 => 8 | .u16 => 16 | .u32 => 32 | .u64 => 64

/-- `MAX_VALUE` of u8 and u16 (simple_integers.rs 21, 244). -/
def RegInt.maxVal (t : RegInt) : Nat := 2 ^ t.bits - 1

/-- The WebAssembly type of the integer type. -/
def RegInt.w : RegInt → W
  | .u64 => .w64
  | _ => .w32

def RegInt.ret : RegInt → RetTy
  | .u64 => .i64
  | _ => .i32

/-- `IU8::add` 38-61, `IU16::add` 261-284, `IU32::add` 482-498, `IU64::add` 678-694. -/
def intAdd (t : RegInt) (ty : RetTy) : List Instr :=
  match t with
  | .u8 | .u16 => ([Op.bin .w32 .add, Op.c32 t.maxVal] : List Instr) ++ callF (checkOverflow E) ty
  | .u32 => callF (addU32 E) ty
  | .u64 => callF (addU64 E) ty

/-- `IU8::sub` 66-82, `IU16::sub` 289-306, `IU32::sub` 503-519, `IU64::sub` 699-715. -/
def intSub (t : RegInt) (ty : RetTy) : List Instr :=
  match t with
  | .u8 | .u16 | .u32 => callF (subU32 E) ty
  | .u64 => callF (subU64 E) ty

/-- `IU8::mul` 103-126, `IU16::mul` 327-350, `IU32::mul` 540-556, `IU64::mul` 736-752. -/
def intMul (t : RegInt) (ty : RetTy) : List Instr :=
  match t with
  | .u8 | .u16 => ([Op.bin .w32 .mul, Op.c32 t.maxVal] : List Instr) ++ callF (checkOverflow E) ty
  | .u32 => callF (mulU32 E) ty
  | .u64 => callF (mulU64 E) ty

/-- `div` (simple_integers.rs 87, 311, 524, 720). -/
def intDiv (t : RegInt) : List Instr := [Op.bin t.w .divU]

/-- `remainder` (simple_integers.rs 94, 318, 531, 727). -/
def intRem (t : RegInt) : List Instr := [Op.bin t.w .remU]

/-- `bit_shift_left` (simple_integers.rs 187-212, 413-438, 613-636, 798-821).  The shift amount
is a u8, i.e. an i32. -/
def intShl (t : RegInt) (ty : RetTy) : List Instr :=
  ([Op.c32 (t.bits - 1)] : List Instr) ++ callF (checkOverflow E) ty ++
    match t with
    | .u8 => [Op.bin .w32 .shl, Op.c32 0xFF, Op.bin .w32 .and]
    | .u16 => [Op.bin .w32 .shl, Op.c32 0xFFFF, Op.bin .w32 .and]
    | .u32 => [Op.bin .w32 .shl]
    | .u64 => [Op.un .extend, Op.bin .w64 .shl]

/-- `bit_shift_right` (simple_integers.rs 214-237, 440-463, 638-661, 823-847). -/
def intShr (t : RegInt) (ty : RetTy) : List Instr :=
  ([Op.c32 (t.bits - 1)] : List Instr) ++ callF (checkOverflow E) ty ++
    match t with
    | .u8 | .u16 | .u32 => [Op.bin .w32 .shrU]
    | .u64 => [Op.un .extend, Op.bin .w64 .shrU]

/-- The six integer types. -/
inductive IntTy | reg (r : RegInt) | u128 | u256
  deriving DecidableEq, Repr

def IntTy.bits : IntTy → Nat
  | .reg r => r.bits | .u128 => 128 | .u256 => 256

/-- `cast_from` of the register types (simple_integers.rs 128-185, 352-411, 558-611, 754-796). -/
def intCast (dst : RegInt) (src : IntTy) (ty : RetTy) : List Instr :=
  match dst with
  | .u8 =>
    (match src with
      | .reg .u8 | .reg .u16 | .reg .u32 => []
      | .reg .u64 => [Op.un .wrap]
      | .u128 => ([Op.c32 16] : List Instr) ++ callF (downcastHeap32 E) ty
      | .u256 => ([Op.c32 32] : List Instr) ++ callF (downcastHeap32 E) ty)
    ++ ([Op.c32 255] : List Instr) ++ callF (checkOverflow E) ty
  | .u16 =>
    (match src with
      | .reg .u8 | .reg .u16 => []
      | .reg .u32 => ([Op.c32 65535] : List Instr) ++ callF (checkOverflow E) ty
      | .reg .u64 => ([Op.un .wrap, Op.c32 65535] : List Instr) ++ callF (checkOverflow E) ty
      | .u128 => ([Op.c32 16] : List Instr) ++ callF (downcastHeap32 E) ty
          ++ ([Op.c32 65535] : List Instr) ++ callF (checkOverflow E) ty
      | .u256 => ([Op.c32 32] : List Instr) ++ callF (downcastHeap32 E) ty
          ++ ([Op.c32 65535] : List Instr) ++ callF (checkOverflow E) ty)
  | .u32 =>
    (match src with
      | .reg .u8 | .reg .u16 | .reg .u32 => []
      | .reg .u64 => callF (downcast64to32 E) ty
      | .u128 => ([Op.c32 16] : List Instr) ++ callF (downcastHeap32 E) ty
      | .u256 => ([Op.c32 32] : List Instr) ++ callF (downcastHeap32 E) ty)
  | .u64 =>
    (match src with
      | .reg .u8 | .reg .u16 | .reg .u32 => [Op.un .extend]
      | .reg .u64 => []
      | .u128 => ([Op.c32 16] : List Instr) ++ callF (downcastHeap64 E) ty
      | .u256 => ([Op.c32 32] : List Instr) ++ callF (downcastHeap64 E) ty)

end Rt
