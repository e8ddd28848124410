import Verif.Rt.Values
import Verif.Rt.Unpack
import Verif.Rt.Equality
import Verif.Rt.Ints

/-!
# Vectors, copies and equality of structured values

Transcription of `runtime/vector.rs`, of `copy_local_instructions` and `equality` of structs and
enums (translation/intermediate_types/structs.rs, enums.rs, user_type_fields.rs) and of the parts
of translation/intermediate_types.rs that select them.

Locals added by the generator while it emits a piece of code are numbered upwards from a
parameter `k`, in the order in which the generator adds them.
-/

namespace Rt
open Wasm Mv

/-- `DEAD_BEEF` (data.rs 18). -/
def deadBeef : Nat := 0xDEADBEEF

/-! ## Copies -/

/-- The element part of the loop of `copy_local_function` (runtime/vector.rs 958-1117): the
address of the element is on the stack; `inner` copies a vector, struct or enum.
Locals: 6 src_elem_ptr, 7 dst_elem_ptr. -/
def elemCopy (t : Ty) (inner : List Instr) : List Instr :=
  match t with
  | .bool | .u8 | .u16 | .u32 | .u64 => code[Op.load t.size 0]
  | .u128 => code[Op.load 4 0, Op.lset 6, Op.c32 16, alloc.call, Op.ltee 7,
      Op.lget 6, Op.c32 16, Op.memCopy, Op.lget 7]
  | .u256 | .address => code[Op.load 4 0, Op.lset 6, Op.c32 32, alloc.call, Op.ltee 7,
      Op.lget 6, Op.c32 32, Op.memCopy, Op.lget 7]
  | _ => code[Op.load 4 0] ++ inner

/-- Width of the store of an element (runtime/vector.rs 1120-1131). -/
def copyStore : Ty → Nat
  | .u64 => 8
  | _ => 4

/-- `copy_local_function` (runtime/vector.rs 855-1153).  Locals: src_ptr, multiplier; 2 dst_ptr,
3 index, 4 len, 5 capacity, 6 src_elem_ptr, 7 dst_elem_ptr, from 8 on those of the element. -/
def vecCopyF (t : Ty) (inner : List Instr) (nl : Nat) : Fn := ⟨2, 1, 6 + nl,
  code[Op.lget 0, Op.load 4 0, Op.lset 4,
   Op.lget 4, Op.un .eqz,
   .ite 0
     code[Op.c32 1, Op.lset 5]
     code[Op.lget 4, Op.lget 1, Op.bin .w32 .mul, Op.lset 5],
   Op.lget 4, Op.lget 5, Op.c32 t.size, allocVec.call, Op.lset 2,
   Op.c32 0, Op.lset 3,
   .block 0
     code[Op.lget 4, Op.un .eqz, .brIf 0,
      .loop 0
        (vecElemPtr 2 3 t.size ++ vecElemPtr 0 3 t.size ++ elemCopy t inner ++
         code[Op.store (copyStore t) 0,
          Op.lget 3, Op.c32 1, Op.bin .w32 .add, Op.ltee 3, Op.lget 4, Op.bin .w32 .ltU, .brIf 0])],
   Op.lget 2]⟩

mutual
/-- Number of locals added by `copyP`. -/
def nlP : Ty → Nat
  | .struct fs => 5 + nlFs fs
  | .object fs => 5 + nlFs fs
  | .enum vss => 3 + nlVs vss
  | _ => 0
def nlFs : List Ty → Nat
  | [] => 0
  | t :: ts => nlP t + nlFs ts
def nlVs : List (List Ty) → Nat
  | [] => 1
  | fs :: vss => 3 + nlFs fs + nlVs vss
end

mutual
/-- Copy of the value pointed to by the top of the stack
(`copy_local_instructions`, translation/intermediate_types.rs 400-462, after the loads).
Structs: structs.rs 167-215; `k` src_ptr, `k + 1` ptr, then those of `copy_fields`.
Enums: enums.rs 222-299; `k` src_ptr, `k + 1` ptr, `k + 2` variant_index, then those of the
variants, then that of the error return. -/
def copyP (E : ErrPtrs) : Ty → Nat → List Instr
  | .u128, _ => code[(copyHeap 16).call]
  | .u256, _ => code[(copyHeap 32).call]
  | .address, _ => code[(copyHeap 32).call]
  | .vec t, _ => code[Op.c32 1, (vecCopyF t (copyP E t 8) (nlP t)).call]
  | .struct fs, k => code[Op.lset k, Op.c32 (4 * fs.length), alloc.call, Op.lset (k + 1)] ++
      copyFields E fs k (k + 1) (k + 2) (k + 5) 0 ++ code[Op.lget (k + 1)]
  | .object fs, k => code[Op.lset k,
      Op.c32 32, alloc.call, Op.lget k, Op.c32 32, Op.bin .w32 .sub, Op.c32 32, Op.memCopy,
      Op.c32 (4 * fs.length), alloc.call, Op.lset (k + 1)] ++
      copyFields E fs k (k + 1) (k + 2) (k + 5) 0 ++ code[Op.lget (k + 1)]
  | .enum vss, k => code[Op.lset k, Op.c32 (enumHeap vss), alloc.call, Op.lset (k + 1),
      Op.lget k, Op.load 4 0, Op.lset (k + 2), Op.lget (k + 1), Op.lget (k + 2), Op.store 4 0,
      .block 0 (copyArms E vss k (k + 3) 0),
      Op.lget (k + 1)]
  | _, _ => []
/-- `copy_fields` (translation/intermediate_types/user_type_fields.rs 28-149) from local `src` to
local `dst`; locals `b` val_32, `b + 1` val_64, `b + 2` ptr_to_data; `k` is the first local of the
field copies. -/
def copyFields (E : ErrPtrs) : List Ty → Nat → Nat → Nat → Nat → Nat → List Instr
  | [], _, _, _, _, _ => []
  | t :: ts, src, dst, b, k, off =>
    (if t.scalar then
      code[Op.lget src, Op.load 4 off, Op.load t.size 0,
        Op.lset (if t.size = 8 then b + 1 else b),
        Op.c32 t.size, alloc.call, Op.ltee (b + 2),
        Op.lget (if t.size = 8 then b + 1 else b), Op.store t.size 0]
     else
      code[Op.lget src, Op.c32 off, Op.bin .w32 .add, Op.lset (b + 2),
        Op.lget (b + 2), Op.load 4 0] ++ copyP E t k ++ code[Op.lset (b + 2)]) ++
    code[Op.lget dst, Op.lget (b + 2), Op.store 4 off] ++
    copyFields E ts src dst b (k + nlP t) (off + 4)
/-- The arms of the copy of an enum (enums.rs 270-292) and the error return behind them
(`match_on_variant`, enums.rs 353-389): `k0` src_ptr, `k0 + 1` ptr, `k0 + 2` variant_index, `k` the first local of the
next arm. -/
def copyArms (E : ErrPtrs) : List (List Ty) → Nat → Nat → Nat → List Instr
  | [], _, k, _ => returnError (E .outOfBounds) .i32 k
  | fs :: vss, k0, k, i =>
    .block 0 (code[Op.lget (k0 + 2), Op.c32 i, Op.bin .w32 .ne, .brIf 0] ++
      copyFields E fs k0 (k0 + 1) k (k + 3) 4 ++ code[.br 1]) ::
    copyArms E vss k0 (k + 3 + nlFs fs) (i + 1)
end

/-- `copy_local_function` for elements of type `t`. -/
def vecCopy (E : ErrPtrs) (t : Ty) : Fn := vecCopyF t (copyP E t 8) (nlP t)

/-- `copy_local_instructions` for the local 0 of a function (translation/intermediate_types.rs
371-467), as a function: the parameter is the pointer to the box of the local. -/
def copyLocal (E : ErrPtrs) (t : Ty) : Fn := ⟨1, 1, nlP t,
  code[Op.lget 0, Op.load 4 0] ++ (if t.scalar then code[Op.load t.size 0] else copyP E t 1)⟩

/-! ## Equality -/

/-- `equality_function` (runtime/vector.rs 1163-1328).  Locals: v1_ptr, v2_ptr; 2 len, 3 result,
4 i, from 5 on those of the element comparison `inner`. -/
def vecEqF (t : Ty) (inner : List Instr) (nl : Nat) : Fn := ⟨2, 1, 3 + nl,
  code[Op.c32 1, Op.lset 3,
   Op.lget 0, Op.load 4 0, Op.lget 1, Op.load 4 0, Op.ltee 2,
   Op.bin .w32 .eq,
   .ite 0
     (code[Op.c32 0, Op.lset 4] ++
      (if t.scalar then
        skipVecHeader 0 ++ skipVecHeader 1 ++
          code[Op.lget 2, Op.c32 t.size, Op.bin .w32 .mul, heapEq.call, Op.lset 3]
       else
        code[.loop 0
          (vecElemPtr 0 4 t.size ++ code[Op.load t.size 0] ++
           vecElemPtr 1 4 t.size ++ code[Op.load t.size 0] ++ inner ++
           code[.ite 0 code[] code[Op.c32 0, Op.lset 3, .br 2],
            Op.lget 4, Op.c32 1, Op.bin .w32 .add, Op.ltee 4, Op.lget 2, Op.bin .w32 .ltU,
            .brIf 0])]))
     code[Op.c32 0, Op.lset 3],
   Op.lget 3]⟩

mutual
/-- Number of locals added by `eqP`. -/
def nlE : Ty → Nat
  | .struct fs => 3 + nlEFs fs
  | .object fs => 3 + nlEFs fs
  | .enum vss => 4 + nlEVs vss
  | _ => 0
def nlEFs : List Ty → Nat
  | [] => 0
  | t :: ts => nlE t + nlEFs ts
def nlEVs : List (List Ty) → Nat
  | [] => 1
  | fs :: vss => 1 + nlEFs fs + nlEVs vss
end

mutual
/-- `load_equality_instructions` (translation/intermediate_types.rs 790-933) without references:
compares the two values on the stack.  Heap numbers: heap_integers.rs 442-457 and 803-813,
address.rs 63-73.  Structs: structs.rs 142-165; `k` s1_ptr, `k + 1` s2_ptr, `k + 2` result.
Enums: enums.rs 124-214; `k` e1_ptr, `k + 1` e2_ptr, `k + 2` variant_index, `k + 3` result. -/
def eqP (E : ErrPtrs) : Ty → Nat → List Instr
  | .u64, _ => code[Op.bin .w64 .eq]
  | .u128, _ => code[Op.c32 16, heapEq.call]
  | .u256, _ => code[Op.c32 32, heapEq.call]
  | .address, _ => code[Op.c32 32, heapEq.call]
  | .vec t, _ => code[(vecEqF t (eqP E t 5) (nlE t)).call]
  | .struct fs, k => code[Op.lset k, Op.lset (k + 1), Op.c32 1, Op.lset (k + 2),
      .block 0 (eqFields E fs k (k + 1) (k + 2) (k + 3) 0), Op.lget (k + 2)]
  | .object fs, k => code[Op.lset k, Op.lset (k + 1), Op.c32 1, Op.lset (k + 2),
      .block 0 (eqFields E fs k (k + 1) (k + 2) (k + 3) 0), Op.lget (k + 2)]
  | .enum vss, k => code[Op.lset k, Op.lset (k + 1),
      Op.lget k, Op.load 4 0, Op.ltee (k + 2), Op.lget (k + 1), Op.load 4 0,
      Op.lget k, Op.c32 4, Op.bin .w32 .add, Op.lset k,
      Op.lget (k + 1), Op.c32 4, Op.bin .w32 .add, Op.lset (k + 1),
      Op.bin .w32 .eq,
      .ite 1
        code[Op.c32 0, Op.lset (k + 3), .block 0 (eqArms E vss k (k + 4) 0), Op.lget (k + 3)]
        code[Op.c32 0]]
  | _, _ => code[Op.bin .w32 .eq]
/-- The body of the block of `compare_fields` (user_type_fields.rs 184-231) for the pointers in
locals `p1` and `p2`, result in local `r`; `k` the first local of the field comparisons. -/
def eqFields (E : ErrPtrs) : List Ty → Nat → Nat → Nat → Nat → Nat → List Instr
  | [], _, _, _, _, _ => []
  | t :: ts, p1, p2, r, k, off =>
    code[Op.lget p1, Op.load 4 off] ++ (if t.scalar then code[Op.load t.size 0] else code[]) ++
    code[Op.lget p2, Op.load 4 off] ++ (if t.scalar then code[Op.load t.size 0] else code[]) ++
    eqP E t k ++
    code[.ite 0 code[] code[Op.c32 0, Op.lset r, .br 1]] ++
    eqFields E ts p1 p2 r (k + nlE t) (off + 4)
/-- The arms of the comparison of enums (enums.rs 184-203, `match_on_variant` enums.rs 353-389); `k` is the first local of the next
arm, the `result` of its `compare_fields`. -/
def eqArms (E : ErrPtrs) : List (List Ty) → Nat → Nat → Nat → List Instr
  | [], _, k, _ => returnError (E .outOfBounds) .i32 k
  | fs :: vss, k0, k, i =>
    .block 0 (code[Op.lget (k0 + 2), Op.c32 i, Op.bin .w32 .ne, .brIf 0,
      Op.c32 1, Op.lset k, .block 0 (eqFields E fs k0 (k0 + 1) k (k + 1) 0), Op.lget k,
      Op.lset (k0 + 3), .br 1]) ::
    eqArms E vss k0 (k + 1 + nlEFs fs) (i + 1)
end

/-- `equality_function` for elements of type `t`. -/
def vecEq (E : ErrPtrs) (t : Ty) : Fn := vecEqF t (eqP E t 5) (nlE t)

/-- A Move function that compares its two parameters (`Bytecode::Eq`, translation.rs 2494-2507). -/
def eqFn (E : ErrPtrs) (t : Ty) : Fn := ⟨2, 1, nlE t, code[Op.lget 0, Op.lget 1] ++ eqP E t 2⟩

/-! ## Vector operations -/

/-- `increment_vec_len_function` (runtime/vector.rs 22-56). -/
def vecInc : Fn := ⟨1, 0, 0,
  code[Op.lget 0, Op.lget 0, Op.load 4 0, Op.c32 1, Op.bin .w32 .add, Op.store 4 0]⟩

/-- `decrement_vec_len_function` (runtime/vector.rs 61-122).  Local 1: the error pointer. -/
def vecDec (E : ErrPtrs) : Fn := ⟨1, 0, 1,
  code[Op.lget 0, Op.load 4 0, Op.un .eqz,
   .ite 0 (returnError (E .outOfBounds) .none 1)
     code[Op.lget 0, Op.lget 0, Op.load 4 0, Op.c32 1, Op.bin .w32 .sub, Op.store 4 0]]⟩

/-- `vec_pop_back_function` (runtime/vector.rs 329-411).  `VecDecrementLen` is not in the list of
fallible functions (runtime.rs 703-794), so its error is not propagated here.  Locals:
vector_ref; 1 len. -/
def vecPop (E : ErrPtrs) (t : Ty) : Fn := ⟨1, 1, 1,
  code[Op.lget 0, Op.load 4 0, Op.ltee 0, Op.load 4 0, Op.lset 1,
   Op.lget 0, (vecDec E).call,
   Op.lget 0, Op.load 4 0, Op.lset 1] ++ vecElemPtr 0 1 t.size ++ code[Op.load t.size 0]⟩

/-- `vec_push_back_function` (runtime/vector.rs 422-561).  Locals: vec_ref, elem; 2 vec_ptr,
3 len, 4 new_vec_ptr. -/
def vecPush (E : ErrPtrs) (t : Ty) : Fn := ⟨2, 0, 3,
  code[Op.lget 0, Op.load 4 0, Op.ltee 2, Op.load 4 0, Op.ltee 3, Op.lget 2, Op.load 4 4,
   Op.bin .w32 .eq,
   .ite 0
     code[Op.lget 2, Op.c32 2, (vecCopy E t).call, Op.lset 4,
      Op.lget 0, Op.lget 4, Op.store 4 0,
      Op.lget 2, Op.c32 deadBeef, Op.store 4 0,
      Op.lget 2, Op.lget 4, Op.store 4 4,
      Op.lget 4, Op.lset 2]
     code[]] ++ vecElemPtr 2 3 t.size ++
  code[Op.lget 1, Op.store t.size 0, Op.lget 2, vecInc.call]⟩

/-- The index check of `vec_swap_function` (runtime/vector.rs 234-251). -/
def swapCheck (E : ErrPtrs) (i tmp : Nat) : List Instr :=
  code[Op.lget i, Op.lget 5, Op.bin .w32 .geU,
    .ite 0 (returnError (E .outOfBounds) .none tmp) code[]]

/-- `vec_swap_function` (runtime/vector.rs 137-314).  Locals: vector_ref, idx1_i64, idx2_i64;
3 idx2, 4 idx1, 5 len, 6 to 8 error pointers, 9 aux, 10 ptr1, 11 ptr2. -/
def vecSwap (E : ErrPtrs) (t : Ty) : Fn := ⟨3, 0, 9,
  code[Op.lget 1, (downcast64to32 E).call, Op.lset 4,
   Op.lget 2, (downcast64to32 E).call, Op.lset 3,
   Op.lget 0, Op.load 4 0, Op.ltee 0, Op.load 4 0, Op.lset 5,
   .block 0 (code[Op.lget 5, Op.un .eqz] ++ negate ++ code[.brIf 0] ++
     returnError (E .outOfBounds) .none 6),
   .block 0 (code[Op.lget 1, Op.lget 2, Op.bin .w64 .eq, .brIf 0] ++
     swapCheck E 4 7 ++ swapCheck E 3 8 ++
     vecElemPtr 0 4 t.size ++ code[Op.lset 10] ++ vecElemPtr 0 3 t.size ++ code[Op.lset 11,
      Op.lget 10, Op.load t.size 0, Op.lset 9,
      Op.lget 10, Op.lget 11, Op.load t.size 0, Op.store t.size 0,
      Op.lget 11, Op.lget 9, Op.store t.size 0])]⟩

/-- `vec_elem_ptr_dynamic` (wasm_builder_extensions.rs 180-191). -/
def vecElemPtrDyn (ptr idx size : Nat) : List Instr :=
  skipVecHeader ptr ++ code[Op.lget idx, Op.lget size, Op.bin .w32 .mul, Op.bin .w32 .add]

/-- `vec_borrow_function` (runtime/vector.rs 573-658).  Locals: vec_ref, index, is_heap, size;
4 vec_ptr, 5 the error pointer, 6 elem_ref. -/
def vecBorrow (E : ErrPtrs) : Fn := ⟨4, 1, 3,
  code[Op.lget 0, Op.load 4 0, Op.lset 4,
   .block 0 (code[Op.lget 4, Op.load 4 0, Op.lget 1, Op.bin .w32 .gtU, .brIf 0] ++
     returnError (E .outOfBounds) .i32 5),
   Op.lget 2,
   .ite 1 (vecElemPtrDyn 4 1 3)
     (code[Op.c32 4, alloc.call, Op.ltee 6] ++ vecElemPtrDyn 4 1 3 ++
      code[Op.store 4 0, Op.lget 6])]⟩

/-- `vec_update_mut_ref_function` (runtime/vector.rs 677-753). -/
def vecUpdateRef : Fn := ⟨1, 0, 0,
  code[.loop 0
    code[Op.lget 0, Op.load 4 0, Op.load 4 0, Op.c32 deadBeef, Op.bin .w32 .eq,
     .ite 0
       code[Op.lget 0, Op.lget 0, Op.load 4 0, Op.load 4 4, Op.store 4 0, .br 1]
       code[]]]⟩

/-- `vec_borrow_instructions` (translation/intermediate_types/vector.rs 248-318) for elements of
type `t`: the reference and the index are on the stack. -/
def borrowCode (E : ErrPtrs) (t : Ty) (ty : RetTy) : List Instr :=
  callF (downcast64to32 E) ty ++ code[Op.c32 (if t.scalar then 0 else 1), Op.c32 t.size] ++
    callF (vecBorrow E) ty

/-- `Bytecode::VecLen` (translation.rs 1821-1862). -/
def vecLen : List Instr := code[Op.load 4 0, Op.load 4 0, Op.un .extend]

/-! ## References -/

/-- `add_read_ref_instructions` (translation/intermediate_types.rs 505-579) as a function of the
reference: the code is that of `copyLocal`. -/
def readRef (E : ErrPtrs) (t : Ty) : Fn := ⟨1, 1, nlP t,
  code[Op.lget 0, Op.load 4 0] ++ (if t.scalar then code[Op.load t.size 0] else copyP E t 1)⟩

/-- One step of the copy of a wide integer (translation/intermediate_types.rs 637-667). -/
def writeChunk (k off : Nat) : List Instr :=
  code[Op.lget (k + 1), Op.c32 off, Op.bin .w32 .add,
    Op.lget k, Op.c32 off, Op.bin .w32 .add, Op.load 8 0, Op.store 8 0]

/-- `add_write_ref_instructions` (translation/intermediate_types.rs 581-707); the value and the
reference are on the stack.  Locals `k` val or src_ptr, `k + 1` ptr or ref_ptr. -/
def writeRef (t : Ty) (k : Nat) : List Instr :=
  match t with
  | .bool | .u8 | .u16 | .u32 | .u64 => code[Op.load 4 0] ++ swap (k + 1) k ++ code[Op.store t.size 0]
  | .u128 => code[Op.load 4 0, Op.lset (k + 1), Op.lset k] ++ writeChunk k 0 ++ writeChunk k 8
  | .u256 | .address => code[Op.load 4 0, Op.lset (k + 1), Op.lset k] ++
      writeChunk k 0 ++ writeChunk k 8 ++ writeChunk k 16 ++ writeChunk k 24
  | _ => swap (k + 1) k ++ code[Op.store 4 0]

/-- `writeRef` as a function of the value and the reference. -/
def writeRefF (t : Ty) : Fn := ⟨2, 0, 2, code[Op.lget 0, Op.lget 1] ++ writeRef t 2⟩

/-- `borrowCode` as a function of the reference to the vector and the index. -/
def borrowF (E : ErrPtrs) (t : Ty) : Fn := ⟨2, 1, 0, code[Op.lget 0, Op.lget 1] ++ borrowCode E t .i32⟩

end Rt
