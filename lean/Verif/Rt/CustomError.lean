import Verif.Rt.Pack
import Verif.Rt.Router

/-!
# Custom errors

The native `revert` (native_functions/abi_error.rs) with the message of abi_types/error_encoding.rs.
-/

namespace Rt
open Wasm

/-- Writing the selector after the length (abi_types/error_encoding.rs 74-84); `p` is the local `ptr`, the loop over the bytes of
the selector runs at compile time. -/
def selStores (p : Nat) : Nat → List UInt8 → List Instr
  | _, [] => []
  | off, b :: bs => code[Op.lget p, Op.c32 b.toNat, Op.store 1 off] ++ selStores p (off + 1) bs

/-- Loading the fields (abi_types/error_encoding.rs 87-109); `q` is the local `error_struct_ptr`. -/
def fieldLoads (q : Nat) : Nat → List MTy → List Instr
  | _, [] => []
  | i, t :: ts => code[Op.lget q, Op.load 4 (i * 4)] ++ (if t.isScalar then code[Op.load t.size 0] else []) ++
      fieldLoads q (i + 1) ts

/-- `build_custom_error_message` (abi_types/error_encoding.rs 52-150) for an error with selector `sel` and fields `ts`.
Locals: 0 error_struct_ptr, 1 ptr, those of `packAll`. -/
def customErrorMessage (E : ErrPtrs) (sel : List UInt8) (ts : List MTy) : List Instr :=
  code[Op.c32 8, alloc.call, Op.lset 1] ++
  selStores 1 4 sel ++
  fieldLoads 0 0 ts ++
  packAll E (propagate .i32) (propagate .i32) 2 (ts.map .val) ++
  code[Op.lget 1, Op.lget (2 + (ts.map PTy.val).length + 1), Op.c32 4, Op.bin .w32 .add, Op.store 4 0]

/-- `add_revert_fn` (native_functions/abi_error.rs 19-66). -/
def revertFn (E : ErrPtrs) (sel : List UInt8) (ts : List MTy) : Fn := ⟨1, 0, ts.length + 6,
  customErrorMessage E sel ts ++ (code[Op.lget 1] ++ handleError .none (ts.length + 6))⟩

end Rt
