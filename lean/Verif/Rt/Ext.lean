import Verif.Wp

/-!
# Builder extensions

Transcription of the instruction sequences produced by
`crates/move-bytecode-to-wasm/src/wasm_builder_extensions.rs`, and of the fixed memory
layout (`data.rs`).
-/

namespace Rt
open Wasm

/-- Instruction sequences: `code[i, j, ...]` is the list `[i, j, ...]` of `Instr`. -/
syntax "code[" term,* "]" : term
macro_rules
  | `(code[]) => `(([] : List Instr))
  | `(code[$x]) => `(List.cons ($x : Instr) ([] : List Instr))
  | `(code[$x, $xs,*]) => `(List.cons ($x : Instr) code[$xs,*])

/-- `RuntimeError` (error.rs 156-181). -/
inductive RtErr
  | frozenCannotBeShared | sharedCannotBeFrozen | frozenCannotBeTransferred
  | sharedCannotBeTransferred | objectNotFound | frozenCannotBeDeleted | typeMismatch
  | overflow | outOfBounds | memoryAccessOutOfBounds | enumSizeTooLarge | vectorNotEmpty
  deriving DecidableEq, Repr

/-- Pointers to the encoded runtime errors in the data segment
(`RuntimeErrorData::get`, data.rs 102-160; the table itself is modelled in `Verif.Rt.Data`). -/
abbrev ErrPtrs := RtErr → Nat

/-- WebAssembly result type of a function, as far as it matters for error returns. -/
inductive RetTy | i32 | i64 | none
  deriving DecidableEq, Repr

def RetTy.nr : RetTy → Nat
  | .i32 => 1
  | .i64 => 1
  | .none => 0

/-- `BAD_F00D` (wasm_builder_extensions.rs 20-25). -/
def badF00d : Nat := 0xBADF00D

/-- The placeholder pushed before returning an error (wasm_builder_extensions.rs 345-355,
394-404). -/
def badPush : RetTy → List Instr
  | .i32 => [Op.c32 badF00d]
  | .i64 => [Op.c64 badF00d]
  | .none => []

/-- `DATA_ABORT_MESSAGE_PTR_OFFSET` (data.rs 36-60). -/
def abortPtr : Nat := 256

/-- `add_handle_error_instructions` (wasm_builder_extensions.rs 369-407); `tmp` is the fresh
local `encoded_error_ptr`. -/
def handleError (ty : RetTy) (tmp : Nat) : List Instr :=
  ([Op.lset tmp, Op.c32 abortPtr, Op.lget tmp, Op.store 4 0] : List Instr)
    ++ badPush ty ++ [Instr.ret]

/-- `return_error` (wasm_builder_extensions.rs 409-421). -/
def returnError (p : Nat) (ty : RetTy) (tmp : Nat) : List Instr :=
  (Op.c32 p : Instr) :: handleError ty tmp

/-- `add_propagate_error_instructions` with `return_block_id = None`
(wasm_builder_extensions.rs 323-367). -/
def propagate (ty : RetTy) : Instr :=
  .block 0 (([Op.c32 abortPtr, Op.load 4 0, Op.c32 0, Op.bin .w32 .eq, Instr.brIf 0] : List Instr)
    ++ badPush ty ++ [Instr.ret])

/-- `add_propagate_error_instructions` with `return_block_id = Some(_)`: `depth` is the branch
depth of the target block *inside* the propagation block. -/
def propagateTo (ty : RetTy) (depth : Nat) : Instr :=
  .block 0 (([Op.c32 abortPtr, Op.load 4 0, Op.c32 0, Op.bin .w32 .eq, Instr.brIf 0] : List Instr)
    ++ badPush ty ++ [Instr.br depth])

/-- `call_runtime_function` of a fallible function (wasm_builder_extensions.rs 283-298). -/
def callF (f : Fn) (ty : RetTy) : List Instr := [f.call, propagate ty]

/-- `negate` (wasm_builder_extensions.rs 162-166). -/
def negate : List Instr := [Op.c32 1, Op.bin .w32 .ne]

/-- `swap` (wasm_builder_extensions.rs 168-170). -/
def swap (v1 v2 : Nat) : List Instr := [Op.lset v1, Op.lset v2, Op.lget v1, Op.lget v2]

/-- `skip_vec_header` (wasm_builder_extensions.rs 193-195). -/
def skipVecHeader (ptr : Nat) : List Instr := [Op.lget ptr, Op.c32 8, Op.bin .w32 .add]

/-- `vec_elem_ptr` (wasm_builder_extensions.rs 172-178). -/
def vecElemPtr (ptr idx size : Nat) : List Instr :=
  skipVecHeader ptr ++
    ([Op.lget idx, Op.c32 size, Op.bin .w32 .mul, Op.bin .w32 .add] : List Instr)

/-! ## What an error looks like to a caller -/

/-- The store after an error with error pointer `p` has been raised. -/
def errStore (σ : Store) (p : Nat) : Store := σ.setMem (putLe σ.mem abortPtr 4 p)

/-- The error word the entrypoint inspects; 0 means "no error". -/
def errWord (σ : Store) : Nat := leNat σ.mem abortPtr 4

/-- `f args` returns the single value `v` and changes nothing else. -/
def Evaluates (f : Fn) (args : List Nat) (σ : Store) (v : Nat) : Prop :=
  f.Calls args σ (fun r σ' => r = [v] ∧ σ' = σ)

/-- `f args` raises the runtime error whose message is at `p` and changes nothing else. -/
def AbortsWith (f : Fn) (args : List Nat) (σ : Store) (p : Nat) : Prop :=
  f.Calls args σ (fun _ σ' => σ' = errStore σ p)

/-- A checked operation: on `some v` the result is `v`, on `none` the operation aborts with the
error at `p`. -/
def Checked (f : Fn) (args : List Nat) (σ : Store) (p : Nat) : Option Nat → Prop
  | some v => Evaluates f args σ v
  | none => AbortsWith f args σ p

/-- A state between two operations of a running contract: the first page of memory (which
holds the fixed data area) is there, memory is addressable with 32 bits, and no error is
pending. -/
structure Ready (σ : Store) : Prop where
  size : 65536 ≤ σ.size
  size_lt : σ.size < 2 ^ 32
  noErr : errWord σ = 0

/-- Error pointers point into linear memory and are not null (0 encodes "no error"). -/
def ErrPtrs.Valid (E : ErrPtrs) : Prop := ∀ e, 0 < E e ∧ E e < 2 ^ 32

/-- A Move function of two parameters whose body is a single binary operation. -/
def binFn (code : List Instr) : Fn := ⟨2, 1, 0, ([Op.lget 0, Op.lget 1] : List Instr) ++ code⟩

/-- The same with `nl` temporaries, the locals from 2 on. -/
def binFnL (nl : Nat) (code : List Instr) : Fn :=
  ⟨2, 1, nl, ([Op.lget 0, Op.lget 1] : List Instr) ++ code⟩

/-- A Move function of one parameter whose body is a single unary operation. -/
def unFn (code : List Instr) : Fn := ⟨1, 1, 0, ([Op.lget 0] : List Instr) ++ code⟩

/-- The same with `nl` temporaries, the locals from 1 on. -/
def unFnL (nl : Nat) (code : List Instr) : Fn := ⟨1, 1, nl, ([Op.lget 0] : List Instr) ++ code⟩

end Rt
