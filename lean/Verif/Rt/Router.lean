import Verif.Rt.Unpack

/-!
# The entry point

Transcription of `hostio/entrypoint_router.rs` and `abi_types/public_function.rs`.
-/

namespace Rt
open Wasm

/-- Parameters of a public function: a parameter decoded from the calldata, or a reference to the
`TxContext`, which is supplied by the entry point. -/
inductive ATy
  | val (t : PTy)
  | txCtx

/-- Unpacking an argument (abi_types/unpacking.rs 205-246, 250-254 and 355-359 for `TxContext`,
vm_handled_types/tx_context.rs 18-25: an empty block of 4 bytes is allocated). -/
def unpackA (E : ErrPtrs) (pc : Instr) (r b : Nat) : ATy → List Instr
  | .val t => unpackP E pc r b t
  | .txCtx => code[Op.c32 4, alloc.call, Op.gget .reader, Op.lset r, Op.gget .reader, Op.lset r]

/-- `build_unpack_instructions` (abi_types/unpacking.rs 71-116), like `unpackAll` but for all kinds of
parameters. -/
def unpackActs (E : ErrPtrs) (pc : Instr) (a r : Nat) (ts : List ATy) : List Instr :=
  code[Op.lget a, Op.ltee r, Op.lset (r + 1), Op.lget r, Op.gset .reader] ++
  ts.flatMap (unpackA E pc r (r + 1))

/-- Width of a result in the tuple of results (translation/intermediate_types.rs 120-195). -/
def PTy.size : PTy → Nat
  | .val t => t.size
  | .ref _ => 4

/-- The loop of `add_unpack_function_return_values_instructions` (translation/functions.rs
176-183). -/
def loadRets (p off : Nat) : List PTy → List Instr
  | [] => []
  | t :: ts => code[Op.lget p, Op.load t.size off] ++ loadRets p (off + t.size) ts

/-- `PublicFunction` (abi_types/public_function.rs 45-55): the selector is four bytes, `fn` is the
compiled function, any function. -/
structure PubFn where
  name : String
  selector : List UInt8
  args : List ATy
  rets : List PTy
  fn : Fn

/-- Number of locals used by the wrapper of a function. -/
def PubFn.locals (f : PubFn) : Nat := f.rets.length + 7

/-- `wrap_public_function` (abi_types/public_function.rs 144-197).  The arguments start at the address
in local 1; `k` is the first unused local, `d` the branch depth of the return block. -/
def wrap (E : ErrPtrs) (d k : Nat) (f : PubFn) : List Instr :=
  unpackActs E (propagateTo .i32 (d + 1)) 1 k f.args ++
  code[f.fn.call, propagateTo .none (d + 1)] ++
  match f.rets with
  | [] => code[Op.c32 0, Op.c32 0]
  | t :: ts =>
    code[Op.lset (k + 2)] ++ loadRets (k + 2) 0 (t :: ts) ++
    packAll E (propagate .i32) (propagateTo .i32 (d + 1)) (k + 3) (t :: ts) ++
    code[Op.lget (k + 3 + (t :: ts).length), Op.lget (k + 3 + (t :: ts).length + 1)]

/-- `build_router_block` (abi_types/public_function.rs 83-138). -/
def routerBlock (E : ErrPtrs) (k : Nat) (f : PubFn) : Instr :=
  .block 0 (code[Op.lget 2, Op.c32 (leBytes f.selector), Op.bin .w32 .ne, .brIf 0] ++ wrap E 1 k f ++
    code[Op.lset 0, Op.lset 1, .br 1])

/-- The loop over the public functions (hostio/entrypoint_router.rs 145-156). -/
def routerBlocks (E : ErrPtrs) (k : Nat) : List PubFn → List Instr
  | [] => []
  | f :: fs => routerBlock E k f :: routerBlocks E (k + f.locals) fs

/-- Locals used by the wrappers of a list of functions. -/
def totalLocals : List PubFn → Nat
  | [] => 0
  | f :: fs => f.locals + totalLocals fs

/-- A compiled contract: where the error messages are, the public functions, and the code that saves
the dynamic fields borrowed mutably (the loop of `add_commit_changes_to_storage_fn`,
runtime/storage.rs 1353-1415; it emits nothing for contracts without such fields and is an arbitrary
function here). -/
structure Contract where
  E : ErrPtrs
  fns : List PubFn
  save : Fn

/-- No dynamic fields to save. -/
def noSave : Fn := ⟨0, 0, 0, []⟩

/-- The functions with a special name (hostio/entrypoint_router.rs 94-97, 158-161). -/
def Contract.named (C : Contract) (n : String) : Option PubFn := C.fns.find? (fun f => f.name = n)

/-- `add_commit_changes_to_storage_fn` (runtime/storage.rs 1339-1420). -/
def commitFn (save : Fn) : Fn := ⟨0, 0, 0, code[save.call, Op.c32 1, Op.host .storageFlush]⟩

/-- Reading the calldata (hostio/entrypoint_router.rs 46-75).  Locals of the entry point: 0 data_len,
1 data_pointer, 2 function_selector, 3 status; 4-8 the locals of the error message, 9 ptr. -/
def routerEnter : List Instr :=
  code[Op.lget 0, alloc.call, Op.ltee 1, Op.host .readArgs,
   Op.c32 0, Op.lset 3,
   Op.c32 396, Op.lget 0, Op.store 4 0,
   Op.c32 396, Op.lget 1, Op.store 4 4]

/-- Finding the selector (hostio/entrypoint_router.rs 84-143). -/
def routerSelect (C : Contract) : List Instr :=
  code[Op.lget 0, Op.un .eqz,
   .ite 0
     ((match C.named "receive" with
       | some f => code[Op.c32 (leBytes f.selector), Op.lset 2]
       | none => []) ++
      code[Op.c32 4, Op.lset 0, Op.lget 0, alloc.call, Op.ltee 1, Op.lget 2, Op.store 4 0])
     code[Op.lget 1, Op.load 4 0, Op.lset 2],
   Op.lget 1, Op.c32 4, Op.bin .w32 .add, Op.lset 1]

/-- The fallback function (hostio/entrypoint_router.rs 157-187). -/
def routerFallback (C : Contract) : List Instr :=
  match C.named "fallback" with
  | some f => code[Op.lget 1, Op.c32 4, Op.bin .w32 .sub, Op.lset 1] ++
      wrap C.E 0 (10 + totalLocals C.fns) f ++ code[Op.lset 0, Op.lset 1, .br 0]
  | none => []

/-- No function matches (hostio/entrypoint_router.rs 189-216; `ERROR_NO_FUNCTION_MATCH`, 18). -/
def routerNoMatch : List Instr :=
  code[Op.c64 100] ++ abortMessage 4 ++
  code[Op.lget 6, Op.c32 4, Op.bin .w32 .add, Op.lset 1,
   Op.lget 6, Op.load 4 0, Op.lset 0,
   Op.c32 1, Op.lset 3]

/-- The return block (hostio/entrypoint_router.rs 77-221). -/
def routerBody (C : Contract) : List Instr :=
  routerSelect C ++ routerBlocks C.E 10 C.fns ++ routerFallback C ++ routerNoMatch

/-- The exit (hostio/entrypoint_router.rs 227-296 and 318). -/
def routerExit (C : Contract) : List Instr :=
  code[.block 0
     code[Op.c32 abortPtr, Op.load 4 0, Op.ltee 9, Op.un .eqz, .brIf 0,
      Op.lget 9, Op.load 4 0, Op.lset 0,
      Op.lget 9, Op.c32 4, Op.bin .w32 .add, Op.lset 1,
      Op.c32 1, Op.lset 3],
   Op.lget 1, Op.lget 0, Op.host .writeResult,
   Op.lget 3, Op.un .eqz, .ite 0 code[(commitFn C.save).call] code[],
   Op.lget 3, .ret]

/-- `build_entrypoint_router` (hostio/entrypoint_router.rs 24-325): the exported function
`user_entrypoint`. -/
def router (C : Contract) : Fn :=
  ⟨1, 1, 9 + totalLocals C.fns + (match C.named "fallback" with | some f => f.locals | none => 0),
   routerEnter ++ (.block 0 (routerBody C)) :: routerExit C⟩

end Rt
