import Verif.Rt.Natives
import Verif.Rt.Rep

/-!
# Calls to other contracts

Transcription of `native_functions/contract_calls.rs` 45-545 and 785-812: the function the compiler
emits for each function of a struct annotated with `#[ext(external_call, ...)]`.  Not modelled: reading
storage objects again after a delegate call (548-783), emitted only when the function has arguments that are
storage objects or type parameters that are named identifiers.
-/

namespace Rt
open Wasm

/-- Packing the arguments (contract_calls.rs 243-286): argument `j` is in local `j`, the writer in local
`w`, the start of the data in local `b`.  References are packed as values of the type they refer to (244-247). -/
def packArgs (E : ErrPtrs) (w b : Nat) : Nat → List PTy → List Instr
  | _, [] => []
  | j, t :: ts => packT E (propagate .i32) (propagate .i32) j w b t.ty ++
      code[Op.lget w, Op.c32 t.ty.headSize, Op.bin .w32 .add, Op.lset w] ++
      packArgs E w b (j + 1) ts

/-- Destination, mode, gas and value, from the `CrossContractCall` object (contract_calls.rs 96-186).
Locals, from `k` on: address_ptr, is_delegate_call, gas, value. -/
def callObject (payable : Bool) (k : Nat) : List Instr :=
  code[Op.lget 0, Op.load 4 0, Op.lset 0,
   Op.lget 0, Op.load 4 0, Op.c32 12, Op.bin .w32 .add, Op.lset k,
   Op.lget 0, Op.load 4 4, Op.load 1 0, Op.lset (k + 1),
   Op.lget 0, Op.load 4 8, Op.load 8 0, Op.lset (k + 2)] ++
  (if payable then
    code[Op.lget 0, Op.load 4 12, Op.ltee (k + 3), Op.lget (k + 3), (swapBytes 4).call]
   else code[Op.c32 32, alloc.call, Op.lset (k + 3)])

/-- Selector and arguments (contract_calls.rs 190-302).  Locals, from `k + 4` on: calldata_start,
calldata_len, writer_pointer, calldata_reference_pointer, call_contract_result, return_data_len. -/
def callData (E : ErrPtrs) (sel k : Nat) (args : List PTy) : List Instr :=
  code[Op.c32 4, alloc.call, Op.ltee (k + 4), Op.c32 sel, swap32.call, Op.store 4 0] ++
  (if args.isEmpty then []
   else code[Op.c32 (args.map (fun t => t.ty.headSize)).sum, alloc.call, Op.ltee (k + 6), Op.lset (k + 7)] ++
     packArgs E (k + 6) (k + 7) 1 args) ++
  code[Op.c32 0, alloc.call, Op.lget (k + 4), Op.bin .w32 .sub, Op.lset (k + 5),
   Op.c32 4, alloc.call, Op.lset (k + 9)]

/-- The call (contract_calls.rs 304-344); `static` for functions that are `pure` or `view`. -/
def callSend (static : Bool) (k : Nat) : List Instr :=
  if static then
    code[Op.lget k, Op.lget (k + 4), Op.lget (k + 5), Op.lget (k + 2), Op.lget (k + 9),
     Op.host .staticCall, Op.lset (k + 8)]
  else
    code[Op.lget (k + 1),
     .ite 0
       code[Op.lget k, Op.lget (k + 4), Op.lget (k + 5), Op.lget (k + 2), Op.lget (k + 9),
        Op.host .delegateCall, Op.lset (k + 8)]
       code[Op.lget k, Op.lget (k + 4), Op.lget (k + 5), Op.lget (k + 3), Op.lget (k + 2), Op.lget (k + 9),
        Op.host .callContract, Op.lset (k + 8)]]

/-- The status (contract_calls.rs 346-411): `size` is 8 for `ContractCallResult` and 4 for
`ContractCallEmptyResult`.  Locals: `k + 10` call_result, `k + 11` call_result_code_ptr. -/
def callStatus (size k : Nat) : List Instr :=
  code[Op.c32 size, alloc.call, Op.lset (k + 10),
   Op.c32 4, alloc.call, Op.ltee (k + 11), Op.lget (k + 8), Op.store 4 0,
   Op.lget (k + 10), Op.lget (k + 11), Op.store 4 0]

/-- The result (contract_calls.rs 413-545).  Locals: `k + 12` return_data_abi_encoded_ptr, `k + 13`
calldata_reader_pointer, `k + 14` abi_decoded_call_result, `k + 15` call_result_value_ptr. -/
def callValue (E : ErrPtrs) (t : MTy) (k : Nat) : List Instr :=
  code[.block 0
    (code[Op.lget (k + 8), Op.c32 0, Op.bin .w32 .ne, .brIf 0,
      Op.lget (k + 9), Op.load 4 0, Op.lset (k + 9),
      Op.lget (k + 9), alloc.call, Op.ltee (k + 12),
      Op.c32 0, Op.lget (k + 9), Op.host .readReturn, Op.lset (k + 9),
      Op.lget (k + 12), Op.lset (k + 13)] ++
     unpackT E (propagate .i32) (k + 12) (k + 13) t ++
     code[Op.lset (k + 14)] ++
     (if t.isScalar then
       code[Op.c32 (if t.size = 8 then 8 else 4), alloc.call, Op.ltee (k + 15), Op.lget (k + 14),
        Op.store (if t.size = 8 then 8 else 4) 0,
        Op.lget (k + 10), Op.lget (k + 15), Op.store 4 4]
      else code[Op.lget (k + 10), Op.lget (k + 14), Op.store 4 4]))]

/-- `add_external_contract_call_fn` (contract_calls.rs 45-812) for a function with selector `sel`,
arguments `args` after the object, and result `res` (`none` for `ContractCallEmptyResult`). -/
def externalCall (E : ErrPtrs) (static payable : Bool) (sel : Nat) (args : List PTy) (res : Option MTy) : Fn :=
  ⟨args.length + 1, 1, 16,
    callObject payable (args.length + 1) ++ callData E sel (args.length + 1) args ++
    callSend static (args.length + 1) ++
    (match res with
     | none => callStatus 4 (args.length + 1)
     | some t => callStatus 8 (args.length + 1) ++ callValue E t (args.length + 1)) ++
    code[Op.lget (args.length + 11)]⟩

/-- The four bytes of a selector. -/
def selBytes (sel : Nat) : List UInt8 :=
  [UInt8.ofNat (sel / 2 ^ 24), UInt8.ofNat (sel / 2 ^ 16), UInt8.ofNat (sel / 2 ^ 8), UInt8.ofNat sel]

/-- The type of the object through which calls are made: a struct wrapping a `CrossContractCall`
(framework contract_calls.move), with contract address, delegate flag, gas limit and value. -/
def callTy : MTy := .struct [.struct [.address, .bool, .u64, .u256]]

/-- `s` points to such an object; its value is stored at address `p`, apart from the contract address. -/
structure CallObj (f : Bytes) (lim s a d g v p : Nat) : Prop where
  rep : Rep f lim callTy (.tuple [.tuple [.word a, .word d, .word g, .word v]]) s
  addr : a < 2 ^ 160
  ptr : leNat f (leNat f s 4 + 12) 4 = p
  res : reserved ≤ p
  apart : leNat f (leNat f s 4) 4 + 32 ≤ p ∨ p + 32 ≤ leNat f (leNat f s 4) 4

end Rt
