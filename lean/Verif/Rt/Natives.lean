import Verif.Rt.Unpack

/-!
# Constructor and native functions of the framework

Transcription of `constructor.rs`, `native_functions/object.rs` (fresh identifiers),
`native_functions/transaction.rs` and `native_functions/account.rs`.  Functions that only push the
result of a host function (`block_number`, `block_timestamp`, `chain_id`, `block_gas_limit`) are imported
by name and have no code of their own (native_functions.rs 300-345).
-/

namespace Rt
open Wasm

/-- `keccak_string_to_memory` (utils.rs 86-114): the hash `h` of the string is computed by the compiler
and stored, in four chunks, where local `ptr` points. -/
def storeHash (h ptr : Nat) : List Instr :=
  (List.range 4).flatMap fun i =>
    code[Op.lget ptr, Op.c64 (leNat (putBe (fun _ => 0) 0 32 h) (8 * i) 8), Op.store 8 (8 * i)]

/-- `build_constructor` (constructor.rs 78-164); `h` is the hash of `init_key`, `init` the user's
initialisation function, called with the `TxContext` (vm_handled_types/tx_context.rs 19-26).
Locals: 0 key_ptr, 1 value_ptr. -/
def constructor (h : Nat) (init : Fn) : Fn := ⟨0, 0, 2,
  code[Op.c32 32, alloc.call, Op.lset 0] ++ storeHash h 0 ++
  code[Op.c32 32, alloc.call, Op.lset 1,
   Op.lget 0, Op.lget 1, Op.host .storageLoad,
   Op.lget 1, Op.c32 32, isZero.call,
   .ite 0
     code[Op.c32 4, alloc.call, init.call,
      Op.lget 1, Op.c32 1, Op.store 4 0,
      Op.lget 0, Op.lget 1, Op.host .storageCache,
      Op.c32 1, Op.host .storageFlush]
     code[]]⟩

/-- `add_native_fresh_id_fn` (native_functions/object.rs 108-283); `h` is the hash of
`global_counter_key`.  Locals: 0 id_ptr, 1 data_to_hash_ptr, 2 counter_key_ptr, 3 counter_value_ptr. -/
def freshId (h : Nat) : Fn := ⟨0, 1, 4,
  code[Op.c32 32, alloc.call, Op.lset 2,
   Op.c32 32, alloc.call, Op.lset 3,
   Op.c32 32, alloc.call, Op.lset 0,
   Op.c32 20, alloc.call, Op.lset 1] ++ storeHash h 2 ++
  code[Op.lget 2, Op.lget 3, Op.host .storageLoad,
   Op.lget 3, Op.lget 3, Op.load 4 0, Op.c32 0xFFFFFFFF, Op.bin .w32 .ltU,
   .ite 1 code[Op.lget 3, Op.load 4 0, Op.c32 1, Op.bin .w32 .add] code[Op.c32 0],
   Op.store 4 0,
   Op.lget 1, Op.host .timestamp, Op.store 8 0,
   Op.lget 1, Op.host .blockNumber, Op.store 8 8,
   Op.lget 1, Op.lget 3, Op.load 4 0, Op.store 4 16,
   Op.lget 1, Op.c32 20, Op.lget 0, Op.host .keccak,
   Op.lget 2, Op.lget 3, Op.host .storageCache,
   Op.c32 1, Op.host .storageFlush,
   Op.lget 0]⟩

/-- `add_native_sender_fn` (native_functions/transaction.rs 52-79). -/
def nativeSender : Fn := ⟨0, 1, 1,
  code[Op.c32 32, alloc.call, Op.ltee 0, Op.c32 12, Op.bin .w32 .add, Op.host .msgSender, Op.lget 0]⟩

/-- `define_host_fn_native_fn_wrapper!` (native_functions/transaction.rs 21-50) at size 32. -/
def hostWrapper (f : HostFn) : Fn := ⟨0, 1, 1,
  code[Op.c32 32, alloc.call, Op.ltee 0, Op.host f, Op.lget 0]⟩

/-- `add_native_msg_value_fn` (native_functions/transaction.rs 81-86). -/
def nativeValue : Fn := hostWrapper .msgValue
/-- `add_native_block_basefee_fn` (native_functions/transaction.rs 88-93). -/
def nativeBaseFee : Fn := hostWrapper .baseFee
/-- `add_native_tx_gas_price_fn` (native_functions/transaction.rs 95-100). -/
def nativeGasPrice : Fn := hostWrapper .gasPrice

/-- `bytes_to_vec_function` (runtime/vector.rs 1338-1374).  Locals: bytes_ptr, n; 2 vector_ptr. -/
def bytesToVec : Fn := ⟨2, 1, 1,
  code[Op.lget 1, Op.lget 1, Op.c32 1, allocVec.call, Op.lset 2] ++ skipVecHeader 2 ++
  code[Op.lget 0, Op.lget 1, Op.memCopy, Op.lget 2]⟩

/-- `add_native_data_fn` (native_functions/transaction.rs 102-141): the word at `DATA_CALLDATA_OFFSET` is
the length, the next one the address of the call data. -/
def nativeData : Fn := ⟨0, 1, 0,
  code[Op.c32 396, Op.load 4 4, Op.c32 396, Op.load 4 0, bytesToVec.call]⟩

/-- `add_native_account_code_size_fn` (native_functions/account.rs 15-41). -/
def nativeCodeSize : Fn := ⟨1, 1, 0,
  code[Op.lget 0, Op.c32 12, Op.bin .w32 .add, Op.host .codeSize]⟩

/-- `add_native_account_balance_fn` (native_functions/account.rs 43-85).  Locals: address_ptr; 1 balance_ptr. -/
def nativeBalance : Fn := ⟨1, 1, 1,
  code[Op.c32 32, alloc.call, Op.lset 1,
   Op.lget 0, Op.c32 12, Op.bin .w32 .add, Op.lget 1, Op.host .balance,
   Op.lget 1, Op.lget 1, (swapBytes 4).call, Op.lget 1]⟩

end Rt
