# Formal model of move-stylus

move-stylus compiles Move bytecode to WebAssembly for Arbitrum Stylus.  What a user
relies on is the behaviour of the *emitted* code (arithmetic helpers, allocator, ABI
codec, storage codec, router).  The Rust in `/repo` is a generator for that code, so the
model has two levels.

## 1. How the code is modelled

### 1.1 WebAssembly machine (`Verif/Wasm.lean`, `Verif/Mem.lean`)

A total, fuel-indexed interpreter for exactly the WebAssembly subset the compiler emits:
i32/i64 constants and operators, locals, three mutable globals, loads/stores of 1/2/4/8
bytes, `memory.copy/fill/grow`, `block/loop/if/br/br_if/return`, `drop`, `unreachable`,
calls, and host calls.

* A value is its unsigned interpretation, a `Nat`; each operator reduces modulo `2^32`
  or `2^64` according to its opcode.  (Validated WebAssembly is type correct, so a
  value's type is determined by the opcode; the model does not carry tags.)
* Memory is a total map from addresses to bytes plus a size; out-of-range access traps.
* `call` carries the callee's code.  The runtime helpers are not recursive, so this
  is a faithful inlining of the function index space; recursive Move functions are unrolled (§3).
* Fuel is only a device to define a total function: theorems say that *some* amount of
  fuel suffices (total correctness) and the result is then independent of fuel.

`Verif/Wp.lean` derives weakest-precondition rules from the interpreter (loops by invariant
and variant); `Fn.Calls f args σ P` means: the call returns and `P` holds of results and store.
`Verif/Wlp.lean` adds partial correctness for code that calls arbitrary functions.

### 1.2 Emitted runtime functions (`Verif/Rt/*.lean`)

Each Rust generator function `foo(module, ..) -> FunctionId` is transcribed as a Lean
value (the list of instructions it emits), in order, one builder call per instruction.
Generators parameterised by a type or a size are Lean functions.  Each definition cites
file and lines.

### 1.3 Abstract models

The compile-time logic (storage layout, ABI sizes, error table, signature checks, object
kinds) is modelled as pure Lean functions following the Rust `match`es.

### 1.4 The compiler proper (`Verif/Move.lean`, `Verif/Rt/Compile.lean`)

The translation of function bodies is modelled as the Rust code does it, as a function from Move
bytecode to WebAssembly, for bytecode on booleans, integers, addresses, structs and references to
them: types stack, control targets, locals, calls, return tuples, structs, borrowing, reading and
writing references, equality, aborts and clever errors, and calls of the native functions that tell
the sender, the value, facts about the block and the chain, and balance and code size of accounts
(`Bc.query`; the theorems assume that the program's answers are what the host says, `Truthful`).
`Verif/Move.lean` is a machine for the same bytecode that follows the Move language; C66, C67 and C86 relate the two.
The relation (`Rt/MoveRep.lean`) says for every byte which cell of the Move machine or which operand owns it;
a byte has at most one owner, and bytes without an owner never change.  The relooper is an
external crate: its result is an arbitrary tree, and `Flow.fits` says what it has to satisfy.

### 1.5 Vocabulary of the statements

* `Heap σ`: the state of a running contract between two operations: no error pending, the
  allocator in order (`AllocOk`), the first free byte after the reserved area, and memory not
  yet handed out is zero.  The last clause is an assumption the emitted code really makes
  (shifts, multiplication, packing and widening do not clear the memory they allocate).
  `C48_start` proves it of the initial state; every theorem about a modelled function proves it
  preserved (`Extends`).
* `AllocOk` includes `maxPages ≤ 65535`, i.e. memory cannot reach the full 4 GiB (Stylus allows
  far less); with 4 GiB pointer arithmetic would wrap.
* `Extends σ σ'`: only newly allocated memory was written.
* `Room σ n`/`CanAlloc σ n`: the memory limit leaves room for `n` more bytes.  Without room the
  allocator stops the contract (`alloc_traps`); the theorems state the outcome when there is room.
* `Rep f lim t v w`: the WebAssembly value `w` represents the Move value `v` of type `t` in memory
  `f`, all data below `lim`.  Values are ABI values (`Abi.Val`), since Move and ABI values of the
  supported types are in bijection.
* `Mv.Rep f R t v w` (`Verif/Rt/Values.lean`): the same for values during execution, where `R` is the
  set of addresses the value occupies, so that separation can be stated; `Mv.Ty` and `Mv.Val` include
  objects (with the owner in front of the fields) and enums.  `RefTo f R t v r`: the reference `r`
  designates the value `v`.  `VecRef`: a variable holds a vector of given capacity at a given address.
* `Layout.*` (`Verif/Layout.lean`): positions in storage, what it means that storage holds a value at a
  position (`Holds`, `Stored`), and the ranges of slots a value occupies (`area`).  `Spread`: these
  ranges are disjoint, which is all one can say of slots computed by an arbitrary hash function.
* `Mv.Tree f R t v w` (`Verif/Tree.lean`): as `Mv.Rep`, with disjoint footprints of the parts of a value.
* `movers`, `gone`: the objects in an object that are stored elsewhere than they belong, and their slots.
* `Checked…`/`Raises`: a Move abort is modelled as the code does it: the address of the message
  is written to the abort word (address 256) and the function returns a dummy value.

## 2. Trusted base

* Lean 4.33.0's kernel.  Theorems depend at most on `propext`, `Classical.choice`,
  `Quot.sound`.  No axioms are added; no `sorry`, `native_decide`, `bv_decide`.
* The interpreter `Verif/Wasm.lean` as a description of WebAssembly.
* The transcription of the Rust generators (checked by reading only; the sandbox has no
  Rust toolchain).
* The specifications `Verif/Spec.lean` (Move integers) and `Verif/Abi.lean` (Solidity ABI),
  `Verif/SlotSpec.lean` (Solidity storage slots), `Verif/AbiEvent.lean` (Solidity events).

## 3. Not modelled

* walrus, the Move front end and bytecode verifier, gas, the Stylus VM other than the
  host functions named in `HostFn`.
* ABI packing: all types of results are modelled (`UID`, `ID` and structs with the `key` ability are
  packed as plain structs by the code, so they are covered).  Nested function calls generated for
  generic types are modelled as inlined calls.
* ABI unpacking: `signer` (its injection function is declared without results, so contracts using it
  are not valid WebAssembly) is not modelled; all other argument types are (`TxContext` by the entry point, structs
  with the `key` ability by themselves, C98 and C101).
* Entry point: the code that saves dynamic fields before committing is an arbitrary function `save`
  in the theorems about the entry point (its parts, one per call of `borrow_mut`, are `commitField`, C75);
  in the code its errors are not checked.  User functions are arbitrary WebAssembly functions.
* Translation of functions: instructions on enums and vectors, and objects in storage (their code is
  modelled and specified piece by piece, not their translation in context); generic functions;
  matches on enums (modelled apart, C96); calls go directly instead of through the function table (which is modelled by itself,
  C90: of bodies only the calls, without those handled specially; that function handles can be used
  as indices into the functions of a module is assumed), and recursive calls are
  unrolled (`Rt/Unroll.lean`): a theorem about an execution holds of the code unrolled as deep as the
  execution needs.  `Move.step` has
  no step where Move's bytecode verifier excludes the situation.
* Vectors and references: literals and `destroy_empty` are modelled as functions of their own; generic enum
  instances as vector elements are a compile error in the code.  Vectors of exactly 0xDEADBEEF elements
  would be taken for moved ones and are excluded where it matters.
* Storage: a `UID` occurs only as the first field of an object (a struct with `key`); a `NamedId` is
  represented like a `UID`, and the other functions of the framework on named ids are not modelled.  Dynamic fields: the native functions and the saving at the end are modelled, the framework's Move
  functions that call them are not executed; the global variable of a call of `borrow_mut` is `borrowVar`, the
  last of the fields it returned.  Local variables the generator adds are numbered in
  order of creation.
* Events: the hash of the signature is a parameter; `Bytes32` and the like as fields are not modelled.
  Packing a struct with the event attribute anywhere else than when it is emitted (e.g. as the result of
  a function) leaves out its indexed fields, because the same generated function is used
  (runtime/packing/structs.rs 53-73); the packing theorems are about structs without the attribute.
* Calls to other contracts: storage objects as arguments, and reloading them after delegate calls
  (contract_calls.rs 548-783).
* Exported JSON ABI: state mutability, internal types and the order of the entries are not modelled (the
  human-readable file is, C107).  Names are strings of characters, converted with Lean's `Char.toUpper` and `Char.toLower`, which agree with Rust's
  on ASCII, the only letters of Move identifiers.
* Command line: `docgen`, `info` and the output of `disassemble`; wasm-opt is a parameter (C117), so that the theorems
  about emitted code are about the module before it is optimised.
* Compile-time checks: the parser's and the compiler's types are one type, symbols are strings.
* The host: block, transaction and account data are an arbitrary `Env`; other contracts are an arbitrary
  function from the messages sent so far and the storage to status, returned data and new storage.
* Type hashes: `FxHasher` is part of the external crate `fxhash` and is written down from its published
  algorithm (`TyHash.fxWord`, `TyHash.words`); the name of a generated function is a pair instead of a string.
* keccak256 is an arbitrary function (all theorems hold for every function; where
  injectivity is needed it is an explicit hypothesis).

## 4. Properties found false

| id | witness | what happens |
|----|---------|--------------|
| C07 | `C07_false` | u128/u256 multiplication misses an overflow |
| C13 | `C13_false_u64`, `C13_false_u256` | u64→u8/u16 and u256→u128 casts silently truncate |
| C17 | `C17_false` | two empty vectors of elements kept in memory compare their stale first slots |
| C19 | `C19_false` | requests exceeding free memory by ≥ 2 GiB are granted without growing memory |
| C23 | `C23_false` | out-of-range words are accepted for bool, u8, u16, u32 |
| C54 | `C54_false` | a `Bytes32` argument is not returned unchanged |
| C55 | `C55_false` | decoding a valid string argument can trap at the end of memory |
| C35 | `C35_false` | the slot of a vector element is computed by adding big-endian numbers in little-endian order: traps when the last byte carries |
| C44 | `C44_false` | `swap(i, i)` succeeds for an index out of range |
| C57 | `C57_false` | copying a `vector<u8>` whose copy ends at the end of memory traps (four-byte stores of one-byte elements) |
| C47 | `C47_false` | `&signer` is accepted as a later argument, but no value is pushed for it |
| C30 | `C30_false` | without receive function, empty calldata run the function whose selector is zero |
| C38 | `C38_false` | addresses are stored in 20 bytes, so an `ID` (a 32-byte hash) in a field of an object loses 12 bytes |
| C39 | `C39_false` | the decoder does not fetch the slot behind an enum: a field behind an enum that ends with its slot (or in a later slot than the active variant) is taken from the wrong slot |
| C40 | `C40_false` | a vector in the place where another variant of the enum had a number takes the number for its length; old bytes survive in its elements |
| C43 | `C43_false_enum`, `C43_false_edge` | deleting an object leaves the elements of vectors in its enums; and those of a vector behind a struct that ends with an enum at the end of a slot (the slot with the length is cleared before the length is read) |
| C59 | `C59_false` | emptying a stored vector of structs traps |
| C61 | `C61_false` | transferring a frozen object: the second check compares zero bytes, so deletion sets its own error, and the object is written to the recipient's storage all the same |
| C64 | `C64_false_enum`, `C64_false_nested`, `C64_false_struct` | an object wrapped in an enum or in a vector of vectors stays in the storage of its previous owner as well; one in a struct is compared with the struct's first field taken for an id: traps |
| C66 | `C66_false_cast`, `C66_false_mul` | whole functions return a value where Move fails, by C13 and C07; `C66_arms`: for `BrTrue` with two arms the code is right only if the relooper lists the arm at the target first (the successors of a block are listed in ascending order, so it probably does not) |
| C70 | `C70_false` | value sent, base fee and gas price are read with their bytes reversed (the host writes big-endian, as documented in hostio/host_functions.rs and assumed by `account_balance`; the mock host of the test runner writes little-endian) |
| C71 | `C71_false_value` | the second payable call with an object sends its value with the bytes reversed: the first one reverses them in the object (contract_calls.rs 167-180) |
| C71 | `C71_false_reference` | for an argument that is a reference to an integer the address of the integer is sent (contract_calls.rs 244-247 drops the reference without reading through it) |
| C73 | `C73_false_empty`, `C73_false_string` | a dynamic field with an empty vector or string as key makes the contract trap: the loop over the elements tests at the end, against length − 1 (native_functions/dynamic_field.rs 620-655) |
| C73 | `C73_false_collision`, `C73_false_types` | lengths of vectors are not hashed, and the name of the key's type, without its module, follows the bytes of the key without separator: `{[1], [2, 3]}` and `{[1, 2], [3]}` are the same key, and so are `B {1, 65}` and `AB {1}` |
| C74 | `C74_false` | an object added as the value of a dynamic field stays stored under its owner as well: `add_child_object` does not look for objects in the value (dynamic_field.rs 32-94; transfers do) |
| C75 | `C75_false` | a `borrow_mut` executed twice, e.g. in a loop or in a function called twice, saves only the last field: there is one global variable per call in the program (translation/bytecodes/dynamic_fields.rs 29-46) |
| C72 | `C72_false_empty` | the topic of an empty indexed vector is the hash of one element that does not exist: the loop tests at the end (native_functions/event.rs 526-592) |
| C72 | `C72_false_string` | an empty indexed string writes one byte to memory that is not allocated; the next encoding contains it (event.rs 1063-1110) |
| C72 | `C72_false_nested` | a struct in an indexed struct is loaded twice: the topic is the hash of unrelated memory (event.rs 909-927) |
| C72 | `C72_false_trap` | dynamic data is moved by 32 bytes, but the number of bytes moved includes the topics: near the end of memory the contract traps (event.rs 452-478) |
| C76 | `C76_false_overlong` | 0xC0 0x80 is accepted as UTF-8 (native_functions/string.rs 148-165) |
| C76 | `C76_false_truncated` | whether a character ends inside the vector is never checked: a string cut in a character is accepted if the rest of the character is still in memory, e.g. after `pop_back` (string.rs 63-320) |
| C76 | `C76_false_trap` | four bytes are read for a character of three: at the end of memory a valid string traps (string.rs 201-220) |
| C80 | `C80_false_name` | a function `f_`: the ABI says `f`, the contract answers to `f_` (common.rs 5-33 drops a final underscore, utils.rs keeps it) |
| C80 | `C80_false_enum` | a parameter that is an instance of a generic enum is `uint8` in the ABI and missing in the hashed signature |
| C80 | `C80_false_empty` | a struct without fields is `()` in the ABI and `(bool)` in the hashed signature |
| C80 | `C80_false_names`, `C80_false_instance` | the components of a struct are looked up by name: two structs of the same name in different modules, or `Box<u8>` and `BoxUint8`, get the same components |
| C80 | `C80_false_named` | a `NamedId` is `bytes32` in the ABI and `(bytes32)` in the hashed signature |
| C81 | `C81_false` | a field that is a struct with a struct in it is missing in the signature hashed for the topic |
| C82 | `C82_false` | `My_Error` is hashed as `MyError` but exported as `My_Error` |
| C84 | `C84_false` | a returned reference to an object is `bytes32` in the ABI, but the whole struct is returned |
| C85 | `C85_false` | a parameter that is an instance of a generic enum is read from the call data although it is not in the hashed signature |
| C86 | `C86_false` | assigning a whole struct through a `&mut` parameter does not reach the caller: the callee gets a copy of the pointer to the struct (`prepare_function_arguments`, `box_args`) and the assignment replaces that copy |
| C87 | `C87_false` | the structs `Treasury0aA0a010` and `ContractSwiXvkAt` of a module `bank` have the same 64-bit FxHash: their objects have the same tag, and the second is processed with the functions generated for the first |
| C88 | `C88_false` | the tag of `Box<vector<Foo>>` depends on the module and number by which the compiled program knows `Foo`: a contract binding `Box` and `Foo` with `external_struct` cannot read the owner's objects |
| C87 | `C87_false_bound` | structs of two modules of a program that are bound to the same foreign struct share generated functions, even if their fields differ |
| C89 | `C89_false` | for the same reason `type_name::get` returns the name of the first for both |
| C91 | `C91_false` | a function with a type parameter that does not occur in its signature (`fun f<T>(): u64`) cannot be called: `is_generic` looks at the signature only, the entry made for the call is never filled, and compilation ends with an internal error |
| C94 | `C94_false_signer` | `inject_signer` is declared without results but leaves a pointer on the operand stack: a contract with an entry function that takes a `signer` (or `&signer`) fails validation |
| C94 | `C94_false_external` | a call to another contract with a parameter of type `&u64`: the parameter is an i32 local but is passed to the function that packs an i64, so the module fails validation |
| C97 | `C97_false_order`, `C97_false_panic`, `C97_false_unpack`, `C97_false_borrow` | the fields of a generic struct or enum in a generic function get the type arguments first (so that they mention the function's parameters) and then, instead of the types the function is compiled for, the type arguments again (taking apart, borrowing) or those of them that are bare parameters (building): `Pair<T, S>` in `f<S, T>` does not compile, `Box<vector<T>>` makes the compiler panic, and `x.v == y.v` for `x, y: &W<u8, T>` with `v: T` compares one byte only |
| C100 | `C100_false` | after a delegated call the fields of the object that was read again are copied over the original one, the pointer to its `UID` included; the address before this `UID` is that of the copy, so the next delegated call refreshes the copy and the object keeps old values, which are then committed (contract_calls.rs 685-802). `C100_absent`: frozen objects and new ones are never found, so that each delegated call with them fails |
| C101 | `C101_false` | the id of a `NamedId` is the hash of the identifier of a struct without its module (native_functions/object.rs 46-49); `NamedId<a::KEY>` and `NamedId<b::KEY>` are the same object.  The compilation error that object.move 84-85 promises does not exist |
| C102 | `C102_twice`, `C102_false` | nothing checks that the ids of two parameters differ; each is loaded on its own, and two copies can be transferred to two addresses (an object is duplicated), or changed through two references (the last commit wins) |
| C103 | `C103_false` | struct_validation.rs 112-155 compares the type of a field with the names `UID` and `NamedId` only, so `vector<UID>` and `Option<UID>` are accepted in structs without `key`; `extract_user_data_type_names` (types.rs 120-130) does not look into references, so `&mut UID` is accepted as a parameter although lib.rs says it is not; names are compared as text, so with `use stylus::object::UID as U` everything is accepted |
| C104 | `C104_false` | the search for the struct a result names (function_validation.rs 114-163) knows members imported by name only: `m::Obj` is not found and accepted; type arguments and references are not looked at; a name that is the original name of one import and the alias of another one stands for whichever the hash map gives first, so the same module is accepted or rejected by chance |
| C105 | `C105_false` | `is_event` and `is_abi_error` (types.rs 132-144) look at the type itself only; events of other modules are not known at all |
| C107 | `C107_false_enum`, `C107_false_public`, `C107_false_location`, `C107_false_object`, `C107_false_keyword`, `C107_false_generic` | The Solidity interface is not accepted by the Solidity compiler: after the last variant of an enum a comma follows (human_readable.rs 146-149); `public entry` functions are `public external` (78-84); parameters of type string, array or struct have no data location (60-70); an object as parameter has the type of its struct, which is never declared, where the contract expects `bytes32` (abi.rs 420-512); words of Solidity such as `delete` or `days` are written as names; a generic struct with a vector argument is named `BoxUint8[]` (types.rs 80-161). `C107_partial` is for contracts without these |
| C108 | `C108_false_module`, `C108_false_generic` | The ABI lists the wrong generic event: the type arguments of an event of another module are indices into the handles of the module that emits it, but are looked up among those of the module that declares it (move-evm-abi-generator/src/lib.rs 291-309), so `Logged<Inner>` is listed where `Logged<Order>` is emitted; an event emitted by a generic function is listed as `Logged<T>`. `C108_args_partial` excludes both |
| C109 | `C109_false_div`, `C109_false_code`, `C109_false_order`, `C109_false_args`, `C109_false_rest`, `C109_false_file` | `move-stylus test`: a division by zero is a trap, `call_test_function` gives an error and `run_tests` unwraps it (move-test-runner/src/lib.rs 46), so `#[test, expected_failure(arithmetic_error)]` on it ends the run with a panic (the standard library has such tests, move-stdlib/tests/u128_tests.move 55-58); the arguments of `expected_failure` are ignored (function_modifiers.rs 173-177); `#[expected_failure] #[test]` is refused (lib.rs 635-649); `#[test(x = @1)]` is not taken for a test; `test_failed || run_tests(..)` does not run modules after a failure (move-cli/src/base/test.rs 67); the tests of all modules of a file are looked for in the last one. `C109_partial` excludes these |
| C110 | `C110_false_result`, `C110_false_deref`, `C110_false_rebound`, `C110_false_path`, `C110_false_method`, `C110_false_file`, `C110_false_qualified`, `C110_false_hidden` | the source check of `emit` and `revert` goes by names: `emit(make())` and `emit(*r)` are refused (parse_body.rs 266-301); the bindings of the whole function are collected before the calls are checked, so a later `let` of the same name makes an earlier `emit(e)` wrong (function_validation.rs 211-224); `radio::emit(1)` and `i.emit()` are taken for the imported function (native_functions.rs 65, the path is recorded and not used); the imports of all modules of a file are one map (lib.rs 332-466); `event::emit(..)` and calls inside `return` are not checked. `C110_partial` excludes these |
| C111 | `C111_false_ice`, `C111_false_names`, `C111_false_twice`, `C111_false_single` | dependencies that are not in the cache are looked up in `deps_compiled_units` only (lib.rs 429-436), so a module of the package that uses another one whose source has errors, or that was not selected by `translate_single_module`, ends the build with the internal error `DependencyNotFound` and the collected errors are dropped; the modules are kept by name without address (lib.rs 243, base.rs 60); a dependency with errors is not remembered and is processed again for each module that uses it. `C111_partial` excludes these |
| C112 | `C112_false_file`, `C112_false_mixed`, `C112_false_folder`, `C112_false_name`, `C112_false_ice` | `modules_paths` maps a source file to one module (lib.rs 383), so of several modules in a file only the last has its functions exported, once with the events of each; the ABI is written under the last component of the source path (export_abi.rs 91, 99), so equal file names in different folders overwrite each other and the name need not be that of the `.wasm` file; internal errors as in C111. `C112_partial` excludes these |
| C113 | `C113_false_first`, `C113_false_typo`, `C113_false_bare`, `C113_false_default`, `C113_false_other`, `C113_false_literal` | `parse_struct_modifier` takes `.next()` of the arguments of `ext` (struct_modifiers.rs 242-249), so `#[ext(abi_error, event)]` is no event; unknown names are skipped (struct_modifiers.rs 257, function_modifiers.rs 193), so `#[ext(owned_object(coin))]` does nothing; the same for known names without their arguments; the errors `AddressNotDefined` and `ModuleNameNotDefined` are never raised; arguments of every unknown attribute are searched, so `#[allow(event)]` makes an event; the number of indexes is read with `str::parse`, which refuses `2u8` and `0x2`. `C113_partial` excludes these |
| C113 | `C113_false_error` | `AbiError::try_from` looks for `ext(abi_error)` only (abi_error.rs 53-78) and its `NotAnAbiError` is dropped (lib.rs 250-256), so `#[abi_error]` and `#[ext(x(abi_error))]`, which `parse_struct_modifier` reads as errors, do nothing; `#[event]` works |
| C114 | `C114_false_path`, `C114_false_alias`, `C114_false_modules` | `check_return_value` and `get_single_type_name` compare the last name of types without a path (external_call/function.rs 17-51, shared.rs 16-25): `contract_calls::ContractCallResult<u64>` is refused, `use 0x5::m::Foo as ContractCallResult` is accepted; `external_call_structs` is filled from all modules of the file (lib.rs 136-308), so a struct of the other module with the same name counts.  `C114_partial` is about names and files |
| C115 | `C115_false_modules`, `C115_false_struct`, `C115_false_path`, `C115_false_import` | `functions` and `structs` are filled from all modules of the file; `compute_arguments_object_kind` takes the first function with the name (move-bytecode-to-wasm lib.rs 270-273), `check_storage_object_param` the first struct with the name, whatever the path (function_validation.rs 291-300), and only structs of the file: an object of an imported type cannot be declared (`StructNotFound`).  `C115_partial` and `C115_accepts` need functions (structs) of the file to have different names |
| C116 | `C116_false_manifest`, `C116_false_module`, `C116_false_gitignore` | `File::create` empties an existing `Move.toml` and `sources/<name>.move` (new.rs 91, 164); `write_gitignore` writes `build/*` at the end of the file without looking whether its last line is ended (new.rs 71-77): `x` becomes `xbuild/*` and neither is ignored.  `C116_partial` says what is kept and written |
| C117 | `C117_false_exit`, `C117_false_stale`, `C117_false_install`, `C117_false_test` | `deploy` and `activate` print that cargo-stylus failed and return `Ok` (deploy.rs 141-148, activate.rs 114-121); nothing removes `<name>.wasm` when a build fails or a module is gone (base.rs 57-97), and `deploy` does not look in `--install-dir` (deploy.rs 162), so that the result of an earlier build is deployed; `test` writes the modules compiled for tests (test functions, dev addresses, not optimised) to the files of `build` (test.rs 37-45), and a `deploy` after it deploys them.  `C117_partial`, `C117_history`, `C117_file`, `C117_activate` and `C117_exit` say what holds |
| C118 | `C118_false_imports` | `validate_pay_for_memory_grow_import` looks at the one import of that name (wasm_validation.rs 145-189); imports from `vm_test_hooks`, which `native_functions.rs` adds for the functions of `test_scenario`, pass the check (in a package as it comes, only test builds see that module).  `C118_partial` says that there are none unless such a function is called |
| C48 | `C48_false` | such a request can wrap the allocator round to address 0, over the static data |

The addresses 1 and 2 are the keys of the shared and the frozen objects; the code does not exclude them as recipients.
Division by zero on u8..u64 is a WebAssembly trap, not an abort with a message.

## 5. Properties, modelling and proofs

| id | model | proof |
|----|-------|-------|
| C01-C04, C10, C49, C50 | emitted code of the checked integer operators | symbolic execution of the code, arithmetic |
| C05, C06, C11, C12, C15, C16, C18 | emitted loops over 8-byte (or 1-byte) chunks | loop invariants over little-endian numbers of memory ranges |
| C07 | emitted nested loop | invariant: result = partial product mod 2^w; **the property is false** (missed overflow), proved by witness; partial theorem for non-overflowing products |
| C08 | emitted shift-subtract division | invariant over processed bits |
| C09 | emitted chunk shifts | loop invariant |
| C13 | emitted casts | **false** for u64→u8/u16 and u256→u128, proved by witness; the rest proved |
| C14 | emitted casts | symbolic execution |
| C17 | emitted equality, generated by recursion over types | mutual induction on types, loop invariant; **false** for empty vectors of elements kept in memory (witness) |
| C57, C58 | emitted copies and reference accesses, generated by recursion over types | mutual induction on types with memory footprints; C57 **false** at the very end of memory (witness) |
| C19, C48 | emitted allocator, data segment | invariant over histories |
| C20 | emitted digit loop | invariant |
| C21-C26 | emitted pack/unpack helpers | symbolic execution; C23 **false** (witness) |
| C27 | pure functions over ABI types | structural induction against an independent ABI specification |
| C28-C30, C33 | emitted entry point over arbitrary user functions | symbolic execution, induction on the function list; partial correctness (`Verif/Wlp.lean`: for arbitrary, possibly diverging functions) with syntactic invariants (no host calls, values returned, branch depths); C30 **false** (witness) |
| C31, C32 | pure/emitted encoders | induction |
| C51 | all emitted pack functions, generated by recursion over types as in the compiler | induction on types; `Rep` relates memory to values, `Packed` describes the effect of packing one component |
| C52, C53 | all emitted unpack functions, generated by recursion over types | induction on types; `Dec` relates calldata to values (offsets may point anywhere), canonical encodings satisfy it |
| C34, C36 | emitted slot arithmetic with abstract keccak | symbolic execution |
| C35 | emitted slot arithmetic | **false** (byte order of the addition), witness; partial theorem when no carry crosses a byte |
| C37 | emitted slot advance of the encoder, decoder and deletion | symbolic execution, induction on the fields |
| C41 | emitted size table, pure model of the compile-time sizes | induction on types against the layout |
| C40, C59 | emitted encoder, generated by recursion over types | refinement in two steps: the emitted code simulates a pure machine with a slot buffer (`Proof/StorageEnc*.lean`); the machine writes the layout (`Proof/Codec*.lean`); mutual induction on types; both **false** in general (witnesses) |
| C38, C39 | emitted decoder, generated by recursion over types | mutual induction on types over `Holds` (`Proof/StorageDec*.lean`): reading what storage holds gives the value; composed with C59 to the round trip; the slot at hand is tracked by a pure function of the layout (`Layout.fresh`); both **false** in general (witnesses) |
| C42 | emitted lookup functions over arbitrary storage | symbolic execution |
| C43 | emitted deletion, generated by recursion over types | refinement as for C59: the code simulates a pure machine (`Proof/Delete.lean`); the machine clears the slots an object owns (`Verif/Own.lean`, `Proof/Delete2.lean`); **false** in general (witnesses) |
| C60 | emitted decoder | symbolic execution of the checks in front of an object; composed with C43 |
| C61-C65 | emitted transfer, share, freeze, saving at the end of a function (`Rt/Transfer.lean`) | values with disjoint parts (`Verif/Tree.lean`) so that owners can be rewritten in place; the deletion of objects with other owners simulates a pure machine (`Proof/Transfer*.lean`), composed with the machines of C43 and C59; C61 and C64 **false** in general (witnesses) |
| C66, C67, C86 | the translation of functions (`Rt/Compile.lean`) as a function from Move bytecode to WebAssembly | simulation of a Move machine (`Verif/Move.lean`) by the emitted code: operations, blocks, control-flow trees (induction; loops by the number of instructions left), calls, functions, programs (`Proof/Move*.lean`); recursive programs by unrolling calls (`Proof/Unroll.lean`); C66 **false** in general (witnesses) |
| C68-C70 | constructor, identifiers, native functions about transactions and accounts (`Rt/Natives.lean`) | symbolic execution; C69 by induction over histories; C70 **false** of 256-bit numbers |
| C71 | calls to other contracts (`Rt/External.lean`) | symbolic execution on top of packing (C51) and unpacking (C52); **false** of repeated payable calls and of references to integers |
| C73, C74, C75 | dynamic fields (`Rt/Dynamic.lean`) | induction on key types; symbolic execution on top of saving (C59) and reading (C39); **false** of empty keys, keys with several vectors, keys of different types, objects as values, and repeated borrows |
| C72 | events (`Rt/Event.lean`), specification in `AbiEvent.lean` | induction on indexed types; loop invariants; packing (C24); **false** of empty vectors and strings and nested structs in indexed fields, and at the end of memory |
| C76, C77, C78, C79 | natives of `std::string` (`Rt/Str.lean`); UTF-8 is Lean's own | loop invariants; the scan of the check against the encoding of characters; C76 **false** of 0xC080, strings cut in a character, and at the end of memory |
| C80, C81, C82 | the signatures hashed by the compiler and the JSON file of the generator (`Rt/Export.lean`, `AbiJson.lean`), as functions on types | induction over types; the hash sets of the generator are enumerated in any order; **false** in the cases listed above |
| C83 | `revert` and the exit of the entry point (`Rt/CustomError.lean`) | symbolic execution on top of packing (C51) |
| C84, C85 | the types by which results are packed and arguments unpacked (`Rt/Wire.lean`), the outputs of the JSON file | induction over types; **false** in the cases listed above |
| C87, C88 | the hash of types and the registry of generated functions (`Rt/TypeHash.lean`) | unique decoding of the hashed words, induction over types and requests; **false** because of collisions, and for vectors of structs |
| C89 | `typeName` and the emitted function that writes the name (`Rt/TypeName.lean`) | unique decoding of names, symbolic execution, composed with C87; **false** for two bindings of one foreign struct |
| C90, C91 | function table, instantiation of generic functions and linking as a recursive function over arbitrary call graphs (`Rt/Link.lean`) | invariant of the table preserved by every step (`Proof/Link.lean`), duplicates excluded by the final check; completeness by induction on the number of functions left; C91 **false** for type parameters not in the signature |
| C92, C93 | decoding of constants at compile time and the code that rebuilds them, vector literals and `destroy_empty` (`Rt/Consts.lean`) | induction on the type of the constant and on the list of elements (`Proof/Consts.lean`, `Proof/VecPack.lean`); BCS encoding written as the specification |
| C94 | typing rules of the WebAssembly specification for the instructions of the interpreter, with an executable checker proved sound (`Valid.lean`), the stack checks of Move's verifier (`Rt/Verifier.lean`), the compiler model, the entry point and the functions of the runtime | induction on types, blocks, control flow and the list of functions (`Proof/Valid*.lean`); preservation theorem relating the typing rules to the interpreter (`Proof/Valid6.lean`) |
| C95 | the entry point, unpacking, the compiler model and packing together, started from the initial memory (`Rt/Transaction.lean`) | the decoders lay arguments out contiguously and without sharing (`Laid`, `LaidActs` in `Proof/Unpack*.lean`, `Proof/Router.lean`), which yields the ownership relation that C66 needs (`Proof/Transaction.lean`); results back to what the encoders need |
| C96 | `PackVariant`, `UnpackVariant` and its reference forms, `VariantSwitch`, matches with two and with more arms (`Rt/Enums.lean`), each as a function of its own | WP; induction on the fields and on the cases (`Proof/Enums.lean`).  `br_table` is a sequence of comparisons, the index is in a local |
| C97 | which types the generator takes fields of generic datatypes to have (`Rt/Generic.lean`), as functions on types; the code of `x.v == y.v` | induction over types; exact characterisations (`Proof/Generic.lean`) |
| C98, C99, C101, C102 | loading of the objects that functions take, `peep`, named ids (`Rt/Objects.lean`) | lookups (C40) and reading (C39, C83) composed (`Proof/Objects.lean`, `Proof/Objects2.lean`); C102 places the code of C98 twice in one function, sharing the local that holds the reader (`wp_loadArg`) |
| C100 | reading objects again after a delegated call (`reload` in `Rt/Objects.lean`) | the same, and that copied fields represent the same values (`repFs_copied`) |
| C103–C105 | types of the parser, `parse_type`, `validate_struct`, the part of `validate_function` about signatures (`Rt/Validate.lean`) | induction over types; what names stand for is a parameter, so that the properties do not depend on the spelling |
| C106 | C61, C62, C63, C43 and the commit of changes followed by C98 in a second store, which has the storage of the first and nothing else in common (`Props/Lifetimes.lean`) | composition; the stored values are those the loading functions find |
| C107 | `Verif/Rt/Interface.lean`: human_readable.rs, the whole text of the interface, from the collected ABI.  `Verif/Solidity.lean` is the specification: lexer with comments, parser for `pragma … ; interface N { … }` with functions, structs, enums, events and errors, and rules (types known, data locations, one visibility, at most one mutability, distinct struct names and overloads, number of indexed fields).  Not modelled: `receive`/`fallback` lines in the reader, other parts of the language, sorting by bytes (strings are compared by code points, the same order) |
| C108 | `Verif/Rt/Emitted.lean`: `process_events_and_errors`, `parse_event`, `parse_error`, `find_child_module` (move-evm-abi-generator/src/lib.rs 137-329) and `try_from_signature_token`.  Of bytecode only `Call` and `CallGeneric` are kept, handles of functions are resolved, a set of visited modules is a list.  `Reach` (calls that an execution may make, with type arguments substituted) is the specification; it allows every call in the code of a function that is reached |
| C109 | `Verif/Rt/TestRun.lean`: the attributes `test` and `expected_failure` (move-parse-special-attributes: `parse_modifiers`, the loop of `process_special_attributes`), `package_module_data` (which module is kept for a path), the export of tests, `call_test_function`, `run_tests` and the loop of `move-stylus test`.  A hash map is visited in any order.  Other attributes are accepted, exports other than the tests are left out, the sandbox is a store in which a function is called; the specification is the Move machine and, for attributes, `Passes` |
| C110 | `Verif/Rt/Body.lean`: source expressions, `extract_from_exp`, `extract_struct_name_from_exp`, `build_function_alias_map`, `validate_native_function_calls` and the end of `validate_function`.  Forms of expressions at which the traversal stops are one constructor; hash maps are lists.  The specification (`Props/Body.lean`) is lexical scoping with the types that the Move compiler gives |
| C111 | `Verif/Rt/Build.lean`: `process_dependency_tree`, the loop of `translate_package`.  What `process_special_attributes` rejects is a list of errors given with each module; `build_module_data` and the translation of functions succeed; a compiled module is its id and the ids of the modules whose data were at hand; the recursion has a depth bound, and theorems hold for every bound above some number.  That the Move compiler gives the modules of a package in the order of their dependencies is assumed (`Sound`) |
| C112 | `Verif/Rt/AbiFiles.lean`: `package_module_data`, the loop of `generate_abi`, `ExportAbi::execute`.  An ABI is the pair of modules whose functions and whose events it has; whether it is empty is a parameter; failures inside the generator are not modelled |
| C113 | `Verif/Rt/Attributes.lean`: `parse_struct_modifier`, `parse_modifiers` and the loops over attributes in `process_special_attributes`, on attribute trees as the Move parser gives them (without locations).  That the Move compiler itself warns of or refuses some attributes is not used |
| C114, C115 | `Verif/Rt/Process.lean`: `process_special_attributes` over all structs and functions of a file with its error flag, the checks of external calls, of errors and of the names of objects, and `compute_arguments_object_kind`.  `validate_struct`, `validate_function` and the checks of constants and imports are parameters (C103-C105, C110); hash maps are lists |
| C116, C117 | `Verif/Rt/Cli.lean`: the commands `new`, `deploy` and `activate`, and the files `translate_package_cli` writes.  Texts are lists of characters, paths lists of components; file operations succeed; what cargo-stylus, wasm-opt and wasmprinter do and `Identifier::is_valid` are parameters |
| C118 | `Verif/Rt/WasmIface.lean`: the exports and imports of a module, `new_module_with_host`, `get_or_insert_import`, the export of the router and `validate_stylus_wasm`.  Functions have a type only (bodies: C94); the translation is any sequence of new functions and host functions |
| C44, C45 | emitted vector helpers | symbolic execution, induction on chains; swap with equal out-of-range indices deviates (witness) |
| C46, C47, C56 | pure model of the compile-time checks (`Verif/Rt/Signature.lean`) | induction over the modifiers / types; C47 **false** (witness) |
