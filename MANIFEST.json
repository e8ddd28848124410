{
 "claims": [
  {
   "property": "C01",
   "status": "proved",
   "theorems": [
    "Props.C01_add_u8_u16",
    "Props.C01_mul_u8_u16"
   ],
   "note": ""
  },
  {
   "property": "C02",
   "status": "proved",
   "theorems": [
    "Props.C02_add_u32_u64"
   ],
   "note": ""
  },
  {
   "property": "C03",
   "status": "proved",
   "theorems": [
    "Props.C03_sub"
   ],
   "note": ""
  },
  {
   "property": "C04",
   "status": "proved",
   "theorems": [
    "Props.C04_mul_u32_u64"
   ],
   "note": ""
  },
  {
   "property": "C05",
   "status": "proved",
   "theorems": [
    "Props.C05_add"
   ],
   "note": "u128 and u256; assumes room for the result block."
  },
  {
   "property": "C06",
   "status": "proved",
   "theorems": [
    "Props.C06_sub"
   ],
   "note": "u128 and u256."
  },
  {
   "property": "C07",
   "status": "partial",
   "theorems": [
    "Props.C07_mul_partial",
    "Props.C07_false"
   ],
   "note": "False of the code: overflow is missed when high digits of both operands multiply out of range (2^64*2^64 on u128 gives 0). Proved: exact product when it fits, otherwise either the abort or the truncated product."
  },
  {
   "property": "C08",
   "status": "proved",
   "theorems": [
    "Props.C08_div",
    "Props.C08_rem",
    "Props.C08_zero"
   ],
   "note": "Zero divisor stops with a WebAssembly trap, not with an abort message."
  },
  {
   "property": "C09",
   "status": "proved",
   "theorems": [
    "Props.C09_shl",
    "Props.C09_shr"
   ],
   "note": ""
  },
  {
   "property": "C10",
   "status": "proved",
   "theorems": [
    "Props.C10_shl",
    "Props.C10_shr"
   ],
   "note": ""
  },
  {
   "property": "C100",
   "status": "partial",
   "theorems": [
    "Props.C100_partial",
    "Props.C100_plain",
    "Props.C100_absent",
    "Props.C100_false"
   ],
   "note": "True of the first delegated call with an object. False of the second one: the object keeps the values of the first one, because the object read by the first call is refreshed instead. New and frozen objects always fail. Proved for calls with one object."
  },
  {
   "property": "C101",
   "status": "partial",
   "theorems": [
    "Props.C101_partial",
    "Props.C101_names",
    "Props.C101_false"
   ],
   "note": "The id is the hash of the name of the struct. False of two structs of the same name in different modules, which have the same id; nothing rejects this, or the use of one name for two object types, although object.move says so."
  },
  {
   "property": "C102",
   "status": "partial",
   "theorems": [
    "Props.C102_partial",
    "Props.C102_twice",
    "Props.C102_false"
   ],
   "note": "True if the ids in the calldata are different. False otherwise: an id given twice is loaded twice, and both copies can be transferred, so that the object is duplicated."
  },
  {
   "property": "C103",
   "status": "partial",
   "theorems": [
    "Props.C103_partial",
    "Props.C103_exact",
    "Props.C103_false"
   ],
   "note": "True of fields that are ids themselves and of parameters that are ids or vectors and tuples of them, if UID and NamedId are not imported under other names; the check of structs is exact then. False of ids in vectors and type arguments in fields, of references to ids as parameters, and of renamed imports."
  },
  {
   "property": "C104",
   "status": "partial",
   "theorems": [
    "Props.C104_partial",
    "Props.C104_false"
   ],
   "note": "True if the type is named by an imported member and only one import has this name. False of types written with the name of their module, of type arguments and references; and the result can depend on the order of a hash map. Whether the Move compiler accepts the module is not modelled."
  },
  {
   "property": "C105",
   "status": "partial",
   "theorems": [
    "Props.C105_partial",
    "Props.C105_false"
   ],
   "note": "True of events and errors of the module itself, as fields also in vectors. False of parameters that are vectors of events or references, of type arguments, and of events of other modules, which are not looked at. The checks of calls in function bodies are C110."
  },
  {
   "property": "C106",
   "status": "partial",
   "theorems": [
    "Props.C106_partial",
    "Props.C106_gone",
    "Props.C106_transfer",
    "Props.C106_share",
    "Props.C106_changes",
    "Props.C106_freeze",
    "Props.C106_deleted"
   ],
   "note": "For transfers, sharing, freezing, deletion and committed changes, with the next transaction an arbitrary one that finds the object's slots as they were left. Missing: objects with dynamic fields, and what happens in between (that other transactions leave the slots alone is a hypothesis, see C59 for saving)."
  },
  {
   "property": "C107",
   "status": "partial",
   "theorems": [
    "Props.C107_partial",
    "Props.C107_selector_partial",
    "Props.C107_false_enum",
    "Props.C107_false_public",
    "Props.C107_false_location",
    "Props.C107_false_object",
    "Props.C107_false_keyword",
    "Props.C107_false_generic"
   ],
   "note": "The text of human_readable.rs is modelled character by character and read by a lexer, a parser and the rules of Solidity for interfaces. Proved for contracts without enums whose entry functions are not public and take and return values of fixed size; events, errors and structs may have any declared type. False in general, with witnesses: enums (trailing comma), public entry functions (public external), parameters that need a data location, objects as parameters (the struct is not declared), names that are keywords of Solidity, generic structs with a vector as argument. Missing: receive and fallback, tuples inside the selector statement, structs and arrays in the selector statement (C80 has those for the JSON file)."
  },
  {
   "property": "C108",
   "status": "partial",
   "theorems": [
    "Props.C108_error",
    "Props.C108_event_partial",
    "Props.C108_args_partial",
    "Props.C108_ends",
    "Props.C108_false_module",
    "Props.C108_false_generic"
   ],
   "note": "Errors: proved. Events: the struct is always listed; with its type arguments if generic events are emitted only in the module that declares them and not with parameters of a generic function. False otherwise, with witnesses: the arguments of a generic event of another module are looked up among the handles of the wrong module, and a generic event emitted by a generic function is listed with the parameter. Missing: the bodies of functions are reduced to their calls; errors the runtime itself raises are not in the model."
  },
  {
   "property": "C109",
   "status": "partial",
   "theorems": [
    "Props.C109_verdict_partial",
    "Props.C109_partial",
    "Props.C109_false_div",
    "Props.C109_false_code",
    "Props.C109_false_order",
    "Props.C109_false_args",
    "Props.C109_false_rest",
    "Props.C109_false_file"
   ],
   "note": "Proved for packages with one module per file, tests marked #[test] or #[test, expected_failure] in this order and without arguments, that end without a division by zero: exit code and every line of the report are right. False otherwise, with witnesses: a division by zero (a trap) makes the runner panic, also where a failure is expected; the abort code of expected_failure is ignored; expected_failure before test is refused; tests with arguments are not run; after a module with a failure other modules are not run; with two modules in a file the runner panics. Missing: tests that never end, instructions outside the compiler model (as for C66), host functions of the sandbox."
  },
  {
   "property": "C11",
   "status": "proved",
   "theorems": [
    "Props.C11_cmp"
   ],
   "note": "All four comparison operators."
  },
  {
   "property": "C110",
   "status": "partial",
   "theorems": [
    "Props.C110_partial",
    "Props.C110_false_result",
    "Props.C110_false_deref",
    "Props.C110_false_rebound",
    "Props.C110_false_path",
    "Props.C110_false_method",
    "Props.C110_false_file",
    "Props.C110_false_qualified",
    "Props.C110_false_hidden"
   ],
   "note": "Proved: for functions that call emit and revert by their imported names, at places the source check looks at, with a new struct or a variable that stands for one struct throughout the function, the check accepts exactly the functions all of whose calls have events (errors). False otherwise, with witnesses: an event returned by a function, dereferenced, or in a variable that is bound again later is refused, as are other functions and methods named emit and functions in a file whose other module imports emit; qualified calls and calls inside return are not checked (only the code generator refuses them). Missing: the code generator's own check, use declarations inside functions."
  },
  {
   "property": "C111",
   "status": "partial",
   "theorems": [
    "Props.C111_partial",
    "Props.C111_false_ice",
    "Props.C111_false_names",
    "Props.C111_false_twice",
    "Props.C111_false_single"
   ],
   "note": "Proved for every package as the Move compiler gives it (no cycles, dependencies first), with modules of different names and no module using an erroneous module of the same package: without errors, one file per module, made with the data of everything it needs; with errors, a non-empty list of errors of needed modules, with all errors of modules whose own dependencies are clean; never an internal error. False otherwise, with witnesses: a module that uses an erroneous module of the package turns the report into an internal error; two modules of one name at different addresses give one file; errors of shared dependencies are repeated; translating a single module that uses another module of the package fails. Missing: building module data and translating functions are taken to succeed."
  },
  {
   "property": "C112",
   "status": "partial",
   "theorems": [
    "Props.C112_partial",
    "Props.C112_false_file",
    "Props.C112_false_mixed",
    "Props.C112_false_folder",
    "Props.C112_false_name",
    "Props.C112_false_ice"
   ],
   "note": "Proved for every package as the Move compiler gives it, with source files of different names and no module using an erroneous module of the same package: the files written are exactly one per module with a non-empty ABI and requested format, named after the source file, with the functions of that module and the events and errors of that module; with errors in sources, those errors are reported. False otherwise, with witnesses: two modules in one source file (the first gets no ABI, and what is made for it mixes both), source files of one name in different folders, ABI files are named after the source while contracts are named after the module, and internal errors as in C111. Missing: failures inside the generator; the contents of the files (C80-C84, C107, C108)."
  },
  {
   "property": "C113",
   "status": "partial",
   "theorems": [
    "Props.C113_partial",
    "Props.C113_false_first",
    "Props.C113_false_typo",
    "Props.C113_false_bare",
    "Props.C113_false_default",
    "Props.C113_false_other",
    "Props.C113_false_literal",
    "Props.Proc.C113_false_error",
    "Props.Proc.C113_effects",
    "Props.Proc.C113_errors"
   ],
   "note": "Proved: any lists of attributes that write modifiers in the documented form (on structs `a` or `ext(a)`, on functions `a` or `ext(a, b, ..)`) give exactly those modifiers in order and no errors; for all attribute trees no modifier is read that is not written; lists of wrong form under a known name are errors. In an accepted file the tables of events, errors and external structs hold exactly the structs so marked, with their arguments (C113_effects, C113_errors). False otherwise, with witnesses: on structs only the first argument of ext counts, unknown or misspelt modifiers and known ones without their arguments are dropped silently, external_struct without address or module is accepted, modifiers inside any other attribute count, hexadecimal and typed numbers are refused. `#[abi_error]` without ext is read and then ignored. Missing: a second `indexes` in an event (the last counts); what the modifiers do (C56, C103-C105, C109, C110, C114, C115)."
  },
  {
   "property": "C114",
   "status": "partial",
   "theorems": [
    "Props.Proc.C114_partial",
    "Props.Proc.C114_false_path",
    "Props.Proc.C114_false_alias",
    "Props.Proc.C114_false_modules"
   ],
   "note": "Proved for all files whose functions have different names: a file is accepted if and only if every struct marked external_call has drop and one positional field CrossContractCall, every marked function is native, returns ContractCallResult or ContractCallEmptyResult and takes a marked struct first, and the other checks find nothing; the functions called externally are those marked; a refused file has at least one error. False otherwise, with witnesses: types are compared by name (an import under that name is accepted), a type written with its module is refused, and all modules of one file are taken together. Missing: which combinations of view, pure, payable make sense (not checked by the code). What the calls do is C71."
  },
  {
   "property": "C115",
   "status": "partial",
   "theorems": [
    "Props.Proc.C115_partial",
    "Props.Proc.C115_accepts",
    "Props.Proc.C115_false_modules",
    "Props.Proc.C115_false_struct",
    "Props.Proc.C115_false_path",
    "Props.Proc.C115_false_import"
   ],
   "note": "Proved for all files whose functions have different names: in an accepted file argument i is looked up as owned, shared or frozen if and only if the attributes of its function list the parameter's name so; names listed are parameters whose type is a struct with key of the file or a reference to one (immutable for frozen), and none is listed twice; for files as the Move compiler accepts them this is also enough to be accepted. False otherwise, with witnesses: a function of the same name in another module of the file decides (the first one wins), a struct of the same name in another module counts, types behind a path are told by their last name, objects of imported types cannot be declared."
  },
  {
   "property": "C116",
   "status": "partial",
   "theorems": [
    "Props.CliCmd.C116_partial",
    "Props.CliCmd.C116_false_manifest",
    "Props.CliCmd.C116_false_module",
    "Props.CliCmd.C116_false_gitignore"
   ],
   "note": "Proved for all names, directories and disks: exactly the names that are not valid are refused, and then nothing is written; otherwise only Move.toml, sources/<name>.move and .gitignore change, the manifest names the package and its address, the module has that name at that address, .gitignore keeps what it held and, if its last line was ended, its lines are those before and build/*. False otherwise, with witnesses: an existing manifest or module is overwritten, and build/* is glued to a last line that is not ended. Missing: what the Move compiler says of the package (a keyword is a valid name here); Identifier::is_valid is a parameter (letters, digits and underscores)."
  },
  {
   "property": "C117",
   "status": "partial",
   "theorems": [
    "Props.CliCmd.C117_partial",
    "Props.CliCmd.C117_history",
    "Props.CliCmd.C117_file",
    "Props.CliCmd.C117_activate",
    "Props.CliCmd.C117_exit",
    "Props.CliCmd.C117_false_exit",
    "Props.CliCmd.C117_false_stale",
    "Props.CliCmd.C117_false_install",
    "Props.CliCmd.C117_false_test"
   ],
   "note": "Proved for all disks, packages, modules and options: after a build that made module n (without --install-dir), deploy with the name n or n.move runs cargo-stylus with the file that holds what the build made of n and with exactly the options given; after any sequence of build, test and disassemble that file holds what the last of them that made n in the package's directory made of it; activate runs cargo-stylus with exactly the options given; both say that they succeeded if and only if cargo-stylus did, and exit with 0 if and only if it ran. False otherwise, with witnesses: the exit code is 0 when cargo-stylus fails; after a build that failed or no longer has the module, or that wrote to --install-dir, the result of an earlier build is deployed; after move-stylus test the modules compiled for tests are deployed. Missing: what cargo-stylus itself does (a parameter)."
  },
  {
   "property": "C118",
   "status": "partial",
   "theorems": [
    "Props.Iface.C118_partial",
    "Props.Iface.C118_check",
    "Props.Iface.C118_host",
    "Props.Iface.C118_false_imports"
   ],
   "note": "Proved for all modules: the check before a module is written accepts exactly the valid modules that export user_entrypoint (i32 -> i32) and one memory of one page and import pay_for_memory_grow from vm_hooks. Proved for all sequences of functions and host functions the translation adds: the module has that interface, so that it is refused only if it is not valid WebAssembly (C94); it exports memory, pfmg and user_entrypoint; each import is a function of the host with its type, imported once, and asking for a host function gives that function; all imports are from vm_hooks unless functions of test_scenario are called. False, with a witness: the check does not refuse imports from vm_test_hooks, which the chain does not have. Missing: what wasm-opt does with the module after the check; wasmparser is a parameter."
  },
  {
   "property": "C12",
   "status": "proved",
   "theorems": [
    "Props.C12_bitwise"
   ],
   "note": ""
  },
  {
   "property": "C13",
   "status": "partial",
   "theorems": [
    "Props.C13_cast_reg_partial",
    "Props.C13_cast_heap",
    "Props.C13_false_u64",
    "Props.C13_cast_u256_u128_partial",
    "Props.C13_false_u256"
   ],
   "note": "False of the code for u64->u8, u64->u16 and u256->u128 (silent truncation); proved for the rest."
  },
  {
   "property": "C14",
   "status": "proved",
   "theorems": [
    "Props.C14_widen_reg",
    "Props.C14_widen_heap",
    "Props.C14_widen_u128"
   ],
   "note": ""
  },
  {
   "property": "C15",
   "status": "proved",
   "theorems": [
    "Props.C15_swap_u32",
    "Props.C15_swap_u64",
    "Props.C15_swap_heap",
    "Props.C15_swap_twice"
   ],
   "note": ""
  },
  {
   "property": "C16",
   "status": "proved",
   "theorems": [
    "Props.C16_eq"
   ],
   "note": ""
  },
  {
   "property": "C17",
   "status": "partial",
   "theorems": [
    "Props.C17_partial",
    "Props.C17_false"
   ],
   "note": "Proved of all element types and nestings except two empty vectors of elements kept in memory, for which C17_false shows the claim false: the code compares their stale first slots."
  },
  {
   "property": "C18",
   "status": "proved",
   "theorems": [
    "Props.C18_copy"
   ],
   "note": ""
  },
  {
   "property": "C19",
   "status": "partial",
   "theorems": [
    "Props.C19_alloc_partial",
    "Props.C19_step",
    "Props.C19_false"
   ],
   "note": "Proved for requests below 2 GiB over arbitrary histories of allocations and memory writes; false beyond (signed size check), proved as C19_false."
  },
  {
   "property": "C20",
   "status": "proved",
   "theorems": [
    "Props.C20_decimal"
   ],
   "note": "The text equals toString n for every u64."
  },
  {
   "property": "C21",
   "status": "proved",
   "theorems": [
    "Props.C21_u32",
    "Props.C21_u64",
    "Props.C21_u128",
    "Props.C21_u256",
    "Props.C21_word_value"
   ],
   "note": "Emitted pack functions; the destination is zero beforehand."
  },
  {
   "property": "C22",
   "status": "proved",
   "theorems": [
    "Props.C22_u32",
    "Props.C22_u64",
    "Props.C22_u128",
    "Props.C22_u256"
   ],
   "note": "encode then decode on the emitted functions, all values and addresses"
  },
  {
   "property": "C23",
   "status": "partial",
   "theorems": [
    "Props.C23_false",
    "Props.C23_unchecked",
    "Props.C23_enum_partial"
   ],
   "note": "False for bool, u8, u16, u32 (witness; every word is accepted, its last four bytes are passed on). Enum variants are checked, on the last four bytes only."
  },
  {
   "property": "C24",
   "status": "proved",
   "theorems": [
    "Props.C24_offset",
    "Props.C24_length",
    "Props.C52_arguments"
   ],
   "note": "offset of any dynamic argument, length of any vector or string; accepted words are used with their value (C52)"
  },
  {
   "property": "C25",
   "status": "proved",
   "theorems": [
    "Props.C25_decode",
    "Props.C25_roundtrip"
   ],
   "note": ""
  },
  {
   "property": "C26",
   "status": "proved",
   "theorems": [
    "Props.C26_string"
   ],
   "note": "Emitted PackString."
  },
  {
   "property": "C27",
   "status": "proved",
   "theorems": [
    "Props.C27_classification",
    "Props.C27_tuple"
   ],
   "note": "Sizes against the ABI specification in Verif/Abi.lean, for all values of all types."
  },
  {
   "property": "C28",
   "status": "proved",
   "theorems": [
    "Props.C28_success",
    "Props.C28_failure",
    "Props.C28_status",
    "Props.C29_dispatch",
    "Props.C29_abort"
   ],
   "note": "Arbitrary functions. A failure while packing a vector result leaves with a nonzero status without return data; functions that commit storage themselves (fresh object ids, external calls) are excluded by the hypothesis NoFlush."
  },
  {
   "property": "C29",
   "status": "proved",
   "theorems": [
    "Props.C29_dispatch",
    "Props.C29_abort",
    "Props.C29_noMatch",
    "Props.C29_fallback",
    "Props.C29_fallback_abort"
   ],
   "note": "Calldata = selector, encoded arguments, arbitrary rest."
  },
  {
   "property": "C30",
   "status": "partial",
   "theorems": [
    "Props.C30_receive",
    "Props.C30_empty_partial",
    "Props.C30_zero_selector",
    "Props.C30_false"
   ],
   "note": "False: without a receive function empty calldata run a function with selector zero (C30_false). Proved: receive runs; without zero selector and fallback the call reverts."
  },
  {
   "property": "C31",
   "status": "proved",
   "theorems": [
    "Props.C31_abort_code",
    "Props.C31_abort_message",
    "Props.C31_runtime_errors",
    "Props.C31_raised"
   ],
   "note": "Abort codes, clever-error messages (the compiler only accepts messages below 128 bytes; proved below 256), and the runtime errors of the data segment."
  },
  {
   "property": "C32",
   "status": "proved",
   "theorems": [
    "Props.C32_error_table"
   ],
   "note": "For every sequence of requests."
  },
  {
   "property": "C33",
   "status": "proved",
   "theorems": [
    "Props.C33_checked_call"
   ],
   "note": "For every function that returns; exact characterisation of what follows."
  },
  {
   "property": "C34",
   "status": "proved",
   "theorems": [
    "Props.C34_slot_bytes",
    "Props.C34_struct",
    "Props.C34_distinct"
   ],
   "note": "Emitted write_object_slot, derive_mapping_slot, locate_struct_slot for an arbitrary hash function; stated on the hashed bytes. C34_distinct: distinct owner/id pairs have distinct slots unless the hash collides on the four inputs involved."
  },
  {
   "property": "C35",
   "status": "partial",
   "theorems": [
    "Props.C35_partial",
    "Props.C35_traps",
    "Props.C35_false"
   ],
   "note": "False of the code: big-endian hash and offset are added as little-endian numbers. C35_false is a witness (trap), C35_traps shows every carry of the last byte traps, C35_partial proves the layout when no byte carries."
  },
  {
   "property": "C36",
   "status": "proved",
   "theorems": [
    "Props.C36_next",
    "Props.C36_last"
   ],
   "note": "C36_last describes the one slot that has no successor: wraps to zero and records an overflow."
  },
  {
   "property": "C37",
   "status": "proved",
   "theorems": [
    "Props.C37_layout"
   ],
   "note": "All field sizes up to 32 bytes, all start offsets; the functions used to save, to read and to delete find the same places."
  },
  {
   "property": "C38",
   "status": "partial",
   "theorems": [
    "Props.C38_partial",
    "Props.C38_false"
   ],
   "note": "False: an ID in a field is truncated to 20 bytes (witness). Proved: round trip through storage for all types without enums, addresses of 20 bytes, no shrinking stored vectors."
  },
  {
   "property": "C39",
   "status": "partial",
   "theorems": [
    "Props.C39_partial",
    "Props.C39_false"
   ],
   "note": "False: a field behind an enum can be read from the wrong slot (witness). Proved: round trip for all storable types and values for which the slot at hand is the right one (Layout.freshFs), addresses of 20 bytes, no shrinking stored vectors."
  },
  {
   "property": "C40",
   "status": "partial",
   "theorems": [
    "Props.C40_partial",
    "Props.C40_noVec_partial",
    "Props.C40_false"
   ],
   "note": "Proved for all types without vectors, and for objects with vectors when the slots of the vector lengths were empty. C40_false: bytes of a number survive when the variant of an enum changes to one with a vector in the same place."
  },
  {
   "property": "C41",
   "status": "proved",
   "theorems": [
    "Props.C41_table"
   ],
   "note": "The table entry is the largest distance, over the variants, between the start of the enum and the end of the fields in the layout that C59 shows the encoder to write."
  },
  {
   "property": "C42",
   "status": "proved",
   "theorems": [
    "Props.C42_search",
    "Props.C42_owned",
    "Props.C42_shared",
    "Props.C42_frozen",
    "Props.C42_found",
    "Props.C42_notFound"
   ],
   "note": "Emitted lookups over arbitrary storage and hash function. An object exists when its first slot is not zero."
  },
  {
   "property": "C43",
   "status": "partial",
   "theorems": [
    "Props.C43_partial",
    "Props.C43_frozen",
    "Props.C43_false_enum",
    "Props.C43_false_edge"
   ],
   "note": "Proved: frozen objects are not deleted (all types); other objects: all slots cleared and no others touched, for types whose enums contain no vectors and whose inline structs do not end with an enum. C43_false_enum, C43_false_edge: elements of vectors in or behind enums survive the deletion."
  },
  {
   "property": "C44",
   "status": "partial",
   "theorems": [
    "Props.C44_len",
    "Props.C44_push",
    "Props.C44_push_full_partial",
    "Props.C44_pop",
    "Props.C44_pop_empty",
    "Props.C44_borrow",
    "Props.C44_borrow_bad",
    "Props.C44_borrow_write",
    "Props.C44_swap",
    "Props.C44_swap_bad_partial",
    "Props.C44_false"
   ],
   "note": "C44_false: swapping an out-of-range index with itself succeeds instead of aborting. Missing otherwise: growth of vectors of one- or two-byte elements at the very end of memory (C57_false)."
  },
  {
   "property": "C45",
   "status": "proved",
   "theorems": [
    "Props.C45_chain",
    "Props.C45_push",
    "Props.C45_pop",
    "Props.C45_swap",
    "Props.C45_refresh"
   ],
   "note": "The length 0xDEADBEEF is excluded: it is the mark of a moved vector (it needs more than 3.7 GB)."
  },
  {
   "property": "C46",
   "status": "proved",
   "theorems": [
    "Props.C46_kind",
    "Props.C46_unambiguous",
    "Props.C46_priority",
    "Props.C46_authority"
   ],
   "note": "Pure model of the modifier checks and the argument kinds, composed with the emitted lookups (C46_authority)."
  },
  {
   "property": "C47",
   "status": "partial",
   "theorems": [
    "Props.C47_partial",
    "Props.C47_accepted",
    "Props.C47_false"
   ],
   "note": "False of the code: references to signers are accepted at every position, although no value is pushed for them. Partial theorem for signatures without such references; C47_accepted characterises acceptance exactly."
  },
  {
   "property": "C48",
   "status": "partial",
   "theorems": [
    "Props.C48_start",
    "Props.C48_no_overlap_partial",
    "Props.C48_false"
   ],
   "note": "Initial state proved in full; the consequence for later allocations holds for requests below 2 GiB and is false beyond (C48_false)."
  },
  {
   "property": "C49",
   "status": "proved",
   "theorems": [
    "Props.C49_div",
    "Props.C49_rem"
   ],
   "note": "Zero divisor is a WebAssembly trap."
  },
  {
   "property": "C50",
   "status": "proved",
   "theorems": [
    "Props.C50_cmp",
    "Props.C50_bitwise"
   ],
   "note": ""
  },
  {
   "property": "C51",
   "status": "proved",
   "theorems": [
    "Props.C51_results"
   ],
   "note": "build_pack_instructions with all runtime packing functions, by induction on types; results of all packable types, nested to any depth, and references to them."
  },
  {
   "property": "C52",
   "status": "proved",
   "theorems": [
    "Props.C52_arguments"
   ],
   "note": "all parameter types except TxContext, signer and key structs; needs memory, and strings not ending at the end of memory (C55)"
  },
  {
   "property": "C53",
   "status": "proved",
   "theorems": [
    "Props.C53_roundtrip"
   ],
   "note": ""
  },
  {
   "property": "C54",
   "status": "partial",
   "theorems": [
    "Props.C54_false"
   ],
   "note": "False: a Bytes32 result is encoded as struct with a bool field."
  },
  {
   "property": "C55",
   "status": "partial",
   "theorems": [
    "Props.C55_false",
    "Props.C52_arguments"
   ],
   "note": "False: witness; C52 holds when the strings do not end within four bytes of the end of memory."
  },
  {
   "property": "C56",
   "status": "proved",
   "theorems": [
    "Props.C56_frozen_ref"
   ],
   "note": "For accepted functions with distinct parameter names and a sender other than address 2 (the key of frozen objects)."
  },
  {
   "property": "C57",
   "status": "partial",
   "theorems": [
    "Props.C57_partial",
    "Props.C57_false"
   ],
   "note": "Proved of all types and values with room for the copy, except when the copy of a vector of one- or two-byte elements ends less than three bytes before the end of memory: C57_false shows that it may then trap."
  },
  {
   "property": "C58",
   "status": "proved",
   "theorems": [
    "Props.C58_write",
    "Props.C58_read_after_write"
   ],
   "note": "All types. The value written does not overlap the place written to (Move's ownership); reading allocates its copy, so room for it is assumed."
  },
  {
   "property": "C59",
   "status": "partial",
   "theorems": [
    "Props.C59_partial",
    "Props.C59_false"
   ],
   "note": "Proved for all storable types and values, as long as no stored vector gets shorter. C59_false: emptying a stored vector of structs traps."
  },
  {
   "property": "C60",
   "status": "proved",
   "theorems": [
    "Props.C60_absent",
    "Props.C60_type",
    "Props.C60_deleted_partial"
   ],
   "note": "Empty slots and slots of objects of another type, all types. C60_deleted_partial composes with C43_partial and has its restrictions. That different types have different hashes is C87."
  },
  {
   "property": "C61",
   "status": "partial",
   "theorems": [
    "Props.C61_partial",
    "Props.C61_shared",
    "Props.C61_false"
   ],
   "note": "C61_false: transferring a frozen object sets the error of deletion and writes the object to the recipient's storage. Missing: types with vectors in enums or structs that end with an enum, frozen objects and objects in structs with another owner among the fields, vectors shorter than those stored at the destination before."
  },
  {
   "property": "C62",
   "status": "partial",
   "theorems": [
    "Props.C62_partial",
    "Props.C62_again",
    "Props.C62_frozen"
   ],
   "note": "Missing: types with vectors in enums or structs that end with an enum, frozen objects and objects in structs with another owner among the fields, vectors shorter than those stored at the destination before."
  },
  {
   "property": "C63",
   "status": "partial",
   "theorems": [
    "Props.C63_partial",
    "Props.C63_again",
    "Props.C63_shared"
   ],
   "note": "Missing: types with vectors in enums or structs that end with an enum, frozen objects and objects in structs with another owner among the fields, vectors shorter than those stored at the destination before."
  },
  {
   "property": "C64",
   "status": "partial",
   "theorems": [
    "Props.C64_partial",
    "Props.C64_false_enum",
    "Props.C64_false_nested",
    "Props.C64_false_struct"
   ],
   "note": "Proved of objects in fields and in vectors in fields. False of objects in enums and in vectors of vectors (they stay in the storage of their owner as well), and saving an object in a struct can trap. Missing: types with vectors in enums or structs that end with an enum, frozen objects and objects in structs with another owner among the fields, vectors shorter than those stored at the destination before."
  },
  {
   "property": "C65",
   "status": "partial",
   "theorems": [
    "Props.C65_partial",
    "Props.C65_deleted"
   ],
   "note": "Missing: types with vectors in enums or structs that end with an enum, frozen objects and objects in structs with another owner among the fields, vectors shorter than those stored at the destination before."
  },
  {
   "property": "C66",
   "status": "partial",
   "theorems": [
    "Props.C66_partial",
    "Props.C66_recursion_partial",
    "Props.C66_false_cast",
    "Props.C66_false_mul",
    "Props.C66_arms"
   ],
   "note": "Proved of all programs on booleans, integers, addresses, structs and references, and of all terminating executions without the operations of C07_false, C13_false and C86_false (with them it is false). Recursion: proved of executions of any length, with the calls unrolled as deep as the execution needs (C66_recursion_partial). Native functions about the sender, the block, the chain and accounts are included (the value sent, the base fee and the gas price only where reversing the bytes makes no difference, see C70). Missing: vectors, enums, signers, generic functions; that the control-flow trees computed by the external relooper fit the code (a checkable hypothesis; C66_arms shows it is needed)."
  },
  {
   "property": "C67",
   "status": "partial",
   "theorems": [
    "Props.C67_partial",
    "Props.C67_recursion_partial",
    "Props.abortText_plain"
   ],
   "note": "Proved with the restrictions of C66. Division by zero traps. Recursion: proved of executions of any length, with the calls unrolled as deep as the execution needs (C67_recursion_partial). Native functions about the sender, the block, the chain and accounts are included (the value sent, the base fee and the gas price only where reversing the bytes makes no difference, see C70). Missing: vectors, enums, signers, generic functions; that the control-flow trees computed by the external relooper fit the code (a checkable hypothesis; C66_arms shows it is needed)."
  },
  {
   "property": "C68",
   "status": "proved",
   "theorems": [
    "Props.C68_skip",
    "Props.C68_first",
    "Props.C68_once"
   ],
   "note": "For every initialisation function that leaves the 64 bytes allocated before it alone."
  },
  {
   "property": "C69",
   "status": "proved",
   "theorems": [
    "Props.C69_fresh",
    "Props.C69_unique"
   ],
   "note": "Uniqueness under the hypothesis that the hash function does not collide on 20-byte inputs and no other code writes the slot of the counter."
  },
  {
   "property": "C70",
   "status": "partial",
   "theorems": [
    "Props.C70_sender_partial",
    "Props.C70_data_partial",
    "Props.C70_enter",
    "Props.C70_balance_partial",
    "Props.C70_codeSize_partial",
    "Props.C70_value_partial",
    "Props.C70_reversed",
    "Props.C70_false"
   ],
   "note": "False of the value sent, the base fee and the gas price (C70_false): the bytes of the number are reversed. The natives that only pass on a number of the host (time, block number, chain id, gas limit) have no code of their own."
  },
  {
   "property": "C71",
   "status": "partial",
   "theorems": [
    "Props.C71_call_partial",
    "Props.C71_result_partial",
    "Props.C71_false_value",
    "Props.C71_false_reference"
   ],
   "note": "All argument and result types but references to integers (false, C71_false_reference). The value of the object is reversed by a payable call, so the next one sends another amount (C71_false_value). Reading storage objects again after a delegated call is C100."
  },
  {
   "property": "C72",
   "status": "partial",
   "theorems": [
    "Props.C72_partial",
    "Props.C72_false_empty",
    "Props.C72_false_string",
    "Props.C72_false_nested",
    "Props.C72_false_trap"
   ],
   "note": "Proved for all events whose indexed fields have no empty vectors or strings and no structs inside structs, when memory does not end just after the bytes used (needed only for dynamic data and indexed strings of one or two bytes). Each condition is necessary (C72_false_*). The hash of the signature is a parameter; BytesN fields are not modelled."
  },
  {
   "property": "C73",
   "status": "partial",
   "theorems": [
    "Props.C73_partial",
    "Props.C73_false_empty",
    "Props.C73_false_string",
    "Props.C73_false_collision",
    "Props.C73_false_types"
   ],
   "note": "Proved for non-empty keys of one type with at most one vector, at the end. Empty vectors and strings trap (C73_false_empty, C73_false_string); a struct of two vectors and keys of different types collide for every hash function (C73_false_collision, C73_false_types)."
  },
  {
   "property": "C74",
   "status": "partial",
   "theorems": [
    "Props.C74_partial",
    "Props.C74_add_partial",
    "Props.C74_exists",
    "Props.C74_not_exists",
    "Props.C74_exists_type",
    "Props.C74_borrow_partial",
    "Props.C74_remove_partial",
    "Props.C74_borrow_absent",
    "Props.C74_borrow_type",
    "Props.C74_false"
   ],
   "note": "All storable types, within the limits of C39 and C59. An object that becomes the value of a field stays in the storage of its owner as well (C74_false). The natives are modelled; the Move code of the framework around them is not executed."
  },
  {
   "property": "C75",
   "status": "partial",
   "theorems": [
    "Props.C75_partial",
    "Props.C75_none",
    "Props.C75_deleted",
    "Props.C75_false"
   ],
   "note": "One call of borrow_mut saves the field it returned last. A call that is executed twice loses the changes of the first field (C75_false)."
  },
  {
   "property": "C76",
   "status": "partial",
   "theorems": [
    "Props.C76_partial",
    "Props.C76_false_overlong",
    "Props.C76_false_truncated",
    "Props.C76_false_trap"
   ],
   "note": "Every valid string is accepted; every other one is rejected provided it does not contain 0xC0 0x80 and the byte that follows the vector in memory is not a continuation byte; the vector must not end in the last three bytes of memory. Each condition is necessary (C76_false_*). Validity is Lean's ByteArray.IsValidUTF8."
  },
  {
   "property": "C77",
   "status": "proved",
   "theorems": [
    "Props.C77"
   ],
   "note": "For positions up to the length, the only ones std::string asks about; the native itself looks at the low 32 bits of the position."
  },
  {
   "property": "C78",
   "status": "proved",
   "theorems": [
    "Props.C78"
   ],
   "note": ""
  },
  {
   "property": "C79",
   "status": "proved",
   "theorems": [
    "Props.C79",
    "Props.C79_outside"
   ],
   "note": "For positions below 2^32; std::string::substring checks that they are at most the length before calling the native."
  },
  {
   "property": "C80",
   "status": "partial",
   "theorems": [
    "Props.C80_partial",
    "Props.C80_complete",
    "Props.C80_false_name",
    "Props.C80_false_enum",
    "Props.C80_false_empty",
    "Props.C80_false_names",
    "Props.C80_false_instance",
    "Props.C80_false_named"
   ],
   "note": "For functions whose name does not end with an underscore and whose visible parameter types contain no instance of a generic enum, no NamedId, no struct without fields, when no two structs of the interface have the same name in the ABI. Each condition is necessary (C80_false_*). C80_complete: only functions with a bare type parameter are left out of the file."
  },
  {
   "property": "C81",
   "status": "partial",
   "theorems": [
    "Props.C81_partial",
    "Props.C81_false"
   ],
   "note": "For events with the types of C80 of which no struct contains another struct (C81_false)."
  },
  {
   "property": "C82",
   "status": "partial",
   "theorems": [
    "Props.C82_partial",
    "Props.C82_false"
   ],
   "note": "For errors with the types of C80 whose names start with a capital letter and contain no underscore (C82_false)."
  },
  {
   "property": "C83",
   "status": "proved",
   "theorems": [
    "Props.C83_revert"
   ],
   "note": "Selector given as its four bytes; C82 relates its signature to the ABI. The error is represented in memory as Move values are; there is room for the message."
  },
  {
   "property": "C84",
   "status": "partial",
   "theorems": [
    "Props.C84_partial",
    "Props.C84_false"
   ],
   "note": "For results whose types could be those of parameters and contain no objects, fixed bytes, generic enums, structs without fields, when no two structs of the interface have the same name in the ABI. False for references to objects (C84_false)."
  },
  {
   "property": "C85",
   "status": "partial",
   "theorems": [
    "Props.C85_partial",
    "Props.C85_false"
   ],
   "note": "Objects, fixed bytes and the transaction context may be parameters but not parts of other parameters; identifiers have the fields declared in the framework. False for instances of generic enums (C85_false)."
  },
  {
   "property": "C86",
   "status": "partial",
   "theorems": [
    "Props.C86_partial",
    "Props.C86_recursion_partial",
    "Props.C86_false"
   ],
   "note": "Proved with the restrictions of C66: for all assignments to numbers through references to locals, structs and their fields, however nested. Recursion: proved of executions of any length, with the calls unrolled as deep as the execution needs (C86_recursion_partial). False for the assignment of a whole struct (C86_false)."
  },
  {
   "property": "C87",
   "status": "partial",
   "theorems": [
    "Props.C87_partial",
    "Props.C87_false",
    "Props.C87_false_bound"
   ],
   "note": "What is hashed determines the type; the rest is up to collisions of the 64-bit hash. Such collisions exist between structs with ordinary names (C87_false); structs of two modules bound to the same foreign struct are hashed alike (C87_false_bound)."
  },
  {
   "property": "C88",
   "status": "partial",
   "theorems": [
    "Props.C88_partial",
    "Props.C88_false"
   ],
   "note": "Structs and instances of generic structs, nested arbitrarily. False for vectors of structs as type arguments (C88_false)."
  },
  {
   "property": "C89",
   "status": "partial",
   "theorems": [
    "Props.C89_partial",
    "Props.C89_false"
   ],
   "note": "Names always differ; the function that returns the name is found by the hash of the type, hence the hypotheses on external_struct and collisions. False when two modules bind the same foreign struct (C89_false)."
  },
  {
   "property": "C90",
   "status": "proved",
   "theorems": [
    "Props.C90"
   ],
   "note": "For every program whose calls carry as many type arguments as Move's verifier requires. Of function bodies only the calls are modelled."
  },
  {
   "property": "C91",
   "status": "partial",
   "theorems": [
    "Props.C91_partial",
    "Props.C91_false"
   ],
   "note": "Proved for programs in which every function with type parameters has one in its signature. False otherwise: a function with a type parameter used only in its body cannot be called (C91_false)."
  },
  {
   "property": "C92",
   "status": "proved",
   "theorems": [
    "Props.C92"
   ],
   "note": "For all constants Move has, of addresses those below 2^160 (larger ones are rejected at compile time), given enough memory."
  },
  {
   "property": "C93",
   "status": "proved",
   "theorems": [
    "Props.C93",
    "Props.C93_destroy"
   ],
   "note": "The instructions as functions of their own; destroy_empty in a function without results."
  },
  {
   "property": "C94",
   "status": "partial",
   "theorems": [
    "Props.C94_partial",
    "Props.C94_recursion_partial",
    "Props.C94_contract_partial",
    "Props.C94_entry_partial",
    "Props.C94_storage_partial",
    "Props.C94_load_partial",
    "Props.C94_dynamic_partial",
    "Props.C94_vector_partial",
    "Props.C94_native_partial",
    "Props.C94_enum_partial",
    "Props.C94_const_partial",
    "Props.C94_error_partial",
    "Props.C94_event_partial",
    "Props.C94_external_partial",
    "Props.C94_entry_sound",
    "Props.C94_sound",
    "Props.C94_false_signer",
    "Props.C94_false_external"
   ],
   "note": "False of contracts with an entry function that takes a signer (inject_signer is declared without results but leaves one) and of calls to other contracts with a parameter of type &u64 (an i32 is packed as an i64). Proved for all programs of the modelled instructions that Move's verifier accepts, also recursive ones: the compiled functions, the exported entry point with decoding and encoding, and everything they call pass validation. Proved of the code behind storage, loading of objects, dynamic fields, vectors, references, strings, ids, enums, constants, aborts, custom errors, events and calls to other contracts, for all types. Missing: vector, enum and storage instructions within compiled programs (the functions they call are covered)."
  },
  {
   "property": "C95",
   "status": "partial",
   "theorems": [
    "Props.C95_return_partial",
    "Props.C95_abort_partial",
    "Props.C95_fault_partial",
    "Props.C95_divZero_partial"
   ],
   "note": "Proved for programs of the modelled instructions (also recursive ones) whose public functions take and return booleans, integers, addresses, structs of these, references to them, and the TxContext, with native functions about the sender, the block, the chain and accounts. Missing: vectors, strings, enums, signers and stored objects in signatures; the operations excluded in C66 (for which it is false); dynamic fields to save."
  },
  {
   "property": "C96",
   "status": "proved",
   "theorems": [
    "Props.C96",
    "Props.C96_switch",
    "Props.C96_unpack",
    "Props.C96_refs",
    "Props.C96_match",
    "Props.C96_match_many",
    "Props.C96_accepted"
   ],
   "note": "The code of each instruction is modelled as a function of its own; arms of a match are calls of arbitrary functions, after which execution goes on behind the match. That the arms come out of the control flow analysis in the order of their offsets (two arms) is taken from the code's own assumption."
  },
  {
   "property": "C97",
   "status": "partial",
   "theorems": [
    "Props.C97_partial",
    "Props.C97_pack_iff",
    "Props.C97_unpack_iff",
    "Props.C97_borrow_iff",
    "Props.C97_false_order",
    "Props.C97_false_panic",
    "Props.C97_false_unpack",
    "Props.C97_false_borrow"
   ],
   "note": "True of type arguments without type parameters and of the function's own type parameters in their order. False otherwise: the type arguments are put in twice, the second time with the wrong list (a compile error or panic in most cases; reading a field of W<u8, T> silently reads one byte). The iff theorems say exactly when the types are right."
  },
  {
   "property": "C98",
   "status": "partial",
   "theorems": [
    "Props.C98_partial",
    "Props.C98_absent",
    "Props.C98_type"
   ],
   "note": "All objects, all modifiers, mutable and immutable parameters; a missing object and one of another type fail. Missing: the layouts for which C39 fails, and objects whose slots wrap around the end of storage."
  },
  {
   "property": "C99",
   "status": "partial",
   "theorems": [
    "Props.C99_partial",
    "Props.C99_absent"
   ],
   "note": "Missing: the layouts for which C39 fails, and objects whose slots wrap around. peep reads storage: changes to objects that are in memory and not yet committed are not seen."
  }
 ]
}