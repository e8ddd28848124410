{"id": "C01", "title": "Checked addition and multiplication of u8 and u16", "statement": "In a compiled contract, a + b and a * b on u8 (u16) operands leave exactly the mathematical result when it is at most 255 (65535), and otherwise raise the arithmetic-overflow abort; no other outcome is possible.", "quantifier": "all u8 pairs / all u16 pairs and every initial machine state", "why_tests_cant": "the operand space is 2^16..2^32 pairs and the compiled code branches on carries/overflows; a unit test samples a handful of pairs", "anchors": ["crates/move-bytecode-to-wasm/src/translation/intermediate_types/simple_integers.rs: IU8::add, IU8::mul, IU16::add, IU16::mul", "crates/move-bytecode-to-wasm/src/runtime/integers.rs: check_overflow_u8_u16"]}
{"id": "C02", "title": "Checked addition of u32 and u64", "statement": "a + b on u32 (u64) operands yields the exact sum when it fits in the type, otherwise the overflow abort.", "quantifier": "all operand pairs and every initial machine state", "why_tests_cant": "the operand space is 2^64..2^128 pairs and the compiled code branches on carries/overflows; a unit test samples a handful of pairs", "anchors": ["crates/move-bytecode-to-wasm/src/runtime/integers/add.rs: add_u32, add_u64", "crates/move-bytecode-to-wasm/src/translation/intermediate_types/simple_integers.rs: IU32::add, IU64::add"]}
{"id": "C03", "title": "Checked subtraction of u8..u64", "statement": "a - b on u8/u16/u32 (u64) operands yields the exact difference when b <= a, otherwise the overflow abort.", "quantifier": "all operand pairs and every initial machine state", "why_tests_cant": "the operand space is 2^128 pairs and the compiled code branches on carries/overflows; a unit test samples a handful of pairs", "anchors": ["crates/move-bytecode-to-wasm/src/runtime/integers/sub.rs: sub_u32, sub_u64"]}
{"id": "C04", "title": "Checked multiplication of u32 and u64", "statement": "a * b on u32 (u64) operands yields the exact product when it fits in the type, otherwise the overflow abort.", "quantifier": "all operand pairs and every initial machine state", "why_tests_cant": "the operand space is 2^128 pairs and the compiled code branches on carries/overflows; a unit test samples a handful of pairs", "anchors": ["crates/move-bytecode-to-wasm/src/runtime/integers/mul.rs: mul_u32, mul_u64"]}
{"id": "C05", "title": "Checked addition of u128 and u256", "statement": "Adding two u128 (u256) heap integers writes exactly their sum to the result and leaves both operands and all other memory unchanged when the sum fits; otherwise it raises the overflow abort.", "quantifier": "all operand values, all pointers to valid operand/result areas, every memory", "why_tests_cant": "the operand space is 2^512 pairs and the compiled code branches on carries/overflows; a unit test samples a handful of pairs", "anchors": ["crates/move-bytecode-to-wasm/src/runtime/integers/add.rs: heap_integers_add"]}
{"id": "C06", "title": "Checked subtraction of u128 and u256", "statement": "Subtracting two u128 (u256) heap integers writes exactly their difference when it is non-negative; otherwise it raises the overflow abort.", "quantifier": "all operand values, all pointers to valid operand/result areas, every memory", "why_tests_cant": "the operand space is 2^512 pairs and the compiled code branches on carries/overflows; a unit test samples a handful of pairs", "anchors": ["crates/move-bytecode-to-wasm/src/runtime/integers/sub.rs: sub (heap_int_sub)"]}
{"id": "C07", "title": "Checked multiplication of u128 and u256", "statement": "Multiplying two u128 (u256) heap integers yields exactly the product when it fits in the type, otherwise the overflow abort.", "quantifier": "all operand values and every memory", "why_tests_cant": "the operand space is 2^512 pairs and the compiled code branches on carries/overflows; a unit test samples a handful of pairs", "anchors": ["crates/move-bytecode-to-wasm/src/runtime/integers/mul.rs: heap_integers_mul"]}
{"id": "C08", "title": "Division and remainder of u128 and u256", "statement": "For a non-zero divisor the quotient q and remainder r satisfy a = q*b + r with r < b; for a zero divisor the operation aborts.", "quantifier": "all operand values and every memory", "why_tests_cant": "the operand space is 2^512 pairs and the compiled code branches on carries/overflows; a unit test samples a handful of pairs", "anchors": ["crates/move-bytecode-to-wasm/src/runtime/integers/div.rs: heap_integers_div_mod"]}
{"id": "C09", "title": "Shifts of u128 and u256", "statement": "x << n and x >> n on u128 (u256) are floor(x*2^n) mod 2^w and floor(x/2^n) for every n < w, and abort for n >= w.", "quantifier": "all operand values and all shift amounts", "why_tests_cant": "the operand space is 2^264 pairs and the compiled code branches on carries/overflows; a unit test samples a handful of pairs", "anchors": ["crates/move-bytecode-to-wasm/src/runtime/integers/bitwise.rs: heap_int_shift_left, heap_int_shift_right"]}
{"id": "C10", "title": "Shifts of u8..u64", "statement": "x << n and x >> n on u8/u16/u32/u64 are x*2^n mod 2^w and floor(x/2^n) for every n < w, and abort for n >= w.", "quantifier": "all operand values and all shift amounts", "why_tests_cant": "the operand space is 2^72 pairs and the compiled code branches on carries/overflows; a unit test samples a handful of pairs", "anchors": ["crates/move-bytecode-to-wasm/src/translation/intermediate_types/simple_integers.rs: bit_shift_left, bit_shift_right"]}
{"id": "C11", "title": "Ordering of u128 and u256", "statement": "The comparisons <, <=, >, >= on u128 (u256) heap integers answer true exactly when the represented numbers are ordered so, and change no memory.", "quantifier": "all operand values, all pointers, every memory", "why_tests_cant": "the operand space is 2^512 pairs and the compiled code branches on carries/overflows; a unit test samples a handful of pairs", "anchors": ["crates/move-bytecode-to-wasm/src/runtime/integers.rs: check_if_a_less_than_b"]}
{"id": "C12", "title": "Bitwise and/or/xor of u128 and u256", "statement": "The bitwise operators on heap integers yield a freshly allocated value equal to the bitwise combination of the operands, which stay unchanged.", "quantifier": "all operand values and every memory", "why_tests_cant": "the operand space is 2^512 pairs and the compiled code branches on carries/overflows; a unit test samples a handful of pairs", "anchors": ["crates/move-bytecode-to-wasm/src/translation/intermediate_types/heap_integers.rs: compare_heap_integers_bitwise"]}
{"id": "C13", "title": "Narrowing integer casts", "statement": "A cast x as T from a wider unsigned type leaves the same number when it fits in T and aborts otherwise; it never silently truncates.", "quantifier": "all source values of every wider source type for every target type", "why_tests_cant": "a cast has up to 2^256 inputs and the loss only shows for values whose discarded part is non-zero in specific positions", "anchors": ["crates/move-bytecode-to-wasm/src/translation/intermediate_types/simple_integers.rs: IU8::cast_from, IU16::cast_from, IU32::cast_from, IU64::cast_from", "crates/move-bytecode-to-wasm/src/translation/intermediate_types/heap_integers.rs: IU128::cast_from", "crates/move-bytecode-to-wasm/src/runtime/integers.rs: downcast_u64_to_u32, downcast_u128_u256_to_u32, downcast_u128_u256_to_u64"]}
{"id": "C14", "title": "Widening integer casts", "statement": "A cast to a wider unsigned type (u64, u128, u256) yields the same number.", "quantifier": "all source values and every memory whose unallocated part is zero", "why_tests_cant": "correctness depends on what is already in the freshly allocated memory, not only on the value", "anchors": ["crates/move-bytecode-to-wasm/src/translation/intermediate_types/simple_integers.rs: IU64::cast_from", "crates/move-bytecode-to-wasm/src/translation/intermediate_types/heap_integers.rs: IU128::cast_from, IU256::cast_from"]}
{"id": "C15", "title": "Endianness conversion", "statement": "Byte-swapping a u32/u64/u128/u256 reverses its bytes; applying it twice gives the original value; for heap values the rest of memory is unchanged.", "quantifier": "all values and every memory", "why_tests_cant": "2^256 values; a wrong mask or shift in one lane is invisible for most inputs", "anchors": ["crates/move-bytecode-to-wasm/src/runtime/swap.rs: swap_i32_bytes_function, swap_i64_bytes_function, swap_bytes_function"]}
{"id": "C16", "title": "Equality of heap values", "statement": "Comparing two heap values of n bytes answers true exactly when all n bytes agree, and changes no memory.", "quantifier": "all lengths n, all pointers, every memory", "why_tests_cant": "length is unbounded and the result depends on every byte", "anchors": ["crates/move-bytecode-to-wasm/src/runtime/equality.rs: a_equals_b"]}
{"id": "C17", "title": "Vector equality", "statement": "Two vectors of the same element type compare equal exactly when they have the same length and pairwise equal elements, whatever surrounds them in memory.", "quantifier": "all vectors (including empty) and every memory", "why_tests_cant": "depends on unbounded lengths and on unrelated neighbouring memory", "anchors": ["crates/move-bytecode-to-wasm/src/runtime/vector.rs: equality_function"]}
{"id": "C18", "title": "Copies are faithful and independent", "statement": "Copying a u128/u256 returns a pointer to fresh memory holding the same bytes and leaves the original unchanged, so later writes through one do not affect the other.", "quantifier": "all values and every memory", "why_tests_cant": "aliasing must be excluded for every heap layout", "anchors": ["crates/move-bytecode-to-wasm/src/runtime/copy.rs: copy_heap_int_function"]}
{"id": "C19", "title": "Memory allocation never aliases", "statement": "Every allocation returns a block inside linear memory that overlaps no earlier block and no reserved data, for any sequence of allocation sizes, growing memory when necessary.", "quantifier": "all sequences of allocation requests", "why_tests_cant": "histories of allocation are unbounded", "anchors": ["crates/move-bytecode-to-wasm/src/memory.rs: setup_module_memory"]}
{"id": "C20", "title": "Decimal rendering of abort codes", "statement": "The conversion of a u64 to text yields its decimal representation: ASCII digits only, no leading zeros (except \"0\"), and reading the digits back gives the number.", "quantifier": "all 2^64 numbers", "why_tests_cant": "2^64 inputs", "anchors": ["crates/move-bytecode-to-wasm/src/runtime/integers/ascii.rs: u64_to_ascii_base_10"]}
{"id": "C21", "title": "ABI encoding of unsigned integers", "statement": "Encoding a u8..u256 writes the 32-byte big-endian word of the value at the destination (given the destination is zero beforehand) and nothing else.", "quantifier": "all values and destinations", "why_tests_cant": "2^256 values and arbitrary destination memory", "anchors": ["crates/move-bytecode-to-wasm/src/runtime/packing/uint.rs", "crates/move-bytecode-to-wasm/src/runtime/packing/heap_uint.rs"]}
{"id": "C22", "title": "ABI decoding inverts ABI encoding for integers", "statement": "Decoding the word produced by encoding an unsigned integer of the same type returns the same integer and advances the reader by 32 bytes.", "quantifier": "all values", "why_tests_cant": "2^256 values", "anchors": ["crates/move-bytecode-to-wasm/src/runtime/unpacking/uint.rs", "crates/move-bytecode-to-wasm/src/runtime/unpacking/heap_uint.rs"]}
{"id": "C23", "title": "ABI decoding rejects out-of-range integers", "statement": "A calldata word that is not a valid value of the declared small integer type (e.g. 256 for u8, 2 for bool) makes the call revert, so the Move function never observes an out-of-range value.", "quantifier": "all 2^256 calldata words for each small type", "why_tests_cant": "the offending words are a negligible part of the input space and no happy-path test contains them", "anchors": ["crates/move-bytecode-to-wasm/src/abi_types/unpacking.rs: IBool/IU8/IU16/IU32 dispatch", "crates/move-bytecode-to-wasm/src/runtime/unpacking/uint.rs: unpack_u32_function"]}
{"id": "C24", "title": "Oversized ABI offsets and lengths are rejected", "statement": "Every 32-byte offset/length word used as a pointer must be < 2^32; otherwise decoding aborts; when accepted its value is the big-endian number of the word.", "quantifier": "all 2^256 words", "why_tests_cant": "adversarial calldata", "anchors": ["crates/move-bytecode-to-wasm/src/runtime/abi.rs: validate_pointer_32_bit"]}
{"id": "C25", "title": "Address round trip", "statement": "Encoding then decoding an address gives the same 32-byte value; decoding copies the calldata word unchanged into fresh memory.", "quantifier": "all words", "why_tests_cant": "2^160 addresses", "anchors": ["crates/move-bytecode-to-wasm/src/runtime/packing/heap_uint.rs: pack_address_function", "crates/move-bytecode-to-wasm/src/runtime/unpacking/heap_uint.rs: unpack_address_function"]}
{"id": "C26", "title": "ABI encoding of byte strings", "statement": "Encoding a string writes, at the tail, the length word followed by the content and a relative offset at the head, as the Solidity ABI prescribes; the padding is zero.", "quantifier": "all contents and lengths", "why_tests_cant": "unbounded length", "anchors": ["crates/move-bytecode-to-wasm/src/runtime/packing/string.rs"]}
{"id": "C27", "title": "Static/dynamic classification and head sizes follow the Solidity ABI", "statement": "For every ABI type the compiler's is-dynamic test and encoded head size agree with the ABI specification, and a tuple is dynamic iff a component is.", "quantifier": "all (nested) types", "why_tests_cant": "types nest arbitrarily", "anchors": ["crates/move-bytecode-to-wasm/src/abi_types/packing.rs: Packable::is_dynamic, encoded_size"]}
{"id": "C28", "title": "A failed call never reports success and never commits", "statement": "If the entry point returns status 0, no abort was pending when the result was written, and storage is flushed as the last action; with any other status storage is not flushed by the entry point. An abort raised by the called function gives status 1 with the abort message as return data; a function that succeeds gives status 0 and its encoded results.", "quantifier": "all calldata, all contracts (any finite list of public functions with arbitrary behaviour), all storage states", "why_tests_cant": "quantifies over every user function and calldata", "anchors": ["crates/move-bytecode-to-wasm/src/hostio/entrypoint_router.rs: build_entrypoint_router", "crates/move-bytecode-to-wasm/src/wasm_builder_extensions.rs: call_runtime_function"]}
{"id": "C29", "title": "Dispatch by selector", "statement": "Calldata with at least four bytes runs the first public function whose selector equals the first four bytes, with the argument reader positioned at byte 4; when no selector matches the fallback (if any) runs with the whole calldata; otherwise the call reverts.", "quantifier": "all calldata and all lists of public functions", "why_tests_cant": "all selectors/calldata", "anchors": ["crates/move-bytecode-to-wasm/src/hostio/entrypoint_router.rs: build_entrypoint_router", "crates/move-bytecode-to-wasm/src/abi_types/public_function.rs: build_router_block"]}
{"id": "C30", "title": "Empty calldata goes to receive", "statement": "Empty calldata runs the receive function when there is one; a contract without receive function must not run any ordinary public function on empty calldata.", "quantifier": "all contracts", "why_tests_cant": "a contract would need a function with an unlucky selector", "anchors": ["crates/move-bytecode-to-wasm/src/hostio/entrypoint_router.rs: load_function_selector"]}
{"id": "C31", "title": "Revert data is a valid Error(string)", "statement": "For every message the abort blob is [length][0x08c379a0][0x20][message length][message zero padded to 32], with the length prefix equal to the number of following bytes, so any Solidity decoder recovers exactly the message.", "quantifier": "all messages (bytes and lengths)", "why_tests_cant": "unbounded messages", "anchors": ["crates/move-bytecode-to-wasm/src/abi_types/error_encoding.rs: build_abi_error_structure", "crates/move-bytecode-to-wasm/src/data.rs: abi_encode_error_message"]}
{"id": "C32", "title": "Runtime error messages do not overlap", "statement": "In the static data segment each distinct runtime error gets its own region, the regions are pairwise disjoint, start after the reserved area, and asking for the same error again returns the same address.", "quantifier": "all sequences of error requests", "why_tests_cant": "histories of requests", "anchors": ["crates/move-bytecode-to-wasm/src/data.rs: RuntimeErrorData::get"]}
{"id": "C33", "title": "Fallible runtime helpers stop the caller", "statement": "After a helper that may fail is invoked through the checked call path, the caller continues only if no abort is pending; otherwise it returns immediately, leaving the abort pending.", "quantifier": "all helper behaviours and states", "why_tests_cant": "quantifies over every helper outcome", "anchors": ["crates/move-bytecode-to-wasm/src/wasm_builder_extensions.rs: add_propagate_error_instructions, call_runtime_function", "crates/move-bytecode-to-wasm/src/runtime.rs: RuntimeFunction::is_fallible"]}
{"id": "C34", "title": "Storage slot of an object", "statement": "The slot of an object is keccak256(id \u2016 keccak256(owner \u2016 objects-slot)), i.e. the Solidity nested mapping slot mapping(address => mapping(id => ...)).", "quantifier": "all owners, ids", "why_tests_cant": "hash inputs are arbitrary", "anchors": ["crates/move-bytecode-to-wasm/src/runtime/storage.rs: write_object_slot, derive_mapping_slot"]}
{"id": "C35", "title": "Storage slot of a vector element", "statement": "The slot of element i of a stored vector whose header is at slot p is keccak256(p) plus the slot offset of the element (Solidity dynamic array layout).", "quantifier": "all header slots, indices and element sizes", "why_tests_cant": "the base is a hash, so carries cannot be steered by a test", "anchors": ["crates/move-bytecode-to-wasm/src/runtime/storage.rs: derive_dyn_array_slot"]}
{"id": "C36", "title": "Next storage slot", "statement": "Advancing to the next storage slot adds one to the 256-bit big-endian slot number.", "quantifier": "all slots", "why_tests_cant": "2^256 slots; carries through all bytes", "anchors": ["crates/move-bytecode-to-wasm/src/runtime/storage.rs: storage_next_slot"]}
{"id": "C37", "title": "Stored fields never overlap", "statement": "The storage layout places consecutive fields at strictly increasing positions, never lets a field straddle a 32-byte slot, and never lets two fields overlap, for any sequence of field sizes.", "quantifier": "all sequences of field sizes and start offsets", "why_tests_cant": "all struct definitions", "anchors": ["crates/move-bytecode-to-wasm/src/storage/storage_layout.rs: compute_fields_storage_size", "crates/move-bytecode-to-wasm/src/runtime/storage.rs: accumulate_or_advance_slot_*"]}
{"id": "C38", "title": "Stored objects read back unchanged", "statement": "Saving an object in storage and reading it back gives the same value, for every type without enums and every value.", "quantifier": "all types, all values, all previous storage contents", "why_tests_cant": "types and values are unbounded", "anchors": ["crates/move-bytecode-to-wasm/src/storage/encoding.rs", "crates/move-bytecode-to-wasm/src/storage/decoding.rs"]}
{"id": "C39", "title": "Objects containing enums read back unchanged", "statement": "Saving an object whose fields include enums and reading it back gives the same value.", "quantifier": "all types, values and previous storage contents", "why_tests_cant": "depends on the layout interplay of enum sizes and offsets", "anchors": ["crates/move-bytecode-to-wasm/src/storage/encoding.rs: add_encode_and_save_into_storage_enum_instructions", "crates/move-bytecode-to-wasm/src/storage/decoding.rs: add_read_and_decode_storage_enum_instructions", "crates/move-bytecode-to-wasm/src/runtime/enums.rs: compute_enum_storage_tail_position"]}
{"id": "C40", "title": "Saving does not depend on previous storage contents", "statement": "The slots written by saving an object hold exactly the new encoding: no bytes of earlier contents survive inside them.", "quantifier": "all previous storage contents", "why_tests_cant": "history dependent", "anchors": ["crates/move-bytecode-to-wasm/src/storage/encoding.rs", "crates/move-bytecode-to-wasm/src/runtime/storage.rs: accumulate_or_advance_slot_write"]}
{"id": "C41", "title": "Compile-time storage size equals run-time usage", "statement": "The enum size table computed at compile time for each starting offset equals the number of bytes the run-time encoder consumes for the largest variant starting at that offset.", "quantifier": "all enums and offsets", "why_tests_cant": "all type definitions", "anchors": ["crates/move-bytecode-to-wasm/src/storage/storage_layout.rs: compute_enum_storage_size", "crates/move-bytecode-to-wasm/src/runtime/enums.rs"]}
{"id": "C42", "title": "Object lookup order and authority", "statement": "Looking up an object by id finds it under the transaction sender, else among shared objects, else (only for immutable access) among frozen objects; the recorded owner is that under which it was found; if it exists nowhere the call aborts.", "quantifier": "all storages and ids", "why_tests_cant": "all storage states", "anchors": ["crates/move-bytecode-to-wasm/src/runtime/storage.rs: locate_storage_data, locate_storage_owned_data, locate_storage_shared_data, locate_storage_frozen_data"]}
{"id": "C43", "title": "Deleting an object clears its slots and never deletes frozen objects", "statement": "Deleting an object zeroes every slot its fields occupy and leaves other slots alone; deleting a frozen object aborts.", "quantifier": "all types, storages", "why_tests_cant": "all storage states and types", "anchors": ["crates/move-bytecode-to-wasm/src/storage/common.rs", "crates/move-bytecode-to-wasm/src/runtime/storage.rs: add_delete_object_fn"]}
{"id": "C44", "title": "Vector push/pop/borrow/swap implement list operations", "statement": "push appends, pop returns and removes the last element, borrow(i) designates element i, swap(i,j) exchanges elements; out-of-range accesses abort; other elements are unaffected.", "quantifier": "all vectors, indices, memories", "why_tests_cant": "unbounded vectors and memories", "anchors": ["crates/move-bytecode-to-wasm/src/runtime/vector.rs"]}
{"id": "C45", "title": "References survive vector growth", "statement": "After a vector is relocated any number of times, refreshing a stale reference makes it designate the current vector.", "quantifier": "all relocation chains", "why_tests_cant": "unbounded chains", "anchors": ["crates/move-bytecode-to-wasm/src/runtime/vector.rs: vec_update_mut_ref_function, vec_push_back_function"]}
{"id": "C46", "title": "Object kind inference", "statement": "A transferred/shared/frozen struct argument is looked up under the most restrictive category observed: owned wins over shared, shared over frozen.", "quantifier": "all modifier lists", "why_tests_cant": "all combinations of attribute lists", "anchors": ["crates/move-bytecode-to-wasm/src/lib.rs: compute_arguments_object_kind"]}
{"id": "C47", "title": "Entry-point signatures cannot be fed a signer", "statement": "A public entry function may take a signer only as its first argument and never inside a vector; every other position is rejected at compile time.", "quantifier": "all signatures", "why_tests_cant": "all signatures", "anchors": ["crates/move-bytecode-to-wasm/src/abi_types/public_function.rs: check_signature_arguments"]}
{"id": "C48", "title": "Allocator starts after the static data", "statement": "When a contract starts, the allocator's first free byte lies after the reserved area and after every error message placed in the data segment, and next-free plus available equals the initial size of linear memory; hence no allocation can overwrite static data.", "quantifier": "all sets of registered error messages, all initial memory sizes", "why_tests_cant": "the set of messages depends on the program; the claim is about every program", "anchors": ["crates/move-bytecode-to-wasm/src/hostio/entrypoint_router.rs: build_entrypoint_router"]}
{"id": "C49", "title": "Division and remainder of u8..u64", "statement": "a / b and a % b on u8..u64 operands yield the exact quotient and remainder for b != 0 and stop the contract for b = 0.", "quantifier": "all operand pairs of each type, all memory states", "why_tests_cant": "2^128 operand pairs for u64", "anchors": ["crates/move-bytecode-to-wasm/src/translation/intermediate_types/simple_integers.rs"]}
{"id": "C50", "title": "Comparison and bitwise operators of u8..u64", "statement": "<, <=, >, >= on u8..u64 compare the unsigned numbers; &, |, ^ combine them bit by bit and stay within the type.", "quantifier": "all operand pairs of each type, all memory states", "why_tests_cant": "2^128 operand pairs for u64", "anchors": ["crates/move-bytecode-to-wasm/src/translation/intermediate_types/simple_integers.rs", "crates/move-bytecode-to-wasm/src/translation/bytecodes.rs"]}
{"id": "C51", "title": "Return data is the standard ABI encoding of the results", "statement": "The return data of a successful call is byte for byte the Solidity ABI encoding of the tuple of results of the Move function, for any number of results of any packable types (integers, booleans, addresses, enums without fields, strings, vectors, structs, nested arbitrarily, and references to them); encoding leaves all existing data unchanged.", "quantifier": "all result types, all values of these types, all machine states with enough memory", "why_tests_cant": "types nest without bound and the offsets of dynamic components depend on all lengths; tests sample a few shapes", "anchors": ["crates/move-bytecode-to-wasm/src/abi_types/packing.rs: build_pack_instructions, Packable for IntermediateType", "crates/move-bytecode-to-wasm/src/runtime/packing/vector.rs: pack_vector_function", "crates/move-bytecode-to-wasm/src/runtime/packing/structs.rs: pack_struct_function", "crates/move-bytecode-to-wasm/src/runtime/packing/string.rs: pack_string_function", "crates/move-bytecode-to-wasm/src/runtime/packing/reference.rs: pack_reference_function"]}
{"id": "C52", "title": "Functions receive the arguments the caller encoded", "statement": "If the calldata after the selector is the Solidity ABI encoding of values of the parameter types, the values passed to the public function represent exactly these values, in memory of their own, and nothing else changes.", "quantifier": "all parameter type lists, all argument values, all memory states with room", "why_tests_cant": "unboundedly many types and values, nested dynamic types, layout-dependent pointer arithmetic", "anchors": ["crates/move-bytecode-to-wasm/src/abi_types/unpacking.rs: build_unpack_instructions, add_unpack_instructions", "crates/move-bytecode-to-wasm/src/runtime/unpacking/"]}
{"id": "C53", "title": "ABI decoding inverts ABI encoding for all types", "statement": "Decoding, as arguments, the encoding produced for results of the same types yields the same values.", "quantifier": "all type lists and values", "why_tests_cant": "unbounded types and values", "anchors": ["crates/move-bytecode-to-wasm/src/abi_types/packing.rs", "crates/move-bytecode-to-wasm/src/abi_types/unpacking.rs"]}
{"id": "C54", "title": "Fixed bytes round trip", "statement": "A public function returning its BytesN argument returns the word it was called with.", "quantifier": "all words", "why_tests_cant": "tests only use BytesN as arguments", "anchors": ["crates/move-bytecode-to-wasm/src/abi_types/unpacking.rs: Bytes case", "crates/move-bytecode-to-wasm/src/abi_types/packing.rs", "crates/move-bytecode-to-wasm/src/runtime/packing/structs.rs"]}
{"id": "C55", "title": "Decoding valid arguments never traps while memory is available", "statement": "Decoding the ABI encoding of values of the parameter types succeeds whenever memory for the values can be allocated.", "quantifier": "all types, values and allocator states", "why_tests_cant": "depends on the exact fill level of memory", "anchors": ["crates/move-bytecode-to-wasm/src/runtime/unpacking/string.rs: unpack_string_function"]}
{"id": "C56", "title": "Frozen objects are read-only", "statement": "An object argument of a public function can be resolved to a frozen object only if the parameter is an immutable reference.", "quantifier": "all accepted public functions, all parameter and modifier lists", "why_tests_cant": "Ranges over all combinations of parameter types and modifiers; a single accepted combination that hands a mutable frozen object to user code breaks immutability.", "anchors": ["crates/move-parse-special-attributes/src/function_validation.rs: check_storage_object_param", "crates/move-bytecode-to-wasm/src/lib.rs: compute_arguments_object_kind", "crates/move-bytecode-to-wasm/src/abi_types/unpacking.rs: add_unpack_instructions"]}
{"id": "C57", "title": "Copies are independent", "statement": "Copying a local variable or reading through a reference yields an equal value in new memory: whatever is later written to the original does not change the copy, and whatever is later written to the copy does not change the original.", "quantifier": "all types (vectors, structs, enums nested without bound), values and memories with room for the copy", "why_tests_cant": "unbounded nesting and lengths, all later writes", "anchors": ["crates/move-bytecode-to-wasm/src/translation/intermediate_types.rs: copy_local_instructions, add_read_ref_instructions", "crates/move-bytecode-to-wasm/src/runtime/vector.rs: copy_local_function", "crates/move-bytecode-to-wasm/src/translation/intermediate_types/user_type_fields.rs: copy_fields"]}
{"id": "C58", "title": "Writing through a reference", "statement": "After `*r = v` the reference r designates v, reading through r yields v, and no memory but the place r designates has changed.", "quantifier": "all types, values, references and memories", "why_tests_cant": "ranges over all memories and aliasing situations", "anchors": ["crates/move-bytecode-to-wasm/src/translation/intermediate_types.rs: add_write_ref_instructions"]}
{"id": "C59", "title": "Saving an object writes its layout and nothing else", "statement": "Saving an object succeeds; afterwards storage holds, at the documented positions (fields packed from the low-order end, vectors behind the hash of their slot, child objects under the id of their parent), exactly the object, and no other slot has changed.", "quantifier": "all object types, values, previous storage contents, hash functions", "why_tests_cant": "types, values and storage contents are unbounded; a stray write shows only in slots a test does not look at", "anchors": ["crates/move-bytecode-to-wasm/src/storage/encoding.rs", "crates/move-bytecode-to-wasm/src/runtime/storage.rs: add_encode_and_save_into_storage_fn, accumulate_or_advance_slot_write"]}
{"id": "C60", "title": "Objects are read only as what they are", "statement": "Reading an object from a slot that is empty, or that holds an object whose type has a different hash, fails with an error and changes neither storage nor the results of the call; in particular a deleted object cannot be read any more.", "quantifier": "all storages, types, slots and hash functions of types", "why_tests_cant": "all storages and pairs of types; a deletion followed by any later state", "anchors": ["crates/move-bytecode-to-wasm/src/storage/decoding.rs: add_read_and_decode_storage_struct_instructions", "crates/move-bytecode-to-wasm/src/runtime/storage.rs: read_and_decode_from_storage"]}
{"id": "C61", "title": "Transfer moves an object", "statement": "Transferring an object that is neither shared nor frozen moves it to the recipient: storage then holds it, with the values it has in memory, under the recipient, the slots it had under the sender are zero, and no other object's slots change. Transferring a shared or frozen object is refused and changes nothing.", "quantifier": "all object types, values, owners, recipients, previous storages, hash functions", "why_tests_cant": "types, values and storages are unbounded; a leftover copy with the sender shows only in slots a test must know to look at", "anchors": ["crates/move-bytecode-to-wasm/src/native_functions/transfer.rs", "crates/move-bytecode-to-wasm/src/runtime/storage.rs"]}
{"id": "C62", "title": "Sharing an object", "statement": "Sharing an object that is not frozen moves it to the shared objects, leaving nothing with its owner; sharing a shared object does nothing; sharing a frozen object is refused and changes nothing.", "quantifier": "all object types, values, owners, previous storages, hash functions", "why_tests_cant": "as for transfer", "anchors": ["crates/move-bytecode-to-wasm/src/native_functions/transfer.rs", "crates/move-bytecode-to-wasm/src/runtime/storage.rs"]}
{"id": "C63", "title": "Freezing an object", "statement": "Freezing an object that is not shared moves it to the frozen objects, leaving nothing with its owner; freezing a frozen object does nothing; freezing a shared object is refused and changes nothing.", "quantifier": "all object types, values, owners, previous storages, hash functions", "why_tests_cant": "as for transfer", "anchors": ["crates/move-bytecode-to-wasm/src/native_functions/transfer.rs", "crates/move-bytecode-to-wasm/src/runtime/storage.rs"]}
{"id": "C64", "title": "A wrapped object has one place", "statement": "When a function that has put an object into (a field of) another object returns, the wrapped object is stored under the outer object and no longer under its previous owner.", "quantifier": "all types and values of the outer and wrapped objects, owners, storages", "why_tests_cant": "all nestings of vectors, structs and enums between the two objects", "anchors": ["crates/move-bytecode-to-wasm/src/runtime/storage.rs: add_check_and_delete_struct_tto_fields_fn, add_delete_tto_object_fn, cache_storage_object_changes"]}
{"id": "C65", "title": "Changes are saved", "statement": "When a function returns, each object passed to it by reference is in storage where its owner has it with the values it has in memory then; an object that has been deleted or wrapped meanwhile is not written; no other slot changes.", "quantifier": "all object types, values, owners, previous storages, hash functions", "why_tests_cant": "types, values and storages are unbounded", "anchors": ["crates/move-bytecode-to-wasm/src/runtime/storage.rs: cache_storage_object_changes"]}
{"id": "C66", "title": "Compiled functions compute what Move says", "statement": "Calling a compiled function returns the values the Move bytecode of the function returns for the same arguments: locals, jumps, loops and calls to other functions behave as in Move, and a call changes no memory the caller uses.", "quantifier": "all programs (constants, functions, instructions), arguments, memory states, terminating executions of any length and call depth", "why_tests_cant": "programs and executions are unbounded; tests run a handful of contracts", "anchors": ["crates/move-bytecode-to-wasm/src/translation.rs", "crates/move-bytecode-to-wasm/src/translation/flow.rs", "crates/move-bytecode-to-wasm/src/translation/functions.rs", "crates/move-bytecode-to-wasm/src/translation/intermediate_types.rs"]}
{"id": "C67", "title": "Aborts and failures stop the program", "statement": "When the Move program aborts, or an arithmetic operation fails, at any depth of calls, the compiled function called from outside ends with the error set to the message of that abort or failure, and nothing after the failing instruction is executed.", "quantifier": "all programs, arguments, memory states, executions of any length and call depth", "why_tests_cant": "a missing error check behind one kind of call shows only if the failure happens exactly there", "anchors": ["crates/move-bytecode-to-wasm/src/translation.rs", "crates/move-bytecode-to-wasm/src/translation/flow.rs", "crates/move-bytecode-to-wasm/src/translation/functions.rs", "crates/move-bytecode-to-wasm/src/translation/intermediate_types.rs"]}
{"id": "C68", "title": "Initialisation runs once", "statement": "The initialisation function of a contract runs when the constructor is called for the first time, and never again: later calls of the constructor change nothing.", "quantifier": "all initialisation functions, memory states, storages, numbers of calls", "why_tests_cant": "a second run shows only in long-lived contracts; what happens in between is arbitrary", "anchors": ["crates/move-bytecode-to-wasm/src/constructor.rs: build_constructor"]}
{"id": "C69", "title": "New identifiers are unique", "statement": "Each new object identifier is the hash of time, block number and a counter kept in storage that changes with every identifier, so no two of less than 2^32 identifiers made by a contract are equal.", "quantifier": "all histories of transactions, times, block numbers", "why_tests_cant": "histories are unbounded; a counter that is not saved, or not hashed, gives different identifiers in most tests", "anchors": ["crates/move-bytecode-to-wasm/src/native_functions/object.rs: add_native_fresh_id_fn"]}
{"id": "C70", "title": "Transaction and account information is right", "statement": "The functions of the framework that read the sender, the call data, the value sent, fees, and balance and code size of accounts return what the host reports.", "quantifier": "all memory states, addresses, numbers, call data", "why_tests_cant": "the tests replace the host by one that writes numbers in another byte order", "anchors": ["crates/move-bytecode-to-wasm/src/native_functions/transaction.rs", "crates/move-bytecode-to-wasm/src/native_functions/account.rs"]}
{"id": "C71", "title": "Calls to other contracts send the right message", "statement": "A call through an interface sends one message to the contract of the object, with the selector and the ABI encoding of the arguments, the gas limit and, if payable, the value of the object, as static, delegated or ordinary call as declared; its result is the status of the message and the value the callee returned. The caller's values are not changed.", "quantifier": "all argument and result types, values, objects, replies of the callee, memory states", "why_tests_cant": "types nest without bound and the callee is arbitrary; a changed value shows only in a later call", "anchors": ["crates/move-bytecode-to-wasm/src/native_functions/contract_calls.rs: add_external_contract_call_fn"]}
{"id": "C73", "title": "Dynamic fields with different parents or keys are different fields", "statement": "Every key of an accepted type has an identifier; two dynamic fields have the same identifier only if they belong to the same object and have keys of the same type and value.", "quantifier": "all key types and values, parents, hash functions without collisions among the strings concerned", "why_tests_cant": "key types nest without bound; a collision overwrites or exposes another field's value and shows only for particular pairs of keys", "anchors": ["crates/move-bytecode-to-wasm/src/native_functions/dynamic_field.rs: add_hash_type_and_key_fn, copy_data_to_memory"]}
{"id": "C74", "title": "A dynamic field can be found, borrowed and removed after it was added", "statement": "After adding a field to an object, it exists, with its type and no other, and borrowing or removing it returns the value that was added, in this or later transactions; a field that was not added does not exist and borrowing it aborts, as does borrowing it with another type. Adding a field changes no other storage, except that objects in the value leave the storage of their owners.", "quantifier": "all value types and values, parents, ids, storage and memory states", "why_tests_cant": "stored layouts depend on nested types; the effect is seen in later transactions", "anchors": ["crates/move-bytecode-to-wasm/src/native_functions/dynamic_field.rs: add_add_child_object_fn, add_borrow_object_fn, add_remove_child_object_fn, add_has_child_object_fn, add_has_child_object_with_ty_fn"]}
{"id": "C75", "title": "Changes to mutably borrowed dynamic fields are saved", "statement": "Every change made to a dynamic field through borrow_mut is in storage when the transaction ends; fields that were not borrowed or have been removed are not written.", "quantifier": "all field types and values, sequences of borrows, storage and memory states", "why_tests_cant": "depends on how often and in which order a call is executed and is seen only in later transactions", "anchors": ["crates/move-bytecode-to-wasm/src/runtime/storage.rs: add_commit_changes_to_storage_fn", "crates/move-bytecode-to-wasm/src/translation/bytecodes/dynamic_fields.rs: add_field_borrow_mut_global_var_instructions"]}
{"id": "C72", "title": "An emitted event is the log the Solidity ABI prescribes", "statement": "Emitting an event adds exactly one log: its topics are the hash of the signature, unless the event is anonymous, and then one topic for each indexed field (the value itself, or the hash of its encoding in place for strings, vectors and structs); its data is the ABI encoding of the other fields. Nothing else changes.", "quantifier": "all event types with at most four indexed fields, values, memory states, hash functions", "why_tests_cant": "indexed types nest without bound; a wrong topic makes the log invisible to whoever filters for it, and nothing fails in the contract", "anchors": ["crates/move-bytecode-to-wasm/src/native_functions/event.rs: add_emit_log_fn, add_encode_indexed_vector_instructions, add_encode_indexed_struct_instructions, add_encode_indexed_string", "crates/move-bytecode-to-wasm/src/runtime/packing/structs.rs: pack_struct_function"]}
{"id": "C76", "title": "A string is valid UTF-8", "statement": "string::utf8 and string::try_utf8 accept a byte vector if, and only if, it is valid UTF-8.", "quantifier": "all byte vectors, wherever they are in memory and whatever follows them", "why_tests_cant": "there are too many byte sequences to try, and what the check does also depends on bytes that are not in the vector", "anchors": ["crates/move-bytecode-to-wasm/src/native_functions/string.rs: add_internal_check_utf8", "move-packages/move-stdlib/sources/string.move: utf8, try_utf8"]}
{"id": "C77", "title": "Character boundaries are recognised", "statement": "A position of a valid string is accepted as a character boundary if, and only if, the bytes before it are a whole number of characters.", "quantifier": "all valid strings, positions up to the length", "why_tests_cant": "all mixtures of characters of one to four bytes", "anchors": ["crates/move-bytecode-to-wasm/src/native_functions/string.rs: add_internal_is_char_boundary", "move-packages/move-stdlib/sources/string.move: substring, insert"]}
{"id": "C78", "title": "index_of finds the first occurrence", "statement": "index_of returns the least position at which the second string occurs in the first, and the length of the first if it does not occur; an empty string occurs at 0.", "quantifier": "all pairs of strings", "why_tests_cant": "searching loops are wrong on rare overlaps of pattern and text", "anchors": ["crates/move-bytecode-to-wasm/src/native_functions/string.rs: add_internal_index_of", "move-packages/move-stdlib/sources/string.move: index_of"]}
{"id": "C79", "title": "substring returns the bytes between two boundaries", "statement": "Cutting a string between two character boundaries yields a new vector with exactly the bytes between them, which are valid UTF-8; the string and the rest of memory do not change.", "quantifier": "all strings, pairs of boundaries, memory states", "why_tests_cant": "the result must be right whatever the memory layout", "anchors": ["crates/move-bytecode-to-wasm/src/native_functions/string.rs: add_internal_sub_string", "move-packages/move-stdlib/sources/string.move: substring"]}
{"id": "C80", "title": "The exported ABI names the functions the contract answers to", "statement": "For every function, the signature a client derives from its entry in the JSON ABI is the signature whose hash the contract compares with the selector of the call.", "quantifier": "all modules: all function names and all parameter types built from integers, vectors, strings, structs, generic structs, objects, enums and references", "why_tests_cant": "the two sides are written twice, in different crates and over an unbounded set of types; tests compare a few files", "anchors": ["crates/move-evm-abi-generator/src/abi.rs", "crates/move-evm-abi-generator/src/types.rs", "crates/move-evm-abi-generator/src/json_format.rs", "crates/move-bytecode-to-wasm/src/abi_types/abi_encoding.rs", "crates/move-bytecode-to-wasm/src/abi_types/sol_name.rs", "crates/move-bytecode-to-wasm/src/utils.rs: snake_to_camel"]}
{"id": "C81", "title": "The exported ABI names the events the contract emits", "statement": "For every event, the signature a client derives from its entry in the JSON ABI is the signature whose hash is the first topic of its logs.", "quantifier": "all modules: all event structs", "why_tests_cant": "as C80", "anchors": ["crates/move-evm-abi-generator/src/abi.rs: process_events", "crates/move-evm-abi-generator/src/json_format.rs", "crates/move-bytecode-to-wasm/src/abi_types/event_encoding.rs"]}
{"id": "C82", "title": "The exported ABI names the errors the contract reverts with", "statement": "For every error, the signature a client derives from its entry in the JSON ABI is the signature whose hash starts the revert data.", "quantifier": "all modules: all error structs", "why_tests_cant": "as C80", "anchors": ["crates/move-evm-abi-generator/src/abi.rs: process_abi_errors", "crates/move-evm-abi-generator/src/json_format.rs", "crates/move-bytecode-to-wasm/src/abi_types/error_encoding.rs: move_signature_to_abi_selector"]}
{"id": "C83", "title": "Reverting with an error struct returns the selector and the fields", "statement": "A call that reverts with an error struct fails; its return data are the four bytes of the selector followed by the ABI encoding of the fields, and it writes no storage.", "quantifier": "all error types, field values, memory states", "why_tests_cant": "the message relies on the packed fields being allocated immediately after the selector; layouts of nested dynamic fields cannot be enumerated", "anchors": ["crates/move-bytecode-to-wasm/src/native_functions/abi_error.rs: add_revert_fn", "crates/move-bytecode-to-wasm/src/abi_types/error_encoding.rs: build_custom_error_message"]}
{"id": "C84", "title": "The exported ABI describes the return data", "statement": "For every function, the output types in the JSON ABI are the types by which its return data are encoded, so that a client decodes what was returned.", "quantifier": "all modules and functions: all result types", "why_tests_cant": "the ABI is written by a different crate than the code that encodes, over an unbounded set of types", "anchors": ["crates/move-evm-abi-generator/src/abi.rs: process_return_type", "crates/move-evm-abi-generator/src/types.rs: from_intermediate_type", "crates/move-evm-abi-generator/src/json_format.rs: process_functions", "crates/move-bytecode-to-wasm/src/abi_types/packing.rs"]}
{"id": "C85", "title": "A selector commits to the layout of the arguments", "statement": "The types named in the signature whose hash selects a function are those by which the function reads its arguments from the call data; parameters that are not named are not read from it.", "quantifier": "all functions: all parameter types", "why_tests_cant": "signature and decoder are two independent recursions over an unbounded set of types", "anchors": ["crates/move-bytecode-to-wasm/src/abi_types/abi_encoding.rs", "crates/move-bytecode-to-wasm/src/abi_types/unpacking.rs"]}
{"id": "C86", "title": "Mutable references reach the caller's value", "statement": "What a function assigns through a mutable reference it was given is what the caller finds at the place the reference refers to, after the function returned; places no reference refers to keep their values.", "quantifier": "all programs, struct types, nestings of references, memory states and terminating executions", "why_tests_cant": "aliasing depends on how references were built along the calls; tests look at the value inside the callee", "anchors": ["crates/move-bytecode-to-wasm/src/translation.rs: box_args", "crates/move-bytecode-to-wasm/src/translation/functions.rs: prepare_function_arguments", "crates/move-bytecode-to-wasm/src/translation/intermediate_types.rs: add_write_ref_instructions", "crates/move-bytecode-to-wasm/src/translation/intermediate_types/structs.rs"]}
{"id": "C87", "title": "Different types are never confused", "statement": "Objects of different types are stored under different tags, and code generated for one type (decoders, encoders, native functions) is never used for another.", "quantifier": "all pairs of types, all programs, all sequences of requests for generated code", "why_tests_cant": "pairs of types are unbounded, and a 64-bit hash collides only on inputs no test contains", "anchors": ["crates/move-bytecode-to-wasm/src/translation/intermediate_types.rs: get_hash, process_hash", "crates/move-bytecode-to-wasm/src/runtime.rs: get_generic_function_name", "crates/move-bytecode-to-wasm/src/native_functions.rs: get_generic_function_name", "crates/move-bytecode-to-wasm/src/compilation_context/module_data.rs: Hash for ModuleId"]}
{"id": "C88", "title": "A type has the same tag in every contract", "statement": "The tag under which objects of a type are stored does not depend on the contract that is compiled, on the order of its declarations, or on whether the type is declared there or bound to a foreign module with external_struct; so contracts that share storage read each other's objects.", "quantifier": "all types and pairs of programs", "why_tests_cant": "relates two compilations of different programs", "anchors": ["crates/move-bytecode-to-wasm/src/translation/intermediate_types.rs: process_hash", "crates/move-bytecode-to-wasm/src/storage/encoding.rs", "crates/move-bytecode-to-wasm/src/storage/decoding.rs"]}
{"id": "C89", "title": "type_name::get names the type", "statement": "std::type_name::get<T>() returns a value holding the fully qualified name of T, and different types have different names.", "quantifier": "all types, all sequences of uses in a program, all memory states", "why_tests_cant": "injectivity of a recursive naming over unboundedly nested types, and reuse of generated functions across a program", "anchors": ["crates/move-bytecode-to-wasm/src/native_functions/type_name.rs: add_type_name_get_fn", "crates/move-bytecode-to-wasm/src/translation/intermediate_types.rs: get_type_name", "crates/move-bytecode-to-wasm/src/native_functions.rs: get_generic_function_name"]}
{"id": "C90", "title": "A call reaches the function it names", "statement": "In a compiled module every call of a Move function executes the code of the function that the source names, instantiated with the types the source names (those of the caller put in for its type parameters); it never traps in the function table; entry functions execute their own code; every function is translated once per list of types.", "quantifier": "all programs (any call graph, recursion, generics), all orders in which sets are listed", "why_tests_cant": "the table is filled by a recursive worklist over an unbounded call graph in an order that depends on hashing", "anchors": ["crates/move-bytecode-to-wasm/src/translation/table.rs: FunctionTable", "crates/move-bytecode-to-wasm/src/translation.rs: translate_and_link_functions, Call, CallGeneric", "crates/move-bytecode-to-wasm/src/generics.rs: replace_type_parameters", "crates/move-bytecode-to-wasm/src/lib.rs: translate_package"]}
{"id": "C91", "title": "Programs whose calls are well-formed link", "statement": "Every program in which all functions called exist and are called with the right types is linked without an internal error.", "quantifier": "all programs with finitely many instances of functions", "why_tests_cant": "termination and completeness of a recursive worklist over arbitrary call graphs", "anchors": ["crates/move-bytecode-to-wasm/src/translation.rs: translate_and_link_functions", "crates/move-bytecode-to-wasm/src/translation/table.rs: ensure_all_functions_added", "crates/move-bytecode-to-wasm/src/translation/functions.rs: MappedFunction::new"]}
{"id": "C92", "title": "Constants have the declared value", "statement": "Code that uses a constant (a number, boolean, address or nested vectors of these) obtains exactly the value declared, in fresh memory, and changes nothing else.", "quantifier": "all constant types and values, all states of memory with room for the value", "why_tests_cant": "values of unbounded length and nesting, decoded at compile time and rebuilt by generated code", "anchors": ["crates/move-bytecode-to-wasm/src/translation/intermediate_types/vector.rs: load_constant_instructions", "crates/move-bytecode-to-wasm/src/utils.rs: decode_uleb128", "crates/move-bytecode-to-wasm/src/translation/intermediate_types/heap_integers.rs: load_constant_instructions", "crates/move-bytecode-to-wasm/src/translation/intermediate_types/address.rs: load_constant_instructions", "crates/move-bytecode-to-wasm/src/translation.rs: LdConst"]}
{"id": "C93", "title": "Vector literals and destroy_empty", "statement": "A vector literal yields a vector with exactly the given elements in the given order and leaves all else in memory alone; destroy_empty leaves everything unchanged for an empty vector and raises VectorNotEmpty for any other.", "quantifier": "all element types, all lists of elements, all states of memory", "why_tests_cant": "unbounded number of elements; the code is generated per literal", "anchors": ["crates/move-bytecode-to-wasm/src/translation/intermediate_types/vector.rs: vec_pack_instructions, vec_unpack_instructions", "crates/move-bytecode-to-wasm/src/translation.rs: VecPack, VecUnpack"]}
{"id": "C94", "title": "Compiled code is valid WebAssembly", "statement": "Every function the compiler emits for a verified Move program passes WebAssembly validation with the parameters and results it is declared with, so that the contract can be activated and a function that returns leaves exactly its declared results.", "quantifier": "all verified Move programs (any functions, types, control flow and calls), all choices of error messages", "why_tests_cant": "the code is generated for every program anew; tests validate the programs they compile", "anchors": ["crates/move-bytecode-to-wasm/src/translation.rs: translate_function, translate_instruction, translate_flow", "crates/move-bytecode-to-wasm/src/translation/flow.rs: Flow", "crates/move-bytecode-to-wasm/src/runtime/unpacking/signer.rs: inject_signer", "crates/move-bytecode-to-wasm/src/abi_types/public_function.rs: build_router_block", "crates/move-bytecode-to-wasm/src/wasm_builder_extensions.rs", "crates/move-bytecode-to-wasm/src/wasm_validation.rs", "crates/move-bytecode-to-wasm/src/native_functions/contract_calls.rs: add_external_contract_call_fn"]}
{"id": "C95", "title": "A transaction does what the Move function does", "statement": "A transaction whose calldata are a public function's selector and the ABI encoding of arguments, sent to a freshly instantiated contract, does what the Move function does with these arguments: if it returns, the transaction succeeds and returns the ABI encoding of its results (references standing for what they refer to at the end); if it aborts, or an operation overflows, the transaction fails with the revert message of the abort code, or of the error; if it divides by zero, the transaction traps. Nothing else on the chain changes.", "quantifier": "all programs, public functions, arguments, executions (any length), other functions of the contract, memory limits that leave enough room", "why_tests_cant": "combines the entry point, argument decoding, compiled code and result encoding; the memory of the arguments must be laid out so that the compiled function can work on it in place, whatever it does", "anchors": ["crates/move-bytecode-to-wasm/src/hostio/entrypoint_router.rs: build_entrypoint_router", "crates/move-bytecode-to-wasm/src/abi_types/public_function.rs: wrap_public_function", "crates/move-bytecode-to-wasm/src/translation.rs: translate_function", "crates/move-bytecode-to-wasm/src/abi_types/unpacking.rs", "crates/move-bytecode-to-wasm/src/abi_types/packing.rs", "crates/move-bytecode-to-wasm/src/data.rs"]}
{"id": "C96", "title": "Enum values and matches", "statement": "Building a variant of an enum gives a value that is this variant with these fields; taking it apart gives these fields back, and through a reference gives references to the fields themselves (disjoint, so that writing to one changes no other); a match executes the arm of the value's variant and no other, whatever the number and order of the arms and also when variants share an arm; none of this changes existing memory.", "quantifier": "all enums (any variants and field types), variants, field values, memory states, jump tables and arms", "why_tests_cant": "the code is generated for every enum and match anew; tests cover particular enums, and matches with few arms in the order of the variants", "anchors": ["crates/move-bytecode-to-wasm/src/translation/bytecodes/enums.rs: pack_variant, unpack_variant, unpack_variant_ref", "crates/move-bytecode-to-wasm/src/translation.rs: translate_flow (IfElse, Switch), translate_instruction (VariantSwitch)"]}
{"id": "C97", "title": "Fields of generic structs and enums in generic functions have their types", "statement": "When a generic function is compiled for particular types, the fields of the generic structs and enums it builds, takes apart or borrows from have the types given by the definition, the type arguments in the function and the types it is compiled for.", "quantifier": "all struct and enum definitions, all type arguments (also made of type parameters), all instances of the function", "why_tests_cant": "tests instantiate a few structs, mostly with the function's own parameters in order, for which it works", "anchors": ["crates/move-bytecode-to-wasm/src/translation.rs: translate_instruction (PackGeneric, UnpackGeneric, PackVariantGeneric, UnpackVariantGeneric, ImmBorrowFieldGeneric, MutBorrowFieldGeneric)", "crates/move-bytecode-to-wasm/src/generics.rs: replace_type_parameters", "crates/move-bytecode-to-wasm/src/compilation_context/module_data/struct_data.rs: get_struct_instance_by_struct_definition_idx, get_struct_instance_by_field_handle_idx", "crates/move-bytecode-to-wasm/src/compilation_context/module_data/enum_data.rs"]}
{"id": "C98", "title": "Objects passed to a function are the stored ones", "statement": "The argument for a parameter of a type with key is the id of an object. The function gets the object with this id that storage holds: that of the sender, else a shared one, else, for an immutable reference, a frozen one; with an owned, shared or frozen modifier only one of this kind. It has the stored fields, the owner it was found under, and nothing else changes. If there is no such object, or it has another type, the transaction fails.", "quantifier": "all object types and values, all ids, all states of storage and memory, all hash functions", "why_tests_cant": "tests have one object in storage; what other objects with the same id, other owners and other types do is not tried", "anchors": ["crates/move-bytecode-to-wasm/src/abi_types/unpacking.rs: add_unpack_instructions", "crates/move-bytecode-to-wasm/src/runtime/unpacking/structs.rs: unpack_storage_struct", "crates/move-bytecode-to-wasm/src/runtime/storage.rs: locate_storage_data, locate_storage_owned_object, locate_storage_shared_object, locate_storage_frozen_object"]}
{"id": "C99", "title": "peep shows the object another address owns", "statement": "peep with an address and a UID returns a reference to the object with this id that storage holds for the address, and changes nothing; if there is none the call fails.", "quantifier": "all object types and values, all addresses and ids, all states", "why_tests_cant": "tests peep at one object of one owner", "anchors": ["crates/move-bytecode-to-wasm/src/native_functions/peep.rs: add_peep_fn"]}
{"id": "C100", "title": "After a delegated call objects have the values the callee stored", "statement": "After a delegated call an object whose UID was passed to it has the values that storage holds now, each time; other memory does not change. After a call that is not delegated nothing changes.", "quantifier": "all object types, values before and after, all sequences of calls", "why_tests_cant": "tests make one delegated call with an object", "anchors": ["crates/move-bytecode-to-wasm/src/native_functions/contract_calls.rs: add_external_contract_call_fn (662-806)"]}
{"id": "C101", "title": "A NamedId stands for one object", "statement": "A NamedId instantiated with a struct has the same id in all transactions, a different one for each struct; a function with such a parameter gets the object with this id, without anything in the calldata.", "quantifier": "all structs, object types and values, all states", "why_tests_cant": "tests use structs with different names in one module", "anchors": ["crates/move-bytecode-to-wasm/src/native_functions/object.rs: add_compute_named_id_fn", "crates/move-bytecode-to-wasm/src/abi_types/unpacking.rs: add_unpack_instructions", "move-packages/stylus-framework/sources/object.move: NamedId"]}
{"id": "C102", "title": "Two object parameters are two different objects", "statement": "The objects a function gets for two parameters are different ones, in different places in memory.", "quantifier": "all pairs of parameters, all ids in the calldata", "why_tests_cant": "tests pass different ids", "anchors": ["crates/move-bytecode-to-wasm/src/abi_types/unpacking.rs: build_unpack_instructions", "crates/move-bytecode-to-wasm/src/runtime/unpacking/structs.rs: unpack_storage_struct", "crates/move-bytecode-to-wasm/src/native_functions/transfer.rs: add_transfer_object_fn"]}
{"id": "C103", "title": "Ids belong to objects", "statement": "A module that is accepted has ids (UID, NamedId) only as the first field, named id, of structs with key; there always; and no function takes an id or a reference to one as a parameter.", "quantifier": "all modules, all types of fields and parameters, all ways to import names", "why_tests_cant": "tests have one small module for each rule; what is accepted for other forms of types and other imports is not tried", "anchors": ["crates/move-parse-special-attributes/src/struct_validation.rs: validate_uid_and_named_id_placement", "crates/move-parse-special-attributes/src/function_validation.rs: validate_function", "crates/move-parse-special-attributes/src/types.rs: parse_type, extract_user_data_type_names"]}
{"id": "C104", "title": "Entry functions do not return objects", "statement": "A module is accepted only if no entry function has objects (structs with key) in its result; this depends on nothing but the module.", "quantifier": "all modules, all result types, all imports", "why_tests_cant": "the forms of types and imports are unbounded; the order of a hash map varies from run to run", "anchors": ["crates/move-parse-special-attributes/src/function_validation.rs: validate_function (103-165)"]}
{"id": "C105", "title": "Events and errors are not passed around", "statement": "In a module that is accepted no struct contains an event or an error, and no function of the module has one in the types of its parameters.", "quantifier": "all modules, all types of fields and parameters", "why_tests_cant": "the forms of types are unbounded", "anchors": ["crates/move-parse-special-attributes/src/struct_validation.rs: check_for_nested_events_or_errors", "crates/move-parse-special-attributes/src/function_validation.rs: validate_function (167-200)", "crates/move-parse-special-attributes/src/types.rs: is_event, is_abi_error"]}
{"id": "C106", "title": "The next transaction sees objects as the last one left them", "statement": "What a transaction stores, a later transaction loads: after a transfer the new owner gets the object with the same id and the same values as an argument, and the old owner no longer does; after sharing everybody gets it; changes through mutable references are seen by the next transaction.", "quantifier": "all objects, owners, senders, values and all states of memory in both transactions", "why_tests_cant": "needs two transactions and all values and types of fields", "anchors": ["crates/move-bytecode-to-wasm/src/native_functions/transfer.rs: add_transfer_object_fn, add_share_object_fn", "crates/move-bytecode-to-wasm/src/abi_types/unpacking.rs: unpack_storage_struct", "crates/move-bytecode-to-wasm/src/runtime/storage.rs: locate_storage_data, commit_changes_to_storage"]}
{"id": "C107", "title": "The Solidity interface can be compiled", "statement": "The human-readable interface the ABI generator writes for a contract is accepted by the Solidity compiler: it has the form of an interface, every type in it is elementary or declared, reference types have a data location, every function is external exactly once, and it declares exactly the functions, events, errors and structs of the contract; the signature of each declared function is the one the contract dispatches on.", "quantifier": "for all contracts: any number of functions, structs, events and errors with any names, types, modifiers and fields", "why_tests_cant": "The text depends on names, types and order of all declarations of a program; snapshot tests compare the text with itself and never hand it to a Solidity compiler.", "anchors": ["crates/move-evm-abi-generator/src/human_readable.rs: process_abi, process_functions, process_structs, process_enums, process_events, process_abi_errors", "crates/move-evm-abi-generator/src/types.rs: Type::name", "crates/move-evm-abi-generator/src/abi.rs: process_functions, process_storage_struct"]}
{"id": "C108", "title": "The exported ABI lists all events and errors", "statement": "Every event that an execution of the contract may emit, whether in its own functions or in those of modules it calls, is in the exported ABI with its type arguments, and so is every error with which an execution may revert. The search for them ends, even if modules call each other.", "quantifier": "for all packages: any modules and calls between them, generic or not, and all executions that start with a function of the contract", "why_tests_cant": "The search follows calls through all dependencies with a shared set of visited modules; whether it misses a module depends on the shape of the call graph, of which tests have a few.", "anchors": ["crates/move-evm-abi-generator/src/lib.rs: process_events_and_errors, find_child_module, parse_event, parse_error", "crates/move-bytecode-to-wasm/src/translation/intermediate_types.rs: try_from_signature_token"]}
{"id": "C109", "title": "move-stylus test tells which unit tests pass", "statement": "After `move-stylus test` every function marked as a test is reported, as passed if and only if it returns (or, if it is expected to fail, fails in the way that is expected), and the exit code is 1 if and only if some test has not passed, whatever the order in which modules are run.", "quantifier": "for all packages: any modules, functions and attributes, any bodies of the tests within the compiler model, any order of the modules", "why_tests_cant": "The runner is what runs the tests: a wrong verdict hides failures of every other test. Verdicts depend on how each kind of failure is compiled and on combinations of attributes, files and modules.", "anchors": ["crates/move-test-runner/src/lib.rs: run_tests", "crates/move-test-runner/src/wasm_runner.rs: RuntimeSandbox::call_test_function", "crates/move-cli/src/base/test.rs: Test::execute", "crates/move-parse-special-attributes/src/lib.rs: process_special_attributes", "crates/move-parse-special-attributes/src/function_modifiers.rs: FunctionModifier::parse_modifiers", "crates/move-bytecode-to-wasm/src/lib.rs: package_module_data", "crates/move-bytecode-to-wasm/src/translation.rs: translate_function"]}
{"id": "C110", "title": "emit takes events, revert takes errors", "statement": "A function is accepted by the compiler's check of calls to `stylus::event::emit` and `stylus::error::revert` if and only if every such call has one argument whose type is a struct marked as an event (an error).", "quantifier": "for all modules, imports and aliases, for all function bodies: any nesting of calls, blocks, branches, loops, matches and bindings", "why_tests_cant": "The check works on names in the syntax tree while the property is about types and lexical scope; whether both agree depends on every way to write, nest, rename and rebind.", "anchors": ["crates/move-parse-special-attributes/src/function_validation/parse_body.rs: extract_function_calls, extract_from_exp, extract_struct_name_from_exp", "crates/move-parse-special-attributes/src/function_validation/native_functions.rs: validate_native_function_calls", "crates/move-parse-special-attributes/src/function_validation.rs: validate_function, build_function_alias_map", "crates/move-parse-special-attributes/src/lib.rs: process_special_attributes"]}
{"id": "C111", "title": "A build makes every module or reports the errors", "statement": "Building a package ends either with exactly one output file per module of the package, compiled from that module with knowledge of every module it depends on directly or not, or, if some needed module has errors in its source, with a list of those errors, each once. It never ends with an internal compiler error and never loses a module.", "quantifier": "for all packages: any number of modules, any acyclic dependency graph, any set of erroneous modules", "why_tests_cant": "The result depends on the shape of the dependency graph, on the order of the modules and on which of them have errors; the recursion shares a cache between modules and paths.", "anchors": ["crates/move-bytecode-to-wasm/src/lib.rs: translate_package, translate_single_module, process_dependency_tree", "crates/move-bytecode-to-wasm/src/error.rs: DependencyError, DependencyProcessingError, CompilationError", "crates/move-cli/src/base.rs: translate_package_cli"]}
{"id": "C112", "title": "export-abi writes the ABI of every contract", "statement": "`move-stylus export-abi` writes, in each requested format, exactly one file for every module of the package that has an ABI, under the name of the contract; it describes the functions, events and errors of that module. If sources have errors it reports them instead.", "quantifier": "for all packages: any number of modules and source files in any folders, any acyclic dependency graph, any set of erroneous modules, both format flags", "why_tests_cant": "The modules are found by the path of their source and the files are written under its last component; whether two modules meet in one place depends on the layout of the whole package.", "anchors": ["crates/move-cli/src/base/export_abi.rs: ExportAbi::execute", "crates/move-bytecode-to-wasm/src/lib.rs: package_module_data, process_dependency_tree", "crates/move-evm-abi-generator/src/lib.rs: generate_abi"]}
{"id": "C113", "title": "Attributes are taken as written or refused", "statement": "Every modifier written in the attributes of a struct or function (event, abi_error, external_call, external_struct; abi, external_call, owned_objects, shared_objects, frozen_objects, test, skip, expected_failure) takes effect with the arguments written, in any combination; nothing else is taken for a modifier; and what is not a modifier of the right form is an error.", "quantifier": "for all lists of attributes of structs and functions, nested to any depth, with any arguments", "why_tests_cant": "Attributes are trees; what is dropped silently shows only in combinations and misspellings that nobody wrote a test for.", "anchors": ["crates/move-parse-special-attributes/src/struct_modifiers.rs: StructModifier::parse_struct_modifier", "crates/move-parse-special-attributes/src/function_modifiers.rs: FunctionModifier::parse_modifiers, parse_identifiers, parse_solidity_modifier", "crates/move-parse-special-attributes/src/lib.rs: process_special_attributes"]}
{"id": "C114", "title": "External calls are declared properly", "statement": "A module is accepted if and only if each of its functions marked external_call is native, takes a struct of the module marked external_call as its first parameter and returns one of the framework's two results, and each struct so marked has drop and wraps exactly one CrossContractCall (and the other checks pass); calls of these functions, and no others, go to other contracts; and a module that is refused is refused with at least one error.", "quantifier": "for all source files, modules, structs, functions and attributes", "why_tests_cant": "The checks compare names in the syntax tree, the property is about types; errors are collected over all structs and functions with a flag that changes what is done with later ones.", "anchors": ["crates/move-parse-special-attributes/src/external_call/structs.rs: validate_external_call_struct, check_fields", "crates/move-parse-special-attributes/src/external_call/function.rs: validate_external_call_function, check_return_value, check_first_parameter_is_external_struct", "crates/move-parse-special-attributes/src/abi_error.rs: AbiError::try_from", "crates/move-parse-special-attributes/src/shared.rs: get_single_type_name", "crates/move-parse-special-attributes/src/lib.rs: process_special_attributes"]}
{"id": "C115", "title": "Objects are taken as declared", "statement": "In an accepted module an argument of a function is looked up only among the owned, shared or frozen objects if and only if the attributes of that function list the parameter for that kind; every name listed is that of a parameter whose type is an object or a reference to one (an immutable one for frozen objects), and is listed once.", "quantifier": "for all source files, modules, functions, parameters, types and attributes", "why_tests_cant": "Kinds are found by function name and parameter name across everything the file contains; a wrong match shows only with other functions or structs of the same name.", "anchors": ["crates/move-parse-special-attributes/src/lib.rs: process_special_attributes", "crates/move-parse-special-attributes/src/function_validation.rs: check_storage_object_param, check_repeated_storage_object_param", "crates/move-bytecode-to-wasm/src/lib.rs: compute_arguments_object_kind"]}
{"id": "C116", "title": "New packages are complete and nothing is lost", "statement": "`move-stylus new <name>` makes a package with a manifest that names the package and its address, a module of that name, and a .gitignore that ignores the build directory; files that are there already keep their contents, and a name that is not valid is refused with nothing written.", "quantifier": "for all names, paths and contents of the disk", "why_tests_cant": "Tests make packages in empty directories; what happens to existing files depends on their contents, down to whether the last line is ended.", "anchors": ["crates/move-cli/src/base/new.rs: New::execute, write_gitignore, write_move_toml, write_default_module"]}
{"id": "C117", "title": "Deployment sends what was built and tells the truth", "statement": "`move-stylus deploy` gives cargo-stylus the file that the last build made of the named module, with exactly the options the user gave; `activate` passes exactly the options given; and both exit with 0 if and only if cargo-stylus succeeded.", "quantifier": "for all packages, modules, builds, contents of the disk, options and results of cargo-stylus", "why_tests_cant": "It relates several commands through the disk; the cases that fail need an earlier build, another directory or a failing network.", "anchors": ["crates/move-cli/src/base/deploy.rs: Deploy::execute, get_wasm_file_with_path", "crates/move-cli/src/base/activate.rs: Activate::execute", "crates/move-cli/src/base.rs: translate_package_cli, get_build_directory, reroot_path", "crates/move-cli/src/base/build.rs: Build::execute", "crates/move-cli/src/base/test.rs: Test::execute", "crates/move-cli/src/base/disassemble.rs: Disassemble::execute"]}
{"id": "C118", "title": "Modules have the interface of Stylus", "statement": "A module is written only if it has the interface Stylus asks for: it exports user_entrypoint with one i32 parameter and an i32 result and a single memory of one page, imports pay_for_memory_grow, and imports nothing the chain does not provide; every program that compiles to valid WebAssembly passes this check, and each host function is imported once, with its own type.", "quantifier": "for all modules, and for all sequences of functions and host functions the translation of a program adds", "why_tests_cant": "Which host functions are imported, and in which order, depends on the program; tests see the modules they compile.", "anchors": ["crates/move-bytecode-to-wasm/src/wasm_validation.rs: validate_stylus_wasm, validate_entrypoint_function, validate_memory_export, validate_pay_for_memory_grow_import", "crates/move-bytecode-to-wasm/src/hostio.rs: new_module_with_host", "crates/move-bytecode-to-wasm/src/hostio/host_functions.rs: get_or_insert_import", "crates/move-bytecode-to-wasm/src/hostio/host_test_functions.rs: get_or_insert_import", "crates/move-bytecode-to-wasm/src/memory.rs: setup_module_memory", "crates/move-bytecode-to-wasm/src/hostio/entrypoint_router.rs: add_entrypoint"]}
