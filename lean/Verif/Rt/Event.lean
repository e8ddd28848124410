import Verif.Rt.Natives
import Verif.Rt.Rep

/-!
# Events

Transcription of native_functions/event.rs: the function the compiler emits for `event::emit` at a struct
annotated with `#[ext(event, ...)]`.  Events have at most four indexed fields
(crates/move-parse-special-attributes/src/struct_modifiers.rs 65-118).
-/

namespace Rt
open Wasm

/-- Types of indexed fields: `ID` is a struct with one address, but treated on its own (event.rs 331-364). -/
inductive ETy
  | val (t : MTy)
  | id

/-- The type of the representation in memory. -/
def ETy.mty : ETy → MTy
  | .val t => t
  | .id => .struct [.address]

variable (E : ErrPtrs)

/-- `add_encode_indexed_string` (event.rs 1006-1113) for the string in local `v`.  Locals: `k` writer_pointer,
`k + 1` len, `k + 2` i. -/
def ixString (padded : Bool) (v k : Nat) : List Instr :=
  code[Op.lget v, Op.load 4 0, Op.lset v, Op.lget v, Op.load 4 0, Op.lset (k + 1), Op.lget (k + 1)] ++
  (if padded then code[Op.c32 31, Op.bin .w32 .add, Op.c32 0xFFFFFFE0, Op.bin .w32 .and] else []) ++
  code[alloc.call, Op.lset k] ++ skipVecHeader v ++
  code[Op.lset v, Op.c32 0, Op.lset (k + 2),
   .loop 0
     code[Op.lget k, Op.lget v, Op.load 4 0, Op.store 1 0,
      Op.lget v, Op.c32 1, Op.bin .w32 .add, Op.lset v,
      Op.lget k, Op.c32 1, Op.bin .w32 .add, Op.lset k,
      Op.lget (k + 2), Op.c32 1, Op.bin .w32 .add, Op.ltee (k + 2), Op.lget (k + 1), Op.bin .w32 .ltU, .brIf 0]]

/-- A block of 32 bytes is allocated and the value in local `v` is packed into it; local `w` is writer_pointer
(event.rs 561-577, 729-745, 827-843, 974-990). -/
def ixWord (t : MTy) (v w : Nat) : List Instr :=
  code[Op.c32 32, alloc.call, Op.lset w] ++ packT E (propagate .none) (propagate .none) v w w t

/-- The loop over the elements of a vector (event.rs 526-530, 579-592 and, with the same instructions, 627-640,
673-685, 747-760); `body` treats one element.  Locals: `v` vector_ptr, `k` len, `k + 1` i. -/
def ixLoop (v k size : Nat) (body : List Instr) : List Instr :=
  code[Op.lget v, Op.load 4 0, Op.lset k] ++ skipVecHeader v ++
  code[Op.lset v, Op.c32 0, Op.lset (k + 1),
   .loop 0
     (body ++
      code[Op.lget v, Op.c32 size, Op.bin .w32 .add, Op.lset v,
       Op.lget (k + 1), Op.c32 1, Op.bin .w32 .add, Op.ltee (k + 1), Op.lget k, Op.bin .w32 .ltU, .brIf 0])]

/-- `add_encode_indexed_vector_instructions` (event.rs 510-776) for the vector in local `v`, with elements of the given
type.  Locals: `k` len, `k + 1` i, `k + 2` value, `k + 3` writer_pointer.  Vectors of structs are rejected by the compiler
(line 766). -/
def ixVec : MTy → Nat → Nat → List Instr
  | .vec t, v, k => ixLoop v k 4 (code[Op.lget v, Op.load 4 0, Op.lset (k + 2)] ++ ixVec t (k + 2) (k + 3))
  | .string, v, k => ixLoop v k 4 (code[Op.lget v, Op.load 4 0, Op.lset (k + 2)] ++ ixString true (k + 2) (k + 3))
  | .enum _, v, k => ixLoop v k 4 (code[Op.lget v, Op.load 4 0, Op.load 4 0, Op.lset (k + 2)] ++ ixWord E .u8 (k + 2) (k + 3))
  | .struct _, _, _ => code[Op.unreachable]
  | t, v, k => ixLoop v k t.size (code[Op.lget v, Op.load t.size 0, Op.lset (k + 2)] ++ ixWord E t (k + 2) (k + 3))

/-- Number of locals from `k` on used by `ixVec`. -/
def nlIxVec : MTy → Nat
  | .vec t => 3 + nlIxVec t
  | .string => 6
  | _ => 4

mutual
/-- Number of locals from `k` on used by `ixField`. -/
def nlIxField : MTy → Nat
  | .vec t => 1 + nlIxVec t
  | .string => 4
  | .struct fs => 1 + nlIxStruct fs
  | _ => 2
def nlIxStruct : List MTy → Nat
  | [] => 0
  | t :: ts => nlIxField t + nlIxStruct ts
end

mutual
/-- One field of `add_encode_indexed_struct_instructions` (event.rs 789-998), at offset `off` of the struct in local `p`.
Locals: `k` value, `k + 1` writer_pointer.  A struct inside the struct is loaded twice (909-927). -/
def ixField : MTy → Nat → Nat → Nat → List Instr
  | .vec t, p, off, k => code[Op.lget p, Op.load 4 off, Op.lset k] ++ ixVec E t k (k + 1)
  | .string, p, off, k => code[Op.lget p, Op.load 4 off, Op.lset k] ++ ixString true k (k + 1)
  | .struct fs, p, off, k => code[Op.lget p, Op.load 4 off, Op.load 4 0, Op.lset k] ++ ixStruct fs k 0 (k + 1)
  | .enum _, p, off, k => code[Op.lget p, Op.load 4 off, Op.load 1 0, Op.lset k] ++ ixWord E .u8 k (k + 1)
  | t, p, off, k => code[Op.lget p, Op.load 4 off] ++ (if t.isScalar then code[Op.load t.size 0] else []) ++
      code[Op.lset k] ++ ixWord E t k (k + 1)
/-- `add_encode_indexed_struct_instructions` (event.rs 781-1001) for the struct in local `p`. -/
def ixStruct : List MTy → Nat → Nat → Nat → List Instr
  | [], _, _, _ => []
  | t :: ts, p, off, k => ixField t p off k ++ ixStruct ts p (off + 4) (k + nlIxField t)
end

/-- Encoding of indexed field `i` (event.rs 87-225).  Locals: 0 struct_ptr, 4 local, `10 + 2 * i` data_begin, `11 + 2 * i`
data_end, those from `k` on those of the encoding. -/
def ixPrep (i k : Nat) : ETy → List Instr
  | .val (.vec t) => code[Op.lget 0, Op.load 4 (4 * i), Op.lset 4, Op.c32 0, alloc.call, Op.lset (10 + 2 * i)] ++
      ixVec E t 4 k ++ code[Op.c32 0, alloc.call, Op.lset (11 + 2 * i)]
  | .val .string => code[Op.lget 0, Op.load 4 (4 * i), Op.lset k, Op.c32 0, alloc.call, Op.lset (10 + 2 * i)] ++
      ixString false k (k + 1) ++ code[Op.c32 0, alloc.call, Op.lset (11 + 2 * i)]
  | .val (.struct fs) => code[Op.lget 0, Op.load 4 (4 * i), Op.lset 4, Op.c32 0, alloc.call, Op.lset (10 + 2 * i)] ++
      ixStruct E fs 4 0 k ++ code[Op.c32 0, alloc.call, Op.lset (11 + 2 * i)]
  | .id => code[Op.lget 0, Op.load 4 (4 * i), Op.lset 4, Op.c32 0, alloc.call, Op.lset (10 + 2 * i)] ++
      ixStruct E [.address] 4 0 k ++ code[Op.c32 0, alloc.call, Op.lset (11 + 2 * i)]
  | .val _ => []

/-- Number of locals from `k` on used by `ixPrep`. -/
def nlIxPrep : ETy → Nat
  | .val (.vec t) => nlIxVec t
  | .val .string => 4
  | .val (.struct fs) => nlIxStruct fs
  | .id => nlIxStruct [.address]
  | .val _ => 0

/-- All indexed fields, from field `i` on. -/
def ixPreps : List ETy → Nat → Nat → List Instr
  | [], _, _ => []
  | t :: ts, i, k => ixPrep E i k t ++ ixPreps ts (i + 1) (k + nlIxPrep t)

/-- The hash of the encoding of field `i` (event.rs 365-389).  Locals: 1 writer_pointer, 6 abi_encoded_data_length. -/
def ixHash (i : Nat) : List Instr :=
  code[Op.lget (11 + 2 * i), Op.lget (10 + 2 * i), Op.bin .w32 .sub, Op.lset 6,
   Op.c32 32, alloc.call, Op.lset 1,
   Op.lget (10 + 2 * i), Op.lget 6, Op.lget 1, Op.host .keccak]

/-- The topic of indexed field `i` (event.rs 263-396).  Locals: 1 writer_pointer, 2 calldata_reference_pointer, 4 local,
5 local_64. -/
def ixTopic (i : Nat) : ETy → List Instr
  | .id => code[Op.lget 0, Op.load 4 (4 * i), Op.lset 4, Op.c32 32, alloc.call, Op.ltee 1, Op.lset 2,
      Op.lget 4, Op.load 4 0, Op.lset 4] ++ packT E (propagate .none) (propagate .none) 4 1 2 .address
  | .val (.vec _) => code[Op.lget 0, Op.load 4 (4 * i), Op.lset 4] ++ ixHash i
  | .val .string => code[Op.lget 0, Op.load 4 (4 * i), Op.lset 4] ++ ixHash i
  | .val (.struct _) => code[Op.lget 0, Op.load 4 (4 * i), Op.lset 4] ++ ixHash i
  | .val t => code[Op.lget 0, Op.load 4 (4 * i)] ++ (if t.isScalar then code[Op.load t.size 0] else []) ++
      code[Op.lset t.fieldLocal, Op.c32 32, alloc.call, Op.ltee 1, Op.lset 2] ++
      packT E (propagate .none) (propagate .none) t.fieldLocal 1 2 t

def ixTopics : List ETy → Nat → List Instr
  | [], _ => []
  | t :: ts, i => ixTopic E i t ++ ixTopics ts (i + 1)

/-- The fields that are not indexed (event.rs 398-495); `n` fields are.  Locals: 0 struct_ptr, 1 writer_pointer,
3 packed_data_begin, 7 packed_data_length, 8 abi_encoded_data_calldata_reference_pointer, 9 data_struct_ptr.  For an event
`pack_struct_function` packs only these fields (runtime/packing/structs.rs 53-73). -/
def evData (n : Nat) (ds : List MTy) : List Instr :=
  if ds.isEmpty then code[Op.c32 0, alloc.call, Op.lget 3, Op.bin .w32 .sub, Op.lset 7]
  else
    code[Op.lget 0, Op.c32 (4 * n), Op.bin .w32 .add, Op.lset 9,
     Op.c32 (if MTy.dynFs ds then 32 else MTy.encSizeFs ds), alloc.call, Op.ltee 1, Op.lset 8] ++
    (if MTy.dynFs ds then
      code[Op.lget 9, Op.lget 1, Op.lget 8, Op.c32 1, (packStruct (MTy.encSizeFs ds) (packFs E 0 ds)).call,
       Op.lget 8, Op.lget 8, Op.c32 32, Op.bin .w32 .add,
       Op.c32 0, alloc.call, Op.lget 3, Op.c32 32, Op.bin .w32 .add, Op.bin .w32 .sub, Op.ltee 7,
       Op.memCopy]
     else
      code[Op.lget 9, Op.lget 1, Op.lget 8, Op.c32 0, (packStruct (MTy.encSizeFs ds) (packFs E 0 ds)).call,
       Op.c32 0, alloc.call, Op.lget 3, Op.bin .w32 .sub, Op.lset 7])

/-- `add_emit_log_fn` (event.rs 39-505) for an event with indexed fields `is` and other fields `ds`; `sig` is the hash of its
signature, `none` for an anonymous event (227-259). -/
def emitEvent (sig : Option Nat) (is : List ETy) (ds : List MTy) : Fn :=
  ⟨1, 0, 17 + (is.map nlIxPrep).sum,
    ixPreps E is 0 18 ++
    (match sig with
     | some h => code[Op.c32 32, alloc.call, Op.ltee 1, Op.lset 3] ++ storeHash h 1
     | none => code[Op.c32 0, alloc.call, Op.lset 3]) ++
    ixTopics E is 0 ++ evData E is.length ds ++
    code[Op.lget 3, Op.lget 7, Op.c32 (if sig.isSome then is.length + 1 else is.length), Op.host .emitLog]⟩

end Rt
