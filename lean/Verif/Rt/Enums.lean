import Verif.Rt.Consts

/-!
# Enums: building them, matching on them, taking them apart

The code emitted for `PackVariant`, `UnpackVariant`, `UnpackVariantImmRef` and `UnpackVariantMutRef`
(translation/bytecodes/enums.rs), for `VariantSwitch` (translation.rs 3234-3258), for a match with
two arms (translation.rs 395-443) and for a match with more arms (translation.rs 443-526).

Simplifications: `br_table` is a sequence of comparisons here, and the index of the variant is kept in a
local instead of on the operand stack; arms are calls of functions, after which execution goes on behind the match.
-/

namespace Rt
open Wasm Mv

/-- The fields of `pack_variant` (translation/bytecodes/enums.rs 67-138), last field first: local `k` is the enum, `k + 1`
`ptr_to_data`, `j` the next fresh local, `n` the number of fields left. -/
def packVarFields (k : Nat) : List Ty → Nat → Nat → List Instr
  | [], _, _ => []
  | t :: ts, j, n =>
    (if t.scalar then code[Op.lset j, Op.c32 t.size, alloc.call, Op.ltee (k + 1), Op.lget j, Op.store t.size 0]
      else code[Op.lset (k + 1)]) ++
    code[Op.lget k, Op.lget (k + 1), Op.store 4 (4 * n)] ++
    packVarFields k ts (if t.scalar then j + 1 else j) (n - 1)

/-- `pack_variant` (translation/bytecodes/enums.rs 23-143) of variant `i`, with fields `fs`, of the enum `vss`. -/
def packVariant (vss : List (List Ty)) (i : Nat) (fs : List Ty) (k : Nat) : List Instr :=
  code[Op.c32 (enumHeap vss), alloc.call, Op.lset k, Op.lget k, Op.c32 i, Op.store 4 0] ++
    packVarFields k fs.reverse (k + 2) fs.length ++ code[Op.lget k]

/-- `unpack_fields` (translation/bytecodes/structs.rs 215-272) from local `k`. -/
def unpackVarFs (k : Nat) : List Ty → Nat → List Instr
  | [], _ => []
  | t :: ts, off => code[Op.lget k, Op.load 4 off] ++ (if t.scalar then code[Op.load t.size 0] else []) ++ unpackVarFs k ts (off + 4)

/-- `unpack_variant` (translation/bytecodes/enums.rs 148-177) of a variant with fields `fs`. -/
def unpackVariant (fs : List Ty) (k : Nat) : List Instr :=
  code[Op.c32 4, Op.bin .w32 .add, Op.lset k] ++ unpackVarFs k fs 0

/-- The references of `unpack_variant_ref` (translation/bytecodes/enums.rs 211-252). -/
def refFs (k : Nat) : List Ty → Nat → List Instr
  | [], _ => []
  | _ :: ts, off => code[Op.lget k, Op.c32 off, Op.bin .w32 .add] ++ refFs k ts (off + 4)

/-- `unpack_variant_ref` (translation/bytecodes/enums.rs 182-255). -/
def unpackVariantRef (fs : List Ty) (k : Nat) : List Instr := code[Op.load 4 0, Op.lset k] ++ refFs k fs 4

/-- `VariantSwitch` (translation.rs 3234-3253): the index of the variant of the enum referred to. -/
def variantSwitch : List Instr := code[Op.load 4 0, Op.load 4 0]

/-- A match with two arms, `thn` being the arm that comes first in the code (translation.rs 395-443): `o0` and `o1` are the offsets
of the arms for the first and the second variant.  (`builder.i32_const` of the variant whose arm comes first.) -/
def matchTwo (o0 o1 : Nat) (thn els : List Instr) (k : Nat) : List Instr :=
  variantSwitch ++ code[Op.c32 (if o0 ≤ o1 then 0 else 1), Op.bin .w32 .eq, Op.lset k,
    .block 0 (.block 0 (code[Op.lget k, .brIf 0] ++ els ++ code[.br 1]) :: thn)]

/-- `PackVariant` (translation.rs 3007-3026) as a function of its own: the fields are its arguments. -/
def mkVariant (vss : List (List Ty)) (i : Nat) (fs : List Ty) : Fn :=
  ⟨fs.length, 1, 2 + fs.length, (List.range fs.length).map (fun i => (Op.lget i : Instr)) ++ packVariant vss i fs fs.length⟩

/-- `UnpackVariant` (translation.rs 3088-3108) as a function of its own. -/
def openVariant (fs : List Ty) : Fn := ⟨1, fs.length, 1, code[Op.lget 0] ++ unpackVariant fs 1⟩

/-- `UnpackVariantImmRef` and `UnpackVariantMutRef` (translation.rs 3153-3179) as a function of its own. -/
def openVariantRef (fs : List Ty) : Fn := ⟨1, fs.length, 1, code[Op.lget 0] ++ unpackVariantRef fs 1⟩

/-- A match on a reference to an enum with two variants, whose arms are calls of `f0` and `f1`: the arm for the first variant is at
offset `o0`, that for the second at offset `o1`; the arm that comes first is the `then` branch. -/
def matchFn (o0 o1 : Nat) (f0 f1 : Fn) : Fn :=
  ⟨1, 1, 2, code[Op.lget 0] ++ matchTwo o0 o1 code[(if o0 ≤ o1 then f0 else f1).call, Op.lset 2]
    code[(if o0 ≤ o1 then f1 else f0).call, Op.lset 2] 1 ++ code[Op.lget 2]⟩

/-- `br_table` on local `k`, as a sequence of comparisons with the entries from `j` on; otherwise the end of the enclosing block. -/
def brTable (k j : Nat) : List Nat → List Instr
  | [] => code[.br 0]
  | t :: ts => code[Op.lget k, Op.c32 j, Op.bin .w32 .eq, .brIf t] ++ brTable k (j + 1) ts

/-- `open_cases` (translation.rs 449-512): `tbl` is the jump table, the cases are in reverse order, each with its label and its code;
`seen` are the labels of the blocks opened so far, innermost first (`label_to_block`).  The index of the variant is in local `k`
(in the code it is a parameter of the blocks). -/
def openCases (tbl : List Nat) (k : Nat) : List Nat → List (Nat × List Instr) → Option (List Instr)
  | seen, [] => (tbl.mapM fun o => seen.idxOf? o).map fun ts =>
      code[.block 0 (brTable k 0 (ts.map (· + 1))), Op.unreachable]
  | seen, (o, body) :: cs => (openCases tbl k (o :: seen) cs).map fun is => .block 0 is :: body

/-- A match with many arms (`Flow::Switch`, translation.rs 443-526) on a reference to an enum: the arms, in the order of the
code, have a label and call a function each, then go on after the match.  No result: the compiler refuses it. -/
def switchFn (tbl : List Nat) (cases : List (Nat × Fn)) : Option Fn :=
  (openCases tbl 1 [] (cases.reverse.zipIdx.map fun c => (c.1.1, code[c.1.2.call, Op.lset 2, .br c.2]))).map fun is =>
    ⟨1, 1, 2, code[Op.lget 0] ++ variantSwitch ++ code[Op.lset 1, .block 0 is, Op.lget 2]⟩

/-- `VariantSwitch` as a function of its own. -/
def variantOf : Fn := ⟨1, 1, 0, code[Op.lget 0] ++ variantSwitch⟩

end Rt
