import Verif.Rt.Link
import Verif.Rt.Compile

/-!
# Generic structs and enums in generic functions

`PackGeneric`, `UnpackGeneric`, the variants of these for enums, and `ImmBorrowFieldGeneric`/`MutBorrowFieldGeneric`: which types the
code generator takes the fields to have, when it translates a function instantiated with the types `us`.  The datatype has fields
of types `fs` (with its own type parameters; of an enum: the fields of all variants, one after the other), the instruction gives it
the type arguments `ts` (with the type parameters of the function).  No result: the compiler panics.
-/

namespace Link
open TyHash (ITy Vm)

/-- The type arguments of those in `ts` that are type parameters (`filter_map` in translation.rs 2855-2864 and 3045-3054): `vs` are
the arguments with `us` put in. -/
def bareArgs : List ITy → List ITy → List ITy
  | .param _ :: ts, v :: vs => v :: bareArgs ts vs
  | _ :: ts, _ :: vs => bareArgs ts vs
  | _, _ => []

/-- `PackGeneric` (translation.rs 2815-2880) and `PackVariantGeneric` (3027-3068): types of the fields, and type arguments.
(`get_struct_instance_by_struct_definition_idx`, struct_data.rs 92-101, and its counterpart in enum_data.rs 107-127, put `ts` in the
fields first.) -/
def packTys (fs ts us : List ITy) : Option (List ITy × List ITy) :=
  match substs ts fs with
  | none => none
  | some inst =>
    if hasParams ts then
      match substs us ts with
      | none => none
      | some vs => (substs (bareArgs ts vs) inst).map (·, vs)
    else some (inst, ts)

/-- `UnpackGeneric` (translation.rs 2925-2967), `UnpackVariantGeneric` and its reference forms (3109-3233). -/
def unpackTys (fs ts us : List ITy) : Option (List ITy × List ITy) :=
  match substs ts fs with
  | none => none
  | some inst =>
    if hasParams ts then
      match substs us ts with
      | none => none
      | some vs => (substs vs inst).map (·, vs)
    else some (inst, ts)

/-- `ImmBorrowFieldGeneric` and `MutBorrowFieldGeneric` (translation.rs 1346-1430, 1452-1540): `f` is the type of the field in the
definition, `vs` the type arguments of the struct referred to (from the types stack), `known` says whether the module also builds
or takes apart structs with the arguments `ts` (then there is an instance in `generic_fields_to_struct`, module_data.rs 488-551). -/
def borrowTy (f : ITy) (ts vs : List ITy) (known : Bool) : Option ITy :=
  let its := if hasParams ts then vs else ts
  (if known then subst ts f else subst its f).bind (subst its)

/-- Code of `x.v == y.v`, where `x` and `y` are references to structs and `v` their first field, of a type `t` of up to 32 bits:
`ImmBorrowFieldGeneric` and `ReadRef` twice, `Eq` (translation.rs 1346-1430, 1863-1881; `load_equality_instructions`,
intermediate_types.rs 786-800), for the type that the generator takes the field to have. -/
def sameField (t : Mv.Ty) : Wasm.Fn := ⟨2, 1, 0,
  code[Wasm.Op.lget 0] ++ Move.borrowFieldCode 0 ++ code[Wasm.Op.load 4 0, Wasm.Op.load t.size 0] ++
  code[Wasm.Op.lget 1] ++ Move.borrowFieldCode 0 ++ code[Wasm.Op.load 4 0, Wasm.Op.load t.size 0] ++ code[Wasm.Op.bin .w32 .eq]⟩

/-- Types of which the values are numbers on the operand stack. -/
def ITy.mv : ITy → Option Mv.Ty
  | .bool => some .bool
  | .u8 => some .u8
  | .u16 => some .u16
  | .u32 => some .u32
  | _ => none

end Link
