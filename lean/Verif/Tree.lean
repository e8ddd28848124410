import Verif.Own

/-!
# Values with memory of their own

Move values are trees: no two parts of a value share memory.  `Rep` does not say so; `Tree` does, as far as the code that moves
objects depends on it.  The objects inside a value, and the value after they have been taken out of the storage of their previous
owners, are defined here as well.
-/

namespace Mv
open Wasm

/-- The regions have no byte in common. -/
def Disj (A B : Nat → Prop) : Prop := ∀ x, A x → ¬ B x

/-- The bytes from `a` up to, not including, `b`. -/
def Span (a b x : Nat) : Prop := a ≤ x ∧ x < b

mutual
/-- The WebAssembly value `w` represents `v`, in memory that belongs to `R`; the parts of structs, objects and vectors,
and the owners of objects, have memory of their own. -/
def Tree (f : Bytes) : (Nat → Prop) → Ty → Val → Nat → Prop
  | R, .vec t, v, w => ∃ (vs : List Val) (P : Nat → Nat → Prop), v = .vec vs ∧ leNat f w 4 = vs.length ∧ vs.length ≤ leNat f (w + 4) 4 ∧
      Within R w (8 + leNat f (w + 4) 4 * t.size) ∧
      (∀ i, i < vs.length → (∀ x, P i x → R x) ∧ Disj (P i) (Span w (w + (8 + leNat f (w + 4) 4 * t.size)))) ∧
      (∀ i j, i < j → j < vs.length → Disj (P i) (P j)) ∧
      ∀ i (h : i < vs.length), Tree f (P i) t vs[i] (leNat f (w + 8 + i * t.size) t.size)
  | R, .struct fs, v, w => ∃ vs, v = .struct vs ∧ TreeFs f R fs vs w
  | R, .object fs, v, w => ∃ (vs : List Val) (S : Nat → Prop), 32 ≤ w ∧ v = .object (beNat f (w - 32) 32) vs ∧
      Within R (w - 32) 32 ∧ (∀ x, S x → R x) ∧ Disj S (Span (w - 32) w) ∧ TreeFs f S fs vs w
  | R, .enum vss, v, w => Rep f R (.enum vss) v w
  | R, .bool, v, w => Rep f R .bool v w
  | R, .u8, v, w => Rep f R .u8 v w
  | R, .u16, v, w => Rep f R .u16 v w
  | R, .u32, v, w => Rep f R .u32 v w
  | R, .u64, v, w => Rep f R .u64 v w
  | R, .u128, v, w => Rep f R .u128 v w
  | R, .u256, v, w => Rep f R .u256 v w
  | R, .address, v, w => Rep f R .address v w
/-- Fields, the pointers to them starting at `p`. -/
def TreeFs (f : Bytes) : (Nat → Prop) → List Ty → List Val → Nat → Prop
  | _, [], vs, _ => vs = []
  | R, t :: ts, vs, p => ∃ (v : Val) (vs' : List Val) (A B : Nat → Prop), vs = v :: vs' ∧ Within R p 4 ∧
      (t.scalar = true → Within A (leNat f p 4) t.size) ∧
      Tree f A t v (if t.scalar then leNat f (leNat f p 4) t.size else leNat f p 4) ∧ TreeFs f B ts vs' (p + 4) ∧
      (∀ x, A x → R x) ∧ (∀ x, B x → R x) ∧ Disj A B ∧ Disj A (Span p (p + 4)) ∧ Disj B (Span p (p + 4))
end

/-! ### Objects inside values -/

/-- A struct or object. -/
def Ty.fielded : Ty → Bool
  | .struct _ | .object _ => true
  | _ => false

/-- An object inside a value: the id of the object it is a field of, or of a vector that is a field of it; its owner, its id, and the
types of its fields behind the `UID`. -/
structure Kid where
  pid : Option Nat
  owner : Nat
  id : Nat
  fs : List Ty

/-- The object is not where it belongs: it has an owner, which is not the object it is in. -/
def Kid.moves (k : Kid) : Bool := decide (k.owner ≠ 0) && decide (k.pid ≠ some k.owner)

/-- The slot where its owner has the object. -/
def Kid.home (K : List UInt8 → Nat) (k : Kid) : Nat := Slots.objectSlot K k.owner k.id

/-- The slots of the objects that are not where they belong; `was k` are the fields in storage, which may differ from those in memory. -/
def gone (K : List UInt8 → Nat) (was : Kid → List Val) (ks : List Kid) : List (Nat × Nat) :=
  (ks.filter Kid.moves).flatMap fun k => Layout.owned K k.fs (was k) (k.home K)

/-- Memory for deleting them. -/
def goneCost (was : Kid → List Val) (ks : List Kid) : Nat := ((ks.filter Kid.moves).map fun k => Layout.xcostFs k.fs (was k)).sum

/-- Storage with the ranges of slots set to zero. -/
def cleared (gs : List (Nat × Nat)) (S : Nat → Nat) (x : Nat) : Nat :=
  if gs.any (fun g => decide (g.1 ≤ x ∧ x ≤ g.2)) then 0 else S x

mutual
/-- The objects in a field of an object with id `pid`, or of a struct: as a field or an element of a vector, and the same for
fields of structs and objects.  Objects in enums and in vectors of vectors are left out. -/
def kids : Option Nat → Ty → Val → List Kid
  | _, .struct fs, .struct vs => kidsFs none fs vs
  | pid, .object fs, .object ow vs =>
      kidsFs (some (Layout.idOf (vs.headD (.num 0)))) fs vs ++ [⟨pid, ow, Layout.idOf (vs.headD (.num 0)), fs.tail⟩]
  | pid, .vec t, .vec vs => if t.fielded then vs.flatMap fun v => kids pid t v else []
  | _, _, _ => []
def kidsFs : Option Nat → List Ty → List Val → List Kid
  | pid, t :: ts, v :: vs => kids pid t v ++ kidsFs pid ts vs
  | _, _, _ => []
end

/-- The objects to be taken from the storage of their owners when the object with owner `ow` and id `id` is given away: it is
itself removed if it has an owner, as if it were in an object other than its owner. -/
def movers (ow id : Nat) (fs : List Ty) (vs : List Val) : List Kid := ⟨some (ow + 1), ow, id, fs⟩ :: kidsFs (some id) fs vs

mutual
/-- The value with the owners of these objects set to zero, except for those that are owned by the object they are in. -/
def settle : Option Nat → Ty → Val → Val
  | _, .struct fs, .struct vs => .struct (settleFs none fs vs)
  | pid, .object fs, .object ow vs =>
      .object (if pid = some ow then ow else 0) (settleFs (some (Layout.idOf (vs.headD (.num 0)))) fs vs)
  | pid, .vec t, .vec vs => if t.fielded then .vec (vs.map fun v => settle pid t v) else .vec vs
  | _, _, v => v
def settleFs : Option Nat → List Ty → List Val → List Val
  | pid, t :: ts, v :: vs => settle pid t v :: settleFs pid ts vs
  | _, _, vs => vs
end

end Mv
