import Verif.Mem

/-!
# Move values in linear memory

A second, richer description of values than `Verif.Rt.Rep`: enums carry fields, objects (structs
with the `key` ability) carry the 32 bytes of their owner in front of them, and the memory a value
occupies is an arbitrary region, so that one can say that two values share nothing.  Nothing here
is code of `/repo`; the layout is that of translation/intermediate_types.rs 120-195,
intermediate_types/structs.rs 167-215 and intermediate_types/enums.rs 96-116.
-/

namespace Mv
open Wasm

/-- Types of values (translation/intermediate_types.rs 60-116), after instantiation: a struct is
given by its field types, an enum by the field types of its variants. -/
inductive Ty
  | bool | u8 | u16 | u32 | u64 | u128 | u256 | address
  | vec (t : Ty) | struct (fs : List Ty) | object (fs : List Ty) | enum (vs : List (List Ty))

/-- Move values. -/
inductive Val
  | num (n : Nat)
  | vec (vs : List Val)
  | struct (vs : List Val)
  | object (owner : Nat) (vs : List Val)
  | variant (i : Nat) (vs : List Val)

/-- `wasm_memory_data_size`, also the width of `load_kind` and `store_kind`
(translation/intermediate_types.rs 120-195). -/
def Ty.size : Ty → Nat
  | .bool | .u8 => 1
  | .u16 => 2
  | .u64 => 8
  | _ => 4

/-- `is_stack_type` (translation/intermediate_types.rs 949-980): the value is a number, not a
pointer. -/
def Ty.scalar : Ty → Bool
  | .bool | .u8 | .u16 | .u32 | .u64 => true
  | _ => false

/-- The `n` bytes from `a` on belong to the region `R`. -/
def Within (R : Nat → Prop) (a n : Nat) : Prop := ∀ x, a ≤ x → x < a + n → R x

mutual
/-- The WebAssembly value `w` represents the Move value `v` of type `t` in memory `f`, and all the
memory it occupies belongs to `R`. -/
def Rep (f : Bytes) (R : Nat → Prop) : Ty → Val → Nat → Prop
  | .bool, v, w => v = .num w ∧ w < 2
  | .u8, v, w => v = .num w ∧ w < 2 ^ 8
  | .u16, v, w => v = .num w ∧ w < 2 ^ 16
  | .u32, v, w => v = .num w ∧ w < 2 ^ 32
  | .u64, v, w => v = .num w ∧ w < 2 ^ 64
  | .u128, v, w => v = .num (leNat f w 16) ∧ Within R w 16
  | .u256, v, w => v = .num (leNat f w 32) ∧ Within R w 32
  | .address, v, w => v = .num (beNat f w 32) ∧ Within R w 32
  | .vec t, v, w => ∃ vs, v = .vec vs ∧ leNat f w 4 = vs.length ∧ vs.length ≤ leNat f (w + 4) 4 ∧
      Within R w (8 + leNat f (w + 4) 4 * t.size) ∧
      ∀ i (h : i < vs.length), Rep f R t vs[i] (leNat f (w + 8 + i * t.size) t.size)
  | .struct fs, v, w => ∃ vs, v = .struct vs ∧ RepFs f R fs vs w
  | .object fs, v, w => ∃ vs, 32 ≤ w ∧ v = .object (beNat f (w - 32) 32) vs ∧
      Within R (w - 32) 32 ∧ RepFs f R fs vs w
  | .enum vss, v, w => ∃ vs, v = .variant (leNat f w 4) vs ∧ Within R w 4 ∧
      RepVar f R vss (leNat f w 4) vs (w + 4)
/-- Fields, the pointers to them starting at `p`; a number has its own cell. -/
def RepFs (f : Bytes) (R : Nat → Prop) : List Ty → List Val → Nat → Prop
  | [], vs, _ => vs = []
  | t :: ts, vs, p => ∃ v vs', vs = v :: vs' ∧ Within R p 4 ∧
      (t.scalar = true → Within R (leNat f p 4) t.size) ∧
      Rep f R t v (if t.scalar then leNat f (leNat f p 4) t.size else leNat f p 4) ∧
      RepFs f R ts vs' (p + 4)
/-- The fields of variant `i` of an enum. -/
def RepVar (f : Bytes) (R : Nat → Prop) : List (List Ty) → Nat → List Val → Nat → Prop
  | [], _, _, _ => False
  | fs :: _, 0, vs, p => RepFs f R fs vs p
  | _ :: vss, i + 1, vs, p => RepVar f R vss i vs p
end

/-- `heap_size` of an enum (translation/intermediate_types/enums.rs 96-116). -/
def enumHeap (vss : List (List Ty)) : Nat := (vss.map fun fs => fs.length * 4).foldl max 0 + 4

/-- Capacity of a copy of a vector of `n` elements (runtime/vector.rs 899-911). -/
def copyCap (n m : Nat) : Nat := if n = 0 then 1 else n * m

mutual
/-- Memory allocated by a copy of a value. -/
def cost : Ty → Val → Nat
  | .u128, _ => 16
  | .u256, _ => 32
  | .address, _ => 32
  | .vec t, .vec vs => 8 + copyCap vs.length 1 * t.size + (vs.map fun v => cost t v).sum
  | .struct fs, .struct vs => 4 * fs.length + costFs fs vs
  | .object fs, .object _ vs => 32 + 4 * fs.length + costFs fs vs
  | .enum vss, .variant i vs => enumHeap vss + costVar vss i vs
  | _, _ => 0
def costFs : List Ty → List Val → Nat
  | t :: ts, v :: vs => (if t.scalar then t.size else cost t v) + costFs ts vs
  | _, _ => 0
def costVar : List (List Ty) → Nat → List Val → Nat
  | fs :: _, 0, vs => costFs fs vs
  | _ :: vss, i + 1, vs => costVar vss i vs
  | [], _, _ => 0
end

mutual
/-- The type has a vector of one- or two-byte elements in it.  Copies of such a vector write
four bytes per element (runtime/vector.rs 1120-1131), up to three bytes beyond its end. -/
def Ty.spills : Ty → Bool
  | .vec t => t.size < 4 || t.spills
  | .struct fs => spillsFs fs
  | .object fs => spillsFs fs
  | .enum vss => spillsVs vss
  | _ => false
def spillsFs : List Ty → Bool
  | [] => false
  | t :: ts => t.spills || spillsFs ts
def spillsVs : List (List Ty) → Bool
  | [] => false
  | fs :: vss => spillsFs fs || spillsVs vss
end

mutual
/-- The Move value proper: the owner of an object is bookkeeping of the runtime. -/
def Val.erase : Val → Val
  | .num n => .num n
  | .vec vs => .vec (eraseL vs)
  | .struct vs => .struct (eraseL vs)
  | .object _ vs => .struct (eraseL vs)
  | .variant i vs => .variant i (eraseL vs)
def eraseL : List Val → List Val
  | [] => []
  | v :: vs => v.erase :: eraseL vs
end

mutual
/-- Nowhere in the two values are two empty vectors of pointers in corresponding places. -/
def Clear : Ty → Val → Val → Prop
  | .vec t, .vec vs, .vec ws => vs.length = ws.length → (t.scalar = false → vs ≠ []) ∧
      ∀ i (h : i < vs.length) (h' : i < ws.length), Clear t vs[i] ws[i]
  | .struct fs, .struct vs, .struct ws => ClearFs fs vs ws
  | .object fs, .object _ vs, .object _ ws => ClearFs fs vs ws
  | .enum vss, .variant i vs, .variant j ws => i = j → ClearVar vss i vs ws
  | _, _, _ => True
def ClearFs : List Ty → List Val → List Val → Prop
  | t :: ts, v :: vs, w :: ws => Clear t v w ∧ ClearFs ts vs ws
  | _, _, _ => True
def ClearVar : List (List Ty) → Nat → List Val → List Val → Prop
  | fs :: _, 0, vs, ws => ClearFs fs vs ws
  | _ :: vss, i + 1, vs, ws => ClearVar vss i vs ws
  | [], _, _, _ => True
end

end Mv
