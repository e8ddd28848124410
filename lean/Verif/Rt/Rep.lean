import Verif.Abi
import Verif.Rt.Pack
import Verif.Rt.Heap

/-!
# Move values in linear memory

The representation of Move values by WebAssembly values: `Rep f lim t v w` says that the
WebAssembly value `w` represents the Move value `v` of type `t` in memory `f`, with all its data
below address `lim`.  Move values are given as ABI values.

Representation (translation/intermediate_types.rs 84-118, 120-195): integers up to `u64` and
booleans are numbers; `u128` and `u256` are pointers to little-endian numbers; an address is a
pointer to its 32-byte ABI word; a vector is a pointer to length, capacity and elements; a struct
is a pointer to one pointer per field; a `String` is a struct with one field, its vector of
bytes; an enum without fields is a pointer to the index of its variant.
-/

namespace Rt
open Wasm Abi

mutual
/-- See the head of the file. -/
def Rep (f : Bytes) (lim : Nat) : MTy → Val → Nat → Prop
  | .bool, .word n, w => w = n ∧ n < 2
  | .u8, .word n, w => w = n ∧ n < 2 ^ 8
  | .u16, .word n, w => w = n ∧ n < 2 ^ 16
  | .u32, .word n, w => w = n ∧ n < 2 ^ 32
  | .u64, .word n, w => w = n ∧ n < 2 ^ 64
  | .u128, .word n, w => w + 16 ≤ lim ∧ leNat f w 16 = n
  | .u256, .word n, w => w + 32 ≤ lim ∧ leNat f w 32 = n
  | .address, .word n, w => w + 32 ≤ lim ∧ beNat f w 32 = n
  | .enum k, .word n, w => w + 4 ≤ lim ∧ leNat f w 4 = n ∧ n < k ∧ n < 2 ^ 8
  | .vec t, .array vs, w => w + 8 + vs.length * t.size ≤ lim ∧ leNat f w 4 = vs.length ∧
      ∀ i (h : i < vs.length), Rep f lim t vs[i] (leNat f (w + 8 + i * t.size) t.size)
  | .struct fs, .tuple vs, w => w ≤ lim ∧ RepFs f lim fs vs w
  | .string, .bytes bs, w => w + 4 ≤ lim ∧ leNat f w 4 + 8 + bs.length ≤ lim ∧
      leNat f (leNat f w 4) 4 = bs.length ∧ rdBytes f (leNat f w 4 + 8) bs.length = bs
  | _, _, _ => False
/-- The fields of a struct, their pointers starting at `w`. -/
def RepFs (f : Bytes) (lim : Nat) : List MTy → List Val → Nat → Prop
  | [], [], _ => True
  | t :: ts, v :: vs, w => w + 4 ≤ lim ∧ (t.isScalar = true → leNat f w 4 + t.size ≤ lim) ∧
      Rep f lim t v (if t.isScalar then leNat f (leNat f w 4) t.size else leNat f w 4) ∧
      RepFs f lim ts vs (w + 4)
  | _, _, _ => False
end

mutual
/-- `v` is a value of type `t`, independently of any memory. -/
def HasTy : MTy → Val → Prop
  | .bool, .word n => n < 2
  | .u8, .word n => n < 2 ^ 8
  | .u16, .word n => n < 2 ^ 16
  | .u32, .word n => n < 2 ^ 32
  | .u64, .word n => n < 2 ^ 64
  | .u128, .word n => n < 2 ^ 128
  | .u256, .word n => n < 2 ^ 256
  | .address, .word n => n < 2 ^ 256
  | .enum k, .word n => n < k ∧ n < 2 ^ 8
  | .vec t, .array vs => ∀ v ∈ vs, HasTy t v
  | .struct fs, .tuple vs => HasTys fs vs
  | .string, .bytes _ => True
  | _, _ => False
/-- The fields of a struct, or the arguments of a function. -/
def HasTys : List MTy → List Val → Prop
  | [], [] => True
  | t :: ts, v :: vs => HasTy t v ∧ HasTys ts vs
  | _, _ => False
end

/-- Results of a function; a reference is a pointer to a pointer, like a field of a struct. -/
def RepP (f : Bytes) (lim : Nat) : PTy → Val → Nat → Prop
  | .val t, v, w => Rep f lim t v w
  | .ref t, v, w => RepFs f lim [t] [v] w

/-- Several results. -/
def RepAll (f : Bytes) (lim : Nat) : List PTy → List Val → List Nat → Prop
  | [], [], [] => True
  | t :: ts, v :: vs, w :: ws => RepP f lim t v w ∧ RepAll f lim ts vs ws
  | _, _, _ => False

end Rt
