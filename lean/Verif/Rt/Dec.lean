import Verif.Rt.Rep
import Verif.Rt.Unpack

/-!
# Encoded values in linear memory

`Dec f lim t v b p`: the value `v` of type `t` is encoded at address `p` of memory `f`, offsets
counted from `b`, everything below `lim`.  Unlike the canonical encoding (`Abi.enc`), tails may be
anywhere and may overlap, as the ABI allows for calldata.
-/

namespace Rt
open Wasm Abi

/-- An offset word at `p` and where it leads. -/
def Points (f : Bytes) (lim b p q : Nat) : Prop := p + 32 ≤ lim ∧ b + beNat f p 32 = q

mutual
/-- See the head of the file. -/
def Dec (f : Bytes) (lim : Nat) : MTy → Val → Nat → Nat → Prop
  | .bool, .word n, _, p => p + 32 ≤ lim ∧ beNat f p 32 = n ∧ n < 2
  | .u8, .word n, _, p => p + 32 ≤ lim ∧ beNat f p 32 = n ∧ n < 2 ^ 8
  | .u16, .word n, _, p => p + 32 ≤ lim ∧ beNat f p 32 = n ∧ n < 2 ^ 16
  | .u32, .word n, _, p => p + 32 ≤ lim ∧ beNat f p 32 = n ∧ n < 2 ^ 32
  | .u64, .word n, _, p => p + 32 ≤ lim ∧ beNat f p 32 = n ∧ n < 2 ^ 64
  | .u128, .word n, _, p => p + 32 ≤ lim ∧ beNat f p 32 = n ∧ n < 2 ^ 128
  | .u256, .word n, _, p => p + 32 ≤ lim ∧ beNat f p 32 = n
  | .address, .word n, _, p => p + 32 ≤ lim ∧ beNat f p 32 = n
  | .enum k, .word n, _, p => p + 32 ≤ lim ∧ beNat f p 32 = n ∧ n < k ∧ n < 2 ^ 8
  | .vec t, .array vs, b, p => ∃ q, Points f lim b p q ∧ q + 32 ≤ lim ∧ beNat f q 32 = vs.length ∧
      ∀ i (h : i < vs.length), Dec f lim t vs[i] (q + 32) (q + 32 + i * t.headSize)
  | .struct fs, .tuple vs, b, p =>
      if MTy.dynFs fs then ∃ q, Points f lim b p q ∧ DecFs f lim fs vs q q else DecFs f lim fs vs b p
  | .string, .bytes bs, b, p => ∃ q, Points f lim b p q ∧ q + 32 + bs.length ≤ lim ∧
      beNat f q 32 = bs.length ∧ rdBytes f (q + 32) bs.length = bs
  | _, _, _, _ => False
/-- The fields of a struct (or arguments of a function), the first head at `p`. -/
def DecFs (f : Bytes) (lim : Nat) : List MTy → List Val → Nat → Nat → Prop
  | [], [], _, p => p ≤ lim
  | t :: ts, v :: vs, b, p => Dec f lim t v b p ∧ DecFs f lim ts vs b (p + t.headSize)
  | _, _, _, _ => False
end

mutual
/-- Memory taken by the representation of a value. -/
def need : MTy → Val → Nat
  | .u128, _ => 16
  | .u256, _ => 32
  | .address, _ => 32
  | .enum _, _ => 4
  | .vec t, .array vs => 8 + vs.length * t.size + (vs.map (need t)).sum
  | .struct fs, .tuple vs => 4 * fs.length + needFs fs vs
  | .string, .bytes bs => 12 + bs.length
  | _, _ => 0
/-- Fields, each with the memory its pointer points to. -/
def needFs : List MTy → List Val → Nat
  | t :: ts, v :: vs => (if t.isScalar then t.size else need t v) + needFs ts vs
  | _, _ => 0
end

/-- A string ending at `e` does not end right at the end of the memory available (`sz` bytes, or
the end of a page): unpacking a string writes up to four bytes beyond its end. -/
def SafeEnd (sz e : Nat) : Prop := e + 4 ≤ sz ∨ (1 ≤ e % 65536 ∧ e % 65536 ≤ 65532)

mutual
/-- All strings in `v`, represented from address `a` on, end safely. -/
def Fits (sz : Nat) : MTy → Val → Nat → Prop
  | .vec t, .array vs, a => ∀ i (h : i < vs.length),
      Fits sz t vs[i] (a + 8 + vs.length * t.size + ((vs.take i).map (need t)).sum)
  | .struct fs, .tuple vs, a => FitsFs sz fs vs (a + 4 * fs.length)
  | .string, .bytes bs, a => SafeEnd sz (a + 8 + bs.length)
  | _, _, _ => True
/-- Fields. -/
def FitsFs (sz : Nat) : List MTy → List Val → Nat → Prop
  | t :: ts, v :: vs, a => Fits sz t v a ∧ FitsFs sz ts vs (a + if t.isScalar then t.size else need t v)
  | _, _, _ => True
end

/-- Arguments of a function: values, and references, which are pointers to the value. -/
def RepA (f : Bytes) (lim : Nat) : PTy → Val → Nat → Prop
  | .val t, v, w => Rep f lim t v w
  | .ref t, v, w =>
    if t.isScalar then w + t.size ≤ lim ∧ Rep f lim t v (leNat f w t.size) else Rep f lim t v w

/-- Several arguments. -/
def RepArgs (f : Bytes) (lim : Nat) : List PTy → List Val → List Nat → Prop
  | [], [], [] => True
  | t :: ts, v :: vs, w :: ws => RepA f lim t v w ∧ RepArgs f lim ts vs ws
  | _, _, _ => False

end Rt
