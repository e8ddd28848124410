import Verif.SlotSpec
import Verif.Rt.Values

/-!
# Layout of objects in storage

Which bytes of which storage slots hold a Move value, stated without reference to the compiled
code.  Small values share slots, filled from the low-order end; a value never straddles two slots;
structs without `key` are laid out in line; enums are a one-byte tag and the fields of the variant, in
an area large enough for every variant; the elements of a vector start at `keccak256(slot)`, the slot
itself holds the length; an object inside an object is represented by its id, its content is at the
slot of `objects[id of the parent][id]`.
-/

namespace Layout
open Mv

/-- A position in storage: a slot, and the number of bytes of it in use (0 to 32). -/
abbrev Pos := Nat × Nat

/-- Position counted in bytes. -/
def lin (p : Pos) : Nat := 32 * p.1 + p.2

/-- Bytes a value takes in the place where it is declared; structs without `key` and enums have no
place of their own, their parts have. -/
def width : Ty → Nat
  | .bool | .u8 => 1
  | .u16 => 2
  | .u32 => 4
  | .u64 => 8
  | .u128 => 16
  | .address => 20
  | .u256 | .vec _ | .object _ => 32
  | .struct _ | .enum _ => 0

/-- The position behind `n` bytes placed at `p`: in the same slot if they fit, else at the beginning
of the next.  The bytes are the digits `q.2 - n` to `q.2` of slot `q.1`, for `q` the result. -/
def place (p : Pos) (n : Nat) : Pos := if p.2 + n ≤ 32 then (p.1, p.2 + n) else (p.1 + 1, n)

mutual
/-- The position behind a value of the given type. -/
def next : Ty → Pos → Pos
  | .struct fs, p => nexts fs p
  | .enum vss, p => let n := furthest vss (place p 1); (n / 32, n % 32)
  | t, p => place p (width t)
/-- The position behind consecutive fields. -/
def nexts : List Ty → Pos → Pos
  | [], p => p
  | t :: ts, p => nexts ts (next t p)
/-- The largest position behind the fields of a variant. -/
def furthest : List (List Ty) → Pos → Nat
  | [], p => lin p
  | fs :: vss, p => max (lin (nexts fs p)) (furthest vss p)
end

/-- The `n` digits from digit `i` on of a storage word, in base 256. -/
def dig (w i n : Nat) : Nat := w / 256 ^ i % 256 ^ n

/-- Values with their positions, the first one at `p`. -/
def walk (f : Pos → Pos) : List Val → Pos → List (Val × Pos)
  | [], _ => []
  | v :: vs, p => (v, p) :: walk f vs (f p)

/-- The position behind `n` values. -/
def iter (f : Pos → Pos) : Nat → Pos → Pos
  | 0, p => p
  | n + 1, p => iter f n (f p)

/-- The id in a `UID` value. -/
def idOf : Val → Nat
  | .struct [.struct [.num n]] => n
  | _ => 0

/-- Slot of the first element of the vector with the given header slot. -/
def elems (K : List UInt8 → Nat) (slot : Nat) : Nat := K (Abi.word slot) % 2 ^ 256

mutual
/-- Storage `S` holds the value `v` of type `t` at position `p`, inside the object with id `o`.  `T` is
the type tag of an object type. -/
def Holds (K : List UInt8 → Nat) (T : Ty → Nat) (S : Nat → Nat) : Nat → Ty → Val → Pos → Prop
  | o, .struct fs, .struct vs, p => HoldsFs K T S o fs vs p
  | o, .enum vss, .variant i vs, p =>
      let q := place p 1
      dig (S q.1) (q.2 - 1) 1 = i ∧ HoldsVar K T S o vss i vs q
  | o, .vec t, .vec vs, p =>
      let q := place p 32
      dig (S q.1) 0 32 = vs.length ∧
      ∀ e ∈ walk (next t) vs (elems K q.1, 0), Holds K T S o t e.1 e.2
  | o, .object (u :: fs), .object _ (uid :: vs), p =>
      let q := place p 32
      let c := Slots.objectSlot K o (idOf uid)
      dig (S q.1) 0 32 = idOf uid ∧ dig (S c) 0 8 = T (.object (u :: fs)) ∧
      HoldsFs K T S (idOf uid) fs vs (c, 8)
  | _, .bool, .num n, p => let q := place p 1; dig (S q.1) (q.2 - 1) 1 = n
  | _, .u8, .num n, p => let q := place p 1; dig (S q.1) (q.2 - 1) 1 = n
  | _, .u16, .num n, p => let q := place p 2; dig (S q.1) (q.2 - 2) 2 = n
  | _, .u32, .num n, p => let q := place p 4; dig (S q.1) (q.2 - 4) 4 = n
  | _, .u64, .num n, p => let q := place p 8; dig (S q.1) (q.2 - 8) 8 = n
  | _, .u128, .num n, p => let q := place p 16; dig (S q.1) (q.2 - 16) 16 = n
  | _, .u256, .num n, p => let q := place p 32; dig (S q.1) (q.2 - 32) 32 = n
  | _, .address, .num n, p => let q := place p 20; dig (S q.1) (q.2 - 20) 20 = n
  | _, _, _, _ => False
/-- Consecutive fields. -/
def HoldsFs (K : List UInt8 → Nat) (T : Ty → Nat) (S : Nat → Nat) : Nat → List Ty → List Val → Pos → Prop
  | _, [], [], _ => True
  | o, t :: ts, v :: vs, p => Holds K T S o t v p ∧ HoldsFs K T S o ts vs (next t p)
  | _, _, _, _ => False
/-- The fields of variant `i`. -/
def HoldsVar (K : List UInt8 → Nat) (T : Ty → Nat) (S : Nat → Nat) :
    Nat → List (List Ty) → Nat → List Val → Pos → Prop
  | o, fs :: _, 0, vs, p => HoldsFs K T S o fs vs p
  | o, _ :: vss, i + 1, vs, p => HoldsVar K T S o vss i vs p
  | _, [], _, _, _ => False
end

mutual
/-- The ranges of slots, first and last, of the parts of a value that are not stored in place. -/
def segs (K : List UInt8 → Nat) : Nat → Ty → Val → Pos → List (Nat × Nat)
  | o, .struct fs, .struct vs, p => segsFs K o fs vs p
  | o, .enum vss, .variant i vs, p => segsVar K o vss i vs (place p 1)
  | o, .vec t, .vec vs, p =>
      let b := (elems K (place p 32).1, 0)
      if vs.isEmpty then [] else
        (b.1, (iter (next t) vs.length b).1) :: (walk (next t) vs b).flatMap fun e => segs K o t e.1 e.2
  | o, .object (_ :: fs), .object _ (uid :: vs), _ =>
      let c := Slots.objectSlot K o (idOf uid)
      (c, (nexts fs (c, 8)).1) :: segsFs K (idOf uid) fs vs (c, 8)
  | _, _, _, _ => []
def segsFs (K : List UInt8 → Nat) : Nat → List Ty → List Val → Pos → List (Nat × Nat)
  | o, t :: ts, v :: vs, p => segs K o t v p ++ segsFs K o ts vs (next t p)
  | _, _, _, _ => []
def segsVar (K : List UInt8 → Nat) : Nat → List (List Ty) → Nat → List Val → Pos → List (Nat × Nat)
  | o, fs :: _, 0, vs, p => segsFs K o fs vs p
  | o, _ :: vss, i + 1, vs, p => segsVar K o vss i vs p
  | _, [], _, _, _ => []
end

/-- The type of the first field of an object: `UID { id: ID { bytes: address } }`. -/
def uidTy : Ty := .struct [.struct [.address]]

mutual
/-- Types of values that can be stored: objects begin with their `UID`, structs have fields (Move gives
an empty one a field), enums have at most 256 variants and take less than `2^31` bytes. -/
def Storable : Ty → Prop
  | .struct fs => fs ≠ [] ∧ StorableFs fs
  | .enum vss => vss.length ≤ 256 ∧ (∀ i, i ≤ 32 → lin (next (.enum vss) (0, i)) < 2 ^ 31) ∧ StorableVs vss
  | .vec t => Storable t
  | .object [] => False
  | .object (u :: fs) => u = uidTy ∧ StorableFs fs
  | _ => True
def StorableFs : List Ty → Prop
  | [] => True
  | t :: ts => Storable t ∧ StorableFs ts
def StorableVs : List (List Ty) → Prop
  | [] => True
  | fs :: vss => StorableFs fs ∧ StorableVs vss
end

mutual
/-- Where the value has a vector of length `n`, storage holds a word `x` with `P x n`. -/
def Heads (P : Nat → Nat → Prop) (K : List UInt8 → Nat) (S : Nat → Nat) : Nat → Ty → Val → Pos → Prop
  | o, .struct fs, .struct vs, p => HeadsFs P K S o fs vs p
  | o, .enum vss, .variant i vs, p => HeadsVar P K S o vss i vs (place p 1)
  | o, .vec t, .vec vs, p =>
      let q := place p 32
      P (S q.1) vs.length ∧ ∀ e ∈ walk (next t) vs (elems K q.1, 0), Heads P K S o t e.1 e.2
  | o, .object (_ :: fs), .object _ (uid :: vs), _ =>
      HeadsFs P K S (idOf uid) fs vs (Slots.objectSlot K o (idOf uid), 8)
  | _, _, _, _ => True
def HeadsFs (P : Nat → Nat → Prop) (K : List UInt8 → Nat) (S : Nat → Nat) : Nat → List Ty → List Val → Pos → Prop
  | o, t :: ts, v :: vs, p => Heads P K S o t v p ∧ HeadsFs P K S o ts vs (next t p)
  | _, _, _, _ => True
def HeadsVar (P : Nat → Nat → Prop) (K : List UInt8 → Nat) (S : Nat → Nat) :
    Nat → List (List Ty) → Nat → List Val → Pos → Prop
  | o, fs :: _, 0, vs, p => HeadsFs P K S o fs vs p
  | o, _ :: vss, i + 1, vs, p => HeadsVar P K S o vss i vs p
  | _, [], _, _, _ => True
end

/-- The length in storage is not larger than the new one. -/
def Grows (x n : Nat) : Prop := x % 2 ^ 32 ≤ n

/-- Nothing is stored yet. -/
def Blank (x _n : Nat) : Prop := x % 2 ^ 256 = 0

/-- Two ranges of slots have no slot in common. -/
def Apart (a b : Nat × Nat) : Prop := a.2 < b.1 ∨ b.2 < a.1

/-- The slot is in none of the ranges. -/
def Off (gs : List (Nat × Nat)) (x : Nat) : Prop := ∀ g ∈ gs, ¬ (g.1 ≤ x ∧ x ≤ g.2)

/-- All slots of an object stored from slot `c` on: behind the type tag, of 8 bytes, come the fields. -/
def area (K : List UInt8 → Nat) (fs : List Ty) (uid : Val) (vs : List Val) (c : Nat) : List (Nat × Nat) :=
  (c, (nexts fs (c, 8)).1) :: segsFs K (idOf uid) fs vs (c, 8)

/-- The ranges of slots of an object have no slot in common and end before `2^256`.  For slots computed
by a hash function that is all one can ask for. -/
structure Spread (K : List UInt8 → Nat) (fs : List Ty) (uid : Val) (vs : List Val) (c : Nat) : Prop where
  apart : (area K fs uid vs c).Pairwise Apart
  lt : ∀ g ∈ area K fs uid vs c, g.2 < 2 ^ 256

/-- Storage holds the object from slot `c` on. -/
structure Stored (K : List UInt8 → Nat) (T : Ty → Nat) (S : Nat → Nat) (fs : List Ty) (uid : Val) (vs : List Val) (c : Nat) : Prop where
  tag : dig (S c) 0 8 = T (.object (uidTy :: fs))
  fields : HoldsFs K T S (idOf uid) fs vs (c, 8)

mutual
/-- The type contains no vector. -/
def noVec : Ty → Bool
  | .vec _ => false
  | .struct fs => noVecFs fs
  | .object fs => noVecFs fs
  | .enum vss => noVecVs vss
  | _ => true
def noVecFs : List Ty → Bool
  | [] => true
  | t :: ts => noVec t && noVecFs ts
def noVecVs : List (List Ty) → Bool
  | [] => true
  | fs :: vss => noVecFs fs && noVecVs vss
end

mutual
/-- The type contains no enum. -/
def noEnum : Ty → Bool
  | .vec t => noEnum t
  | .struct fs => noEnumFs fs
  | .object fs => noEnumFs fs
  | .enum _ => false
  | _ => true
def noEnumFs : List Ty → Bool
  | [] => true
  | t :: ts => noEnum t && noEnumFs ts
end

mutual
/-- The type contains a number of one or two bytes. -/
def narrow : Ty → Bool
  | .bool | .u8 | .u16 => true
  | .vec t => narrow t
  | .struct fs => narrowFs fs
  | .object fs => narrowFs fs
  | .enum vss => narrowVs vss
  | _ => false
def narrowFs : List Ty → Bool
  | [] => false
  | t :: ts => narrow t || narrowFs ts
def narrowVs : List (List Ty) → Bool
  | [] => false
  | fs :: vss => narrowFs fs || narrowVs vss
end

mutual
/-- Restrictions on values that the layout does not express: booleans are 0 or 1, and objects begin with their
id. -/
def Typed : Ty → Val → Prop
  | .bool, .num n => n < 2
  | .struct fs, .struct vs => TypedFs fs vs
  | .enum vss, .variant i vs => TypedVar vss i vs
  | .vec t, .vec vs => ∀ v ∈ vs, Typed t v
  | .object (_ :: fs), .object _ (uid :: vs) => (∃ n, uid = .struct [.struct [.num n]] ∧ n < 2 ^ 256) ∧ TypedFs fs vs
  | .u8, .num _ | .u16, .num _ | .u32, .num _ | .u64, .num _ | .u128, .num _ | .u256, .num _ | .address, .num _ => True
  | _, _ => False
def TypedFs : List Ty → List Val → Prop
  | [], [] => True
  | t :: ts, v :: vs => Typed t v ∧ TypedFs ts vs
  | _, _ => False
def TypedVar : List (List Ty) → Nat → List Val → Prop
  | fs :: _, 0, vs => TypedFs fs vs
  | _ :: vss, i + 1, vs => TypedVar vss i vs
  | [], _, _ => False
end

/-- Elements of a vector, for `fresh`. -/
def freshEls (f : Val → Pos → Bool → Option Bool) (nx : Pos → Pos) : List Val → Pos → Bool → Option Bool
  | [], _, b => some b
  | v :: vs, p, b => (f v p b).bind fun b' => freshEls f nx vs (nx p) b'

mutual
/-- The code that reads values holds one slot at a time.  It fetches the next slot when a value does not fit into
the rest of the current one.  It does not fetch a slot behind an enum, whose last slot need not be the one at hand.
`b` says whether the slot at hand is that of position `p`; the result says the same of the position behind the
value.  The result is `none` if a number or a tag is taken from the wrong slot. -/
def fresh : Ty → Val → Pos → Bool → Option Bool
  | .struct fs, .struct vs, p, b => freshFs fs vs p b
  | .enum vss, .variant i vs, p, b =>
      let q := place p 1
      if b || decide (q.1 ≠ p.1) then freshVar vss i vs q (next (.enum vss) p).1 else none
  | .vec t, .vec vs, _, _ => (freshEls (fun v p b => fresh t v p b) (next t) vs (0, 0) true).map fun _ => false
  | .object (_ :: fs), .object _ (_ :: vs), _, _ => (freshFs fs vs (0, 8) true).map fun _ => false
  | t, .num _, p, b => if b || decide ((place p (width t)).1 ≠ p.1) then some true else none
  | _, _, _, _ => none
def freshFs : List Ty → List Val → Pos → Bool → Option Bool
  | [], [], _, b => some b
  | t :: ts, v :: vs, p, b => (fresh t v p b).bind fun b' => freshFs ts vs (next t p) b'
  | _, _, _, _ => none
/-- The fields of variant `i`, in an enum that ends in slot `e`. -/
def freshVar : List (List Ty) → Nat → List Val → Pos → Nat → Option Bool
  | fs :: _, 0, vs, q, e => (freshFs fs vs q true).map fun b => b && decide ((nexts fs q).1 = e)
  | _ :: vss, i + 1, vs, q, e => freshVar vss i vs q e
  | [], _, _, _, _ => none
end

end Layout
