/-!
# Solidity ABI encoding

What the Solidity ABI specification says, on lists of bytes.  Independent of the compiled code.
-/

namespace Abi

/-- The 32-byte big-endian word of a number. -/
def word (v : Nat) : List UInt8 := (List.range 32).map (fun i => UInt8.ofNat (v / 256 ^ (31 - i)))

/-- Zero bytes up to the next multiple of 32. -/
def pad (bs : List UInt8) : List UInt8 := bs ++ List.replicate ((32 - bs.length % 32) % 32) 0

/-- `bytes` and `string`: length word, content, zero padding. -/
def bytes (bs : List UInt8) : List UInt8 := word bs.length ++ pad bs

/-- Call data or revert data of `Error(string)`: selector, offset of the string, string. -/
def errorString (msg : List UInt8) : List UInt8 := [0x08, 0xc3, 0x79, 0xa0] ++ word 32 ++ bytes msg

/-- ASCII bytes of a text. -/
def text (s : String) : List UInt8 := s.toList.map (fun c => UInt8.ofNat c.toNat)

/-- ABI values: 32-byte words (integers, booleans, addresses, enums), byte strings, arrays of
variable length and tuples (structs). -/
inductive Val
  | word (n : Nat)
  | bytes (bs : List UInt8)
  | array (vs : List Val)
  | tuple (vs : List Val)

mutual
/-- Whether the encoding has variable length. -/
def dyn : Val → Bool
  | .word _ => false
  | .bytes _ => true
  | .array _ => true
  | .tuple vs => anyDyn vs
def anyDyn : List Val → Bool
  | [] => false
  | v :: vs => dyn v || anyDyn vs
end

mutual
/-- The encoding of a value.  Components of a tuple or array: first the heads, then the tails; the
head of a dynamic component is the offset of its tail from the first head. -/
def enc : Val → List UInt8
  | .word n => word n
  | .bytes bs => bytes bs
  | .array vs => word vs.length ++ (heads (headLen vs) vs ++ tails vs)
  | .tuple vs => heads (headLen vs) vs ++ tails vs
/-- Total length of the heads. -/
def headLen : List Val → Nat
  | [] => 0
  | v :: vs => (if dyn v then 32 else (enc v).length) + headLen vs
/-- The heads, the next tail being at `off`. -/
def heads (off : Nat) : List Val → List UInt8
  | [] => []
  | v :: vs => if dyn v then word off ++ heads (off + (enc v).length) vs else enc v ++ heads off vs
/-- The tails. -/
def tails : List Val → List UInt8
  | [] => []
  | v :: vs => if dyn v then enc v ++ tails vs else tails vs
end

/-- Arguments or results of a function. -/
def encTuple (vs : List Val) : List UInt8 := enc (.tuple vs)

end Abi
