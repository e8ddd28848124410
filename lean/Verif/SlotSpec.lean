import Verif.Abi

/-!
# Solidity storage layout

Slot numbers of the Solidity layout, for an arbitrary hash function `H` on byte strings.
Independent of the compiled code.
-/

namespace Slots

/-- Slot of the entry `key` of a mapping at slot `p`: `keccak256(key . p)`. -/
def mapSlot (H : List UInt8 → Nat) (key p : Nat) : Nat := H (Abi.word key ++ Abi.word p) % 2 ^ 256

/-- Slot of `objects[owner][id]`, where `objects` is a nested mapping at slot 0. -/
def objectSlot (H : List UInt8 → Nat) (owner id : Nat) : Nat := mapSlot H id (mapSlot H owner 0)

/-- Number of slots between the first element of a dynamic array and element `i`, for elements of
`size` bytes: small elements share slots, large ones take whole slots. -/
def elemOffset (size i : Nat) : Nat := if size ≤ 32 then i / (32 / size) else i * ((size + 31) / 32)

/-- Slot of element `i` of a dynamic array at slot `p`. -/
def elemSlot (H : List UInt8 → Nat) (p size i : Nat) : Nat :=
  (H (Abi.word p) + elemOffset size i) % 2 ^ 256

end Slots
