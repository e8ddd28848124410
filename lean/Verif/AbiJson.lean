/-!
# JSON ABI

What the Solidity ABI specification says of entries of a JSON ABI: how the signature of a function, an event or an error
follows from its entry.  Independent of the compiled code.
-/

namespace Abi

/-- A parameter or a component of a tuple: its name, its type, whether it has components (it does if the type is `tuple`,
`tuple[]`, `tuple[][]`, ...), and the components. -/
inductive J where
  | mk (name type : String) (tuple : Bool) (comps : List J)

mutual
/-- The canonical type: `tuple` is replaced by the list of the types of the components. -/
def J.canon : J → String
  | .mk _ ty tuple cs =>
    if tuple then "(" ++ String.intercalate "," (canons cs) ++ ")" ++ String.ofList (ty.toList.drop 5) else ty
def canons : List J → List String
  | [] => []
  | j :: js => j.canon :: canons js
end

/-- The signature of an entry. -/
def entrySig (e : String × List J) : String := e.1 ++ "(" ++ String.intercalate "," (canons e.2) ++ ")"

end Abi
