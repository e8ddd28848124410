import Verif.Layout

/-!
# The slots an object owns

The slots that hold the fields of an object and of nothing else: its own slots and those of the elements of its vectors, not the
slots of objects among the fields, which are objects of their own.
-/

namespace Layout
open Mv

mutual
/-- The ranges of slots, first and last, of the elements of vectors in a value.  Elements of vectors in objects inside the value belong
to these objects. -/
def own (K : List UInt8 → Nat) : Ty → Val → Pos → List (Nat × Nat)
  | .struct fs, .struct vs, p => ownFs K fs vs p
  | .enum vss, .variant i vs, p => ownVar K vss i vs (place p 1)
  | .vec t, .vec vs, p =>
      let b := (elems K (place p 32).1, 0)
      if vs.isEmpty then [] else
        (b.1, (iter (next t) vs.length b).1) :: (walk (next t) vs b).flatMap fun e => own K t e.1 e.2
  | _, _, _ => []
def ownFs (K : List UInt8 → Nat) : List Ty → List Val → Pos → List (Nat × Nat)
  | t :: ts, v :: vs, p => own K t v p ++ ownFs K ts vs (next t p)
  | _, _, _ => []
def ownVar (K : List UInt8 → Nat) : List (List Ty) → Nat → List Val → Pos → List (Nat × Nat)
  | fs :: _, 0, vs, p => ownFs K fs vs p
  | _ :: vss, i + 1, vs, p => ownVar K vss i vs p
  | [], _, _, _ => []
end

/-- The slots of an object stored from slot `c` on. -/
def owned (K : List UInt8 → Nat) (fs : List Ty) (vs : List Val) (c : Nat) : List (Nat × Nat) :=
  (c, (nexts fs (c, 8)).1) :: ownFs K fs vs (c, 8)

mutual
/-- There is no vector in the value itself. -/
def flat : Ty → Bool
  | .vec _ => false
  | .struct fs => flatFs fs
  | .enum vss => flatVs vss
  | _ => true
def flatFs : List Ty → Bool
  | [] => true
  | t :: ts => flat t && flatFs ts
def flatVs : List (List Ty) → Bool
  | [] => true
  | fs :: vss => flatFs fs && flatVs vss
end

/-- The last of the fields is not an enum. -/
def solid : List Ty → Bool
  | [] => false
  | [.enum _] => false
  | [_] => true
  | _ :: t :: ts => solid (t :: ts)

mutual
/-- Enums contain no vectors, and no struct without `key` ends with an enum. -/
def tidy : Ty → Bool
  | .vec t => tidy t
  | .struct fs => solid fs && tidyFs fs
  | .enum vss => flatVs vss
  | _ => true
def tidyFs : List Ty → Bool
  | [] => true
  | t :: ts => tidy t && tidyFs ts
end

mutual
/-- Memory needed for deleting a value. -/
def xcost : Ty → Val → Nat
  | .struct fs, .struct vs => xcostFs fs vs
  | .enum _, _ => 68
  | .vec t, .vec vs => 32 + (vs.map fun v => xcost t v).sum
  | _, _ => 0
def xcostFs : List Ty → List Val → Nat
  | t :: ts, v :: vs => xcost t v + xcostFs ts vs
  | _, _ => 0
end

end Layout
