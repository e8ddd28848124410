/-!
# Move integer semantics

What the Move language says about integer operations, on mathematical numbers.  `none` is an
abort.  Independent of the compiled code.
-/

namespace Spec

/-- `a + b` in an unsigned type of `w` bits. -/
def add (w a b : Nat) : Option Nat := if a + b < 2 ^ w then some (a + b) else none
/-- `a - b`. -/
def sub (a b : Nat) : Option Nat := if b ≤ a then some (a - b) else none
/-- `a * b`. -/
def mul (w a b : Nat) : Option Nat := if a * b < 2 ^ w then some (a * b) else none
/-- `a / b`. -/
def div (a b : Nat) : Option Nat := if b = 0 then none else some (a / b)
/-- `a % b`. -/
def rem (a b : Nat) : Option Nat := if b = 0 then none else some (a % b)
/-- `a << n`: bits shifted out are lost; shifting by the width or more aborts. -/
def shl (w a n : Nat) : Option Nat := if n < w then some (a * 2 ^ n % 2 ^ w) else none
/-- `a >> n`. -/
def shr (w a n : Nat) : Option Nat := if n < w then some (a / 2 ^ n) else none
/-- `a as uW`. -/
def cast (w a : Nat) : Option Nat := if a < 2 ^ w then some a else none

end Spec
