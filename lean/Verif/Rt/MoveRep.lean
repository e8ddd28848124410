import Verif.Rt.Compile
import Verif.Rt.Heap
import Verif.Proof.Copy
import Verif.Abi

/-!
# What the translation of a Move function has to do

How Move values are represented in linear memory and on the WebAssembly stack, and what it means for
a compiled function to behave as the Move function does.
-/

namespace Move
open Wasm Rt

/-- The WebAssembly value `w` represents `v`: booleans and integers of at most 64 bits are
represented by themselves, the others by a pointer to allocated memory. -/
def RepV (σ : Store) (v : MVal) (w : Nat) : Prop :=
  v.n < 2 ^ v.ty.bits ∧
  match v.ty with
  | .bool => w = v.n
  | .int (.reg _) => w = v.n
  | .int .u128 => w + 16 ≤ σ.nextFree ∧ leNat σ.mem w 16 = v.n
  | .int .u256 => w + 32 ≤ σ.nextFree ∧ leNat σ.mem w 32 = v.n
  | .addr => w + 32 ≤ σ.nextFree ∧ beNat σ.mem w 32 = v.n

/-- Memory from `p` on holds a value that represents `v`. -/
def Slot (σ : Store) (v : MVal) (p : Nat) : Prop :=
  p + v.ty.size ≤ σ.nextFree ∧ RepV σ v (leNat σ.mem p v.ty.size)

/-- Bytes of the cell of a number. -/
def STy.bytes (t : STy) : Nat := if t.isReg then t.size else t.heapSize

/-- The cell at `q` holds `v`. -/
def Cell (σ : Store) (v : MVal) (q : Nat) : Prop := if v.ty.isReg then Slot σ v q else RepV σ v q

/-! ### Ownership

Every byte that holds (a part of) a number belongs to one cell of the memory of the machine, or to one
operand; nothing else is ever overwritten, in particular not the pointers from structs to their fields. -/

/-- One on the `n` bytes from `p` on. -/
def ind (p n x : Nat) : Nat := if p ≤ x ∧ x < p + n then 1 else 0

/-- How many cells of the memory of the machine a byte belongs to, if `ρ` are the addresses of the
cells. -/
def live : List Nat → Mem → Nat → Nat
  | q :: ρ, some v :: M, x => ind q v.ty.bytes x + live ρ M x
  | _ :: ρ, none :: M, x => live ρ M x
  | _, _, _ => 0

/-- All owners of a byte: cells, operands (`m`), operands of the calling functions (`fr`). -/
def Own (ρ : List Nat) (M : Mem) (m fr : Nat → Nat) (x : Nat) : Nat := live ρ M x + m x + fr x

/-- Allocated memory without an owner. -/
def Frozen (σ : Store) (own : Nat → Nat) (x : Nat) : Prop := x < σ.nextFree ∧ own x = 0

/-- The memory of the machine is represented, the addresses of the cells are `ρ`; every byte has at
most one owner. -/
structure World (σ : Store) (ρ : List Nat) (M : Mem) (own : Nat → Nat) : Prop where
  heap : Heap σ
  len : ρ.length = M.length
  cells : ∀ (l : Nat) v q, M[l]? = some (some v) → ρ[l]? = some q → Cell σ v q
  once : ∀ x, own x ≤ 1
  low : ∀ x, own x ≠ 0 → reserved ≤ x ∧ x < σ.nextFree

/-- From `σ` to `σ'` memory is only allocated and overwritten where it had an owner among the cells and
the operands of the function; and it gets no new owner. -/
structure Grows (fr : Nat → Nat) (σ : Store) (own : Nat → Nat) (σ' : Store) (own' : Nat → Nat) : Prop where
  alters : Alters (fun x => own x ≠ 0 ∧ fr x = 0) σ σ'
  own : ∀ x, x < σ.nextFree → own' x ≤ own x

mutual
/-- At `q` there is the value `d`; it owns the bytes given by `m`, and the pointers are in `Fz`. -/
def Holds (σ : Store) (Fz : Nat → Prop) : Data → Nat → (Nat → Nat) → Prop
  | .num v, q, m => Cell σ v q ∧ ∀ x, m x = ind q v.ty.bytes x
  | .struct _ ds, q, m => q ≤ σ.nextFree ∧ HoldsFs σ Fz ds q m
/-- The fields, the pointers to them starting at `p`. -/
def HoldsFs (σ : Store) (Fz : Nat → Prop) : List Data → Nat → (Nat → Nat) → Prop
  | [], _, m => ∀ x, m x = 0
  | d :: ds, p, m => ∃ m1 m2, (Mv.Within Fz p 4 ∧ Holds σ Fz d (leNat σ.mem p 4) m1) ∧
      HoldsFs σ Fz ds (p + 4) m2 ∧ ∀ x, m x = m1 x + m2 x
end

mutual
/-- The place `p` is at `q`. -/
def PlaceAt (σ : Store) (Fz : Nat → Prop) (ρ : List Nat) : Place → Nat → Prop
  | .leaf l, q => ρ[l]? = some q
  | .node _ ps, q => q ≤ σ.nextFree ∧ PlacesAt σ Fz ρ ps q
def PlacesAt (σ : Store) (Fz : Nat → Prop) (ρ : List Nat) : List Place → Nat → Prop
  | [], _ => True
  | p :: ps, a => (Mv.Within Fz a 4 ∧ PlaceAt σ Fz ρ p (leNat σ.mem a 4)) ∧ PlacesAt σ Fz ρ ps (a + 4)
end

/-- At `a` there is a pointer to the place `p`. -/
def SlotAt (σ : Store) (Fz : Nat → Prop) (ρ : List Nat) (p : Place) (a : Nat) : Prop :=
  Mv.Within Fz a 4 ∧ PlaceAt σ Fz ρ p (leNat σ.mem a 4)

/-- The WebAssembly value `w` represents an operand that owns `m`: numbers as above, structs by their
address, references by the address of a pointer to the place. -/
def OpdRep (σ : Store) (Fz : Nat → Prop) (ρ : List Nat) : Opd → Nat → (Nat → Nat) → Prop
  | .data (.num v), w, m => RepV σ v w ∧ ∀ x, m x = if v.ty.isReg then 0 else ind w v.ty.bytes x
  | .data (.struct id ds), w, m => Holds σ Fz (.struct id ds) w m
  | .ref r, w, m => SlotAt σ Fz ρ r.place w ∧ ∀ x, m x = 0

/-- The same for a list of operands. -/
def OpdsRep (σ : Store) (Fz : Nat → Prop) (ρ : List Nat) : List Opd → List Nat → (Nat → Nat) → Prop
  | [], [], m => ∀ x, m x = 0
  | o :: os, w :: ws, m => ∃ m1 m2, OpdRep σ Fz ρ o w m1 ∧ OpdsRep σ Fz ρ os ws m2 ∧ ∀ x, m x = m1 x + m2 x
  | _, _, _ => False

/-- Arguments of a function: references are passed as the address of the place
(`prepare_function_arguments`). -/
def ArgRep (σ : Store) (Fz : Nat → Prop) (ρ : List Nat) : Opd → Nat → (Nat → Nat) → Prop
  | .ref r, w, m => (w < 2 ^ 32 ∧ PlaceAt σ Fz ρ r.place w) ∧ ∀ x, m x = 0
  | o, w, m => OpdRep σ Fz ρ o w m

def ArgsRep (σ : Store) (Fz : Nat → Prop) (ρ : List Nat) : List Opd → List Nat → (Nat → Nat) → Prop
  | [], [], m => ∀ x, m x = 0
  | o :: os, w :: ws, m => ∃ m1 m2, ArgRep σ Fz ρ o w m1 ∧ ArgsRep σ Fz ρ os ws m2 ∧ ∀ x, m x = m1 x + m2 x
  | _, _, _ => False

/-- Memory from `p` on holds a tuple of values of types `ts`. -/
def TupleAt (σ : Store) : List Ty → List Nat → Nat → Prop
  | [], [], _ => True
  | t :: ts, w :: ws, p => (p + t.size ≤ σ.nextFree ∧ leNat σ.mem p t.size = w) ∧ TupleAt σ ts ws (p + t.size)
  | _, _, _ => False

/-- The results `r` of a compiled function represent `vs`. -/
def Results (σ : Store) (Fz : Nat → Prop) (ρ : List Nat) (vs : List Opd) (r : List Nat) (m : Nat → Nat) : Prop :=
  (vs = [] ∧ r = [] ∧ ∀ x, m x = 0) ∨
  (vs ≠ [] ∧ ∃ p ws, r = [p] ∧ TupleAt σ (vs.map (·.ty)) ws p ∧ OpdsRep σ Fz ρ vs ws m)

/-- The text a Move abort with code `c` reverts with: the code in decimal, or, for a tagged code that
refers to a constant holding a string, that string. -/
def AbortText (consts : List Const) (c : Nat) (text : List UInt8) : Prop :=
  text = Abi.text (toString c) ∨
  (c / 2 ^ 48 = 0x8000 ∧ ∃ k, consts[c % 65536]? = some k ∧
    k.data = UInt8.ofNat text.length :: text ∧ text.length < 256)

/-- The runtime errors that stand for a failed operation. -/
def FaultErr : Fault → RtErr → Prop
  | .cast _ _, e => e = .overflow ∨ e = .outOfBounds
  | _, e => e = .overflow

/-- The state in which the compiled function ends when the Move function fails (or aborts): memory in
use is unchanged, apart from the error word and from `R`. -/
def Failed (E : ErrPtrs) (consts : List Const) (R : Nat → Prop) (σ : Store) (h : Halt) (σ' : Store) : Prop :=
  match h with
  | .abort c => ∃ p text, 0 < p ∧ p < 2 ^ 32 ∧ Alters R (errStore σ p) σ' ∧ AbortText consts c text ∧
      p + 4 + (Abi.errorString text).length ≤ σ'.nextFree ∧
      leNat σ'.mem p 4 = (Abi.errorString text).length ∧
      ∀ i (h : i < (Abi.errorString text).length), σ'.mem (p + 4 + i) = (Abi.errorString text)[i]
  | .arith f => ∃ e, FaultErr f e ∧ Alters R (errStore σ (E e)) σ'
  | _ => False

/-- The compiled function `f`, called with `ws` in state `σ`, ends as `h` says, having allocated at most
`room` bytes if it returns.  The cells of the machine are at `ρ`, `own` gives the owners, `fr` those of
the operands of the calling functions. -/
def Ends (E : ErrPtrs) (consts : List Const) (f : Fn) (ws : List Nat) (σ : Store) (room : Nat)
    (ρ : List Nat) (own fr : Nat → Nat) (h : Halt) : Prop :=
  match h with
  | .ret vs M => f.Calls ws σ (fun r σ' => ∃ ρ' m, ρ <+: ρ' ∧ World σ' ρ' M (Own ρ' M m fr) ∧
      Grows fr σ own σ' (Own ρ' M m fr) ∧ σ'.nextFree ≤ σ.nextFree + room ∧
      Results σ' (Frozen σ' (Own ρ' M m fr)) ρ' vs r m)
  | .divZero => f.Traps ws σ
  | h => f.Calls ws σ (fun _ σ' => Failed E consts (fun x => own x ≠ 0 ∧ fr x = 0) σ h σ')

/-- States whose next instruction is one of those the code does not translate faithfully: a cast from
u256 to u128, a cast from u64 to u8 or u16 that does not fit, a multiplication of u128 or u256 that
overflows, the assignment of a struct through a reference. -/
def Excluded (F : MFun) (c : Cfg) : Prop :=
  match F.code[c.pc]?, c.stack with
  | some (.cast t), .data (.num x) :: _ => (t = .u128 ∧ x.ty = .int .u256) ∨
      (x.ty = .int (.reg .u64) ∧ (t = .reg .u8 ∨ t = .reg .u16) ∧ 2 ^ t.bits ≤ x.n)
  | some (.bin (.arith .mul)), .data (.num y) :: .data (.num x) :: _ =>
      (x.ty = .int .u128 ∨ x.ty = .int .u256) ∧ 2 ^ x.ty.bits ≤ x.n * y.n
  | some .writeRef, .ref _ :: .data (.struct _ _) :: _ => True
  | _, _ => False

/-- What the host says. -/
def told (h : Host) : Query → Nat → Nat
  | .sender, _ => h.sender
  | .value, _ => h.env.value
  | .number, _ => h.env.number
  | .timestamp, _ => h.env.timestamp
  | .gasLimit, _ => h.env.gasLimit
  | .chainId, _ => h.env.chainId
  | .baseFee, _ => h.env.baseFee
  | .gasPrice, _ => h.env.gasPrice
  | .balance, a => h.env.balance (a % 2 ^ 160)
  | .codeSize, a => h.env.codeSize (a % 2 ^ 160)

/-- The answers the program gets are what the host says; senders are addresses of 160 bits.  The code
reverses the bytes of `value`, `baseFee` and `gasPrice` (C70): there are answers only for numbers that
read the same from both ends. -/
def Truthful (P : Prog) (h : Host) : Prop :=
  ∀ q a n, P.answer q a = some n → n = told h q a ∧ n < 2 ^ q.res.bits ∧ (q = .sender → n < 2 ^ 160) ∧
    (q = .value ∨ q = .baseFee ∨ q = .gasPrice → bswap 32 n = n)

/-! ### When a control-flow tree fits the code

The control flow of a function is restructured by an external crate (`relooper`), which is not
modelled.  What its result has to satisfy is checked here: the flow is entered at the right
instruction, every jump lands where the bytecode says. -/

/-- The instruction a flow begins with, if execution continues with `K` after it. -/
def Flow.entry : Flow → Option Nat → Option Nat
  | .simple l _ _ _ _, _ => some l
  | .loop _ inner nx, K => inner.entry (nx.entry K)
  | .ifElse _ _, _ => none
  | .empty, K => K

/-- An enclosing block and the instruction at which a branch to it continues. -/
abbrev Frame := Tgt × Option Nat

/-- The branch emitted for a jump to `t` continues at `t`. -/
def lands (fs : List Frame) (m : Mode) (t : Nat) : Bool :=
  match resolve (fs.map (·.1)) m t with
  | some d => (fs[d]?).bind (·.2) == some t
  | none => false

def Bc.isJump : Bc → Bool
  | .branch _ => true | .brTrue _ => true | .brFalse _ => true | .ret => true | .abort => true
  | _ => false

/-- The jump `b` at `pc`, after which the flow `im` is translated. -/
def jumpOk (fs : List Frame) (br : List (Nat × Mode)) (im : Flow) (K : Option Nat) (pc : Nat) : Bc → Bool
  | .branch t =>
    match br.lookup t with
    | some m => lands fs m t
    | none => im.entry K == some t
  | .brTrue t =>
    match br.lookup t with
    | some m => lands fs m t && im.entry K == some (pc + 1)
    | none =>
      match im with
      | .ifElse a b => a.entry K == some t && b.entry K == some (pc + 1)
      | _ => false
  | .brFalse t =>
    match br.lookup t with
    | some m => lands fs m t && im.entry K == some (pc + 1)
    | none =>
      match im with
      | .ifElse a b => a.entry K == some (pc + 1) && b.entry K == some t
      | _ => false
  | _ => true

/-- A basic block: only its last instruction jumps, and if it does not, execution continues at a jump
target. -/
def blockOk (F : MFun) (fs : List Frame) (br : List (Nat × Mode)) (im : Flow) (K : Option Nat) :
    List Bc → Nat → Bool
  | [], pc => im.entry K == some pc && F.isTarget pc
  | b :: bs, pc =>
    if b.isJump then bs.isEmpty && jumpOk fs br im K pc b
    else blockOk F fs br im K bs (pc + 1)

def Flow.ok (F : MFun) : Flow → List Frame → Option Nat → Bool
  | .simple label len br im nx, fs, K =>
    blockOk F ((.simple nx.label?, nx.entry K) :: fs) br im (nx.entry K) ((F.code.drop label).take len) label &&
      im.ok F ((.simple nx.label?, nx.entry K) :: fs) (nx.entry K) && nx.ok F fs K
  | .loop id inner nx, fs, K =>
    inner.ok F ((.cont id, inner.entry (nx.entry K)) :: (.brk id, nx.entry K) :: fs) (nx.entry K) &&
      nx.ok F fs K
  | .ifElse a b, fs, K => a.ok F ((.plain, none) :: fs) K && b.ok F ((.plain, none) :: (.plain, none) :: fs) K
  | .empty, _, _ => true

/-- The flow of a whole function. -/
def Flow.fits (F : MFun) (flow : Flow) : Bool :=
  flow.entry none == some 0 && flow.ok F [(.result, none)] none

end Move
