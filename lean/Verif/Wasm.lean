import Verif.Mem

/-!
# A WebAssembly interpreter

The subset of WebAssembly emitted by move-stylus, as a total function.  It is the trusted
description of the machine on which the emitted code runs (no counterpart in `/repo`; the
opcode list is the set of walrus `BinaryOp`/`UnaryOp`/`LoadKind`/`StoreKind`/builder calls
occurring in `crates/move-bytecode-to-wasm/src`).

A value is a `Nat`, its unsigned interpretation; validated WebAssembly is type correct, so
values need no tag, and every operator takes its width from the opcode.
-/

namespace Wasm

/-- Operand width. -/
inductive W | w32 | w64
  deriving DecidableEq, Repr

/-- `2 ^ width`. -/
def W.mod : W → Nat
  | .w32 => 4294967296
  | .w64 => 18446744073709551616

/-- Number of bits. -/
def W.bits : W → Nat
  | .w32 => 32
  | .w64 => 64

/-- Binary operators (walrus `BinaryOp`). -/
inductive BinOp
  | add | sub | mul | divU | remU | divS | remS | and | or | xor | shl | shrU
  | eq | ne | ltU | gtU | leU | geU | ltS | gtS | leS | geS
  deriving DecidableEq, Repr

/-- Boolean results are `1`/`0`. -/
def b2n (p : Prop) [Decidable p] : Nat := if p then 1 else 0

/-- Signed interpretation of a word. -/
def toSigned (w : W) (a : Nat) : Int :=
  if a < w.mod / 2 then (a : Int) else (a : Int) - (w.mod : Int)

/-- Two's complement of a signed number. -/
def ofSigned (w : W) (a : Int) : Nat := (a % (w.mod : Int)).toNat

/-- Semantics of the binary operators; `none` is a trap. -/
def BinOp.eval (w : W) (a b : Nat) : BinOp → Option Nat
  | .add => some ((a + b) % w.mod)
  | .sub => some ((a + (w.mod - b)) % w.mod)
  | .mul => some ((a * b) % w.mod)
  | .divU => if b = 0 then none else some (a / b)
  | .remU => if b = 0 then none else some (a % b)
  | .divS =>
    if b = 0 then none
    else if toSigned w a = -((w.mod : Int) / 2) ∧ toSigned w b = -1 then none
    else some (ofSigned w (Int.tdiv (toSigned w a) (toSigned w b)))
  | .remS => if b = 0 then none else some (ofSigned w (Int.tmod (toSigned w a) (toSigned w b)))
  | .and => some (a &&& b)
  | .or => some (a ||| b)
  | .xor => some (a ^^^ b)
  | .shl => some (a * 2 ^ (b % w.bits) % w.mod)
  | .shrU => some (a / 2 ^ (b % w.bits))
  | .eq => some (b2n (a = b))
  | .ne => some (b2n (a ≠ b))
  | .ltU => some (b2n (a < b))
  | .gtU => some (b2n (b < a))
  | .leU => some (b2n (a ≤ b))
  | .geU => some (b2n (b ≤ a))
  | .ltS => some (b2n (toSigned w a < toSigned w b))
  | .gtS => some (b2n (toSigned w b < toSigned w a))
  | .leS => some (b2n (toSigned w a ≤ toSigned w b))
  | .geS => some (b2n (toSigned w b ≤ toSigned w a))

/-- Unary operators (walrus `UnaryOp`). -/
inductive UnOp
  | eqz
  /-- `i32.wrap_i64` -/
  | wrap
  /-- `i64.extend_i32_u` -/
  | extend
  deriving DecidableEq, Repr

def UnOp.eval (a : Nat) : UnOp → Nat
  | .eqz => b2n (a = 0)
  | .wrap => a % 4294967296
  | .extend => a

/-- The mutable globals of a compiled contract (memory.rs 30-42, 162-171). -/
inductive Glob | nextFree | avail | reader
  deriving DecidableEq, Repr

/-- The ways of calling another contract (hostio/host_functions.rs 191-300). -/
inductive CallKind | call | static | delegate
  deriving DecidableEq, Repr

/-- A message to another contract. -/
structure Msg where
  kind : CallKind
  to : Nat
  data : List UInt8
  value : Nat
  gas : Nat
  deriving DecidableEq, Repr

/-- How a called contract ends: status (zero on success), returned data and the storage of the
calling contract afterwards (the callee may call back, or be a delegate). -/
structure Reply where
  status : Nat
  data : List UInt8
  storage : Nat → Nat

/-- What a contract can learn about the transaction, the block and other accounts, and the behaviour
of other contracts, an arbitrary function of the messages sent so far (the last one is the one to be
answered) and the contract's storage. -/
structure Env where
  timestamp : Nat := 0
  number : Nat := 0
  gasLimit : Nat := 0
  chainId : Nat := 0
  value : Nat := 0
  baseFee : Nat := 0
  gasPrice : Nat := 0
  balance : Nat → Nat := fun _ => 0
  codeSize : Nat → Nat := fun _ => 0
  reply : List Msg → (Nat → Nat) → Reply := fun _ s => ⟨0, [], s⟩

/-- The Stylus host as seen by a contract.  A slot and a word are 256-bit numbers (their
bytes in memory are big-endian).  `storage` is the view of storage including cached writes,
`committed` is what has been flushed.  `keccak` is an arbitrary function. -/
structure Host where
  keccak : List UInt8 → Nat
  storage : Nat → Nat
  committed : Nat → Nat
  calldata : List UInt8
  result : Option (List UInt8)
  origin : Nat
  sender : Nat
  logs : List (Nat × List UInt8)
  env : Env
  /-- messages sent to other contracts, the last one at the end -/
  calls : List Msg
  /-- data returned by the last one -/
  returned : List UInt8

/-- Machine state shared by all functions. -/
structure Store where
  mem : Bytes
  /-- size of the memory in bytes (a multiple of 65536) -/
  size : Nat
  /-- memory limit in pages; `memory.grow` fails beyond it -/
  maxPages : Nat
  nextFree : Nat
  avail : Nat
  reader : Nat
  host : Host

def Store.getGlob (σ : Store) : Glob → Nat
  | .nextFree => σ.nextFree
  | .avail => σ.avail
  | .reader => σ.reader

def Store.setGlob (σ : Store) (g : Glob) (v : Nat) : Store :=
  match g with
  | .nextFree => { σ with nextFree := v }
  | .avail => { σ with avail := v }
  | .reader => { σ with reader := v }

def Store.setMem (σ : Store) (m : Bytes) : Store := { σ with mem := m }
def Store.setHost (σ : Store) (h : Host) : Store := { σ with host := h }

/-- The bytes of a memory range. -/
def rdBytes (f : Bytes) (a : Nat) : Nat → List UInt8
  | 0 => []
  | n + 1 => f a :: rdBytes f (a + 1) n

/-- Overwrite memory with a list of bytes. -/
def wrBytes (f : Bytes) (a : Nat) (l : List UInt8) : Bytes :=
  fun x => if a ≤ x ∧ x < a + l.length then l.getD (x - a) 0 else f x

/-- Host functions (hostio/host_functions.rs). -/
inductive HostFn
  | readArgs | writeResult | storageLoad | storageCache | storageFlush
  | keccak | txOrigin | msgSender | emitLog
  | timestamp | blockNumber | gasLimit | chainId | msgValue | baseFee | gasPrice | balance | codeSize
  | callContract | staticCall | delegateCall | readReturn
  deriving DecidableEq, Repr

/-- The host after a message.  Storage written by the callee becomes visible, except where the caller
has a cached write that was not flushed; a static call changes nothing. -/
def Host.send (h : Host) (m : Msg) : Host :=
  let r := h.env.reply (h.calls ++ [m]) h.committed
  let st := if m.kind = .static then h.committed else r.storage
  { h with
    calls := h.calls ++ [m], returned := r.data, committed := st,
    storage := fun x => if h.storage x = h.committed x then st x else h.storage x }

/-- The status of a message. -/
def Host.status (h : Host) (m : Msg) : Nat := (h.env.reply (h.calls ++ [m]) h.committed).status

/-- Sending a message and storing the length of the returned data at `o`. -/
def Store.sendMsg (σ : Store) (m : Msg) (o : Nat) (s : List Nat) : Option (List Nat × Store) :=
  if o + 4 ≤ σ.size then
    some (σ.host.status m % 4294967296 :: s,
      (σ.setHost (σ.host.send m)).setMem (putLe σ.mem o 4 (σ.host.send m).returned.length))
  else none

/-- Semantics of host calls on the operand stack (last argument on top). -/
def HostFn.eval (σ : Store) : HostFn → List Nat → Option (List Nat × Store)
  | .readArgs, p :: s =>
    if p + σ.host.calldata.length ≤ σ.size then
      some (s, σ.setMem (wrBytes σ.mem p σ.host.calldata)) else none
  | .writeResult, n :: p :: s =>
    if p + n ≤ σ.size then
      some (s, σ.setHost { σ.host with result := some (rdBytes σ.mem p n) }) else none
  | .storageLoad, d :: k :: s =>
    if k + 32 ≤ σ.size ∧ d + 32 ≤ σ.size then
      some (s, σ.setMem (putBe σ.mem d 32 (σ.host.storage (beNat σ.mem k 32)))) else none
  | .storageCache, v :: k :: s =>
    if k + 32 ≤ σ.size ∧ v + 32 ≤ σ.size then
      some (s, σ.setHost { σ.host with
        storage := fun x => if x = beNat σ.mem k 32 then beNat σ.mem v 32
          else σ.host.storage x }) else none
  | .storageFlush, _ :: s =>
    some (s, σ.setHost { σ.host with committed := σ.host.storage })
  | .keccak, o :: n :: p :: s =>
    if p + n ≤ σ.size ∧ o + 32 ≤ σ.size then
      some (s, σ.setMem (putBe σ.mem o 32 (σ.host.keccak (rdBytes σ.mem p n)))) else none
  | .txOrigin, p :: s =>
    if p + 20 ≤ σ.size then some (s, σ.setMem (putBe σ.mem p 20 σ.host.origin)) else none
  | .msgSender, p :: s =>
    if p + 20 ≤ σ.size then some (s, σ.setMem (putBe σ.mem p 20 σ.host.sender)) else none
  | .emitLog, t :: n :: p :: s =>
    if p + n ≤ σ.size then
      some (s, σ.setHost { σ.host with logs := σ.host.logs ++ [(t, rdBytes σ.mem p n)] })
    else none
  | .timestamp, s => some (σ.host.env.timestamp % 2 ^ 64 :: s, σ)
  | .blockNumber, s => some (σ.host.env.number % 2 ^ 64 :: s, σ)
  | .gasLimit, s => some (σ.host.env.gasLimit % 2 ^ 64 :: s, σ)
  | .chainId, s => some (σ.host.env.chainId % 2 ^ 64 :: s, σ)
  | .msgValue, p :: s =>
    if p + 32 ≤ σ.size then some (s, σ.setMem (putBe σ.mem p 32 σ.host.env.value)) else none
  | .baseFee, p :: s =>
    if p + 32 ≤ σ.size then some (s, σ.setMem (putBe σ.mem p 32 σ.host.env.baseFee)) else none
  | .gasPrice, p :: s =>
    if p + 32 ≤ σ.size then some (s, σ.setMem (putBe σ.mem p 32 σ.host.env.gasPrice)) else none
  | .balance, p :: a :: s =>
    if a + 20 ≤ σ.size ∧ p + 32 ≤ σ.size then
      some (s, σ.setMem (putBe σ.mem p 32 (σ.host.env.balance (beNat σ.mem a 20)))) else none
  | .codeSize, a :: s =>
    if a + 20 ≤ σ.size then
      some (σ.host.env.codeSize (beNat σ.mem a 20) % 4294967296 :: s, σ) else none
  | .callContract, o :: g :: v :: n :: p :: a :: s =>
    if a + 20 ≤ σ.size ∧ p + n ≤ σ.size ∧ v + 32 ≤ σ.size then
      σ.sendMsg ⟨.call, beNat σ.mem a 20, rdBytes σ.mem p n, beNat σ.mem v 32, g⟩ o s else none
  | .staticCall, o :: g :: n :: p :: a :: s =>
    if a + 20 ≤ σ.size ∧ p + n ≤ σ.size then
      σ.sendMsg ⟨.static, beNat σ.mem a 20, rdBytes σ.mem p n, 0, g⟩ o s else none
  | .delegateCall, o :: g :: n :: p :: a :: s =>
    if a + 20 ≤ σ.size ∧ p + n ≤ σ.size then
      σ.sendMsg ⟨.delegate, beNat σ.mem a 20, rdBytes σ.mem p n, 0, g⟩ o s else none
  | .readReturn, n :: o :: d :: s =>
    let bs := (σ.host.returned.drop o).take n
    if d + bs.length ≤ σ.size then
      some (bs.length :: s, σ.setMem (wrBytes σ.mem d bs)) else none
  | _, _ => none

/-- Instructions without control flow. -/
inductive Op
  | c32 (v : Nat)
  | c64 (v : Nat)
  | lget (i : Nat)
  | lset (i : Nat)
  | ltee (i : Nat)
  | gget (g : Glob)
  | gset (g : Glob)
  | bin (w : W) (o : BinOp)
  | un (o : UnOp)
  /-- load `k` bytes, zero extended, at address operand + `off` -/
  | load (k off : Nat)
  /-- store the low `k` bytes at address operand + `off` -/
  | store (k off : Nat)
  | memCopy
  | memFill
  | memGrow
  | drop
  | unreachable
  | host (h : HostFn)
  deriving DecidableEq, Repr

/-- Read a local. -/
def lget : List Nat → Nat → Nat
  | [], _ => 0
  | x :: _, 0 => x
  | _ :: xs, n + 1 => lget xs n

/-- Write a local. -/
def lset : List Nat → Nat → Nat → List Nat
  | [], _, _ => []
  | _ :: xs, 0, v => v :: xs
  | x :: xs, n + 1, v => x :: lset xs n v

/-- One instruction on (operand stack, locals, store); `none` is a trap. -/
def Op.exec : Op → List Nat → List Nat → Store → Option (List Nat × List Nat × Store)
  | .c32 v, s, l, σ => some (v % 4294967296 :: s, l, σ)
  | .c64 v, s, l, σ => some (v % 18446744073709551616 :: s, l, σ)
  | .lget i, s, l, σ => some (Wasm.lget l i :: s, l, σ)
  | .lset i, v :: s, l, σ => some (s, Wasm.lset l i v, σ)
  | .ltee i, v :: s, l, σ => some (v :: s, Wasm.lset l i v, σ)
  | .gget g, s, l, σ => some (σ.getGlob g :: s, l, σ)
  | .gset g, v :: s, l, σ => some (s, l, σ.setGlob g v)
  | .bin w o, b :: a :: s, l, σ =>
    match o.eval w a b with
    | some r => some (r :: s, l, σ)
    | none => none
  | .un o, a :: s, l, σ => some (o.eval a :: s, l, σ)
  | .load k off, a :: s, l, σ =>
    if a + off + k ≤ σ.size then some (leNat σ.mem (a + off) k :: s, l, σ) else none
  | .store k off, v :: a :: s, l, σ =>
    if a + off + k ≤ σ.size then some (s, l, σ.setMem (putLe σ.mem (a + off) k v)) else none
  | .memCopy, n :: src :: d :: s, l, σ =>
    if src + n ≤ σ.size ∧ d + n ≤ σ.size then
      some (s, l, σ.setMem (copyBytes σ.mem d src n)) else none
  | .memFill, n :: v :: d :: s, l, σ =>
    if d + n ≤ σ.size then some (s, l, σ.setMem (fillBytes σ.mem d v n)) else none
  | .memGrow, n :: s, l, σ =>
    if σ.size / 65536 + n ≤ σ.maxPages then
      some (σ.size / 65536 :: s, l, { σ with
        size := σ.size + n * 65536
        mem := fun x => if x < σ.size then σ.mem x else 0 })
    else some (4294967295 :: s, l, σ)
  | .drop, _ :: s, l, σ => some (s, l, σ)
  | .unreachable, _, _, _ => none
  | .host h, s, l, σ =>
    match h.eval σ s with
    | some (s', σ') => some (s', l, σ')
    | none => none
  | _, _, _, _ => none

/-- Structured instructions. -/
inductive Instr
  | op (o : Op)
  /-- `block` with `ar` results -/
  | block (ar : Nat) (body : List Instr)
  /-- `loop` without parameters, with `ar` results -/
  | loop (ar : Nat) (body : List Instr)
  | ite (ar : Nat) (thn els : List Instr)
  | br (k : Nat)
  | brIf (k : Nat)
  | ret
  /-- call of a function with `na` parameters, `nr` results, `nl` further locals -/
  | call (na nr nl : Nat) (body : List Instr)

instance : Coe Op Instr := ⟨.op⟩

/-- Outcome of executing a sequence. -/
inductive Res
  | ok (stk loc : List Nat) (σ : Store)
  | br (k : Nat) (stk loc : List Nat) (σ : Store)
  | ret (stk : List Nat) (σ : Store)
  | trap
  /-- out of fuel -/
  | oof

/-- The interpreter.  Every instruction costs one unit of fuel. -/
def run : Nat → List Instr → List Nat → List Nat → Store → Res
  | 0, _, _, _, _ => .oof
  | _ + 1, [], s, l, σ => .ok s l σ
  | n + 1, i :: is, s, l, σ =>
    match i with
    | .op o =>
      match o.exec s l σ with
      | some (s', l', σ') => run n is s' l' σ'
      | none => .trap
    | .block ar b =>
      match run n b [] l σ with
      | .ok s' l' σ' => run n is (s'.take ar ++ s) l' σ'
      | .br 0 s' l' σ' => run n is (s'.take ar ++ s) l' σ'
      | .br (k + 1) s' l' σ' => .br k s' l' σ'
      | r => r
    | .loop ar b =>
      match run n b [] l σ with
      | .ok s' l' σ' => run n is (s'.take ar ++ s) l' σ'
      | .br 0 _ l' σ' => run n (.loop ar b :: is) s l' σ'
      | .br (k + 1) s' l' σ' => .br k s' l' σ'
      | r => r
    | .ite ar t e =>
      match s with
      | [] => .trap
      | c :: s =>
        match run n (if c ≠ 0 then t else e) [] l σ with
        | .ok s' l' σ' => run n is (s'.take ar ++ s) l' σ'
        | .br 0 s' l' σ' => run n is (s'.take ar ++ s) l' σ'
        | .br (k + 1) s' l' σ' => .br k s' l' σ'
        | r => r
    | .br k => .br k s l σ
    | .brIf k =>
      match s with
      | [] => .trap
      | c :: s => if c ≠ 0 then .br k s l σ else run n is s l σ
    | .ret => .ret s σ
    | .call na nr nl b =>
      if s.length < na then .trap
      else
        match run n b [] ((s.take na).reverse ++ List.replicate nl 0) σ with
        | .ok s' _ σ' => run n is (s'.take nr ++ s.drop na) l σ'
        | .br 0 s' _ σ' => run n is (s'.take nr ++ s.drop na) l σ'
        | .br (_ + 1) _ _ _ => .trap
        | .ret s' σ' => run n is (s'.take nr ++ s.drop na) l σ'
        | .trap => .trap
        | .oof => .oof

/-- More fuel does not change a finished run. -/
theorem run_mono {n : Nat} : ∀ {m : Nat} {is s l σ}, n ≤ m → run n is s l σ ≠ .oof →
    run m is s l σ = run n is s l σ := by
  induction n with
  | zero => intro m is s l σ _ h; simp [run] at h
  | succ n ih =>
    intro m is s l σ hm h
    obtain ⟨m, rfl⟩ : ∃ k, m = k + 1 := ⟨m - 1, by omega⟩
    have hnm : n ≤ m := by omega
    cases is with
    | nil => rfl
    | cons i is =>
      have key : ∀ b s l σ, run n b s l σ ≠ .oof → run m b s l σ = run n b s l σ :=
        fun b s l σ => ih hnm
      cases i with
      | op o =>
        simp only [run] at h ⊢
        cases ho : o.exec s l σ with
        | none => rfl
        | some r =>
          obtain ⟨s', l', σ'⟩ := r
          rw [ho] at h
          exact key _ _ _ _ h
      | block ar b =>
        simp only [run] at h ⊢
        have hb : run n b [] l σ ≠ .oof := by
          intro hc; rw [hc] at h; exact h rfl
        rw [key _ _ _ _ hb]
        cases hr : run n b [] l σ with
        | ok s' l' σ' => rw [hr] at h; exact key _ _ _ _ h
        | br k s' l' σ' =>
          rw [hr] at h
          cases k with
          | zero => exact key _ _ _ _ h
          | succ k => rfl
        | ret => rfl
        | trap => rfl
        | oof => rfl
      | loop ar b =>
        simp only [run] at h ⊢
        have hb : run n b [] l σ ≠ .oof := by
          intro hc; rw [hc] at h; exact h rfl
        rw [key _ _ _ _ hb]
        cases hr : run n b [] l σ with
        | ok s' l' σ' => rw [hr] at h; exact key _ _ _ _ h
        | br k s' l' σ' =>
          rw [hr] at h
          cases k with
          | zero => exact key _ _ _ _ h
          | succ k => rfl
        | ret => rfl
        | trap => rfl
        | oof => rfl
      | ite ar t e =>
        cases s with
        | nil => rfl
        | cons c s =>
          simp only [run] at h ⊢
          have hb : run n (if c ≠ 0 then t else e) [] l σ ≠ .oof := by
            intro hc; rw [hc] at h; exact h rfl
          rw [key _ _ _ _ hb]
          cases hr : run n (if c ≠ 0 then t else e) [] l σ with
          | ok s' l' σ' => rw [hr] at h; exact key _ _ _ _ h
          | br k s' l' σ' =>
            rw [hr] at h
            cases k with
            | zero => exact key _ _ _ _ h
            | succ k => rfl
          | ret => rfl
          | trap => rfl
          | oof => rfl
      | br k => rfl
      | brIf k =>
        cases s with
        | nil => rfl
        | cons c s =>
          simp only [run] at h ⊢
          by_cases hc : c = 0
          · subst hc
            simp only [ne_eq, not_true_eq_false, if_false] at h ⊢
            exact key _ _ _ _ h
          · rw [if_pos hc]; rw [if_pos hc]
      | ret => rfl
      | call na nr nl b =>
        simp only [run] at h ⊢
        by_cases hl : s.length < na
        · rw [if_pos hl, if_pos hl]
        · rw [if_neg hl] at h ⊢
          rw [if_neg hl]
          have hb : run n b [] ((s.take na).reverse ++ List.replicate nl 0) σ ≠ .oof := by
            intro hc; rw [hc] at h; exact h rfl
          rw [key _ _ _ _ hb]
          cases hr : run n b [] ((s.take na).reverse ++ List.replicate nl 0) σ with
          | ok s' l' σ' => rw [hr] at h; exact key _ _ _ _ h
          | br k s' l' σ' =>
            rw [hr] at h
            cases k with
            | zero => exact key _ _ _ _ h
            | succ k => rfl
          | ret => rw [hr] at h; exact key _ _ _ _ h
          | trap => rfl
          | oof => rfl

end Wasm
