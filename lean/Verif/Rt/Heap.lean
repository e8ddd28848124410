import Verif.Rt.Alloc

/-!
# Well-formed heaps

Vocabulary for statements about functions that allocate.  Nothing here is code of `/repo`.
-/

namespace Rt
open Wasm

/-- End of the fixed data area (`TOTAL_RESERVED`, data.rs 36-60). -/
def reserved : Nat := 468

/-- A running contract between two operations: `Ready`, the allocator is in order, its first free
byte is past the fixed data area, and memory that has not been handed out is zero (linear memory
starts out zeroed and nothing is written before it has been allocated). -/
structure Heap (σ : Store) : Prop where
  ready : Ready σ
  alloc : AllocOk σ
  base : reserved ≤ σ.nextFree
  fresh : ∀ x, σ.nextFree ≤ x → σ.mem x = 0

/-- `σ'` arises from `σ` by allocating and writing to newly allocated memory only. -/
structure Extends (σ σ' : Store) : Prop where
  nextFree : σ.nextFree ≤ σ'.nextFree
  size : σ.size ≤ σ'.size
  mem : ∀ x, x < σ.nextFree → σ'.mem x = σ.mem x
  fresh : ∀ x, σ'.nextFree ≤ x → σ'.mem x = 0
  alloc : AllocOk σ'
  maxPages : σ'.maxPages = σ.maxPages
  reader : σ'.reader = σ.reader
  host : σ'.host = σ.host

/-- The call returns a pointer to a newly allocated block of `n` bytes holding the
little-endian number `v`; existing memory does not change. -/
def ReturnsInt (f : Fn) (args : List Nat) (σ : Store) (n v : Nat) : Prop :=
  f.Calls args σ (fun r σ' => ∃ q, r = [q] ∧ σ.nextFree ≤ q ∧ (q + n ≤ σ'.nextFree ∧ σ'.nextFree ≤ σ.nextFree + 2 * n) ∧
    leNat σ'.mem q n = v ∧ Extends σ σ')

/-- The call raises the runtime error with message at `p`; apart from the error word existing
memory does not change. -/
def Raises (f : Fn) (args : List Nat) (σ : Store) (p : Nat) : Prop :=
  f.Calls args σ (fun _ σ' => Extends (errStore σ p) σ')

/-- Checked operation with a heap result. -/
def CheckedInt (f : Fn) (args : List Nat) (σ : Store) (p n : Nat) : Option Nat → Prop
  | some v => ReturnsInt f args σ n v
  | none => Raises f args σ p

/-- A budget of `n` bytes: at least that much can still be allocated, in blocks of any sizes. -/
def Room (σ : Store) (n : Nat) : Prop :=
  n < 2 ^ 31 ∧ σ.nextFree + n + 65536 ≤ σ.maxPages * 65536

end Rt
