import Verif.Rt.Ext

/-!
# The memory allocator

Transcription of `setup_module_memory` (memory.rs 23-174).
-/

namespace Rt
open Wasm

/-- The allocator (memory.rs 44-124).
Locals: requested_size, memory_delta, grow_pages, memory_pointer. -/
def alloc : Fn := ⟨1, 1, 3,
  [.block 0
     [Op.lget 0, Op.gget .avail, Op.bin .w32 .sub,
      Op.ltee 1,
      Op.c32 0, Op.bin .w32 .leS, .brIf 0,
      .block 0
        [Op.lget 1, Op.c32 65536, Op.bin .w32 .divU,
         Op.c32 1, Op.bin .w32 .add, Op.ltee 2,
         Op.memGrow,
         Op.c32 0, Op.bin .w32 .gtS,
         .ite 0
           [Op.lget 2, Op.c32 65536, Op.bin .w32 .mul, Op.gget .avail, Op.bin .w32 .add,
            Op.gset .avail]
           [Op.unreachable]]],
   Op.gget .nextFree, Op.ltee 3, Op.lget 0, Op.bin .w32 .add, Op.gset .nextFree,
   Op.gget .avail, Op.lget 0, Op.bin .w32 .sub, Op.gset .avail,
   Op.lget 3]⟩

/-- The state of the allocator between two allocations: the free memory is exactly the part of
linear memory from `nextFree` on, at most one page.  Memory consists of whole pages and cannot grow to the full
4 GiB (Stylus limits it to far less). -/
structure AllocOk (σ : Store) : Prop where
  sum : σ.nextFree + σ.avail = σ.size
  page : σ.size % 65536 = 0
  first : 65536 ≤ σ.size
  limit : σ.size ≤ σ.maxPages * 65536
  max : σ.maxPages ≤ 65535
  small : σ.avail ≤ 65536

/-- Enough memory is free, or can be obtained by growing, for a block of `n` bytes. -/
def CanAlloc (σ : Store) (n : Nat) : Prop :=
  n < 2 ^ 31 ∧ (n ≤ σ.avail ∨ σ.size / 65536 + ((n - σ.avail) / 65536 + 1) ≤ σ.maxPages)

/-- Effect of a successful allocation: a specification, not part of the code. -/
def allocated (σ : Store) (n : Nat) : Store :=
  if n ≤ σ.avail then { σ with nextFree := σ.nextFree + n, avail := σ.avail - n }
  else
    let pages := (n - σ.avail) / 65536 + 1
    { σ with
      size := σ.size + pages * 65536
      mem := fun x => if x < σ.size then σ.mem x else 0
      nextFree := σ.nextFree + n
      avail := σ.avail + pages * 65536 - n }

end Rt
