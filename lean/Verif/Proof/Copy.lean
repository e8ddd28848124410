import Verif.Proof.Values
import Verif.Proof.Unpack

/-! Copies of structured values. -/

namespace Rt
open Wasm Mv

variable {σ σ' σ'' : Store} {E : ErrPtrs}

/-- A budget of `n` bytes; if `b`, they and three more bytes are already part of the memory. -/
def Fit (σ : Store) (b : Bool) (n : Nat) : Prop :=
  Room σ n ∧ (b = true → σ.nextFree + n + 3 ≤ σ.size)

theorem Fit.mono {b c : Bool} {n k : Nat} (h : Fit σ b n) (hk : k ≤ n) (hb : c = true → b = true) : Fit σ c k :=
  ⟨h.1.mono hk, fun hc => by have := h.2 (hb hc); omega⟩

theorem Fit.after {b c : Bool} {n k m : Nat} (h : Fit σ b m) (hm : k + n ≤ m) (hn : σ'.nextFree = σ.nextFree + k)
    (hp : σ'.maxPages = σ.maxPages) (hs : σ.size ≤ σ'.size) (hb : c = true → b = true) : Fit σ' c n :=
  ⟨(h.1.mono hm).after (by omega) hp, fun hc => by have := h.2 (hb hc); omega⟩

/-- The addresses from `a` to `b`. -/
def Between (a b : Nat) : Nat → Prop := fun x => a ≤ x ∧ x < b

/-- `σ'` is reached from `σ` by code that allocates, writes newly allocated memory and existing
memory at addresses satisfying `R`. -/
structure Alters (R : Nat → Prop) (σ σ' : Store) : Prop where
  nextFree : σ.nextFree ≤ σ'.nextFree
  size : σ.size ≤ σ'.size
  mem : ∀ x, x < σ.nextFree → ¬ R x → σ'.mem x = σ.mem x
  fresh : ∀ x, σ'.nextFree ≤ x → σ'.mem x = 0
  alloc : AllocOk σ'
  maxPages : σ'.maxPages = σ.maxPages
  reader : σ'.reader = σ.reader
  host : σ'.host = σ.host

theorem Extends.alters {R : Nat → Prop} (h : Extends σ σ') : Alters R σ σ' :=
  ⟨h.nextFree, h.size, fun x hx _ => h.mem x hx, h.fresh, h.alloc, h.maxPages, h.reader, h.host⟩

theorem Alters.trans {R : Nat → Prop} (h : Alters R σ σ') (h' : Alters R σ' σ'') : Alters R σ σ'' :=
  ⟨Nat.le_trans h.nextFree h'.nextFree, Nat.le_trans h.size h'.size,
    fun x hx hr => by rw [h'.mem x (Nat.lt_of_lt_of_le hx h.nextFree) hr, h.mem x hx hr], h'.fresh, h'.alloc,
    h'.maxPages.trans h.maxPages, h'.reader.trans h.reader, h'.host.trans h.host⟩

theorem Alters.mono {R S : Nat → Prop} (h : Alters R σ σ') (hRS : ∀ x, x < σ.nextFree → R x → S x) : Alters S σ σ' :=
  ⟨h.nextFree, h.size, fun x hx hr => h.mem x hx fun h' => hr (hRS x hx h'), h.fresh, h.alloc, h.maxPages,
    h.reader, h.host⟩

theorem Extends.then {R : Nat → Prop} (h : Extends σ σ') (h' : Alters R σ' σ'')
    (hR : ∀ x, R x → σ.nextFree ≤ x) : Extends σ σ'' :=
  ⟨Nat.le_trans h.nextFree h'.nextFree, Nat.le_trans h.size h'.size,
    fun x hx => by
      rw [h'.mem x (Nat.lt_of_lt_of_le hx h.nextFree) (fun h => by have := hR x h; omega), h.mem x hx],
    h'.fresh, h'.alloc,
    h'.maxPages.trans h.maxPages, h'.reader.trans h.reader, h'.host.trans h.host⟩

theorem Alters.write {R : Nat → Prop} (h : Alters R σ σ') {m : Bytes}
    (hm : ∀ x, x < σ.nextFree → ¬ R x → m x = σ'.mem x) (hm' : ∀ x, σ'.nextFree ≤ x → m x = 0) :
    Alters R σ (σ'.setMem m) :=
  ⟨h.nextFree, h.size, fun x hx hr => by rw [setMem_mem, hm x hx hr, h.mem x hx hr],
    fun x hx => hm' x hx, h.alloc.setMem, h.maxPages, h.reader, h.host⟩

theorem Alters.heap {R : Nat → Prop} (h : Alters R σ σ') (hσ : Heap σ) (hR : ∀ x, R x → x < 256 ∨ 260 ≤ x) : Heap σ' := by
  have hb := hσ.base
  unfold reserved at hb
  refine ⟨⟨h.alloc.first, h.alloc.size_lt, ?_⟩, h.alloc, ?_, h.fresh⟩
  · rw [← hσ.ready.noErr]
    exact leNat_congr fun x (h1 : 256 ≤ x) (h2 : x < 256 + 4) => h.mem x (by omega) fun h3 => by
      have := hR x h3; omega
  · have := h.nextFree; unfold reserved; omega

theorem Alters.leNat {R : Nat → Prop} (h : Alters R σ σ') {p n : Nat} (hn : p + n ≤ σ.nextFree)
    (hp : ∀ x, p ≤ x → x < p + n → ¬ R x) :
    leNat σ'.mem p n = leNat σ.mem p n := leNat_congr fun x h1 h2 => h.mem x (by omega) (hp x h1 h2)

theorem Alloced.extends {n : Nat} (h : Alloced n σ σ') : Extends σ σ' :=
  ⟨by rw [h.nextFree]; omega, h.size, fun x _ => by rw [h.mem], h.heap.fresh, h.heap.alloc, h.maxPages, h.reader, h.host⟩

/-! ### Copies of blocks -/

/-- `σ'` has a new block, a copy of the `n` bytes at `p`. -/
structure Copied (n p : Nat) (σ σ' : Store) : Prop where
  ext : Extends σ σ'
  nextFree : σ'.nextFree = σ.nextFree + n
  bytes : ∀ i, i < n → σ'.mem (σ.nextFree + i) = σ.mem (p + i)

theorem Alloced.copied {n p : Nat} (h : Alloced n σ σ') :
    Copied n p σ (σ'.setMem (copyBytes σ'.mem σ.nextFree p n)) := by
  refine ⟨?_, h.nextFree, ?_⟩
  · refine h.extends.write (fun x hx => copyBytes_out (by omega)) (fun x hx => copyBytes_out ?_)
    rw [h.nextFree] at hx; omega
  · intro i hi
    rw [setMem_mem, copyBytes_in (by omega) (by omega), h.mem]
    congr 1; omega

theorem copyHeap_copied {p n : Nat} (hσ : Heap σ) (hr : Room σ n) (hp : p + n ≤ σ.nextFree) :
    (copyHeap n).Calls [p] σ (fun r σ' => r = [σ.nextFree] ∧ Copied n p σ σ') := by
  have h1 := hσ.alloc.nextFree_le
  have hn := hr.1
  refine ⟨rfl, ?_⟩
  unfold copyHeap
  wstep
  refine wp_allocR hσ hr (Nat.le_refl _) fun σ1 a1 => ?_
  have h2 := a1.inside
  have h3 := a1.nextFree
  have h4 := a1.size
  wstep
  exact a1.copied

/-- What the copy of a value of type `t` achieves. -/
structure CopyOf (σ σ' : Store) (t : Ty) (v : Val) (w' : Nat) : Prop where
  ext : Extends σ σ'
  nextFree : σ'.nextFree = σ.nextFree + cost t v
  rep : Mv.Rep σ'.mem (Between σ.nextFree σ'.nextFree) t v w'
  lt : w' < 256 ^ t.size

/-- What is needed to copy a value. -/
structure CopyPre (σ : Store) (R : Nat → Prop) (t : Ty) (v : Val) (w : Nat) : Prop where
  heap : Heap σ
  fit : Fit σ t.spills (cost t v)
  below : ∀ x, R x → x < σ.nextFree
  rep : Mv.Rep σ.mem R t v w

/-- The code `copyP E t k` copies a value of type `t`. -/
def CopyOk (E : ErrPtrs) (t : Ty) : Prop :=
  ∀ (σ : Store) (R : Nat → Prop) (v : Val) (w k : Nat) (s l : List Nat) (is : List Instr) (Q : Res → Prop),
    CopyPre σ R t v w → k + nlP t ≤ l.length →
    (∀ σ' w' l', CopyOf σ σ' t v w' → l'.length = l.length → (∀ j, j < k → lget l' j = lget l j) →
      wp is (w' :: s) l' σ' Q) →
    wp (copyP E t k ++ is) (w :: s) l σ Q

theorem Copied.of {n p : Nat} {t : Ty} {v : Val} {R : Nat → Prop} (h : Copied n p σ σ')
    (ht : t = .u128 ∧ n = 16 ∨ t = .u256 ∧ n = 32 ∨ t = .address ∧ n = 32) (hr : Mv.Rep σ.mem R t v p) :
    CopyOf σ σ' t v σ.nextFree := by
  have hl := h.ext.alloc.size_lt
  have hl' := h.ext.alloc.nextFree_le
  have hn := h.nextFree
  have hw : Within (Between σ.nextFree σ'.nextFree) σ.nextFree n := fun x h1 h2 => ⟨h1, by omega⟩
  have e1 : leNat σ'.mem σ.nextFree n = leNat σ.mem p n := leNat_ext h.bytes
  have e2 : beNat σ'.mem σ.nextFree n = beNat σ.mem p n := beNat_ext h.bytes
  rcases ht with ⟨rfl, rfl⟩ | ⟨rfl, rfl⟩ | ⟨rfl, rfl⟩ <;> simp only [Mv.Rep] at hr
  · exact ⟨h.ext, by simpa only [cost] using hn, by simp only [Mv.Rep]; exact ⟨by rw [e1]; exact hr.1, hw⟩,
      by show _ < 256 ^ 4; omega⟩
  · exact ⟨h.ext, by simpa only [cost] using hn, by simp only [Mv.Rep]; exact ⟨by rw [e1]; exact hr.1, hw⟩,
      by show _ < 256 ^ 4; omega⟩
  · exact ⟨h.ext, by simpa only [cost] using hn, by simp only [Mv.Rep]; exact ⟨by rw [e2]; exact hr.1, hw⟩,
      by show _ < 256 ^ 4; omega⟩

theorem heap_bound {t : Ty} {v : Val} {n p m : Nat} {f : Bytes} {R : Nat → Prop}
    (ht : t = .u128 ∧ n = 16 ∨ t = .u256 ∧ n = 32 ∨ t = .address ∧ n = 32) (hr : Mv.Rep f R t v p)
    (hR : ∀ x, R x → x < m) : p + n ≤ m := by
  rcases ht with ⟨rfl, rfl⟩ | ⟨rfl, rfl⟩ | ⟨rfl, rfl⟩ <;> simp only [Mv.Rep] at hr <;>
    exact hr.2.lt hR (by omega)

theorem copyHeapP_ok {t : Ty} {n : Nat} (ht : t = .u128 ∧ n = 16 ∨ t = .u256 ∧ n = 32 ∨ t = .address ∧ n = 32) :
    CopyOk E t := by
  intro σ R v w k s l is Q hp hl h
  have hc : cost t v = n := by rcases ht with ⟨rfl, rfl⟩ | ⟨rfl, rfl⟩ | ⟨rfl, rfl⟩ <;> simp only [cost]
  have hcode : copyP E t k = [(copyHeap n).call] := by
    rcases ht with ⟨rfl, rfl⟩ | ⟨rfl, rfl⟩ | ⟨rfl, rfl⟩ <;> simp only [copyP]
  rw [hcode, List.cons_append, List.nil_append]
  refine wp_call1 (copyHeap_copied hp.heap (hc ▸ hp.fit.1) (heap_bound ht hp.rep hp.below)) ?_
  rintro r σ' ⟨rfl, hcp⟩
  exact h σ' _ l (hcp.of ht hp.rep) rfl (fun _ _ => rfl)

end Rt
