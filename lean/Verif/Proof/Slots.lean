import Verif.Rt.Slots
import Verif.SlotSpec
import Verif.Proof.Errors
import Verif.Proof.Equality
import Verif.Proof.Router2

/-! Storage slots and object lookup. -/

namespace Rt
open Wasm Abi Slots

variable {σ σ' σ'' : Store} {E : ErrPtrs}

/-! ### Host functions -/

theorem wp_keccak {o n p is s l Q} (h1 : p + n ≤ σ.size) (h2 : o + 32 ≤ σ.size) :
    wp (.op (.host .keccak) :: is) (o :: n :: p :: s) l σ Q ↔
      wp is s l (σ.setMem (putBe σ.mem o 32 (σ.host.keccak (rdBytes σ.mem p n)))) Q := by
  rw [wp_op]; simp only [Op.exec, HostFn.eval, if_pos (And.intro h1 h2)]

theorem wp_storageLoad {d k is s l Q} (h1 : k + 32 ≤ σ.size) (h2 : d + 32 ≤ σ.size) :
    wp (.op (.host .storageLoad) :: is) (d :: k :: s) l σ Q ↔
      wp is s l (σ.setMem (putBe σ.mem d 32 (σ.host.storage (beNat σ.mem k 32)))) Q := by
  rw [wp_op]; simp only [Op.exec, HostFn.eval, if_pos (And.intro h1 h2)]

theorem wp_txOrigin {p is s l Q} (h : p + 20 ≤ σ.size) :
    wp (.op (.host .txOrigin) :: is) (p :: s) l σ Q ↔
      wp is s l (σ.setMem (putBe σ.mem p 20 σ.host.origin)) Q := by
  rw [wp_op]; simp only [Op.exec, HostFn.eval, if_pos h]

/-! ### Frames -/

/-- `σ'` differs from `σ` only in memory at addresses satisfying `R`. -/
structure Touches (R : Nat → Prop) (σ σ' : Store) : Prop where
  eq : σ' = σ.setMem σ'.mem
  mem : ∀ x, ¬ R x → σ'.mem x = σ.mem x

/-- Scratch addresses used for hashing. -/
def hashBuf (x : Nat) : Prop := 404 ≤ x ∧ x < 468

theorem Touches.refl (R : Nat → Prop) (σ : Store) : Touches R σ σ := ⟨rfl, fun _ _ => rfl⟩

theorem Touches.trans {R : Nat → Prop} (h1 : Touches R σ σ') (h2 : Touches R σ' σ'') : Touches R σ σ'' := by
  refine ⟨?_, fun x hx => by rw [h2.mem x hx, h1.mem x hx]⟩
  have := h2.eq
  rw [h1.eq] at this
  exact this

theorem Touches.mono {R S : Nat → Prop} (h : Touches R σ σ') (hRS : ∀ x, R x → S x) : Touches S σ σ' :=
  ⟨h.eq, fun x hx => h.mem x fun hr => hx (hRS x hr)⟩

theorem Touches.set {R : Nat → Prop} {f : Bytes} (h : ∀ x, ¬ R x → f x = σ.mem x) : Touches R σ (σ.setMem f) :=
  ⟨rfl, h⟩

theorem Touches.size {R : Nat → Prop} (h : Touches R σ σ') : σ'.size = σ.size := by rw [h.eq]; rfl
theorem Touches.host {R : Nat → Prop} (h : Touches R σ σ') : σ'.host = σ.host := by rw [h.eq]; rfl
theorem Touches.nextFree {R : Nat → Prop} (h : Touches R σ σ') : σ'.nextFree = σ.nextFree := by rw [h.eq]; rfl
theorem Touches.avail {R : Nat → Prop} (h : Touches R σ σ') : σ'.avail = σ.avail := by rw [h.eq]; rfl
theorem Touches.maxPages {R : Nat → Prop} (h : Touches R σ σ') : σ'.maxPages = σ.maxPages := by rw [h.eq]; rfl
theorem Touches.reader {R : Nat → Prop} (h : Touches R σ σ') : σ'.reader = σ.reader := by rw [h.eq]; rfl

theorem Touches.beNat {R : Nat → Prop} (h : Touches R σ σ') {p n : Nat} (hp : ∀ x, p ≤ x → x < p + n → ¬ R x) :
    beNat σ'.mem p n = beNat σ.mem p n := beNat_congr fun x h1 h2 => h.mem x (hp x h1 h2)

theorem Touches.leNat {R : Nat → Prop} (h : Touches R σ σ') {p n : Nat} (hp : ∀ x, p ≤ x → x < p + n → ¬ R x) :
    leNat σ'.mem p n = leNat σ.mem p n := leNat_congr fun x h1 h2 => h.mem x (hp x h1 h2)

theorem Touches.heap {R : Nat → Prop} (h : Touches R σ σ') (hσ : Heap σ)
    (hR : ∀ x, R x → x < σ.nextFree ∧ (x < 256 ∨ 260 ≤ x)) : Heap σ' := by
  rw [h.eq]
  refine hσ.setMem ?_ ?_
  · exact h.leNat fun x h1 h2 hr => by have := hR x hr; omega
  · exact fun x hx => h.mem x fun hr => by have := hR x hr; omega

/-! ### Derived slots -/

theorem deriveMappingSlot_spec {m k d : Nat} (hb : 468 ≤ σ.size) (hm : m + 32 ≤ σ.size) (hk : k + 32 ≤ σ.size)
    (hd : d + 32 ≤ σ.size) (hm' : m + 32 ≤ 404 ∨ 468 ≤ m) :
    deriveMappingSlot.Calls [m, k, d] σ (fun r σ' => r = [] ∧
      beNat σ'.mem d 32 = mapSlot σ.host.keccak (beNat σ.mem k 32) (beNat σ.mem m 32) ∧
      Touches (fun x => hashBuf x ∨ d ≤ x ∧ x < d + 32) σ σ') := by
  refine ⟨rfl, ?_⟩
  unfold deriveMappingSlot
  wstep
  rw [wp_keccak (by simp only [setMem_size]; omega) (by simp only [setMem_size]; omega)]
  wstep
  refine ⟨?_, ?_⟩
  · rw [beNat_putBe_same]
    unfold mapSlot
    rw [show rdBytes (copyBytes (copyBytes σ.mem 404 k 32) 436 m 32) 404 64 = word (beNat σ.mem k 32) ++ word (beNat σ.mem m 32) by
      rw [show (64 : Nat) = 32 + 32 from rfl, rdBytes_append]
      congr 1
      · refine rdBytes_word (beNat_ext fun i hi => ?_)
        rw [copyBytes_out (by omega), copyBytes_in (by omega) (by omega)]
        exact congrArg σ.mem (by omega)
      · refine rdBytes_word (beNat_ext fun i hi => ?_)
        rw [copyBytes_in (by omega) (by omega), copyBytes_out (by omega)]
        exact congrArg σ.mem (by omega)]
    rfl
  · refine Touches.set fun x hx => ?_
    simp only [hashBuf] at hx
    rw [putBe_out (by omega), copyBytes_out (by omega), copyBytes_out (by omega)]

theorem writeObjectSlot_spec {o u d : Nat} (hb : 468 ≤ σ.size) (hz : beNat σ.mem 96 32 = 0) (ho : o + 32 ≤ σ.size)
    (hu : u + 32 ≤ σ.size) (hd : d + 32 ≤ σ.size) (hd' : d + 32 ≤ 404 ∨ 468 ≤ d)
    (hu' : u + 32 ≤ 404 ∨ 468 ≤ u) (hud : u + 32 ≤ d ∨ d + 32 ≤ u) :
    writeObjectSlot.Calls [o, u, d] σ (fun r σ' => r = [] ∧
      beNat σ'.mem d 32 = objectSlot σ.host.keccak (beNat σ.mem o 32) (beNat σ.mem u 32) ∧
      Touches (fun x => hashBuf x ∨ d ≤ x ∧ x < d + 32) σ σ') := by
  refine ⟨rfl, ?_⟩
  unfold writeObjectSlot
  wstep
  refine wp_call3 (deriveMappingSlot_spec (by omega) (by omega) ho hd (by omega)) ?_
  rintro r σ1 ⟨rfl, h1, t1⟩
  have hs := t1.size
  wstep
  refine wp_call3 (deriveMappingSlot_spec (by omega) (by omega) (by omega) (by omega) hd') ?_
  rintro r σ2 ⟨rfl, h2, t2⟩
  wstep
  refine ⟨?_, t1.trans t2⟩
  rw [h2, h1, hz, t1.host, t1.beNat (p := u) (fun x hx hx' => by simp only [hashBuf]; omega)]
  rfl

/-! ### Next slot -/

theorem beNat_putLe_same (f : Bytes) (a n v : Nat) : beNat (putLe f a n v) a n = bswap n (v % 256 ^ n) := by
  rw [← bswap_leNat, leNat_putLe_same]

theorem nextSlot_spec {p : Nat} (hs : 65536 ≤ σ.size) (hs' : σ.size < 2 ^ 32) (h1 : leNat σ.mem 32 32 = 1)
    (hp : p + 32 ≤ σ.size) (hp' : p + 32 ≤ 32 ∨ 64 ≤ p) (hv : beNat σ.mem p 32 + 1 < 2 ^ 256) :
    (nextSlot E).Calls [p] σ (fun r σ' => r = [p] ∧
      σ' = σ.setMem (putBe σ.mem p 32 (beNat σ.mem p 32 + 1))) := by
  refine ⟨rfl, ?_⟩
  unfold nextSlot
  wstep
  refine wp_call2 (swapBytes4_spec hp hp) ?_
  rintro r σ1 ⟨rfl, rfl⟩
  wstep
  refine wp_call4 ((heapAdd_spec E (k := 4) (by simp only [setMem_size]; omega) (by simp only [setMem_size]; omega) (by simp only [setMem_size]; omega)
    (by simp only [setMem_size]; omega) (by simp only [setMem_size]; omega) (by unfold Apart; omega) (by unfold Apart; omega)).1 ?_) ?_
  · rw [setMem_mem, leNat_putLe_same, leNat_putLe_disj (by omega), h1]
    have : (256 : Nat) ^ (8 * 4) = 2 ^ 256 := by norm_num
    have e : beNat σ.mem p 32 % 256 ^ 32 = beNat σ.mem p 32 := Nat.mod_eq_of_lt (beNat_lt _ _ _)
    rw [e]; omega
  · rintro r σ2 ⟨rfl, rfl⟩
    wstep
    refine wp_call2 (swapBytes4_spec (by simp only [setMem_size]; omega) (by simp only [setMem_size]; omega)) ?_
    rintro r σ3 ⟨rfl, rfl⟩
    wstep
    refine congrArg σ.setMem ?_
    have e : beNat σ.mem p 32 % 256 ^ 32 = beNat σ.mem p 32 := Nat.mod_eq_of_lt (beNat_lt _ _ _)
    rw [leNat_putLe_same, leNat_putLe_disj (by omega), h1, e, beNat_putLe_same,
      Nat.mod_eq_of_lt (show beNat σ.mem p 32 + 1 < 256 ^ 32 by omega), putLe_bswap]
    funext x
    by_cases h : p ≤ x ∧ x < p + 32
    · rw [putBe_in h.1 h.2, putBe_in h.1 h.2]
    · rw [putBe_out (by omega), putBe_out (by omega), putLe_out (by omega), putLe_out (by omega)]


theorem nextSlot_overflow {p : Nat} (hs : 65536 ≤ σ.size) (hs' : σ.size < 2 ^ 32) (h1 : leNat σ.mem 32 32 = 1)
    (hp : p + 32 ≤ σ.size) (hp' : p + 32 ≤ 32 ∨ 64 ≤ p) (hp'' : p + 32 ≤ 256 ∨ 260 ≤ p)
    (hv : 2 ^ 256 ≤ beNat σ.mem p 32 + 1) :
    (nextSlot E).Calls [p] σ (fun _ σ' => σ' = errStore (σ.setMem (putBe σ.mem p 32 0)) (E .overflow)) := by
  refine ⟨rfl, ?_⟩
  unfold nextSlot
  wstep
  refine wp_call2 (swapBytes4_spec hp hp) ?_
  rintro r σ1 ⟨rfl, rfl⟩
  wstep
  have e : beNat σ.mem p 32 % 256 ^ 32 = beNat σ.mem p 32 := Nat.mod_eq_of_lt (beNat_lt _ _ _)
  have e1 : beNat σ.mem p 32 + 1 = 256 ^ 32 := by
    have := beNat_lt σ.mem p 32
    have h2 : (256 : Nat) ^ 32 = 2 ^ 256 := by norm_num
    omega
  refine wp_call4 (heapAdd_overflow E (k := 4) (by simp only [setMem_size]; omega) (by simp only [setMem_size]; omega)
    (by simp only [setMem_size]; omega) (by simp only [setMem_size]; omega) (by simp only [setMem_size]; omega)
    (by unfold Apart; omega) (by unfold Apart; omega) ?_) ?_
  · rw [setMem_mem, leNat_putLe_same, leNat_putLe_disj (by omega), h1, e, e1]
  · rintro r σ2 ⟨rfl, rfl⟩
    unerr
    wstep
    refine wp_call2 (swapBytes4_spec (by simp only [setMem_size]; omega) (by simp only [setMem_size]; omega)) ?_
    rintro r σ3 ⟨rfl, rfl⟩
    wstep
    refine congrArg σ.setMem ?_
    rw [beNat_putLe_disj hp'', leNat_putLe_same, leNat_putLe_disj (by omega), h1, e, beNat_putLe_same, e1, Nat.mod_self]
    funext x
    have hz : bswap 32 0 = 0 := by decide
    rw [hz]
    by_cases h : p ≤ x ∧ x < p + 32
    · rw [putLe_in h.1 h.2, putLe_out (by omega), putBe_in h.1 h.2]; simp
    · rw [putLe_out (by omega)]
      by_cases h' : 256 ≤ x ∧ x < 260
      · rw [putLe_in h'.1 (by omega), putLe_in h'.1 (by omega)]
      · rw [putLe_out (by omega), putLe_out (by omega), putLe_out (by omega), putLe_out (by omega), putBe_out (by omega)]

/-! ### Allocation -/

/-- `σ1` is `σ` after the allocation of `n` bytes. -/
structure Alloced (n : Nat) (σ σ1 : Store) : Prop where
  heap : Heap σ1
  nextFree : σ1.nextFree = σ.nextFree + n
  mem : σ1.mem = σ.mem
  size : σ.size ≤ σ1.size
  inside : σ1.nextFree ≤ σ1.size
  maxPages : σ1.maxPages = σ.maxPages
  reader : σ1.reader = σ.reader
  host : σ1.host = σ.host

theorem alloced {n m : Nat} (hσ : Heap σ) (hr : Room σ m) (hn : n ≤ m) : Alloced n σ (allocated σ n) := by
  have hc := hr.canAlloc hσ.alloc hn
  have hh := (hσ.allocated hc).heap hσ
  exact ⟨hh, allocated_nextFree, hσ.allocated_mem, allocated_size_le,
    hh.alloc.nextFree_le, allocated_maxPages, allocated_reader, allocated_host⟩

theorem wp_allocR {n m : Nat} {is s l Q} (hσ : Heap σ) (hr : Room σ m) (hn : n ≤ m)
    (h : ∀ σ1, Alloced n σ σ1 → wp is (σ.nextFree :: s) l σ1 Q) : wp (alloc.call :: is) (n :: s) l σ Q :=
  wp_alloc hσ (hr.canAlloc hσ.alloc hn) (h _ (alloced hσ hr hn))

/-- `σ'` is reached from `σ` by code that allocates, writes newly allocated memory and existing memory
at addresses satisfying `R`, and may change storage but nothing else of the host. -/
structure Later (R : Nat → Prop) (σ σ' : Store) : Prop where
  heap : Heap σ'
  nextFree : σ.nextFree ≤ σ'.nextFree
  size : σ.size ≤ σ'.size
  mem : ∀ x, x < σ.nextFree → ¬ R x → σ'.mem x = σ.mem x
  maxPages : σ'.maxPages = σ.maxPages
  reader : σ'.reader = σ.reader
  host : σ'.host = { σ.host with storage := σ'.host.storage }

theorem Later.refl (R : Nat → Prop) (h : Heap σ) : Later R σ σ :=
  ⟨h, Nat.le_refl _, Nat.le_refl _, fun _ _ _ => rfl, rfl, rfl, rfl⟩

theorem Later.trans {R : Nat → Prop} (h1 : Later R σ σ') (h2 : Later R σ' σ'') : Later R σ σ'' := by
  refine ⟨h2.heap, h1.nextFree.trans h2.nextFree, h1.size.trans h2.size, fun x hx hr => ?_,
    h2.maxPages.trans h1.maxPages, h2.reader.trans h1.reader, ?_⟩
  · rw [h2.mem x (Nat.lt_of_lt_of_le hx h1.nextFree) hr, h1.mem x hx hr]
  · have := h2.host
    rw [h1.host] at this
    exact this

theorem Later.mono {R S : Nat → Prop} (h : Later R σ σ') (hRS : ∀ x, x < σ.nextFree → R x → S x) : Later S σ σ' :=
  ⟨h.heap, h.nextFree, h.size, fun x hx hr => h.mem x hx fun h' => hr (hRS x hx h'), h.maxPages, h.reader, h.host⟩

theorem Later.beNat {R : Nat → Prop} (h : Later R σ σ') {p n : Nat} (hn : p + n ≤ σ.nextFree)
    (hp : ∀ x, p ≤ x → x < p + n → ¬ R x) :
    beNat σ'.mem p n = beNat σ.mem p n := beNat_congr fun x h1 h2 => h.mem x (by omega) (hp x h1 h2)

theorem Later.leNat {R : Nat → Prop} (h : Later R σ σ') {p n : Nat} (hn : p + n ≤ σ.nextFree)
    (hp : ∀ x, p ≤ x → x < p + n → ¬ R x) :
    leNat σ'.mem p n = leNat σ.mem p n := leNat_congr fun x h1 h2 => h.mem x (by omega) (hp x h1 h2)

theorem Alloced.later {n : Nat} (R : Nat → Prop) (h : Alloced n σ σ') : Later R σ σ' :=
  ⟨h.heap, by rw [h.nextFree]; omega, h.size, fun x _ _ => by rw [h.mem], h.maxPages, h.reader, by rw [h.host]⟩

theorem Touches.later {R : Nat → Prop} (h : Touches R σ σ') (hσ : Heap σ)
    (hR : ∀ x, R x → x < σ.nextFree ∧ (x < 256 ∨ 260 ≤ x)) : Later R σ σ' :=
  ⟨h.heap hσ hR, by rw [h.nextFree], by rw [h.size], fun x _ hr => h.mem x hr, h.maxPages, h.reader, by rw [h.host]⟩

/-- Writing memory that is allocated or satisfies `R`. -/
theorem Later.write {R : Nat → Prop} (h : Later R σ σ') {f : Bytes} (h0 : ∀ x, 256 ≤ x → x < 260 → f x = σ'.mem x)
    (h1 : ∀ x, x < σ.nextFree → ¬ R x → f x = σ'.mem x)
    (h2 : ∀ x, σ'.nextFree ≤ x → f x = σ'.mem x) : Later R σ (σ'.setMem f) :=
  ⟨h.heap.setMem (leNat_congr fun x a b => h0 x a (by omega)) h2, h.nextFree, h.size,
    fun x hx hr => by rw [setMem_mem, h1 x hx hr, h.mem x hx hr], h.maxPages, h.reader, h.host⟩

/-! ### Elements of stored vectors -/

/-- Sum of two numbers whose bytes add up without carries. -/
theorem noCarry {f g h : Bytes} {a b c n : Nat}
    (hh : ∀ i, i < n → (h (c + i)).toNat = (f (a + i)).toNat + (g (b + i)).toNat) :
    leNat h c n = leNat f a n + leNat g b n ∧ beNat h c n = beNat f a n + beNat g b n := by
  induction n generalizing a b c with
  | zero => simp [leNat, beNat]
  | succ n ih =>
    have h0 := hh 0 (by omega)
    obtain ⟨i1, i2⟩ := ih (a := a + 1) (b := b + 1) (c := c + 1) fun i hi => by
      have := hh (i + 1) (by omega)
      rw [show c + 1 + i = c + (i + 1) by omega, show a + 1 + i = a + (i + 1) by omega,
        show b + 1 + i = b + (i + 1) by omega]
      exact this
    simp only [Nat.add_zero] at h0
    simp only [leNat, beNat, i1, i2, h0]
    constructor <;> ring

theorem beNat_putLe_sum {f g m : Bytes} {a b q n : Nat}
    (hh : ∀ i, i < n → (f (a + i)).toNat + (g (b + i)).toNat < 256) :
    beNat (putLe m q n (leNat f a n + leNat g b n)) q n = beNat f a n + beNat g b n := by
  obtain ⟨h, h0⟩ : ∃ h : Bytes, ∀ i, i < n → (h (0 + i)).toNat = (f (a + i)).toNat + (g (b + i)).toNat :=
    ⟨fun i => UInt8.ofNat ((f (a + i)).toNat + (g (b + i)).toNat), fun i hi => by
      rw [Nat.zero_add, UInt8.toNat_ofNat', Nat.mod_eq_of_lt (by have := hh i hi; omega)]⟩
  obtain ⟨h1, h2⟩ := noCarry h0
  rw [← h1, ← h2]
  refine beNat_ext fun i hi => leNat_inj (n := n) ?_ i hi
  rw [leNat_putLe_same, Nat.mod_eq_of_lt (leNat_lt _ _ _)]

theorem toNat_beDigit (f : Bytes) (p n i : Nat) (hi : i < n) :
    (f (p + (n - 1 - i))).toNat = beNat f p n / 256 ^ i % 256 := by
  rw [← beNat_digit f p n i hi, UInt8.toNat_ofNat']

theorem beNat_copy (f : Bytes) (d s n : Nat) : beNat (copyBytes f d s n) d n = beNat f s n :=
  beNat_ext fun i hi => by
    rw [copyBytes_in (by omega) (by omega)]
    exact congrArg f (by omega)

/-- The common part of the executions of `deriveDynArraySlot`: everything up to the addition. -/
theorem deriveDyn_main {p i n d off : Nat} {Q : Res → Prop} (hσ : Heap σ) (hr : Room σ 96)
    (hp : p + 32 ≤ σ.nextFree) (hn : 0 < n) (hn' : n + 31 < 2 ^ 32) (hi : i < 2 ^ 32)
    (hoff : elemOffset n i = off) (ho : off < 2 ^ 32)
    (h : ∀ σ1, Later (fun _ => False) σ σ1 → σ1.nextFree = σ.nextFree + 96 → σ1.nextFree ≤ σ1.size →
      σ1.host = σ.host →
      beNat σ1.mem σ.nextFree 32 = σ.host.keccak (word (beNat σ.mem p 32)) % 2 ^ 256 →
      beNat σ1.mem (σ.nextFree + 32) 32 = off →
      wp [(heapAdd E).call, Op.c32 32, Op.memCopy] [32, σ.nextFree + 64, σ.nextFree, σ.nextFree + 32, d]
        [p, σ.nextFree + 32, bswap 4 off, d, σ.nextFree] σ1 Q) :
    wp (deriveDynArraySlot E).body [] [p, i, n, d, 0] σ Q := by
  unfold deriveDynArraySlot
  have hb := hσ.base
  unfold reserved at hb
  wstep
  refine wp_allocR hσ hr (by omega) fun σ1 a1 => ?_
  have n1 := a1.nextFree
  have s1 := a1.inside
  wstep
  rw [wp_keccak (by omega) (by omega)]
  have rest : wp [swap32.call, Op.lset 2, Op.c32 32, alloc.call, Op.lset 1, Op.lget 1, Op.lget 2,
      Op.store 4 28, Op.lget 3, Op.lget 1, Op.lget 4, Op.c32 32, alloc.call, Op.c32 32, (heapAdd E).call, Op.c32 32,
      Op.memCopy] [off] [p, i, n, d, σ.nextFree]
      (σ1.setMem (putBe σ1.mem σ.nextFree 32 (σ1.host.keccak (rdBytes σ1.mem p 32)))) Q := by
    have hh1 := a1.heap.putBe (p := σ.nextFree) (n := 32) (v := σ1.host.keccak (rdBytes σ1.mem p 32)) (by omega) (by omega)
    refine wp_call1 swap32_spec ?_
    rintro r σ' ⟨rfl, rfl⟩
    wstep
    refine wp_allocR (m := 64) hh1 (hr.after (k := 32) (by simp only [setMem_nextFree]; omega) a1.maxPages)
      (by omega) fun σ2 a2 => ?_
    have n2 := a2.nextFree
    have s2 := a2.inside
    have m2 := a2.mem
    simp only [setMem_nextFree, setMem_mem] at n2 m2
    have hb' : bswap 4 off < 2 ^ 32 := bswap_lt 4 off
    wstep
    rw [show σ1.nextFree + 28 = σ1.nextFree + 28 from rfl, putLe_bswap, putBe_zero_ext (p := σ1.nextFree) (m := 28) (n := 4)
      (by omega) (fun x hx hx' => by rw [m2, putBe_out (by omega), a1.mem, hσ.fresh x (by omega)])]
    have hh2 := a2.heap.putBe (p := σ1.nextFree) (n := 28 + 4) (v := off) (by omega) (by omega)
    have mp2 := a2.maxPages
    have mp1 := a1.maxPages
    simp only [setMem_maxPages] at mp2
    refine wp_allocR (m := 32) hh2 (hr.after (k := 64) (by simp only [setMem_nextFree]; omega) (by simp only [setMem_maxPages]; rw [mp2, mp1]))
      (by omega) fun σ3 a3 => ?_
    have n3 := a3.nextFree
    have s3 := a3.inside
    have m3 := a3.mem
    have z1 := a1.size; have z2 := a2.size; have z3 := a3.size
    have r1 := a1.reader; have r2 := a2.reader; have r3 := a3.reader
    have t1 := a1.host; have t2 := a2.host; have t3 := a3.host
    have mp3 := a3.maxPages
    simp only [setMem_nextFree, setMem_mem, setMem_size, setMem_reader, setMem_host, setMem_maxPages] at n3 m3 z2 z3 r2 r3 t2 t3 mp3
    wstep
    rw [n1, n2, n1]
    refine h σ3 ⟨a3.heap, by omega, by omega, ?_, by rw [mp3, mp2, mp1], by rw [r3, r2, r1], by rw [t3, t2, t1]⟩
      (by omega) s3 (by rw [t3, t2, t1]) ?_ ?_
    · intro x hx _
      rw [m3, putBe_out (by omega), m2, putBe_out (by omega), a1.mem]
    · rw [m3, beNat_putBe_disj (by omega), m2, beNat_putBe_same, a1.mem, t1, rdBytes_word rfl]
      rfl
    · rw [m3, n1, beNat_putBe_same, Nat.mod_eq_of_lt]
      exact Nat.lt_of_lt_of_le ho (by norm_num)
  wstep
  by_cases hlt : n < 32
  · rw [IfP.pos hlt]
    have hne : 32 / n ≠ 0 := by
      have := Nat.div_pos (show n ≤ 32 by omega) hn; omega
    wstep
    rw [← hoff, elemOffset, if_pos (by omega)] at rest
    exact rest
  · rw [IfP.neg hlt]
    have e : i * ((n + 31) / 32) = off := by
      rw [← hoff, elemOffset]
      split_ifs with h32
      · have : n = 32 := by omega
        subst this; simp
      · rfl
    rw [e, Nat.mod_eq_of_lt (by omega)]
    exact rest


theorem deriveDyn_ok {p i n d : Nat} (hσ : Heap σ) (hr : Room σ 96)
    (hp : p + 32 ≤ σ.nextFree) (hn : 0 < n) (hn' : n + 31 < 2 ^ 32) (hi : i < 2 ^ 32)
    (ho : elemOffset n i < 2 ^ 32) (hd : d + 32 ≤ σ.nextFree) (hd' : d + 32 ≤ 256 ∨ 260 ≤ d)
    (hc : ∀ j, j < 32 → σ.host.keccak (word (beNat σ.mem p 32)) / 256 ^ j % 256 + elemOffset n i / 256 ^ j % 256 < 256) :
    (deriveDynArraySlot E).Calls [p, i, n, d] σ (fun r σ' => r = [] ∧
      beNat σ'.mem d 32 = elemSlot σ.host.keccak (beNat σ.mem p 32) n i ∧ σ'.host = σ.host ∧
      σ'.nextFree = σ.nextFree + 96 ∧
      Later (fun x => d ≤ x ∧ x < d + 32) σ σ') := by
  refine ⟨rfl, deriveDyn_main hσ hr hp hn hn' hi rfl ho fun σ1 t hnf hsz hh hB hO => ?_⟩
  have hc' : ∀ j, j < 32 → (σ1.mem (σ.nextFree + 32 + j)).toNat + (σ1.mem (σ.nextFree + j)).toNat < 256 := by
    intro j hj
    have e1 := toNat_beDigit σ1.mem (σ.nextFree + 32) 32 (31 - j) (by omega)
    have e2 := toNat_beDigit σ1.mem σ.nextFree 32 (31 - j) (by omega)
    rw [show 32 - 1 - (31 - j) = j by omega] at e1 e2
    rw [e1, e2, hO, hB]
    have := hc (31 - j) (by omega)
    have e3 : ∀ a, a % 2 ^ 256 / 256 ^ (31 - j) % 256 = a / 256 ^ (31 - j) % 256 := by
      intro a
      rw [show (2 : Nat) ^ 256 = 256 ^ (31 - j) * (256 * 256 ^ j) by
        rw [← Nat.pow_succ', ← Nat.pow_add, show 31 - j + (j + 1) = 32 by omega]; norm_num, Nat.mod_mul_right_div_self, Nat.mod_mul_right_mod]
    rw [e3]; omega
  have hsum := beNat_putLe_sum (m := σ1.mem) (q := σ.nextFree + 64) hc'
  have hlt : leNat σ1.mem (σ.nextFree + 32) 32 + leNat σ1.mem σ.nextFree 32 < 256 ^ 32 := by
    obtain ⟨h, h0⟩ : ∃ h : Bytes, ∀ i, i < 32 → (h (0 + i)).toNat = (σ1.mem (σ.nextFree + 32 + i)).toNat + (σ1.mem (σ.nextFree + i)).toNat :=
      ⟨fun i => UInt8.ofNat ((σ1.mem (σ.nextFree + 32 + i)).toNat + (σ1.mem (σ.nextFree + i)).toNat), fun i hi => by
        rw [Nat.zero_add, UInt8.toNat_ofNat', Nat.mod_eq_of_lt (by have := hc' i hi; omega)]⟩
    rw [← (noCarry h0).1]; exact leNat_lt _ _ _
  have hlt' : beNat σ1.mem (σ.nextFree + 32) 32 + beNat σ1.mem σ.nextFree 32 < 256 ^ 32 := by
    rw [← hsum]; exact beNat_lt _ _ _
  have hs1 := t.heap.ready.size
  have hs2 := t.heap.ready.size_lt
  refine wp_call4 ((heapAdd_spec E (k := 4) (by omega) (by omega) (by omega) (by omega) (by omega)
    (by unfold Apart; omega) (by unfold Apart; omega)).1 (fun h => absurd hlt (Nat.not_lt.mpr h))) ?_
  rintro r σ2 ⟨rfl, rfl⟩
  wstep
  refine ⟨?_, hh, hnf, ?_⟩
  · rw [beNat_copy, hsum, hO, hB, elemSlot]
    rw [hO, hB] at hlt'
    rw [Nat.add_comm]
    generalize σ.host.keccak (word (beNat σ.mem p 32)) = K at *
    have : (2 : Nat) ^ 256 = 256 ^ 32 := by norm_num
    omega
  · refine (t.mono (S := fun x => d ≤ x ∧ x < d + 32) (fun _ _ h => h.elim)).write ?_ ?_ ?_
    · intro x h1 h2; rw [copyBytes_out (by omega), putLe_out (by have := hσ.base; unfold reserved at this; omega)]
    · intro x h1 h2; rw [copyBytes_out (by omega), putLe_out (by omega)]
    · intro x h1; rw [copyBytes_out (by omega), putLe_out (by omega)]

/-- The last byte of the hash and that of the offset add up to 256 or more: the execution traps. -/
theorem deriveDyn_traps {p i n d : Nat} (hσ : Heap σ) (hr : Room σ 96)
    (hp : p + 32 ≤ σ.nextFree) (hn : 0 < n) (hn' : n + 31 < 2 ^ 32) (hi : i < 2 ^ 32)
    (ho : elemOffset n i < 2 ^ 32) (hm : σ.maxPages * 65536 ≤ badF00d)
    (hc : 256 ≤ σ.host.keccak (word (beNat σ.mem p 32)) % 256 + elemOffset n i % 256) :
    (deriveDynArraySlot E).Traps [p, i, n, d] σ := by
  refine ⟨rfl, deriveDyn_main hσ hr hp hn hn' hi rfl ho fun σ1 t hnf hsz hh hB hO => ?_⟩
  have e1 := toNat_beDigit σ1.mem (σ.nextFree + 32) 32 0 (by omega)
  have e2 := toNat_beDigit σ1.mem σ.nextFree 32 0 (by omega)
  have l1 := leNat_add σ1.mem (σ.nextFree + 32) 31 1
  have l2 := leNat_add σ1.mem σ.nextFree 31 1
  rw [leNat_one] at l1 l2
  rw [show 31 + 1 = 32 from rfl] at l1 l2
  rw [show 32 - 1 - 0 = 31 from rfl, Nat.pow_zero, Nat.div_one] at e1 e2
  rw [hO] at e1
  rw [hB] at e2
  rw [e1] at l1
  rw [e2] at l2
  have hov : 256 ^ (8 * 4) ≤ leNat σ1.mem (σ.nextFree + 32) (8 * 4) + leNat σ1.mem σ.nextFree (8 * 4) := by
    rw [show 8 * 4 = 32 from rfl, l1, l2]
    generalize σ.host.keccak (word (beNat σ.mem p 32)) = K at *
    have : 256 ≤ elemOffset n i % 256 + K % 2 ^ 256 % 256 := by omega
    have h3 := Nat.mul_le_mul_left (256 ^ 31) this
    rw [Nat.mul_add] at h3
    omega
  have hs1 := t.heap.ready.size
  have hs2 := t.heap.ready.size_lt
  refine wp_call4 (heapAdd_overflow E (k := 4) (by omega) (by omega) (by omega) (by omega) (by omega)
    (by unfold Apart; omega) (by unfold Apart; omega) hov) ?_
  rintro r σ2 ⟨rfl, rfl⟩
  have hl := t.heap.alloc.limit
  have hm' := t.maxPages
  unerr
  wstep
  rw [wp_op]
  simp only [Op.exec]
  rw [if_neg]
  · trivial
  rintro ⟨h, -⟩
  have h : badF00d + 32 ≤ σ1.size := h
  rw [hm'] at hl
  omega

/-! ### Object lookup -/

/-- The parts of the fixed data area the storage code relies on. -/
structure Statics (σ : Store) : Prop where
  zero : leNat σ.mem 0 32 = 0
  one : leNat σ.mem 32 32 = 1
  objects : beNat σ.mem 96 32 = 0
  shared : beNat σ.mem 160 32 = 1
  frozen : beNat σ.mem 192 32 = 2

/-- Memory written by object lookups. -/
def lookupBuf (x : Nat) : Prop :=
  64 ≤ x ∧ x < 96 ∨ 128 ≤ x ∧ x < 160 ∨ 224 ≤ x ∧ x < 256 ∨ 404 ≤ x ∧ x < 468

theorem Touches.statics {R : Nat → Prop} (h : Touches R σ σ') (hs : Statics σ)
    (hR : ∀ x, x < 64 ∨ 96 ≤ x ∧ x < 128 ∨ 160 ≤ x ∧ x < 224 → ¬ R x) : Statics σ' :=
  ⟨by rw [h.leNat fun x _ _ => hR x (by omega), hs.zero], by rw [h.leNat fun x _ _ => hR x (by omega), hs.one],
   by rw [h.beNat fun x _ _ => hR x (by omega), hs.objects], by rw [h.beNat fun x _ _ => hR x (by omega), hs.shared],
   by rw [h.beNat fun x _ _ => hR x (by omega), hs.frozen]⟩

theorem Later.statics {R : Nat → Prop} (h : Later R σ σ') (hb : 468 ≤ σ.nextFree) (hs : Statics σ)
    (hR : ∀ x, x < 64 ∨ 96 ≤ x ∧ x < 128 ∨ 160 ≤ x ∧ x < 224 → ¬ R x) : Statics σ' :=
  ⟨by rw [h.leNat (by omega) fun x _ _ => hR x (by omega), hs.zero],
   by rw [h.leNat (by omega) fun x _ _ => hR x (by omega), hs.one],
   by rw [h.beNat (by omega) fun x _ _ => hR x (by omega), hs.objects],
   by rw [h.beNat (by omega) fun x _ _ => hR x (by omega), hs.shared],
   by rw [h.beNat (by omega) fun x _ _ => hR x (by omega), hs.frozen]⟩

/-- The state in which the object with the given id has just been looked for under `owner`. -/
structure Looked (σ σ' : Store) (owner id : Nat) : Prop where
  touches : Touches lookupBuf σ σ'
  slot : beNat σ'.mem 128 32 = objectSlot σ.host.keccak owner id
  data : beNat σ'.mem 64 32 = σ.host.storage (objectSlot σ.host.keccak owner id) % 2 ^ 256

theorem wp_loadUnder {key u owner is l Q} (hs : 65536 ≤ σ.size) (hz : Statics σ) (hl : lget l 0 = u) (hu : u + 32 ≤ σ.size)
    (hu' : 468 ≤ u) (hk : key + 32 ≤ 256) (hk' : key = 160 ∨ key = 192 ∨ key = 224) (ho : beNat σ.mem key 32 = owner)
    (h : ∀ σ', Looked σ σ' owner (beNat σ.mem u 32) → beNat σ'.mem key 32 = owner → wp is [] l σ' Q) :
    wp (loadUnder key ++ is) [] l σ Q := by
  unfold loadUnder
  wstep
  rw [hl]
  refine wp_call3 (writeObjectSlot_spec (o := key) (u := u) (d := 128) (by omega) hz.objects (by omega) hu (by omega) (by omega)
    (by omega) (by omega)) ?_
  rintro r σ1 ⟨rfl, h1, t1⟩
  have z1 := t1.size
  wstep
  rw [wp_storageLoad (by omega) (by omega)]
  subst ho
  have t : Touches lookupBuf σ (σ1.setMem (putBe σ1.mem 64 32 (σ1.host.storage (beNat σ1.mem 128 32)))) := by
    refine (t1.mono fun x hx => ?_).trans (Touches.set fun x hx => ?_)
    · simp only [hashBuf] at hx; simp only [lookupBuf]; omega
    · simp only [lookupBuf] at hx; rw [putBe_out (by omega)]
  refine h _ ⟨t, ?_, ?_⟩ ?_
  · rw [setMem_mem, beNat_putBe_disj (by omega), h1]
  · rw [setMem_mem, beNat_putBe_same, h1, t1.host]; rfl
  · rw [setMem_mem, beNat_putBe_disj (by omega), t1.beNat]
    intro x hx hx'
    simp only [hashBuf]
    omega


theorem wp_writeSigner {is l Q} (hs : 65536 ≤ σ.size)
    (h : ∀ σ', Touches lookupBuf σ σ' → beNat σ'.mem 224 32 = σ.host.origin % 2 ^ 160 → wp is [] l σ' Q) :
    wp (writeSigner ++ is) [] l σ Q := by
  unfold writeSigner
  wstep
  rw [wp_txOrigin (by simp only [setMem_size]; omega)]
  wstep
  refine h _ (Touches.set fun x hx => ?_) ?_
  · simp only [lookupBuf] at hx
    rw [putBe_out (by omega), fillBytes_out (by omega)]
  · rw [setMem_mem, show (32 : Nat) = 12 + 20 from rfl, beNat_zeros (fun x h1 h2 => by
      rw [putBe_out (by omega), fillBytes_in (by omega) (by omega)]; rfl), beNat_putBe_same]
    rfl

theorem leNat_zero_iff_beNat (f : Bytes) (p n : Nat) : leNat f p n = 0 ↔ beNat f p n = 0 := by
  constructor
  · intro h
    have hz := leNat_inj (f := f) (g := fun _ => 0) (a := p) (b := p) (n := n) (by rw [h, leNat_zero_of fun _ _ _ => rfl])
    refine beNat_zero_of fun x h1 h2 => ?_
    have := hz (x - p) (by omega)
    rwa [show p + (x - p) = x by omega] at this
  · intro h; exact leNat_zero_of (beNat_zero_bytes h)

/-- There is an object with the id under `owner`. -/
def Occupied (σ : Store) (owner id : Nat) : Prop :=
  σ.host.storage (objectSlot σ.host.keccak owner id) % 2 ^ 256 ≠ 0

theorem Looked.isZero {owner id : Nat} (h : Looked σ σ' owner id) :
    leNat σ'.mem 64 (4 * 8) = 0 ↔ ¬ Occupied σ owner id := by
  rw [show 4 * 8 = 32 from rfl, leNat_zero_iff_beNat, h.data]
  unfold Occupied
  rw [Classical.not_not]


/-- Outcome of a successful lookup. -/
structure FoundAt (σ σ' : Store) (owner id : Nat) (r : List Nat) : Prop where
  looked : Looked σ σ' owner id
  ptr : ∃ k, r = [k] ∧ (k = 160 ∨ k = 192 ∨ k = 224) ∧ beNat σ'.mem k 32 = owner

/-- Outcome of an unsuccessful lookup. -/
def NotFound (E : ErrPtrs) (σ σ' : Store) : Prop :=
  ∃ σ1, Touches lookupBuf σ σ1 ∧ σ' = errStore σ1 (E .objectNotFound)

theorem Looked.after {owner id : Nat} {R : Nat → Prop} (h' : Looked σ' σ'' owner id) (h : Touches R σ σ') (hR : ∀ x, R x → lookupBuf x) :
    Looked σ σ'' owner id :=
  ⟨(h.mono hR).trans h'.touches, by rw [h'.slot, h.host], by rw [h'.data, h.host]⟩

theorem lookupBuf_static {x : Nat} (h : x < 64 ∨ 96 ≤ x ∧ x < 128 ∨ 160 ≤ x ∧ x < 224) : ¬ lookupBuf x := by
  unfold lookupBuf; omega

theorem Occupied.of_touches {R : Nat → Prop} (h : Touches R σ σ') {owner id : Nat} :
    Occupied σ' owner id ↔ Occupied σ owner id := by unfold Occupied; rw [h.host]

theorem id_touches {u : Nat} (h : Touches lookupBuf σ σ') (hu : 468 ≤ u) : beNat σ'.mem u 32 = beNat σ.mem u 32 :=
  h.beNat fun x h1 h2 => by unfold lookupBuf; omega

/-- Result of a lookup; `fr`: frozen objects are considered. -/
structure LookupOk (E : ErrPtrs) (fr : Prop) (me id : Nat) (σ σ' : Store) (r : List Nat) : Prop where
  own : Occupied σ me id → FoundAt σ σ' me id r
  shared : ¬ Occupied σ me id → Occupied σ 1 id → FoundAt σ σ' 1 id r
  frozen : ¬ Occupied σ me id → ¬ Occupied σ 1 id → fr → Occupied σ 2 id → FoundAt σ σ' 2 id r
  none : ¬ Occupied σ me id → ¬ Occupied σ 1 id → ¬ (fr ∧ Occupied σ 2 id) → NotFound E σ σ'

theorem locateData_spec {u fr me id : Nat} (hσ : Ready σ) (hz : Statics σ) (hu : u + 32 ≤ σ.size) (hu' : 468 ≤ u)
    (hme : σ.host.origin % 2 ^ 160 = me) (hid : beNat σ.mem u 32 = id) :
    (locateData E).Calls [u, fr] σ (fun r σ' => LookupOk E (fr ≠ 0) me id σ σ' r) := by
  refine ⟨rfl, ?_⟩
  have hs := hσ.size
  have hs' := hσ.size_lt
  unfold locateData negate
  simp only [List.append_assoc]
  wstep
  refine wp_writeSigner hs fun σ1 t1 ho => ?_
  have z1 := t1.size
  have hz1 := t1.statics hz fun x => lookupBuf_static
  have id1 := id_touches t1 hu'
  rw [hid] at id1
  rw [hme] at ho
  refine wp_loadUnder (u := u) (by omega) hz1 rfl (by omega) hu' (by omega) (by omega) ho fun σ2 k2 o2 => ?_
  rw [id1] at k2
  have t2 := t1.trans k2.touches
  have z2 := t2.size
  have hz2 := t2.statics hz fun x => lookupBuf_static
  have id2 := id_touches t2 hu'
  rw [hid] at id2
  have e2 := k2.isZero
  rw [Occupied.of_touches t1] at e2
  wstep
  refine wp_call2 (isZero_spec (k := 8) (by omega) (by omega)) ?_
  rintro r σ' ⟨rfl, rfl⟩
  wstep
  rw [e2]
  refine .intro (fun hne => ?_) (fun hne => ?_)
  · rw [Classical.not_not] at hne
    exact ⟨fun _ => ⟨k2.after t1 (fun _ h => h), 224, rfl, by omega, o2⟩, fun h => absurd hne h, fun h => absurd hne h, fun h => absurd hne h⟩
  have h0 : ¬ Occupied σ me id := fun h => hne (fun h' => h' h)
  refine wp_loadUnder (u := u) (by omega) hz2 rfl (by omega) hu' (by omega) (by omega) hz2.shared fun σ3 k3 o3 => ?_
  rw [id2] at k3
  have t3 := t2.trans k3.touches
  have z3 := t3.size
  have hz3 := t3.statics hz fun x => lookupBuf_static
  have id3 := id_touches t3 hu'
  rw [hid] at id3
  have e3 := k3.isZero
  rw [Occupied.of_touches t2] at e3
  wstep
  refine wp_call2 (isZero_spec (k := 8) (by omega) (by omega)) ?_
  rintro r σ' ⟨rfl, rfl⟩
  wstep
  rw [e3]
  refine .intro (fun hne => ?_) (fun hne => ?_)
  · rw [Classical.not_not] at hne
    exact ⟨fun h => absurd h h0, fun _ _ => ⟨k3.after t2 (fun _ h => h), 160, rfl, by omega, o3⟩, fun _ h => absurd hne h,
      fun _ h => absurd hne h⟩
  have h1 : ¬ Occupied σ 1 id := fun h => hne (fun h' => h' h)
  have err : ∀ σ4, Touches lookupBuf σ σ4 → (fr ≠ 0 → ¬ Occupied σ 2 id) →
      wp (returnError (E .objectNotFound) .i32 2) [] [u, fr, 0] σ4
        (contB 1 [] [] (retK 1 fun r σ' => LookupOk E (fr ≠ 0) me id σ σ' r)) := by
    intro σ4 t4 h2
    have z4 := t4.size
    unerr
    wstep
    exact ⟨fun h => absurd h h0, fun _ h => absurd h h1, fun _ _ hf h => absurd h (h2 hf), fun _ _ _ => ⟨σ4, t4, rfl⟩⟩
  refine .intro (fun hf => ?_) (fun hf => ?_)
  · exact err _ t3 (fun h => absurd hf h)
  refine wp_loadUnder (u := u) (by omega) hz3 rfl (by omega) hu' (by omega) (by omega) hz3.frozen fun σ4 k4 o4 => ?_
  rw [id3] at k4
  have t4 := t3.trans k4.touches
  have z4 := t4.size
  have e4 := k4.isZero
  rw [Occupied.of_touches t3] at e4
  wstep
  refine wp_call2 (isZero_spec (k := 8) (by omega) (by omega)) ?_
  rintro r σ' ⟨rfl, rfl⟩
  wstep
  rw [e4]
  refine .intro (fun hne => ?_) (fun hne => ?_)
  · rw [Classical.not_not] at hne
    exact ⟨fun h => absurd h h0, fun _ h => absurd h h1, fun _ _ _ _ => ⟨k4.after t3 (fun _ h => h), 192, rfl, by omega, o4⟩,
      fun _ _ h => absurd ⟨hf, hne⟩ h⟩
  have h2 : ¬ Occupied σ 2 id := fun h => hne (fun h' => h' h)
  exact err _ t4 (fun _ => h2)

theorem foundOr_wp {key owner id : Nat} {l} (hs : 65536 ≤ σ.size) (hs' : σ.size < 2 ^ 32) (hk : Looked σ σ' owner id)
    (hk' : key = 160 ∨ key = 192 ∨ key = 224) (ho : beNat σ'.mem key 32 = owner) (hl : 1 < l.length)  :
    wp (foundOr E key) [] l σ' (retK 1 fun r σ' =>
      (Occupied σ owner id → FoundAt σ σ' owner id r) ∧ (¬ Occupied σ owner id → NotFound E σ σ')) := by
  have hz := hk.touches.size
  have e := hk.isZero
  unfold foundOr
  wstep
  refine wp_call2 (isZero_spec (k := 8) (by omega) (by omega)) ?_
  rintro r σ' ⟨rfl, rfl⟩
  unerr
  wstep
  rw [e]
  refine .intro (fun hne => ?_) (fun hne => ?_)
  · exact ⟨fun h => absurd h hne, fun _ => ⟨_, hk.touches, rfl⟩⟩
  · rw [Classical.not_not] at hne
    exact ⟨fun _ => ⟨hk, key, rfl, hk', ho⟩, fun h => absurd hne h⟩

theorem locateOwned_spec {u me id : Nat} (hσ : Ready σ) (hz : Statics σ) (hu : u + 32 ≤ σ.size) (hu' : 468 ≤ u)
    (hme : σ.host.origin % 2 ^ 160 = me) (hid : beNat σ.mem u 32 = id) :
    (locateOwned E).Calls [u] σ (fun r σ' =>
      (Occupied σ me id → FoundAt σ σ' me id r) ∧ (¬ Occupied σ me id → NotFound E σ σ')) := by
  refine ⟨rfl, ?_⟩
  have hs := hσ.size
  have hs' := hσ.size_lt
  unfold locateOwned
  simp only [List.append_assoc]
  refine wp_writeSigner hs fun σ1 t1 ho => ?_
  have z1 := t1.size
  have hz1 := t1.statics hz fun x => lookupBuf_static
  have id1 := id_touches t1 hu'
  rw [hid] at id1
  rw [hme] at ho
  refine wp_loadUnder (u := u) (by omega) hz1 rfl (by omega) hu' (by omega) (by omega) ho fun σ2 k2 o2 => ?_
  rw [id1] at k2
  exact foundOr_wp hs hs' (k2.after t1 fun _ h => h) (by omega) o2 (by simp)

theorem locateShared_spec {u id : Nat} (hσ : Ready σ) (hz : Statics σ) (hu : u + 32 ≤ σ.size) (hu' : 468 ≤ u)
    (hid : beNat σ.mem u 32 = id) :
    (locateShared E).Calls [u] σ (fun r σ' =>
      (Occupied σ 1 id → FoundAt σ σ' 1 id r) ∧ (¬ Occupied σ 1 id → NotFound E σ σ')) := by
  refine ⟨rfl, ?_⟩
  have hs := hσ.size
  have hs' := hσ.size_lt
  unfold locateShared
  refine wp_loadUnder (u := u) (by omega) hz rfl (by omega) hu' (by omega) (by omega) hz.shared fun σ2 k2 o2 => ?_
  rw [hid] at k2
  exact foundOr_wp hs hs' k2 (by omega) o2 (by simp)

theorem locateFrozen_spec {u id : Nat} (hσ : Ready σ) (hz : Statics σ) (hu : u + 32 ≤ σ.size) (hu' : 468 ≤ u)
    (hid : beNat σ.mem u 32 = id) :
    (locateFrozen E).Calls [u] σ (fun r σ' =>
      (Occupied σ 2 id → FoundAt σ σ' 2 id r) ∧ (¬ Occupied σ 2 id → NotFound E σ σ')) := by
  refine ⟨rfl, ?_⟩
  have hs := hσ.size
  have hs' := hσ.size_lt
  unfold locateFrozen
  refine wp_loadUnder (u := u) (by omega) hz rfl (by omega) hu' (by omega) (by omega) hz.frozen fun σ2 k2 o2 => ?_
  rw [hid] at k2
  exact foundOr_wp hs hs' k2 (by omega) o2 (by simp)

/-! ### Objects in memory -/

theorem initStore_statics {t : ErrTable} {maxPages : Nat} (h : ErrTable.Ok t) (host : Host) :
    Statics (initStore t maxPages host) := by
  have e : ∀ x, x < 468 → (initStore t maxPages host).mem x = segMem baseSegs (fun _ => 0) x := h.fixed
  constructor
  · rw [leNat_congr fun x _ _ => e x (by omega)]; decide
  · rw [leNat_congr fun x _ _ => e x (by omega)]; decide
  · rw [beNat_congr fun x _ _ => e x (by omega)]; decide
  · rw [beNat_congr fun x _ _ => e x (by omega)]; decide
  · rw [beNat_congr fun x _ _ => e x (by omega)]; decide


theorem getIdBytesPtr_spec {s a b c : Nat} (h1 : leNat σ.mem s 4 = a) (h2 : leNat σ.mem a 4 = b) (h3 : leNat σ.mem b 4 = c)
    (hs : s + 4 ≤ σ.size) (ha : a + 4 ≤ σ.size) (hb : b + 4 ≤ σ.size) : Evaluates getIdBytesPtr [s] σ c := by
  refine ⟨rfl, ?_⟩
  unfold getIdBytesPtr
  subst h1 h2 h3
  wstep

theorem getStructOwner_spec {s : Nat} (hs : 32 ≤ s) (hs' : s < 2 ^ 32) : Evaluates getStructOwner [s] σ (s - 32) := by
  refine ⟨rfl, ?_⟩
  unfold getStructOwner
  wstep

/-- The id of the object at `s` is at `u`: the object's first field is a `UID` containing an `ID`
containing the bytes. -/
structure IdAt (σ : Store) (s u : Nat) : Prop where
  owner : 468 + 32 ≤ s
  fld : s + 4 ≤ σ.size
  uid : leNat σ.mem s 4 + 4 ≤ σ.size
  idn : leNat σ.mem (leNat σ.mem s 4) 4 + 4 ≤ σ.size
  bytes : leNat σ.mem (leNat σ.mem (leNat σ.mem s 4) 4) 4 = u
  low : 468 ≤ u
  high : u + 32 ≤ σ.size

theorem locateStructSlot_spec {s u : Nat} (hσ : Ready σ) (hz : beNat σ.mem 96 32 = 0) (h : IdAt σ s u) :
    locateStructSlot.Calls [s] σ (fun r σ' => r = [] ∧
      beNat σ'.mem 128 32 = objectSlot σ.host.keccak (beNat σ.mem (s - 32) 32) (beNat σ.mem u 32) ∧
      Touches (fun x => hashBuf x ∨ 128 ≤ x ∧ x < 160) σ σ') := by
  refine ⟨rfl, ?_⟩
  have hs := hσ.size
  have hs' := hσ.size_lt
  have h0 := h.owner; have h1 := h.fld; have h2 := h.low; have h3 := h.high
  unfold locateStructSlot
  wstep
  refine wp_call1 (getStructOwner_spec (by omega) (by omega)) ?_
  rintro r σ' ⟨rfl, rfl⟩
  wstep
  refine wp_call1 (getIdBytesPtr_spec rfl rfl h.bytes h.fld h.uid h.idn) ?_
  rintro r σ' ⟨rfl, rfl⟩
  wstep
  refine wp_call3 (writeObjectSlot_spec (by omega) hz (by omega) h3 (by omega) (by omega) (by omega) (by omega)) ?_
  rintro r σ' ⟨rfl, e, t⟩
  wstep
  exact ⟨e, t⟩

end Rt
