import Verif.Rt.Natives
import Verif.Proof.StorageRt
import Verif.Proof.Router2

/-! The constructor, fresh identifiers and the native functions about transactions and accounts. -/

namespace Rt
open Wasm Abi Slots Mv Layout

variable {σ σ' σ'' : Store} {E : ErrPtrs}

theorem storeHash_eq (h ptr : Nat) : storeHash h ptr =
    code[Op.lget ptr, Op.c64 (leNat (putBe (fun _ => 0) 0 32 h) 0 8), Op.store 8 0,
      Op.lget ptr, Op.c64 (leNat (putBe (fun _ => 0) 0 32 h) 8 8), Op.store 8 8,
      Op.lget ptr, Op.c64 (leNat (putBe (fun _ => 0) 0 32 h) 16 8), Op.store 8 16,
      Op.lget ptr, Op.c64 (leNat (putBe (fun _ => 0) 0 32 h) 24 8), Op.store 8 24] := rfl

/-- Copying a number. -/
theorem putLe_leNat_eq (f g : Bytes) (p q n x : Nat) :
    putLe f p n (leNat g q n) x = if p ≤ x ∧ x < p + n then g (q + (x - p)) else f x := by
  split
  · next h =>
    have := leNat_inj (f := putLe f p n (leNat g q n)) (g := g) (a := p) (b := q) (n := n)
      (by rw [leNat_putLe_same, Nat.mod_eq_of_lt (leNat_lt _ _ _)]) (x - p) (by omega)
    rw [← this]
    congr 1; omega
  · next h => rw [putLe_out (by omega)]

theorem storeHash_mem (f : Bytes) (p h : Nat) :
    putLe (putLe (putLe (putLe f p 8 (leNat (putBe (fun _ => 0) 0 32 h) 0 8))
      (p + 8) 8 (leNat (putBe (fun _ => 0) 0 32 h) 8 8))
      (p + 16) 8 (leNat (putBe (fun _ => 0) 0 32 h) 16 8))
      (p + 24) 8 (leNat (putBe (fun _ => 0) 0 32 h) 24 8) = putBe f p 32 h := by
  funext x
  simp only [putLe_leNat_eq]
  by_cases hx : p ≤ x ∧ x < p + 32
  · have key : putBe (fun _ => 0) 0 32 h (x - p) = putBe f p 32 h x := by
      rw [putBe_in (by omega) (by omega), putBe_in hx.1 hx.2]
      congr 3
      omega
    rw [← key]
    split
    · congr 1; omega
    · split
      · congr 1; omega
      · split
        · congr 1; omega
        · rw [if_pos (by omega)]; congr 1; omega
  · rw [if_neg (by omega), if_neg (by omega), if_neg (by omega), if_neg (by omega), putBe_out (by omega)]

theorem wp_storeHash {h ptr p is s l Q} (hp : lget l ptr = p) (hs : p + 32 ≤ σ.size) :
    wp (storeHash h ptr ++ is) s l σ Q ↔ wp is s l (σ.setMem (putBe σ.mem p 32 h)) Q := by
  rw [storeHash_eq]
  wstep
  simp only [hp]
  rw [storeHash_mem]

/-! ### Constructor -/

theorem wp_isZero32 {p is s l Q} (hσ : Heap σ) (hp : p + 32 ≤ σ.size)
    (h : wp is (b2n (leNat σ.mem p 32 = 0) :: s) l σ Q) : wp (isZero.call :: is) (32 :: p :: s) l σ Q := by
  refine wp_call2 (isZero_spec (k := 8) hσ.alloc.size_lt hp) ?_
  rintro r σ' ⟨rfl, rfl⟩
  exact h

theorem Extends.putBe {p n v : Nat} (h : Extends σ σ') (h1 : σ.nextFree ≤ p) (h2 : p + n ≤ σ'.nextFree) :
    Extends σ (σ'.setMem (putBe σ'.mem p n v)) :=
  h.write (fun _ _ => putBe_out (by omega)) (fun _ _ => putBe_out (by omega))

theorem leNat_eq_zero_iff {f : Bytes} {p n : Nat} : leNat f p n = 0 ↔ beNat f p n = 0 := by
  constructor
  · intro h
    exact beNat_zero_of fun x h1 h2 => by
      have := leNat_inj (f := f) (g := fun _ => 0) (a := p) (b := p) (n := n) (by rw [h, leNat_zero_of fun _ _ _ => rfl])
        (x - p) (by omega)
      rwa [show p + (x - p) = x by omega] at this
  · intro h
    refine leNat_zero_of fun x h1 h2 => ?_
    have := toNat_beDigit f p n (n - 1 - (x - p)) (by omega)
    rw [h, Nat.zero_div, Nat.zero_mod, show p + (n - 1 - (n - 1 - (x - p))) = x by omega] at this
    exact UInt8.toNat_inj.mp this

/-- The flag is set: nothing happens, whatever `init` is. -/
theorem constructor_skip {h : Nat} {init : Fn} (hσ : Heap σ) (hr : Room σ 64) (hh : h < 2 ^ 256)
    (hf : σ.host.storage h % 2 ^ 256 ≠ 0) :
    (constructor h init).Calls [] σ (fun r σ' => r = [] ∧ Extends σ σ') := by
  refine ⟨rfl, ?_⟩
  unfold constructor
  simp only [List.append_assoc, List.cons_append, List.nil_append]
  wstep
  refine wp_allocR hσ hr (by omega) fun σ1 a1 => ?_
  have n1 := a1.nextFree
  have s1 := a1.inside
  wstep
  rw [wp_storeHash (p := σ.nextFree) rfl (by omega)]
  have x2 := a1.extends.putBe (p := σ.nextFree) (n := 32) (v := h) (by omega) (by omega)
  obtain ⟨σ2, e2⟩ : ∃ τ, τ = σ1.setMem (putBe σ1.mem σ.nextFree 32 h) := ⟨_, rfl⟩
  rw [← e2] at x2 ⊢
  have k2 : beNat σ2.mem σ.nextFree 32 = h := by
    rw [e2, setMem_mem, beNat_putBe_same, Nat.mod_eq_of_lt (by simpa using hh)]
  have n2 : σ2.nextFree = σ.nextFree + 32 := by rw [e2]; exact n1
  have s2 : σ2.nextFree ≤ σ2.size := by rw [e2]; exact s1
  wstep
  refine wp_allocR (x2.heap hσ) (hr.after (σ' := σ2) (k := 32) (n := 32) (by omega) x2.maxPages) (by omega) fun σ3 a3 => ?_
  have n3 := a3.nextFree
  have s3 := a3.inside
  wstep
  rw [wp_storageLoad (by omega) (by omega)]
  rw [show beNat σ3.mem σ.nextFree 32 = h by rw [a3.mem, k2]]
  rw [a3.host, x2.host]
  have x4 := (x2.trans a3.extends).putBe (p := σ2.nextFree) (n := 32) (v := σ.host.storage h) (by omega) (by omega)
  obtain ⟨σ4, e4⟩ : ∃ τ, τ = σ3.setMem (putBe σ3.mem σ2.nextFree 32 (σ.host.storage h)) := ⟨_, rfl⟩
  rw [← e4] at x4 ⊢
  have z4 : beNat σ4.mem σ2.nextFree 32 ≠ 0 := by
    rw [e4, setMem_mem, beNat_putBe_same]; simpa using hf
  wstep
  refine wp_isZero32 (x4.heap hσ) (by rw [e4]; simp only [setMem_size]; omega) ?_
  rw [wp_ite, IfP.neg (by simp [b2n, leNat_eq_zero_iff, z4]), wp_nil, contB_ok, wp_nil]
  exact ⟨rfl, x4⟩

theorem flag_word {f : Bytes} {p : Nat} (h : ∀ x, p ≤ x → x < p + 32 → f x = 0) : beNat (putLe f p 4 1) p 32 = 2 ^ 248 := by
  rw [beNat_ext (g := putLe (fun _ => 0) 0 4 1) (b := 0) fun i hi => ?_]
  · decide +kernel
  · by_cases h4 : i < 4
    · rw [putLe_in (by omega) (by omega), putLe_in (by omega) (by omega)]
      congr 3; omega
    · rw [putLe_out (by omega), putLe_out (by omega), h _ (by omega) (by omega)]

/-- The flag is not set: `init` is called with the new object for the context; if it comes back, the flag
is written and storage is committed. -/
theorem constructor_first {h v : Nat} {init : Fn} {I : Store → Prop} (hv : v = 2 ^ 248) (hσ : Heap σ) (hr : Room σ 68) (hh : h < 2 ^ 256)
    (hf : σ.host.storage h % 2 ^ 256 = 0)
    (hi : ∀ τ, Extends σ τ → τ.nextFree = σ.nextFree + 68 →
      init.Calls [σ.nextFree + 64] τ (fun r τ' => r = [] ∧ I τ' ∧ τ.size ≤ τ'.size ∧
        ∀ x, σ.nextFree ≤ x → x < σ.nextFree + 64 → τ'.mem x = τ.mem x)) :
    (constructor h init).Calls [] σ (fun r σ' => r = [] ∧ ∃ τ, I τ ∧
      σ' = flushed (stored (τ.setMem (putLe τ.mem (σ.nextFree + 32) 4 1)) h v)) := by
  refine ⟨rfl, ?_⟩
  unfold constructor
  simp only [List.append_assoc, List.cons_append, List.nil_append]
  wstep
  refine wp_allocR hσ hr (by omega) fun σ1 a1 => ?_
  have n1 := a1.nextFree
  have s1 := a1.inside
  wstep
  rw [wp_storeHash (p := σ.nextFree) rfl (by omega)]
  have x2 := a1.extends.putBe (p := σ.nextFree) (n := 32) (v := h) (by omega) (by omega)
  obtain ⟨σ2, e2⟩ : ∃ τ, τ = σ1.setMem (putBe σ1.mem σ.nextFree 32 h) := ⟨_, rfl⟩
  rw [← e2] at x2 ⊢
  have k2 : beNat σ2.mem σ.nextFree 32 = h := by
    rw [e2, setMem_mem, beNat_putBe_same, Nat.mod_eq_of_lt (by simpa using hh)]
  have n2 : σ2.nextFree = σ.nextFree + 32 := by rw [e2]; exact n1
  have s2 : σ2.nextFree ≤ σ2.size := by rw [e2]; exact s1
  wstep
  refine wp_allocR (x2.heap hσ) (hr.after (σ' := σ2) (k := 32) (n := 36) (by omega) x2.maxPages) (by omega) fun σ3 a3 => ?_
  have n3 := a3.nextFree
  have s3 := a3.inside
  wstep
  rw [wp_storageLoad (by omega) (by omega)]
  rw [show beNat σ3.mem σ.nextFree 32 = h by rw [a3.mem, k2]]
  rw [a3.host, x2.host, n2]
  have x4 := (x2.trans a3.extends).putBe (p := σ.nextFree + 32) (n := 32) (v := σ.host.storage h) (by omega) (by omega)
  obtain ⟨σ4, e4⟩ : ∃ τ, τ = σ3.setMem (putBe σ3.mem (σ.nextFree + 32) 32 (σ.host.storage h)) := ⟨_, rfl⟩
  rw [← e4] at x4 ⊢
  have z4 : beNat σ4.mem (σ.nextFree + 32) 32 = 0 := by
    rw [e4, setMem_mem, beNat_putBe_same]; simpa using hf
  have k4 : beNat σ4.mem σ.nextFree 32 = h := by
    rw [e4, setMem_mem, beNat_congr fun x a b => putBe_out (by omega), a3.mem, k2]
  have n4 : σ4.nextFree = σ.nextFree + 64 := by rw [e4, setMem_nextFree]; omega
  have s4 : σ4.nextFree ≤ σ4.size := by rw [e4]; exact s3
  wstep
  refine wp_isZero32 (x4.heap hσ) (by omega) ?_
  rw [wp_ite, IfP.pos (by simp [b2n, leNat_eq_zero_iff, z4])]
  wstep
  refine wp_allocR (x4.heap hσ) (hr.after (σ' := σ4) (k := 64) (n := 4) (by omega) x4.maxPages) (by omega) fun σ5 a5 => ?_
  have n5 := a5.nextFree
  have s5 := a5.inside
  rw [n4]
  refine wp_call1 (hi σ5 (x4.trans a5.extends) (by omega)) ?_
  rintro r τ ⟨rfl, hI, hs, hm⟩
  have z6 : ∀ x, σ.nextFree + 32 ≤ x → x < σ.nextFree + 64 → τ.mem x = 0 := fun x h1 h2 => by
    rw [hm x (by omega) h2, a5.mem]
    have := leNat_inj (f := σ4.mem) (g := fun _ => 0) (a := σ.nextFree + 32) (b := 0) (n := 32)
      (by rw [leNat_eq_zero_iff.mpr z4, leNat_zero_of fun _ _ _ => rfl]) (x - (σ.nextFree + 32)) (by omega)
    rwa [show σ.nextFree + 32 + (x - (σ.nextFree + 32)) = x by omega] at this
  have k6 : beNat τ.mem σ.nextFree 32 = h := by
    rw [beNat_congr fun x h1 h2 => (hm x h1 (by omega)).trans (by rw [a5.mem]), k4]
  have k7 : beNat (putLe τ.mem (σ.nextFree + 32) 4 1) σ.nextFree 32 = h := by
    rw [beNat_congr fun x h1 h2 => putLe_out (by omega), k6]
  have v7 : beNat (putLe τ.mem (σ.nextFree + 32) 4 1) (σ.nextFree + 32) 32 = v := by rw [hv]; exact flag_word z6
  wstep
  rw [wp_storageCache (by simp only [setMem_size]; omega) (by simp only [setMem_size]; omega)]
  simp only [setMem_mem, k7, v7]
  wstep
  rw [wp_storageFlush, wp_nil, contB_ok, wp_nil]
  exact ⟨rfl, τ, hI, rfl⟩

/-! ### Fresh identifiers -/

/-- The counter kept in a stored word: its first four bytes, read from the left end upwards. -/
def counterOf (w : Nat) : Nat := bswap 4 (w / 2 ^ 224)

/-- The bytes of a number, the lowest one first. -/
def bytesLe (n v : Nat) : List UInt8 := (List.range n).map fun i => UInt8.ofNat (v / 256 ^ i)

theorem rdBytes_putLe (f : Bytes) (p n v : Nat) : rdBytes (putLe f p n v) p n = bytesLe n v := by
  have hl : (bytesLe n v).length = n := by simp [bytesLe]
  have := rdBytes_eq (f := putLe f p n v) (a := p) (l := bytesLe n v) fun i h => by
    rw [hl] at h
    rw [putLe_in (by omega) (by omega)]
    simp [bytesLe]
  rwa [hl] at this

theorem leNat_first (f : Bytes) (p : Nat) : leNat f p 4 = counterOf (beNat f p 32) := by
  unfold counterOf
  rw [show (32 : Nat) = 4 + 28 from rfl, beNat_add, show (2 : Nat) ^ 224 = 256 ^ 28 by norm_num, Nat.mul_comm,
    Nat.mul_add_div (by positivity), Nat.div_eq_of_lt (beNat_lt _ _ _), Nat.add_zero, bswap_beNat]

theorem wp_timestamp {is s l Q} :
    wp (.op (.host .timestamp) :: is) s l σ Q ↔ wp is (σ.host.env.timestamp % 2 ^ 64 :: s) l σ Q := by
  rw [wp_op]; rfl

theorem wp_blockNumber {is s l Q} :
    wp (.op (.host .blockNumber) :: is) s l σ Q ↔ wp is (σ.host.env.number % 2 ^ 64 :: s) l σ Q := by
  rw [wp_op]; rfl

theorem bytesLe_mod (n v : Nat) : bytesLe n (v % 256 ^ n) = bytesLe n v := by
  rw [← rdBytes_putLe (fun _ => 0) 0, putLe_mod (Nat.le_refl _), rdBytes_putLe]

theorem preimage (m : Bytes) (p t b c : Nat) :
    rdBytes (putLe (putLe (putLe m (p + 96) 8 t) (p + 104) 8 b) (p + 112) 4 c) (p + 96) 20 =
      bytesLe 8 t ++ bytesLe 8 b ++ bytesLe 4 c := by
  rw [show (20 : Nat) = 8 + 8 + 4 from rfl, rdBytes_append, rdBytes_append]
  rw [rdBytes_congr (n := 8) (a := p + 96) fun x h1 h2 => (putLe_out (by omega)).trans (putLe_out (by omega)), rdBytes_putLe]
  rw [rdBytes_congr (n := 8) (a := p + 96 + 8) fun x h1 h2 => putLe_out (by omega), rdBytes_putLe,
    show p + 96 + (8 + 8) = p + 112 from rfl, rdBytes_putLe]

/-- `σ'` is `σ` after making the identifier at `p`. -/
structure Minted (h : Nat) (σ σ' : Store) (p : Nat) : Prop where
  heap : Heap σ'
  nextFree : σ'.nextFree = σ.nextFree + 116
  ptr : p = σ.nextFree + 64
  size : σ.size ≤ σ'.size
  mem : ∀ x, x < σ.nextFree → σ'.mem x = σ.mem x
  maxPages : σ'.maxPages = σ.maxPages
  reader : σ'.reader = σ.reader
  host : ∃ w, w < 2 ^ 256 ∧ counterOf w = (counterOf (σ.host.storage h % 2 ^ 256) + 1) % 2 ^ 32 ∧
    w % 2 ^ 224 = σ.host.storage h % 2 ^ 224 ∧
    σ'.host = { σ.host with storage := upd σ.host.storage h w, committed := upd σ.host.storage h w }
  id : beNat σ'.mem p 32 = σ.host.keccak (bytesLe 8 σ.host.env.timestamp ++
      bytesLe 8 σ.host.env.number ++ bytesLe 4 (counterOf (σ.host.storage h % 2 ^ 256) + 1)) % 2 ^ 256

theorem freshId_spec {h : Nat} (hσ : Heap σ) (hr : Room σ 116) (hh : h < 2 ^ 256) :
    (freshId h).Calls [] σ (fun r σ' => r = [σ.nextFree + 64] ∧ Minted h σ σ' (σ.nextFree + 64)) := by
  refine ⟨rfl, ?_⟩
  unfold freshId
  simp only [List.append_assoc, List.cons_append, List.nil_append]
  wstep
  refine wp_allocR hσ hr (by omega) fun σ1 a1 => ?_
  have n1 := a1.nextFree
  wstep
  refine wp_allocR a1.heap (hr.after (k := 32) (n := 84) (by omega) a1.maxPages) (by omega) fun σ2 a2 => ?_
  have n2 := a2.nextFree
  wstep
  refine wp_allocR a2.heap (hr.after (k := 64) (n := 52) (by omega) (a2.maxPages.trans a1.maxPages)) (by omega) fun σ3 a3 => ?_
  have n3 := a3.nextFree
  wstep
  refine wp_allocR a3.heap (hr.after (k := 96) (n := 20) (by omega)
    (a3.maxPages.trans (a2.maxPages.trans a1.maxPages))) (by omega) fun σ4 a4 => ?_
  have n4 := a4.nextFree
  have s4 := a4.inside
  wstep
  rw [wp_storeHash (p := σ.nextFree) rfl (by omega)]
  have x4 := a1.extends.trans (a2.extends.trans (a3.extends.trans a4.extends))
  have x5 := x4.putBe (p := σ.nextFree) (n := 32) (v := h) (by omega) (by omega)
  obtain ⟨σ5, e5⟩ : ∃ τ, τ = σ4.setMem (putBe σ4.mem σ.nextFree 32 h) := ⟨_, rfl⟩
  rw [← e5] at x5 ⊢
  have k5 : beNat σ5.mem σ.nextFree 32 = h := by
    rw [e5, setMem_mem, beNat_putBe_same, Nat.mod_eq_of_lt (by simpa using hh)]
  have n5 : σ5.nextFree = σ.nextFree + 116 := by rw [e5, setMem_nextFree]; omega
  have s5 : σ5.nextFree ≤ σ5.size := by rw [e5]; exact s4
  rw [n3, n2, n1]
  clear e5 a1 a2 a3 a4 x4
  wstep
  rw [wp_storageLoad (by omega) (by omega), k5, x5.host]
  wstep
  have hc : leNat (putBe σ5.mem (σ.nextFree + 32) 32 (σ.host.storage h)) (σ.nextFree + 32) 4 =
      counterOf (σ.host.storage h % 2 ^ 256) := by
    rw [leNat_first, beNat_putBe_same]
    norm_num
  have hc4 := leNat_lt (putBe σ5.mem (σ.nextFree + 32) 32 (σ.host.storage h)) (σ.nextFree + 32) 4
  rw [hc] at hc4
  rw [hc]
  have wrap : ¬ counterOf (σ.host.storage h % 2 ^ 256) < 4294967295 →
      putLe (putBe σ5.mem (σ.nextFree + 32) 32 (σ.host.storage h)) (σ.nextFree + 32) 4 0 =
      putLe (putBe σ5.mem (σ.nextFree + 32) 32 (σ.host.storage h)) (σ.nextFree + 32) 4
        (counterOf (σ.host.storage h % 2 ^ 256) + 1) := fun hn => putLe_congr (by
    rw [show counterOf (σ.host.storage h % 2 ^ 256) = 4294967295 by omega])
  suffices rest : wp [Instr.op (Op.host HostFn.timestamp), Instr.op (Op.store 8 0), Instr.op (Op.lget 1),
        Instr.op (Op.host HostFn.blockNumber), Instr.op (Op.store 8 8), Instr.op (Op.lget 1), Instr.op (Op.lget 3),
        Instr.op (Op.load 4 0), Instr.op (Op.store 4 16), Instr.op (Op.lget 1), Instr.op (Op.c32 20),
        Instr.op (Op.lget 0), Instr.op (Op.host HostFn.keccak), Instr.op (Op.lget 2), Instr.op (Op.lget 3),
        Instr.op (Op.host HostFn.storageCache), Instr.op (Op.c32 1), Instr.op (Op.host HostFn.storageFlush),
        Instr.op (Op.lget 0)]
      [σ.nextFree + 32 + 32 + 32] [σ.nextFree + 32 + 32, σ.nextFree + 32 + 32 + 32, σ.nextFree, σ.nextFree + 32]
      (σ5.setMem (putLe (putBe σ5.mem (σ.nextFree + 32) 32 (σ.host.storage h)) (σ.nextFree + 32) 4
        (counterOf (σ.host.storage h % 2 ^ 256) + 1)))
      (retK 1 fun r σ' => r = [σ.nextFree + 64] ∧ Minted h σ σ' (σ.nextFree + 64)) from
    IfP.intro (fun _ => rest) (fun hn => by rw [wrap hn]; exact rest)
  obtain ⟨c, hc'⟩ : ∃ c, c = counterOf (σ.host.storage h % 2 ^ 256) + 1 := ⟨_, rfl⟩
  rw [← hc']
  rw [wp_timestamp]
  wstep
  rw [wp_blockNumber]
  wstep
  rw [x5.host]
  simp only [Nat.add_assoc, Nat.reduceAdd]
  have q : leNat (putLe (putLe (putLe (putBe σ5.mem (σ.nextFree + 32) 32 (σ.host.storage h)) (σ.nextFree + 32) 4 c)
      (σ.nextFree + 96) 8 σ.host.env.timestamp) (σ.nextFree + 104) 8 σ.host.env.number) (σ.nextFree + 32) 4 = c % 256 ^ 4 := by
    rw [leNat_congr fun x h1 h2 => putLe_out (by omega), leNat_congr fun x h1 h2 => putLe_out (by omega), leNat_putLe_same]
  rw [q, putLe_mod (Nat.le_refl _)]
  obtain ⟨m7, e7⟩ : ∃ m, m = putLe (putBe σ5.mem (σ.nextFree + 32) 32 (σ.host.storage h)) (σ.nextFree + 32) 4 c := ⟨_, rfl⟩
  rw [← e7]
  obtain ⟨m8, e8⟩ : ∃ m, m = putLe (putLe (putLe m7 (σ.nextFree + 96) 8 σ.host.env.timestamp)
    (σ.nextFree + 104) 8 σ.host.env.number) (σ.nextFree + 112) 4 c := ⟨_, rfl⟩
  rw [← e8, wp_keccak (by rw [setMem_size]; omega) (by rw [setMem_size]; omega)]
  have pre : rdBytes m8 (σ.nextFree + 96) 20 = bytesLe 8 σ.host.env.timestamp ++ bytesLe 8 σ.host.env.number ++ bytesLe 4 c := by
    rw [e8]; exact preimage _ _ _ _ _
  have m8out : ∀ x, x < σ.nextFree + 96 ∨ σ.nextFree + 116 ≤ x → m8 x = m7 x := fun x hx => by
    rw [e8, putLe_out (by omega), putLe_out (by omega), putLe_out (by omega)]
  have m7out : ∀ x, x < σ.nextFree + 32 ∨ σ.nextFree + 64 ≤ x → m7 x = σ5.mem x := fun x hx => by
    rw [e7, putLe_out (by omega), putBe_out (by omega)]
  simp only [setMem_mem, setMem_setMem, setMem_host, x5.host, pre]
  obtain ⟨m9, e9⟩ : ∃ m, m = putBe m8 (σ.nextFree + 64) 32 (σ.host.keccak (bytesLe 8 σ.host.env.timestamp ++
    bytesLe 8 σ.host.env.number ++ bytesLe 4 c)) := ⟨_, rfl⟩
  rw [← e9]
  have m9out : ∀ x, x < σ.nextFree + 64 ∨ σ.nextFree + 96 ≤ x → m9 x = m8 x := fun x hx => by
    rw [e9, putBe_out (by omega)]
  wstep
  rw [wp_storageCache (by rw [setMem_size]; omega) (by rw [setMem_size]; omega)]
  wstep
  rw [wp_storageFlush]
  wstep
  have k9 : beNat m9 σ.nextFree 32 = h := by
    rw [beNat_congr fun x h1 h2 => (m9out x (by omega)).trans ((m8out x (by omega)).trans (m7out x (by omega))), k5]
  have w9 : beNat m9 (σ.nextFree + 32) 32 = beNat m7 (σ.nextFree + 32) 32 :=
    beNat_congr fun x h1 h2 => (m9out x (by omega)).trans (m8out x (by omega))
  have x9 : Extends σ (σ5.setMem m9) := x5.write
    (fun x hx => (m9out x (by omega)).trans ((m8out x (by omega)).trans (m7out x (by omega))))
    (fun x hx => (m9out x (by omega)).trans ((m8out x (by omega)).trans (m7out x (by omega))))
  rw [k9, w9]
  have hh9 := x9.heap hσ
  refine ⟨⟨⟨hh9.ready.size, hh9.ready.size_lt, hh9.ready.noErr⟩,
    ⟨hh9.alloc.sum, hh9.alloc.page, hh9.alloc.first, hh9.alloc.limit, hh9.alloc.max, hh9.alloc.small⟩, hh9.base, hh9.fresh⟩,
    n5, rfl, x9.size, x9.mem, x9.maxPages, x9.reader, ⟨beNat m7 (σ.nextFree + 32) 32, ?_, ?_, ?_, ?_⟩, ?_⟩
  · have := beNat_lt m7 (σ.nextFree + 32) 32
    norm_num at this ⊢
    exact this
  · rw [← leNat_first, e7, leNat_putLe_same, ← hc']; norm_num
  · have h1 := beNat_mod m7 (σ.nextFree + 32) 4 28
    have h2 := beNat_mod (putBe σ5.mem (σ.nextFree + 32) 32 (σ.host.storage h)) (σ.nextFree + 32) 4 28
    rw [beNat_putBe_same, Nat.mod_mod_of_dvd _ (Nat.pow_dvd_pow _ (by omega))] at h2
    have h3 : beNat m7 (σ.nextFree + 32 + 4) 28 =
        beNat (putBe σ5.mem (σ.nextFree + 32) 32 (σ.host.storage h)) (σ.nextFree + 32 + 4) 28 := by
      rw [e7]
      exact beNat_congr fun x h1 h2 => putLe_out (by omega)
    rw [h3, ← h2] at h1
    norm_num at h1 ⊢
    exact h1
  · simp only [flushed, stored, Store.setHost, Store.setMem, x5.host]
  · show beNat m9 (σ.nextFree + 64) 32 = _
    rw [e9, beNat_putBe_same, hc']
    norm_num

/-! ### Transaction, block and accounts -/

theorem wp_msgSender {p is s l Q} (h : p + 20 ≤ σ.size) :
    wp (.op (.host .msgSender) :: is) (p :: s) l σ Q ↔
      wp is s l (σ.setMem (putBe σ.mem p 20 σ.host.sender)) Q := by
  rw [wp_op]; simp only [Op.exec, HostFn.eval, if_pos h]

theorem nativeSender_spec (hσ : Heap σ) (hr : Room σ 32) :
    nativeSender.Calls [] σ (fun r σ' => r = [σ.nextFree] ∧ Extends σ σ' ∧ σ'.nextFree = σ.nextFree + 32 ∧
      beNat σ'.mem σ.nextFree 32 = σ.host.sender % 2 ^ 160) := by
  refine ⟨rfl, ?_⟩
  unfold nativeSender
  wstep
  refine wp_allocR hσ hr (by omega) fun σ1 a1 => ?_
  have n1 := a1.nextFree
  have s1 := a1.inside
  have l1 := a1.heap.alloc.size_lt
  wstep
  rw [wp_msgSender (by omega)]
  wstep
  refine ⟨a1.extends.putBe (by omega) (by omega), n1, ?_⟩
  rw [show (32 : Nat) = 12 + 20 from rfl, beNat_add, beNat_putBe_same,
    beNat_zero_of fun x h1 h2 => by rw [putBe_out (by omega), a1.mem, hσ.fresh x (by omega)]]
  rw [a1.host]
  norm_num

/-- A wrapper around a host function that writes a 32-byte number in the order of the host. -/
theorem hostWrapper_spec {f : HostFn} {v : Nat} (hσ : Heap σ) (hr : Room σ 32)
    (hf : ∀ (τ : Store) p s, τ.host = σ.host → p + 32 ≤ τ.size →
      f.eval τ (p :: s) = some (s, τ.setMem (putBe τ.mem p 32 v))) :
    (hostWrapper f).Calls [] σ (fun r σ' => r = [σ.nextFree] ∧ Extends σ σ' ∧ σ'.nextFree = σ.nextFree + 32 ∧
      beNat σ'.mem σ.nextFree 32 = v % 2 ^ 256) := by
  refine ⟨rfl, ?_⟩
  unfold hostWrapper
  wstep
  refine wp_allocR hσ hr (by omega) fun σ1 a1 => ?_
  have n1 := a1.nextFree
  have s1 := a1.inside
  wstep
  rw [wp_op]
  simp only [Op.exec, hf σ1 σ.nextFree [] a1.host (by omega)]
  wstep
  refine ⟨a1.extends.putBe (by omega) (by omega), n1, ?_⟩
  rw [beNat_putBe_same]
  norm_num

theorem nativeCodeSize_spec {a : Nat} (ha : a + 32 ≤ σ.size) (hs : σ.size < 2 ^ 32) :
    Evaluates nativeCodeSize [a] σ (σ.host.env.codeSize (beNat σ.mem (a + 12) 20) % 2 ^ 32) := by
  refine ⟨rfl, ?_⟩
  unfold nativeCodeSize
  wstep
  rw [wp_op]
  simp only [Op.exec, HostFn.eval, if_pos (show a + 12 + 20 ≤ σ.size by omega)]
  wstep

theorem nativeBalance_spec {a : Nat} (hσ : Heap σ) (hr : Room σ 32) (ha : a + 32 ≤ σ.nextFree) :
    ReturnsInt nativeBalance [a] σ 32 (σ.host.env.balance (beNat σ.mem (a + 12) 20) % 2 ^ 256) := by
  refine ⟨rfl, ?_⟩
  unfold nativeBalance
  wstep
  refine wp_allocR hσ hr (by omega) fun σ1 a1 => ?_
  have n1 := a1.nextFree
  have s1 := a1.inside
  have l1 := a1.heap.alloc.size_lt
  wstep
  rw [wp_op]
  simp only [Op.exec, HostFn.eval, if_pos (show a + 12 + 20 ≤ σ1.size ∧ σ.nextFree + 32 ≤ σ1.size by omega)]
  wstep
  refine wp_call2 (swapBytes4_spec (by rw [setMem_size]; omega) (by rw [setMem_size]; omega)) ?_
  rintro r τ ⟨rfl, rfl⟩
  wstep
  have x2 := a1.extends.putBe (p := σ.nextFree) (n := 32) (v := σ.host.env.balance (beNat σ.mem (a + 12) 20)) (by omega) (by omega)
  rw [beNat_putBe_same, a1.mem, a1.host]
  rw [a1.mem] at x2
  refine ⟨_, rfl, Nat.le_refl _, ⟨?_, ?_⟩, ?_, x2.putLe (by omega) (by simp only [setMem_nextFree]; omega)⟩
  · show σ.nextFree + 32 ≤ σ1.nextFree; omega
  · show σ1.nextFree ≤ _; omega
  rw [leNat_putLe_same]
  norm_num

/-- The vector at `p` holds the bytes `bs`. -/
structure ByteVec (m : Bytes) (p : Nat) (bs : List UInt8) : Prop where
  len : leNat m p 4 = bs.length
  cap : leNat m (p + 4) 4 = bs.length
  data : rdBytes m (p + 8) bs.length = bs

theorem bytesToVec_spec {p : Nat} {bs : List UInt8} (hσ : Heap σ) (hr : Room σ (8 + bs.length))
    (hp : p + bs.length ≤ σ.nextFree) (hb : rdBytes σ.mem p bs.length = bs) :
    bytesToVec.Calls [p, bs.length] σ (fun r σ' => r = [σ.nextFree] ∧ Extends σ σ' ∧
      σ'.nextFree = σ.nextFree + (8 + bs.length) ∧ ByteVec σ'.mem σ.nextFree bs) := by
  have hr1 := hr.1
  refine ⟨rfl, ?_⟩
  unfold bytesToVec skipVecHeader
  wstep
  refine wp_call3 (allocVec_spec hσ (Nat.le_refl _) (by rw [Nat.mul_one]; exact hr)) ?_
  rintro r σ1 ⟨rfl, x1, n1, m1⟩
  rw [Nat.mul_one] at n1
  have s1 := x1.alloc.nextFree_le
  have l1 := x1.alloc.size_lt
  wstep
  have hin : ∀ x, σ.nextFree + 8 ≤ x → x < σ.nextFree + 8 + bs.length →
      copyBytes σ1.mem (σ.nextFree + 8) p bs.length x = σ1.mem (p + (x - (σ.nextFree + 8))) := fun x h1 h2 => copyBytes_in h1 h2
  have hout : ∀ x, x < σ.nextFree + 8 ∨ σ.nextFree + 8 + bs.length ≤ x →
      copyBytes σ1.mem (σ.nextFree + 8) p bs.length x = σ1.mem x := fun x hx => copyBytes_out (by omega)
  refine ⟨x1.write (fun x hx => hout x (by omega)) (fun x hx => hout x (by omega)), n1, ?_, ?_, ?_⟩
  · rw [leNat_congr fun x h1 h2 => hout x (by omega), m1, leNat_congr fun x h1 h2 => putLe_out (by omega), leNat_putLe_same,
      Nat.mod_eq_of_lt (by omega)]
  · rw [leNat_congr fun x h1 h2 => hout x (by omega), m1, leNat_putLe_same, Nat.mod_eq_of_lt (by omega)]
  · refine rdBytes_eq fun i hi => ?_
    rw [hin _ (by omega) (by omega), show p + (σ.nextFree + 8 + i - (σ.nextFree + 8)) = p + i by omega, x1.mem _ (by omega)]
    have hl : i < (rdBytes σ.mem p bs.length).length := by rw [rdBytes_length]; exact hi
    rw [← rdBytes_getElem σ.mem p bs.length i hl]
    simp only [hb]

/-- Where the entry point left the call data. -/
structure CallData (σ : Store) : Prop where
  len : leNat σ.mem 396 4 = σ.host.calldata.length
  inside : leNat σ.mem 400 4 + σ.host.calldata.length ≤ σ.nextFree
  data : rdBytes σ.mem (leNat σ.mem 400 4) σ.host.calldata.length = σ.host.calldata

theorem nativeData_spec (hσ : Heap σ) (hr : Room σ (8 + σ.host.calldata.length)) (hd : CallData σ) :
    nativeData.Calls [] σ (fun r σ' => r = [σ.nextFree] ∧ Extends σ σ' ∧
      σ'.nextFree = σ.nextFree + (8 + σ.host.calldata.length) ∧ ByteVec σ'.mem σ.nextFree σ.host.calldata) := by
  refine ⟨rfl, ?_⟩
  have h1 := hσ.base
  have h2 := hσ.alloc.nextFree_le
  unfold reserved at h1
  unfold nativeData
  wstep
  rw [hd.len]
  refine wp_call2 (bytesToVec_spec hσ hr hd.inside hd.data) ?_
  rintro r σ1 ⟨rfl, h⟩
  wstep
  exact h

/-- The entry point records the call data. -/
theorem routerEnter_record {l : List Nat} (hσ : Heap σ)
    (hroom : Room σ σ.host.calldata.length) (hl : 4 ≤ l.length) (h0 : lget l 0 = σ.host.calldata.length) :
    wp routerEnter [] l σ (fun r => ∃ s l' σ', r = .ok s l' σ' ∧ Heap σ' ∧ CallData σ' ∧ σ'.host = σ.host) := by
  have hb := hσ.base
  unfold reserved at hb
  have hr1 := hroom.1
  unfold routerEnter
  rw [wp_lget, h0]
  refine wp_allocR hσ hroom (Nat.le_refl _) fun σ1 a1 => ?_
  have n1 := a1.nextFree
  have s1 := a1.inside
  have l1 := a1.heap.alloc.size_lt
  rw [wp_ltee, wp_readArgs (by rw [a1.host]; omega), a1.host]
  rw [wp_c32, wp_lset, wp_c32, wp_lget, lget_lset_ne (by omega), lget_lset_ne (by omega), h0,
    wp_store (by rw [setMem_size]; omega), wp_c32, wp_lget, lget_lset_ne (by omega), lget_lset_same (by omega),
    wp_store (by rw [setMem_size, setMem_size]; omega), wp_nil]
  simp only [setMem_setMem, setMem_mem, Nat.reduceMod, Nat.reduceAdd]
  have hm : ∀ x, (x < 396 ∨ 404 ≤ x) → putLe (putLe (wrBytes σ1.mem σ.nextFree σ.host.calldata) 396 4
      σ.host.calldata.length) 400 4 σ.nextFree x = wrBytes σ1.mem σ.nextFree σ.host.calldata x := fun x h => by
    rw [putLe_out (by omega), putLe_out (by omega)]
  have hp : leNat (putLe (putLe (wrBytes σ1.mem σ.nextFree σ.host.calldata) 396 4
      σ.host.calldata.length) 400 4 σ.nextFree) 400 4 = σ.nextFree := by
    rw [leNat_putLe_same, Nat.mod_eq_of_lt (by omega)]
  refine ⟨_, _, _, rfl, a1.heap.setMem ?_ ?_, ⟨?_, ?_, ?_⟩, a1.host⟩
  · exact leNat_congr fun x h1 h2 => by rw [hm x (by omega), wrBytes_out (by omega)]
  · intro x h1; rw [hm x (by omega), wrBytes_out (by omega)]
  · simp only [setMem_mem, setMem_host, a1.host]
    rw [leNat_congr fun x h1 h2 => putLe_out (by omega), leNat_putLe_same, Nat.mod_eq_of_lt (by omega)]
  · simp only [setMem_mem, setMem_host, a1.host, hp, setMem_nextFree]; omega
  · simp only [setMem_mem, setMem_host, a1.host, hp]
    rw [rdBytes_congr (g := wrBytes σ1.mem σ.nextFree σ.host.calldata) fun x h1 h2 => hm x (by omega)]
    exact rdBytes_wr ..

end Rt
