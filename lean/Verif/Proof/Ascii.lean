import Verif.Proof.BigEndian
import Verif.Proof.HeapInts2
import Verif.Rt.Ascii

/-! Abort messages built at run time. -/

namespace Rt
open Wasm

variable {σ : Store}

/-- `L` is the number of decimal digits of `n` (1 for 0). -/
def DecLen (n L : Nat) : Prop := n < 10 ^ L ∧ ((n = 0 ∧ L = 1) ∨ (0 < L ∧ 10 ^ (L - 1) ≤ n))

/-- Digit `i` (from the left) of the `L`-digit number `n`, as an ASCII character. -/
def decDigit (n L i : Nat) : Nat := 48 + n / 10 ^ (L - 1 - i) % 10

theorem DecLen.le {n L : Nat} (h : DecLen n L) (hn : n < 2 ^ 64) : 0 < L ∧ L ≤ 20 := by
  rcases h.2 with ⟨_, rfl⟩ | ⟨h0, h1⟩
  · omega
  · refine ⟨h0, ?_⟩
    by_contra hc
    have : 10 ^ 20 ≤ 10 ^ (L - 1) := Nat.pow_le_pow_right (by omega) (by omega)
    omega

theorem decDigit_lt {n L i : Nat} : decDigit n L i < 58 := by unfold decDigit; omega

theorem setMem_byte {f : Bytes} {p v : Nat} (hv : v < 256) : (putLe f p 1 v p).toNat = v := by
  rw [← leNat_one, leNat_putLe_same, Nat.mod_eq_of_lt (by omega)]

set_option maxHeartbeats 2000000 in
theorem ascii_spec {n : Nat} (hn : n < 2 ^ 64) (hσ : Heap σ) (hr : Room σ 21) :
    ascii.Calls [n] σ (fun r σ' => r = [σ.nextFree] ∧ Extends σ σ' ∧ ∃ L, DecLen n L ∧
      σ'.nextFree = σ.nextFree + 1 + L ∧ (σ'.mem σ.nextFree).toNat = L ∧
      ∀ i, i < L → (σ'.mem (σ.nextFree + 1 + i)).toNat = decDigit n L i) := by
  have hc : CanAlloc σ 1 := hr.canAlloc hσ.alloc (by omega)
  have hx := hσ.allocated hc
  have hsz := allocated_inside hσ.alloc hc
  have hr1 : Room (allocated σ 1) 20 := Room.after (k := 1) hr (by rw [allocated_nextFree]) allocated_maxPages
  refine ⟨rfl, ?_⟩
  unfold ascii
  wstep
  refine .intro (fun h0 => ?_) (fun h0 => ?_)
  · subst h0
    refine wp_alloc hσ hc ?_
    wstep
    have hx1 : Extends σ ((allocated σ 1).setMem (putLe (allocated σ 1).mem σ.nextFree 1 1)) :=
      hx.putLe (Nat.le_refl _) (by rw [allocated_nextFree])
    generalize hg : (allocated σ 1).setMem (putLe (allocated σ 1).mem σ.nextFree 1 1) = σ1 at *
    have hnf : σ1.nextFree = σ.nextFree + 1 := by rw [← hg]; exact allocated_nextFree
    have hmx : σ1.maxPages = σ.maxPages := hx1.maxPages
    have h1 := hx1.heap hσ
    have hr2 : Room σ1 20 := Room.after (k := 1) hr (by omega) hmx
    have hc2 : CanAlloc σ1 1 := hr2.canAlloc h1.alloc (by omega)
    have hy := h1.allocated hc2
    have hsz2 := allocated_inside h1.alloc hc2
    refine wp_alloc h1 hc2 ?_
    wstep
    refine ⟨?_, 1, ⟨by omega, .inl ⟨rfl, rfl⟩⟩, ?_, ?_, ?_⟩
    · exact (hx1.trans hy).putLe (by omega) (by rw [allocated_nextFree])
    · rw [allocated_nextFree, hnf]
    · rw [putLe_out (by omega), hy.mem _ (by omega), ← hg]
      exact setMem_byte (by omega)
    · intro i hi
      have : i = 0 := by omega
      subst this
      rw [Nat.add_zero, ← hnf]
      exact setMem_byte (by omega)
  · refine wp_alloc hσ hc ?_
    wstep
    refine wp_loop (fun m l σ' => ∃ L, m + 1 = L ∧ L ≤ 20 ∧ n < 10 ^ L ∧
      l = [n, L, σ.nextFree, 10 ^ (L - 1), 0] ∧ σ' = allocated σ 1) 19
      ⟨20, rfl, by omega, by omega, rfl, rfl⟩ ?_
    rintro m l σ' ⟨L, hm, hL, hlt, rfl, rfl⟩
    have hpow : 10 ^ (L - 1) ≤ 10 ^ 19 := Nat.pow_le_pow_right (by omega) (by omega)
    have hppos : 0 < 10 ^ (L - 1) := Nat.pow_pos (by omega)
    wstep
    refine .intro (fun hle => ?_) (fun hle => ?_)
    · have hdl : DecLen n L := ⟨hlt, .inr ⟨by omega, hle⟩⟩
      have hrL : Room (allocated σ 1) L := hr1.mono hL
      have hs1 := (hx.heap hσ)
      refine wp_loop (fun m l σ' => ∃ i, m + i + 1 = L ∧
        (∃ w, l = [n % 10 ^ (L - i), L, σ.nextFree, 10 ^ (L - 1 - i), w]) ∧ Extends (allocated σ 1) σ' ∧
        σ'.nextFree = σ.nextFree + 1 + i ∧ Room σ' (L - i) ∧
        ∀ j, j < i → (σ'.mem (σ.nextFree + 1 + j)).toNat = decDigit n L j) (L - 1)
        ⟨0, by omega, ⟨0, by rw [Nat.sub_zero, Nat.sub_zero, Nat.mod_eq_of_lt hlt]⟩, hs1.refl, by
          rw [allocated_nextFree], hrL, fun j hj => absurd hj (by omega)⟩ ?_
      rintro m l σ' ⟨i, hi, ⟨w, rfl⟩, hxx, hnf, hr', hdig⟩
      have hh := hxx.heap hs1
      have hca : CanAlloc σ' 1 := hr'.canAlloc hh.alloc (by omega)
      have hxa := hh.allocated hca
      have hsa := allocated_inside hh.alloc hca
      have hp1 : 10 ^ (L - i) = 10 ^ (L - 1 - i) * 10 := by
        rw [← Nat.pow_succ]; congr 1; omega
      have hp0 : 0 < 10 ^ (L - 1 - i) := Nat.pow_pos (by omega)
      have hp2 : 10 ^ (L - 1 - i) ≤ 10 ^ 19 := Nat.pow_le_pow_right (by omega) (by omega)
      have hd1 : n % 10 ^ (L - i) / 10 ^ (L - 1 - i) = n / 10 ^ (L - 1 - i) % 10 := by
        rw [hp1, Nat.mod_mul_right_div_self]
      have hd2 : n % 10 ^ (L - i) % 10 ^ (L - 1 - i) = n % 10 ^ (L - 1 - i) := by
        rw [hp1, Nat.mod_mul_right_mod]
      generalize hS : 10 ^ (L - 1 - i) = S at *
      generalize hN : n % 10 ^ (L - i) = N at *
      wstep
      refine wp_alloc hh hca ?_
      wstep
      have hdlt : N / S < 10 := by rw [hd1]; omega
      rw [hd2]
      have hval : N / S + 48 = decDigit n L i := by
        unfold decDigit; rw [hS, hd1]; omega
      rw [hval]
      have hdd := decDigit_lt (n := n) (L := L) (i := i)
      have hxw : Extends (allocated σ 1) ((allocated σ' 1).setMem
          (putLe (allocated σ' 1).mem σ'.nextFree 1 (decDigit n L i))) :=
        (hxx.trans hxa).putLe hxx.nextFree (by rw [allocated_nextFree])
      have hnew : ∀ j, j < i + 1 → (putLe (allocated σ' 1).mem σ'.nextFree 1 (decDigit n L i)
            (σ.nextFree + 1 + j)).toNat = decDigit n L j := by
        intro j hj
        by_cases hji : j = i
        · subst hji
          rw [hnf]; exact setMem_byte (by omega)
        · rw [putLe_out (by omega), hxa.mem _ (by omega)]
          exact hdig j (by omega)
      have hnf2 : (allocated σ' 1).nextFree = σ.nextFree + 1 + (i + 1) := by
        rw [allocated_nextFree, hnf]; omega
      refine .intro (fun h1 => ?_) (fun h1 => ?_)
      · have hi' : i + 1 = L := by
          have : L - 1 - i = 0 := by
            by_contra hne
            have : 10 ^ 1 ≤ 10 ^ (L - 1 - i) := Nat.pow_le_pow_right (by omega) (by omega)
            omega
          omega
        refine ⟨(hx.trans hxw).putLe (Nat.le_refl _) (by rw [setMem_nextFree, hnf2]; omega), L, hdl, by
          rw [hnf2]; omega, setMem_byte (by omega), ?_⟩
        intro j hj
        rw [putLe_out (by omega)]
        exact hnew j (by omega)
      · have hLi : i + 1 < L := by
          by_contra hc
          have : L - 1 - i = 0 := by omega
          rw [this] at hS
          exact h1 hS.symm
        refine ⟨m - 1, by omega, i + 1, by omega, ⟨σ'.nextFree, ?_⟩, hxw, hnf2, ?_, hnew⟩
        · have e1 : L - (i + 1) = L - 1 - i := by omega
          rw [e1, hS]
          have e2 : S / 10 = 10 ^ (L - 1 - (i + 1)) := by
            rw [← hS, show L - 1 - i = (L - 1 - (i + 1)) + 1 by omega, Nat.pow_succ,
              Nat.mul_div_cancel _ (by omega)]
          rw [e2]
        · exact Room.after (k := 1) (hr'.mono (by omega)) 
            (by rw [setMem_nextFree, hnf2, hnf]; omega) allocated_maxPages
    · have hm0 : 1 < L := by
        by_contra hc
        have : L - 1 = 0 := by omega
        rw [this, Nat.pow_zero] at hle
        omega
      have e2 : 10 ^ (L - 1) / 10 = 10 ^ (L - 1 - 1) := by
        conv => lhs; rw [show L - 1 = (L - 1 - 1) + 1 by omega]
        rw [Nat.pow_succ, Nat.mul_div_cancel _ (by omega)]
      refine ⟨m - 1, by omega, L - 1, by omega, by omega, by omega, ?_⟩
      rw [e2]

/-! ### `Error(string)` -/

/-- Length rounded up to whole words. -/
def padded (n : Nat) : Nat := (n + 31) / 32 * 32

theorem pad_mask {n : Nat} (h : n < 2 ^ 31) : n + 31 &&& 4294967264 = padded n := by
  have := and_field (n + 31) 5 27
  rw [show (2 ^ 27 - 1) * 2 ^ 5 = 0xFFFFFFE0 from rfl] at this
  rw [show 4294967264 = 0xFFFFFFE0 from rfl, this]; unfold padded; omega

/-- Everything in front of the message text. -/
structure ErrHead (f : Bytes) (p n : Nat) : Prop where
  len : leNat f p 4 = 68 + padded n
  s0 : f (p + 4) = 0x08
  s1 : f (p + 5) = 0xc3
  s2 : f (p + 6) = 0x79
  s3 : f (p + 7) = 0xa0
  off : beNat f (p + 8) 32 = 32
  strlen : beNat f (p + 40) 32 = n

set_option maxHeartbeats 2000000 in
theorem wp_abiErrorStructure {errLen ptr total pad n : Nat} {loc is s : List _} {Q : Res → Prop}
    (hσ : Heap σ) (hn : n < 2 ^ 30) (hr : Room σ (72 + padded n)) (hl : lget loc errLen = n)
    (h2 : ptr < loc.length) (h3 : total < loc.length)
    (h4 : pad < loc.length) (d1 : ptr ≠ errLen) (d2 : total ≠ errLen) (d3 : pad ≠ errLen)
    (d4 : total ≠ ptr) (d5 : pad ≠ ptr) (d6 : pad ≠ total)
    (hK : ∀ σ', Extends σ σ' → σ'.nextFree = σ.nextFree + 72 + padded n →
      ErrHead σ'.mem σ.nextFree n → (∀ x, σ.nextFree + 72 ≤ x → σ'.mem x = 0) →
      wp is s (lset (lset (lset loc pad (padded n)) total (68 + padded n)) ptr σ.nextFree) σ' Q) :
    wp (abiErrorStructure errLen ptr total pad ++ is) s loc σ Q := by
  have hp : padded n ≤ n + 31 := by unfold padded; omega
  have hp2 : n ≤ padded n := by unfold padded; omega
  have hm := pad_mask (n := n) (by omega)
  have hc : CanAlloc σ (72 + padded n) := hr.canAlloc hσ.alloc (by omega)
  have hx := hσ.allocated hc
  have hin := allocated_inside hσ.alloc hc
  have hz : ∀ x, σ.nextFree ≤ x → (allocated σ (72 + padded n)).mem x = 0 := fun x hx =>
    hσ.allocated_zero hx
  have hlt := hx.alloc.size_lt
  have hnf : (allocated σ (72 + padded n)).nextFree = σ.nextFree + (72 + padded n) := allocated_nextFree
  unfold abiErrorStructure
  wstep
  rw [hl, hm, show (4 + (68 + padded n) % 4294967296) % 4294967296 = 72 + padded n by omega,
    show (68 + padded n) % 4294967296 = 68 + padded n by omega]
  refine wp_alloc hσ hc ?_
  wstep
  rw [hl]
  refine wp_call1 swap32_spec ?_
  rintro r σ' ⟨rfl, rfl⟩
  wstep
  rw [putLe_bswap]
  refine hK _ (hx.write ?_ ?_) (by rw [setMem_nextFree, hnf]; omega) ?_ ?_
  · intro x hx'
    rw [putBe_out (by omega), putLe_out (by omega), putLe_out (by omega), putLe_out (by omega),
      putLe_out (by omega), putLe_out (by omega), putLe_out (by omega)]
  · intro x hx'
    rw [putBe_out (by omega), putLe_out (by omega), putLe_out (by omega), putLe_out (by omega),
      putLe_out (by omega), putLe_out (by omega), putLe_out (by omega)]
  · rw [setMem_mem]
    generalize (allocated σ (72 + padded n)).mem = g at *
    generalize σ.nextFree = p at *
    constructor
    · rw [leNat_putBe_disj (by omega), leNat_putLe_disj (by omega), leNat_putLe_disj (by omega),
        leNat_putLe_disj (by omega), leNat_putLe_disj (by omega), leNat_putLe_disj (by omega),
        leNat_putLe_same]
      omega
    · rw [putBe_out (by omega), putLe_out (by omega), putLe_out (by omega), putLe_out (by omega),
        putLe_out (by omega), putLe_in (by omega) (by omega), Nat.sub_self]; rfl
    · rw [putBe_out (by omega), putLe_out (by omega), putLe_out (by omega), putLe_out (by omega),
        putLe_in (by omega) (by omega), Nat.sub_self]; rfl
    · rw [putBe_out (by omega), putLe_out (by omega), putLe_out (by omega),
        putLe_in (by omega) (by omega), Nat.sub_self]; rfl
    · rw [putBe_out (by omega), putLe_out (by omega),
        putLe_in (by omega) (by omega), Nat.sub_self]; rfl
    · rw [beNat_putBe_disj (by omega), beNat_zeros (m := 31) (n := 1), beNat_one]
      · exact setMem_byte (by omega)
      · intro x h1 h2
        rw [putLe_out (by omega), putLe_out (by omega), putLe_out (by omega), putLe_out (by omega),
          putLe_out (by omega), putLe_out (by omega)]
        exact hz x (by omega)
    · rw [beNat_zeros (m := 28) (n := 4), beNat_putBe_same]
      · omega
      · intro x h1 h2
        rw [putBe_out (by omega), putLe_out (by omega), putLe_out (by omega), putLe_out (by omega),
          putLe_out (by omega), putLe_out (by omega), putLe_out (by omega)]
        exact hz x (by omega)
  · intro x hx'
    rw [setMem_mem, putBe_out (by omega), putLe_out (by omega), putLe_out (by omega), putLe_out (by omega),
      putLe_out (by omega), putLe_out (by omega), putLe_out (by omega)]
    exact hz x (by omega)

/-- The bytes at `p` are an `Error(string)` for the text `msg`, preceded by its length. -/
structure ErrBlob (f : Bytes) (p : Nat) (msg : List UInt8) : Prop where
  head : ErrHead f p msg.length
  text : ∀ i (h : i < msg.length), f (p + 72 + i) = msg[i]
  pad : ∀ i, msg.length ≤ i → i < padded msg.length → f (p + 72 + i) = 0

/-- The decimal digits of `n`. -/
def decText (n L : Nat) : List UInt8 := (List.range L).map (fun i => UInt8.ofNat (decDigit n L i))

theorem ErrHead.congr {f g : Bytes} {p n : Nat} (h : ErrHead f p n)
    (he : ∀ x, p ≤ x → x < p + 72 → g x = f x) : ErrHead g p n := by
  constructor
  · exact (leNat_congr fun x h1 h2 => he x h1 (by omega)).trans h.len
  · exact (he _ (by omega) (by omega)).trans h.s0
  · exact (he _ (by omega) (by omega)).trans h.s1
  · exact (he _ (by omega) (by omega)).trans h.s2
  · exact (he _ (by omega) (by omega)).trans h.s3
  · refine Eq.trans (beNat_congr fun x h1 h2 => he x (by omega) (by omega)) h.off
  · refine Eq.trans (beNat_congr fun x h1 h2 => he x (by omega) (by omega)) h.strlen

theorem ErrBlob.congr {f g : Bytes} {p : Nat} {msg} (h : ErrBlob f p msg)
    (he : ∀ x, p ≤ x → x < p + 72 + padded msg.length → g x = f x) : ErrBlob g p msg := by
  have hp : msg.length ≤ padded msg.length := by unfold padded; omega
  constructor
  · exact h.head.congr fun x h1 h2 => he x h1 (by omega)
  · intro i hi; rw [he _ (by omega) (by omega)]; exact h.text i hi
  · intro i h1 h2; rw [he _ (by omega) (by omega)]; exact h.pad i h1 h2

set_option maxHeartbeats 2000000 in
/-- `abort n` raises an error whose message is the decimal number `n`. -/
theorem abortFn_spec {n : Nat} {ty : RetTy} (hn : n < 2 ^ 64) (hσ : Heap σ) (hr : Room σ 200) :
    (abortFn ty).Calls [n] σ (fun _ σ' => ∃ p L, DecLen n L ∧ σ.nextFree ≤ p ∧
      p + 72 + padded L ≤ σ'.nextFree ∧ ErrBlob σ'.mem p (decText n L) ∧
      Extends (errStore σ p) σ') := by
  refine ⟨rfl, ?_⟩
  unfold abortFn abortMessage abortEnd
  simp only [List.append_assoc, List.cons_append, List.nil_append, List.replicate]
  wstep
  refine wp_call1 (ascii_spec hn hσ (hr.mono (by omega))) ?_
  rintro r σ1 ⟨rfl, hx1, L, hL, hnf1, hlen, hdig⟩
  obtain ⟨hL0, hL20⟩ := hL.le hn
  have h1 := hx1.heap hσ
  have hpL : padded L = 32 := by unfold padded; omega
  have hle := h1.alloc.nextFree_le
  have hlt := h1.alloc.size_lt
  wstep
  rw [leNat_one, hlen]
  have hr1 : Room σ1 (72 + padded L) := by
    refine (Room.after (k := 21) (n := 179) hr ?_ hx1.maxPages).mono ?_ <;> omega
  refine wp_abiErrorStructure h1 (by omega) hr1 rfl (by simp) (by simp) (by simp)
    (by decide) (by decide) (by decide) (by decide) (by decide) (by decide) ?_
  intro σ2 hx2 hnf2 hhead hz
  have h2 := hx2.heap h1
  have hle2 := h2.alloc.nextFree_le
  have hlt2 := h2.alloc.size_lt
  have hb := hσ.base
  unfold reserved at hb
  simp only [abortPtr]
  wstep
  refine ⟨σ1.nextFree, L, hL, by omega, by omega, ?_, ?_⟩
  · have hlenT : (decText n L).length = L := by simp [decText]
    have hout : ∀ x, σ1.nextFree ≤ x → putLe (copyBytes σ2.mem (σ1.nextFree + 72) (σ.nextFree + 1) L)
        256 4 σ1.nextFree x = copyBytes σ2.mem (σ1.nextFree + 72) (σ.nextFree + 1) L x :=
      fun x hx => putLe_out (by omega)
    constructor
    · rw [hlenT]
      refine hhead.congr fun x h1 h2 => ?_
      rw [hout x h1, copyBytes_out (by omega)]
    · intro i hi
      rw [hlenT] at hi
      rw [hout _ (by omega), copyBytes_in (by omega) (by omega), Nat.add_sub_cancel_left,
        hx2.mem _ (by omega)]
      apply UInt8.toNat_inj.mp
      rw [hdig i hi]
      simp only [decText, List.getElem_map, List.getElem_range]
      have := decDigit_lt (n := n) (L := L) (i := i)
      rw [UInt8.toNat_ofNat', Nat.mod_eq_of_lt (by omega)]
    · intro i h1 h2
      rw [hlenT] at h1
      rw [hout _ (by omega), copyBytes_out (by omega)]
      exact hz _ (by omega)
  · have hxx := (hx1.trans hx2).write (m := copyBytes σ2.mem (σ1.nextFree + 72) (σ.nextFree + 1) L)
      (fun x hx => copyBytes_out (by omega)) (fun x hx => copyBytes_out (by omega))
    exact hxx.err hσ

/-! ### Messages known at compile time -/

theorem leBytes_digit : ∀ (l : List UInt8) (i : Nat), UInt8.ofNat (leBytes l / 256 ^ i) = l.getD i 0
  | [], i => by simp [leBytes]
  | b :: bs, 0 => by
    have := b.toNat_lt
    simp only [leBytes, Nat.pow_zero, Nat.div_one, List.getD_cons_zero]
    apply UInt8.toNat_inj.mp
    rw [UInt8.toNat_ofNat']
    omega
  | b :: bs, i + 1 => by
    have := b.toNat_lt
    rw [List.getD_cons_succ, ← leBytes_digit bs i]
    simp only [leBytes]
    rw [Nat.pow_succ', ← Nat.div_div_eq_div_mul,
      show (b.toNat + 256 * leBytes bs) / 256 = leBytes bs by omega]

theorem leBytes_lt : ∀ l : List UInt8, leBytes l < 256 ^ l.length
  | [] => by simp [leBytes]
  | b :: bs => by
    have h1 := leBytes_lt bs
    have h2 := b.toNat_lt
    simp only [leBytes, List.length_cons, Nat.pow_succ]
    omega

/-- Length rounded up to a multiple of 8. -/
def up8 (n : Nat) : Nat := (n + 7) / 8 * 8

/-- Memory after the chunked writes. -/
def chunkMem (f : Bytes) (a : Nat) (msg : List UInt8) : Bytes :=
  fun x => if a ≤ x ∧ x < a + up8 msg.length then msg.getD (x - a) 0 else f x

theorem chunkMem_step (f : Bytes) (a : Nat) (msg : List UInt8) (h : msg ≠ []) :
    chunkMem (putLe f a 8 (leBytes (msg.take 8))) (a + 8) (msg.drop 8) = chunkMem f a msg := by
  have hl : 0 < msg.length := List.length_pos_of_ne_nil h
  funext x
  unfold chunkMem
  rw [List.length_drop]
  by_cases h1 : a ≤ x ∧ x < a + 8
  · rw [if_neg (by omega), if_pos (by unfold up8; omega), putLe_in h1.1 h1.2, leBytes_digit]
    rw [List.getD_eq_getElem?_getD, List.getElem?_take_of_lt (by omega), ← List.getD_eq_getElem?_getD]
  · by_cases h2 : a + 8 ≤ x ∧ x < a + up8 msg.length
    · rw [if_pos (by unfold up8 at *; omega), if_pos (by omega)]
      rw [List.getD_eq_getElem?_getD, List.getElem?_drop, List.getD_eq_getElem?_getD]
      congr 2; omega
    · rw [if_neg (by unfold up8 at *; omega), if_neg (by unfold up8 at *; omega), putLe_out (by omega)]

theorem wp_writeChunks {ptr p : Nat} {loc s : List Nat} {is : List Instr} {Q : Res → Prop}
    (hl : lget loc ptr = p) : ∀ (msg : List UInt8) (off : Nat) (σ : Store), σ.size < 2 ^ 32 →
      p + 72 + off + up8 msg.length ≤ σ.size →
      wp is s loc (σ.setMem (chunkMem σ.mem (p + 72 + off) msg)) Q →
      wp (writeChunks ptr off msg ++ is) s loc σ Q
  | [], off, σ, hs, hin, h => by
    have : chunkMem σ.mem (p + 72 + off) [] = σ.mem := by
      funext x; unfold chunkMem; rw [if_neg]; simp [up8]
    rw [this, setMem_self] at h
    rw [writeChunks, List.nil_append]
    exact h
  | b :: bs, off, σ, hs, hin, h => by
    have hup : 8 ≤ up8 (b :: bs).length := by simp only [up8, List.length_cons]; omega
    have hup2 : up8 ((b :: bs).drop 8).length + 8 = up8 (b :: bs).length := by
      rw [List.length_drop]; simp only [up8, List.length_cons]; omega
    have hlt : leBytes ((b :: bs).take 8) < 18446744073709551616 := by
      refine Nat.lt_of_lt_of_le (leBytes_lt _) ?_
      rw [List.length_take]
      exact Nat.le_trans (Nat.pow_le_pow_right (by omega) (Nat.min_le_left _ _)) (by decide)
    rw [writeChunks]
    simp only [List.cons_append, List.nil_append]
    wstep
    rw [hl, ← List.take_succ_cons, ← Nat.add_assoc]
    refine wp_writeChunks hl _ (off + 8) _ hs (by rw [setMem_size]; omega) ?_
    rw [setMem_setMem, setMem_mem, ← Nat.add_assoc (p + 72), 
      show 7 + 1 = 8 from rfl, chunkMem_step _ _ _ (by simp)]
    exact h
  termination_by msg => msg.length

set_option maxHeartbeats 2000000 in
/-- An abort with a message known at compile time. -/
theorem abortConstFn_spec {n : Nat} {msg : List UInt8} {ty : RetTy} (hn : n < 2 ^ 64)
    (hm : msg.length < 256) (hσ : Heap σ) (hr : Room σ 400) :
    (abortConstFn n msg ty).Calls [n] σ (fun _ σ' => ∃ p, σ.nextFree ≤ p ∧
      p + 72 + padded msg.length ≤ σ'.nextFree ∧ ErrBlob σ'.mem p msg ∧
      Extends (errStore σ p) σ') := by
  refine ⟨rfl, ?_⟩
  have hn' : n < 18446744073709551616 := hn
  unfold abortConstFn abortMessageConst abortEnd
  simp only [List.append_assoc, List.cons_append, List.nil_append, List.replicate]
  wstep
  have hp : padded msg.length ≤ msg.length + 31 := by unfold padded; omega
  have hup : up8 msg.length ≤ padded msg.length := by unfold padded up8; omega
  have hup' : msg.length ≤ up8 msg.length := by unfold up8; omega
  refine wp_abiErrorStructure (n := msg.length) hσ (by omega) (hr.mono (by omega)) rfl (by simp) (by simp) (by simp)
    (by decide) (by decide) (by decide) (by decide) (by decide) (by decide) ?_
  intro σ2 hx2 hnf2 hhead hz
  have h2 := hx2.heap hσ
  have hle2 := h2.alloc.nextFree_le
  have hlt2 := h2.alloc.size_lt
  have hb := hσ.base
  unfold reserved at hb
  simp only [abortPtr]
  wstep
  refine wp_writeChunks (p := σ.nextFree) rfl _ _ _ hlt2 (by omega) ?_
  wstep
  have hin : ∀ x, σ.nextFree ≤ x → putLe (chunkMem σ2.mem (σ.nextFree + 72) msg)
      256 4 σ.nextFree x = chunkMem σ2.mem (σ.nextFree + 72) msg x :=
    fun x hx => putLe_out (by omega)
  have hout : ∀ x, x < σ.nextFree + 72 ∨ σ.nextFree + 72 + up8 msg.length ≤ x →
      chunkMem σ2.mem (σ.nextFree + 72) msg x = σ2.mem x := by
    intro x hx; unfold chunkMem; rw [if_neg]; omega
  refine ⟨σ.nextFree, Nat.le_refl _, by omega, ⟨?_, ?_, ?_⟩, ?_⟩
  · refine hhead.congr fun x h1 h2 => ?_
    rw [hin x h1, hout x (by omega)]
  · intro i hi
    rw [hin _ (by omega)]
    unfold chunkMem
    rw [if_pos (by omega), Nat.add_sub_cancel_left, List.getD_eq_getElem?_getD,
      List.getElem?_eq_getElem hi]
    rfl
  · intro i h1 h2
    rw [hin _ (by omega)]
    unfold chunkMem
    split
    · rw [Nat.add_sub_cancel_left, List.getD_eq_getElem?_getD, List.getElem?_eq_none h1]; rfl
    · exact hz _ (by omega)
  · have hxx := hx2.write (m := chunkMem σ2.mem (σ.nextFree + 72) msg)
      (fun x hx => hout x (by omega)) (fun x hx => hout x (by omega))
    exact hxx.err hσ

end Rt
