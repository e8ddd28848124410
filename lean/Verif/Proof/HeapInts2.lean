import Verif.Proof.Heap
import Verif.Proof.HeapMul

/-! u128/u256 operators as emitted by `heap_integers.rs`.

The `wp_` theorems describe the inline code in an arbitrary context (rest of the code `is`, rest
of the operand stack `s`, locals `loc`). -/

namespace Rt
open Wasm

variable (E : ErrPtrs) {σ : Store} {n : Nat}

/-- Continuations of an operation with a heap result of `n` bytes. -/
structure IntK (σ : Store) (e n : Nat) (o : Option Nat) (K : Nat → Store → Prop)
    (R : Store → Prop) : Prop where
  ok : ∀ v, o = some v → ∀ q σ', σ.nextFree ≤ q → q + n ≤ σ'.nextFree ∧ σ'.nextFree ≤ σ.nextFree + 2 * n → leNat σ'.mem q n = v →
    Extends σ σ' → K q σ'
  err : o = none → ∀ σ', Extends (errStore σ e) σ' → R σ'

/-- The locals below `l` are the same. -/
structure SameLocs (l : Nat) (loc loc' : List Nat) : Prop where
  length : loc'.length = loc.length
  get : ∀ i, i < l → lget loc' i = lget loc i

theorem SameLocs.refl {l loc} : SameLocs l loc loc := ⟨rfl, fun _ _ => rfl⟩

theorem SameLocs.lset {l i v loc loc'} (h : SameLocs l loc loc') (hi : l ≤ i) :
    SameLocs l loc (lset loc' i v) :=
  ⟨by rw [lset_length]; exact h.length, fun j hj => by rw [lget_lset_ne (by omega)]; exact h.get j hj⟩

theorem CheckedInt.of_wp2 {code : List Instr} {nl e n : Nat} {o : Option Nat} {a b : Nat}
    (h : ∀ Q, IntK σ e n o (fun q σ' => ∀ loc', SameLocs 2 ([a, b] ++ List.replicate nl 0) loc' →
        Q (.ok [q] loc' σ')) (fun σ' => Q (.ret (badStk .i32) σ')) →
      wp code [b, a] ([a, b] ++ List.replicate nl 0) σ Q) :
    CheckedInt (binFnL nl code) [a, b] σ e n o := by
  apply CheckedInt.intro
  intro P hok herr
  refine ⟨rfl, ?_⟩
  simp only [binFnL, List.cons_append, List.nil_append, wp_lget, lget_zero, lget_succ]
  refine h _ ⟨?_, ?_⟩
  · intro v hv q σ' h1 h2 h3 h4 loc' _
    exact hok v hv q σ' h1 h2 h3 h4
  · intro ho σ' h4
    exact herr ho _ σ' h4

theorem CheckedInt.of_wp1 {code : List Instr} {nl e n : Nat} {o : Option Nat} {a : Nat}
    (h : ∀ Q, IntK σ e n o (fun q σ' => ∀ loc', SameLocs 1 ([a] ++ List.replicate nl 0) loc' →
        Q (.ok [q] loc' σ')) (fun σ' => Q (.ret (badStk .i32) σ')) →
      wp code [a] ([a] ++ List.replicate nl 0) σ Q) :
    CheckedInt (unFnL nl code) [a] σ e n o := by
  apply CheckedInt.intro
  intro P hok herr
  refine ⟨rfl, ?_⟩
  simp only [unFnL, List.cons_append, List.nil_append, wp_lget, lget_zero]
  refine h _ ⟨?_, ?_⟩
  · intro v hv q σ' h1 h2 h3 h4 loc' _
    exact hok v hv q σ' h1 h2 h3 h4
  · intro ho σ' h4
    exact herr ho _ σ' h4

theorem HeapInt.bytes8 (t : HeapInt) : ∃ k, t.bytes = 8 * k ∧ 0 < k ∧ k ≤ 4 := by
  cases t
  · exact ⟨2, rfl, by omega, by omega⟩
  · exact ⟨4, rfl, by omega, by omega⟩

theorem HeapInt.pow (t : HeapInt) : 256 ^ t.bytes = 2 ^ t.bits := by
  unfold HeapInt.bits; rw [Nat.pow_mul]

section
variable {is : List Instr} {s loc : List Nat} {Q : Res → Prop} {ty : RetTy} {a b : Nat}

/-- Operators that allocate the result and then call `f`. -/
theorem wp_alloc_writes {f : Fn} {e v v' : Nat} {bad : Prop} [Decidable bad]
    (hσ : Heap σ) (he : 0 < e ∧ e < 2 ^ 32) (hc : CanAlloc σ n)
    (h : WritesOr f [a, b, σ.nextFree, n] (allocated σ n) σ.nextFree n v' e bad)
    (hv : ¬ bad → v' % 256 ^ n = v)
    (hK : IntK σ e n (if bad then none else some v) (fun q σ' => wp is (q :: s) loc σ' Q)
      (fun σ' => Q (.ret (badStk ty) σ'))) :
    wp (Op.c32 n :: alloc.call :: Op.c32 n :: f.call :: propagate ty :: is) (b :: a :: s) loc σ Q := by
  have hn : n % 4294967296 = n := Nat.mod_eq_of_lt (by have := hc.1; omega)
  have hx := hσ.allocated hc
  have hnf : σ.nextFree + n ≤ (allocated σ n).nextFree := by rw [allocated_nextFree]
  have hw : Extends σ ((allocated σ n).setMem (putLe (allocated σ n).mem σ.nextFree n v')) :=
    hx.putLe (Nat.le_refl _) hnf
  obtain ⟨hok, herr⟩ := hK
  rw [wp_c32, hn]
  refine wp_alloc hσ hc ?_
  rw [wp_c32, hn]
  by_cases hb : bad
  · rw [if_pos hb] at herr
    refine wp_callF_err (args := [a, b, σ.nextFree, n]) (h.2 hb) ?_
    rintro r σ' rfl
    have hex := hw.err (e := e) hσ
    have := hex.alloc.first
    exact ⟨by omega, by rw [hex.errWord hσ.base he.2]; omega, herr rfl _ hex⟩
  · rw [if_neg hb] at hok
    refine wp_callF_ok (args := [a, b, σ.nextFree, n]) (h.1 hb) ?_
    rintro r σ' ⟨rfl, rfl⟩
    have hh := hw.heap hσ
    have := hh.ready.size
    refine ⟨by omega, hh.ready.noErr, ?_⟩
    refine hok v rfl _ _ (Nat.le_refl _) ⟨hnf, by
      show (allocated σ n).nextFree ≤ _
      rw [allocated_nextFree]; omega⟩ ?_ hw
    rw [setMem_mem, leNat_putLe_same, hv hb]

theorem wp_hintAdd (t : HeapInt) (hE : E.Valid) (hσ : Heap σ)
    (hc : CanAlloc σ t.bytes) (ha : a + t.bytes ≤ σ.nextFree) (hb : b + t.bytes ≤ σ.nextFree)
    (hK : IntK σ (E .overflow) t.bytes
      (Spec.add t.bits (leNat σ.mem a t.bytes) (leNat σ.mem b t.bytes))
      (fun q σ' => wp is (q :: s) loc σ' Q) (fun σ' => Q (.ret (badStk ty) σ'))) :
    wp (hintAdd E t ty ++ is) (b :: a :: s) loc σ Q := by
  have hx := hσ.allocated hc
  have hin := allocated_inside hσ.alloc hc
  have hs := hx.alloc.size_lt
  have hs' := hx.alloc.first
  obtain ⟨k, hk, -, -⟩ := t.bytes8
  have h := heapAdd_spec (σ := allocated σ t.bytes) E (p1 := a) (p2 := b) (p := σ.nextFree) (k := k)
    hs hs' (by omega) (by omega) (by omega) (.inr (.inr (by omega))) (.inr (.inr (by omega)))
  rw [← hk, hx.leNat ha, hx.leNat hb] at h
  refine wp_alloc_writes (v := leNat σ.mem a t.bytes + leNat σ.mem b t.bytes) hσ (hE _) hc h
    (fun h => Nat.mod_eq_of_lt (by omega)) ?_
  unfold Spec.add at hK
  rw [← t.pow] at hK
  by_cases hlt : leNat σ.mem a t.bytes + leNat σ.mem b t.bytes < 256 ^ t.bytes
  · rw [if_pos hlt] at hK; rwa [if_neg (by omega)]
  · rw [if_neg hlt] at hK; rwa [if_pos (by omega)]

theorem wp_hintSub (t : HeapInt) (hE : E.Valid) (hσ : Heap σ)
    (hc : CanAlloc σ t.bytes) (ha : a + t.bytes ≤ σ.nextFree) (hb : b + t.bytes ≤ σ.nextFree)
    (hK : IntK σ (E .overflow) t.bytes
      (Spec.sub (leNat σ.mem a t.bytes) (leNat σ.mem b t.bytes))
      (fun q σ' => wp is (q :: s) loc σ' Q) (fun σ' => Q (.ret (badStk ty) σ'))) :
    wp (hintSub E t ty ++ is) (b :: a :: s) loc σ Q := by
  have hx := hσ.allocated hc
  have hin := allocated_inside hσ.alloc hc
  have hs := hx.alloc.size_lt
  have hs' := hx.alloc.first
  obtain ⟨k, hk, -, -⟩ := t.bytes8
  have h := heapSub_spec (σ := allocated σ t.bytes) E (p1 := a) (p2 := b) (p := σ.nextFree) (k := k)
    hs hs' (by omega) (by omega) (by omega) (.inr (.inr (by omega))) (.inr (.inr (by omega)))
  rw [← hk, hx.leNat ha, hx.leNat hb] at h
  have hA := leNat_lt σ.mem a t.bytes
  refine wp_alloc_writes (v := leNat σ.mem a t.bytes - leNat σ.mem b t.bytes) hσ (hE _) hc h
    (fun h => by
      rw [show leNat σ.mem a t.bytes + 256 ^ t.bytes - leNat σ.mem b t.bytes =
        (leNat σ.mem a t.bytes - leNat σ.mem b t.bytes) + 256 ^ t.bytes by omega, Nat.add_mod_right]
      exact Nat.mod_eq_of_lt (by omega)) ?_
  unfold Spec.sub at hK
  by_cases hlt : leNat σ.mem b t.bytes ≤ leNat σ.mem a t.bytes
  · rw [if_pos hlt] at hK; rwa [if_neg (by omega)]
  · rw [if_neg hlt] at hK; rwa [if_pos (by omega)]

/-- What `heap_integers_mul` computes: the product modulo the type, or the overflow error, the
latter when some row overflows. -/
theorem heapMul_spec (t : HeapInt) {a b : Nat} (hσ : Heap σ)
    (hc : CanAlloc σ t.bytes) (ha : a + t.bytes ≤ σ.nextFree) (hb : b + t.bytes ≤ σ.nextFree) :
    CheckedInt (heapMul E) [a, b, t.bytes] σ (E .overflow) t.bytes
      (if RowOvf (t.bytes / 4) (leNat σ.mem a t.bytes) (leNat σ.mem b t.bytes) then none
       else some (leNat σ.mem a t.bytes * leNat σ.mem b t.bytes % 2 ^ t.bits)) := by
  have hx := hσ.allocated hc
  have hin := allocated_inside hσ.alloc hc
  have hs := hx.alloc.size_lt
  have hs' := hx.alloc.first
  obtain ⟨k, hk, -, -⟩ := t.bytes8
  have hk4 : t.bytes = 4 * (t.bytes / 4) := by omega
  have hz : leNat (allocated σ t.bytes).mem σ.nextFree t.bytes = 0 :=
    leNat_zero_of fun x h1 _ => hσ.allocated_zero h1
  have hnf : σ.nextFree + t.bytes ≤ (allocated σ t.bytes).nextFree := by rw [allocated_nextFree]
  apply CheckedInt.intro
  intro P hok herr
  refine ⟨rfl, ?_⟩
  have h := heapMul_loop (σ := allocated σ t.bytes) E (p1 := a) (p2 := b) (p := σ.nextFree)
    (n := t.bytes / 4) hs hs' (by omega) (by omega) (by omega) (by rw [← hk4]; exact hz)
    (retK 1 P)
  rw [← hk4, hx.leNat ha, hx.leNat hb] at h
  unfold heapMul at h ⊢
  simp only [List.drop_succ_cons, List.drop_zero] at h
  simp only [wp_lget, List.cons_append, List.nil_append, lget_succ, lget_zero]
  refine wp_alloc hσ hc ?_
  simp only [List.replicate, wp_lset, lset_succ, lset_zero]
  refine h ?_ ?_
  · intro hno l
    rw [if_neg hno] at hok
    refine hok _ rfl _ _ (Nat.le_refl _) ⟨hnf, by
      show (allocated σ t.bytes).nextFree ≤ _
      rw [allocated_nextFree]; omega⟩ ?_ (hx.putLe (Nat.le_refl _) hnf)
    rw [setMem_mem, leNat_putLe_same, t.pow]
  · intro ho V
    rw [if_pos ho] at herr
    exact herr rfl _ _ ((hx.putLe (Nat.le_refl _) hnf).err hσ)

/-- A detected overflow is an overflow. -/
theorem RowOvf.overflow {n a b : Nat} (h : RowOvf n a b) : 256 ^ (4 * n) ≤ a * b := by
  obtain ⟨j, hj, h⟩ := h
  have h1 : b / 256 ^ (4 * j) % 256 ^ 4 * 256 ^ (4 * j) ≤ b :=
    Nat.le_trans (Nat.mul_le_mul_right _ (Nat.mod_le _ _)) (Nat.div_mul_le_self _ _)
  have h2 : a % 256 ^ (4 * (n - j)) ≤ a := Nat.mod_le _ _
  calc 256 ^ (4 * n) = 256 ^ (4 * (n - j)) * 256 ^ (4 * j) := by
        rw [← Nat.pow_add]; congr 1; omega
    _ ≤ (b / 256 ^ (4 * j) % 256 ^ 4) * (a % 256 ^ (4 * (n - j))) * 256 ^ (4 * j) :=
        Nat.mul_le_mul_right _ h
    _ = (a % 256 ^ (4 * (n - j))) * (b / 256 ^ (4 * j) % 256 ^ 4 * 256 ^ (4 * j)) := by ring
    _ ≤ a * b := Nat.mul_le_mul h2 h1

theorem wp_hintMul (t : HeapInt) (hE : E.Valid) (hσ : Heap σ)
    (hc : CanAlloc σ t.bytes) (ha : a + t.bytes ≤ σ.nextFree) (hb : b + t.bytes ≤ σ.nextFree)
    (hK : IntK σ (E .overflow) t.bytes
      (if RowOvf (t.bytes / 4) (leNat σ.mem a t.bytes) (leNat σ.mem b t.bytes) then none
       else some (leNat σ.mem a t.bytes * leNat σ.mem b t.bytes % 2 ^ t.bits))
      (fun q σ' => wp is (q :: s) loc σ' Q) (fun σ' => Q (.ret (badStk ty) σ'))) :
    wp (hintMul E t ty ++ is) (b :: a :: s) loc σ Q := by
  have h := heapMul_spec E t hσ hc ha hb
  have hn : t.bytes % 4294967296 = t.bytes := by cases t <;> rfl
  simp only [hintMul, callF, List.cons_append, List.nil_append, wp_c32, hn]
  exact wp_checkedInt (args := [a, b, t.bytes]) h hσ (hE _) hK.ok hK.err

/-! ### Bitwise operators -/

end

def BitOp.nat : BitOp → Nat → Nat → Nat
  | .and => (· &&& ·) | .or => (· ||| ·) | .xor => (· ^^^ ·)

theorem BitOp.bits_split (o : BitOp) {k x y x' y' : Nat} (hx : x < 2 ^ k) (hx' : x' < 2 ^ k) :
    o.nat (x + 2 ^ k * y) (x' + 2 ^ k * y') = o.nat x x' + 2 ^ k * o.nat y y' := by
  have hlt : o.nat x x' < 2 ^ k := by
    cases o
    · exact Nat.and_lt_two_pow _ hx'
    · exact Nat.or_lt_two_pow hx hx'
    · exact Nat.xor_lt_two_pow hx hx'
  rw [Nat.add_comm x, Nat.add_comm x', Nat.add_comm (o.nat x x')]
  apply Nat.eq_of_testBit_eq
  intro j
  rw [Nat.testBit_two_pow_mul_add _ hlt]
  cases o <;>
  · simp only [BitOp.nat, Nat.testBit_and, Nat.testBit_or, Nat.testBit_xor]
    rw [Nat.testBit_two_pow_mul_add _ hx, Nat.testBit_two_pow_mul_add _ hx']
    split <;> rfl

theorem BitOp.eval (o : BitOp) (w : W) (x y : Nat) : o.bin.eval w x y = some (o.nat x y) := by
  cases o <;> rfl

theorem wp_bitop {o : BitOp} {w is x y s l Q} :
    wp (.op (.bin w o.bin) :: is) (y :: x :: s) l σ Q ↔ wp is (o.nat x y :: s) l σ Q := by
  rw [wp_op]; simp only [Op.exec, BitOp.eval]

end Rt
