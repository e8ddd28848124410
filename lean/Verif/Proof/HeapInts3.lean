import Verif.Proof.HeapInts2
import Verif.Proof.Words

/-! Bitwise operators, comparisons, casts and constants of u128/u256. -/

namespace Rt
open Wasm

variable (E : ErrPtrs) {σ : Store} {n : Nat}
variable {is : List Instr} {s loc : List Nat} {Q : Res → Prop} {ty : RetTy} {a b l : Nat}

/-- A fresh block filled by storing its value. -/
theorem IntK.fresh {e v : Nat} {K : Nat → Store → Prop} {R : Store → Prop} (hσ : Heap σ)
    (hc : CanAlloc σ n) (hv : v < 256 ^ n) (hK : IntK σ e n (some v) K R) :
    K σ.nextFree ((allocated σ n).setMem (putLe (allocated σ n).mem σ.nextFree n v)) := by
  have hx := hσ.allocated hc
  have hnf : σ.nextFree + n ≤ (allocated σ n).nextFree := by rw [allocated_nextFree]
  refine hK.ok v rfl _ _ (Nat.le_refl _) ⟨hnf, by
      show (allocated σ n).nextFree ≤ _
      rw [allocated_nextFree]; omega⟩ ?_ (hx.putLe (Nat.le_refl _) hnf)
  rw [setMem_mem, leNat_putLe_same, Nat.mod_eq_of_lt hv]

theorem BitOp.lt (o : BitOp) {k x y : Nat} (hx : x < 256 ^ k) (hy : y < 256 ^ k) :
    o.nat x y < 256 ^ k := by
  rw [show (256 : Nat) = 2 ^ 8 from rfl, ← Nat.pow_mul] at *
  cases o
  · exact Nat.and_lt_two_pow _ hy
  · exact Nat.or_lt_two_pow hx hy
  · exact Nat.xor_lt_two_pow hx hy

theorem BitOp.split8 (o : BitOp) {x y x' y' : Nat} (hx : x < 256 ^ 8) (hx' : x' < 256 ^ 8) :
    o.nat (x + 256 ^ 8 * y) (x' + 256 ^ 8 * y') = o.nat x x' + 256 ^ 8 * o.nat y y' :=
  o.bits_split (k := 64) hx hx'

theorem wp_hintBitwise (o : BitOp) (t : HeapInt) {e : Nat} (hσ : Heap σ) (hl : l + 3 ≤ loc.length)
    (hc : CanAlloc σ t.bytes) (ha : a + t.bytes ≤ σ.nextFree) (hb : b + t.bytes ≤ σ.nextFree)
    (hK : IntK σ e t.bytes (some (o.nat (leNat σ.mem a t.bytes) (leNat σ.mem b t.bytes)))
      (fun q σ' => ∀ loc', SameLocs l loc loc' → wp is (q :: s) loc' σ' Q) (fun _ => True)) :
    wp (hintBitwise o t l ++ is) (b :: a :: s) loc σ Q := by
  have hx := hσ.allocated hc
  have hin := allocated_inside hσ.alloc hc
  have hs := hx.alloc.size_lt
  have hs' := hx.alloc.first
  have hfr := hK.fresh hσ hc (o.lt (leNat_lt _ _ _) (leNat_lt _ _ _)) _
    (((SameLocs.refl.lset (v := b) (Nat.le_add_right l 1)).lset (v := a) (Nat.le_refl l)).lset
      (v := σ.nextFree) (Nat.le_add_right l 2))
  rw [← hx.leNat ha, ← hx.leNat hb] at hfr
  cases t with
  | u128 =>
    simp only [HeapInt.bytes] at *
    simp only [hintBitwise, HeapInt.bytes, Nat.reduceDiv, List.range, List.range.loop, List.flatMap_cons,
      List.flatMap_nil, List.append_nil, List.cons_append, List.nil_append]
    wstep
    refine wp_alloc hσ hc ?_
    wstep
    rw [wp_bitop]
    wstep
    rw [wp_bitop]
    wstep
    rw [leNat_putLe_disj (.inl (by omega)), leNat_putLe_disj (.inl (by omega))]
    rw [leNat_two, leNat_two, o.split8 (leNat_lt _ _ _) (leNat_lt _ _ _)] at hfr
    have hw := word2 (y := o.nat (leNat (allocated σ 16).mem (a + 8) 8)
        (leNat (allocated σ 16).mem (b + 8) 8))
      (o.lt (leNat_lt (allocated σ 16).mem a 8) (leNat_lt (allocated σ 16).mem b 8))
    rw [putWords2 _ _ _ _ _ hw.1 hw.2]
    exact hfr
  | u256 =>
    simp only [HeapInt.bytes] at *
    simp only [hintBitwise, HeapInt.bytes, Nat.reduceDiv, List.range, List.range.loop, List.flatMap_cons,
      List.flatMap_nil, List.append_nil, List.cons_append, List.nil_append]
    wstep
    refine wp_alloc hσ hc ?_
    wstep
    rw [wp_bitop]
    wstep
    rw [wp_bitop]
    wstep
    rw [wp_bitop]
    wstep
    rw [wp_bitop]
    wstep
    repeat rw [leNat_putLe_disj (.inl (by omega))]
    rw [leNat_four, leNat_four, o.split8 (leNat_lt _ _ _) (leNat_lt _ _ _),
      o.split8 (leNat_lt _ _ _) (leNat_lt _ _ _), o.split8 (leNat_lt _ _ _) (leNat_lt _ _ _)] at hfr
    have hw := word4 (u := o.nat (leNat (allocated σ 32).mem (a + 24) 8)
        (leNat (allocated σ 32).mem (b + 24) 8))
      (o.lt (leNat_lt (allocated σ 32).mem a 8) (leNat_lt (allocated σ 32).mem b 8))
      (o.lt (leNat_lt (allocated σ 32).mem (a + 8) 8) (leNat_lt (allocated σ 32).mem (b + 8) 8))
      (o.lt (leNat_lt (allocated σ 32).mem (a + 16) 8) (leNat_lt (allocated σ 32).mem (b + 16) 8))
    rw [putWords4 _ _ _ _ _ _ _ hw.1 hw.2.1 hw.2.2.1 hw.2.2.2]
    exact hfr

/-! ### Comparisons -/

def CmpOp.prop : CmpOp → Nat → Nat → Prop
  | .lt => (· < ·) | .le => (· ≤ ·) | .gt => (· > ·) | .ge => (· ≥ ·)

instance (o : CmpOp) (x y : Nat) : Decidable (o.prop x y) := by
  cases o <;> simp only [CmpOp.prop] <;> infer_instance

theorem b2n_not {p : Prop} [Decidable p] : b2n (b2n p ≠ 1) = b2n (¬ p) := by
  unfold b2n; by_cases h : p <;> simp [h]

theorem b2n_iff {p q : Prop} [Decidable p] [Decidable q] (h : p ↔ q) : b2n p = b2n q := by
  unfold b2n; by_cases hp : p
  · rw [if_pos hp, if_pos (h.mp hp)]
  · rw [if_neg hp, if_neg (fun hq => hp (h.mpr hq))]

theorem wp_hintCmp (o : CmpOp) (t : HeapInt) (hσ : Heap σ) (hl : l + 2 ≤ loc.length)
    (ha : a + t.bytes ≤ σ.nextFree) (hb : b + t.bytes ≤ σ.nextFree)
    (hK : ∀ loc', SameLocs l loc loc' →
      wp is (b2n (o.prop (leNat σ.mem a t.bytes) (leNat σ.mem b t.bytes)) :: s) loc' σ Q) :
    wp (hintCmp o t l ++ is) (b :: a :: s) loc σ Q := by
  have hs := hσ.ready.size_lt
  have hs' := hσ.ready.size
  have hnf := hσ.alloc.nextFree_le
  obtain ⟨k, hk, -, hk4⟩ := t.bytes8
  have hn : t.bytes % 4294967296 = t.bytes := by cases t <;> rfl
  have h1 := lessThan_spec (σ := σ) (p1 := a) (p2 := b) (k := k) hs (by omega) (by omega) (by omega)
  have h2 := lessThan_spec (σ := σ) (p1 := b) (p2 := a) (k := k) hs (by omega) (by omega) (by omega)
  rw [← hk] at h1 h2
  have hsw : SameLocs l loc (lset (lset loc l b) (l + 1) a) :=
    (SameLocs.refl.lset (Nat.le_refl l)).lset (Nat.le_add_right l 1)
  cases o with
  | lt =>
    simp only [hintCmp, List.cons_append, List.nil_append, wp_c32, hn]
    refine wp_call3 h1 ?_
    rintro r σ' ⟨rfl, rfl⟩
    exact hK _ SameLocs.refl
  | ge =>
    simp only [hintCmp, negate, List.cons_append, List.nil_append, wp_c32, hn]
    refine wp_call3 h1 ?_
    rintro r σ' ⟨rfl, rfl⟩
    have := hK _ SameLocs.refl
    wstep
    rw [b2n_iff (q := CmpOp.ge.prop (leNat σ'.mem a t.bytes) (leNat σ'.mem b t.bytes))]
    · exact this
    · exact Nat.not_lt
  | gt =>
    simp only [hintCmp, swap, List.cons_append, List.nil_append]
    wstep
    refine wp_call3 h2 ?_
    rintro r σ' ⟨rfl, rfl⟩
    exact hK _ hsw
  | le =>
    simp only [hintCmp, swap, negate, List.cons_append, List.nil_append]
    wstep
    refine wp_call3 h2 ?_
    rintro r σ' ⟨rfl, rfl⟩
    have := hK _ hsw
    wstep
    rw [b2n_iff (q := CmpOp.le.prop (leNat σ'.mem a t.bytes) (leNat σ'.mem b t.bytes))]
    · exact this
    · exact Nat.not_lt

/-! ### Casts and constants -/

theorem putLe_zero_ext {f : Bytes} {p m n v : Nat} (h : m ≤ n) (hv : v < 256 ^ m)
    (hz : ∀ x, p ≤ x → f x = 0) : putLe f p m v = putLe f p n v := by
  funext x
  by_cases h1 : p ≤ x ∧ x < p + m
  · rw [putLe_in h1.1 h1.2, putLe_in h1.1 (by omega)]
  · rw [putLe_out (by omega)]
    by_cases h2 : p ≤ x ∧ x < p + n
    · rw [putLe_in h2.1 h2.2, hz x h2.1, Nat.div_eq_of_lt]
      · rfl
      · exact Nat.lt_of_lt_of_le hv (Nat.pow_le_pow_right (by decide) (by omega))
    · rw [putLe_out (by omega)]

/-- Widening a register integer. -/
theorem wp_hintCast_reg (t : HeapInt) (r : RegInt) {v e : Nat} (hσ : Heap σ)
    (hl : l + 2 ≤ loc.length) (hc : CanAlloc σ t.bytes) (hv : v < 2 ^ r.bits)
    (hK : IntK σ e t.bytes (some v)
      (fun q σ' => ∀ loc', SameLocs l loc loc' → wp is (q :: s) loc' σ' Q) (fun _ => True)) :
    wp (hintCast E t (.reg r) l ++ is) (v :: s) loc σ Q := by
  have hx := hσ.allocated hc
  have hin := allocated_inside hσ.alloc hc
  have hlt : v < 256 ^ r.storeBytes := by
    cases r <;> simp only [RegInt.bits, RegInt.storeBytes] at * <;> norm_num at * <;> omega
  have hle : r.storeBytes ≤ t.bytes := by
    cases t <;> cases r <;> simp only [HeapInt.bytes, RegInt.storeBytes] <;> omega
  have hfr := hK.fresh hσ hc (Nat.lt_of_lt_of_le hlt (Nat.pow_le_pow_right (by decide) hle)) _
    ((SameLocs.refl.lset (v := v) (Nat.le_refl l)).lset (v := σ.nextFree) (Nat.le_add_right l 1))
  have hn : t.bytes % 4294967296 = t.bytes := by cases t <;> rfl
  simp only [hintCast, List.cons_append, List.nil_append]
  wstep
  refine wp_alloc hσ hc ?_
  wstep
  rw [putLe_zero_ext hle hlt (fun x hx => hσ.allocated_zero hx)]
  exact hfr

/-- u128 to u256. -/
theorem wp_hintCast_up {e : Nat} (hσ : Heap σ)
    (hl : l + 2 ≤ loc.length) (hc : CanAlloc σ 32) (ha : a + 16 ≤ σ.nextFree)
    (hK : IntK σ e 32 (some (leNat σ.mem a 16))
      (fun q σ' => ∀ loc', SameLocs l loc loc' → wp is (q :: s) loc' σ' Q) (fun _ => True)) :
    wp (hintCast E .u256 .u128 l ++ is) (a :: s) loc σ Q := by
  have hx := hσ.allocated hc
  have hin := allocated_inside hσ.alloc hc
  have hlt := leNat_lt σ.mem a 16
  have hfr := hK.fresh hσ hc (Nat.lt_of_lt_of_le hlt (Nat.pow_le_pow_right (by decide) (by omega))) _
    ((SameLocs.refl.lset (v := a) (Nat.le_refl l)).lset (v := σ.nextFree) (Nat.le_add_right l 1))
  simp only [hintCast, List.cons_append, List.nil_append]
  wstep
  refine wp_alloc hσ hc ?_
  wstep
  rw [leNat_putLe_disj (.inl (by omega))]
  have hw := word2 (y := leNat (allocated σ 32).mem (a + 8) 8) (leNat_lt (allocated σ 32).mem a 8)
  rw [putWords2 _ _ _ _ _ hw.1 hw.2, ← leNat_two, hx.leNat ha,
    putLe_zero_ext (n := 32) (by omega) hlt (fun x hx => hσ.allocated_zero hx)]
  exact hfr

/-- u256 to u128: what the code does, namely to drop the upper half (the check looks at the
memory after the new block, which has not been used yet and is zero). -/
theorem wp_hintCast_down {e : Nat} (hσ : Heap σ)
    (hl : l + 4 ≤ loc.length) (hc : CanAlloc σ 16) (ha : a + 32 ≤ σ.nextFree)
    (hroom : σ.nextFree + 32 ≤ (allocated σ 16).size)
    (hK : IntK σ e 16 (some (leNat σ.mem a 16))
      (fun q σ' => ∀ loc', SameLocs l loc loc' → wp is (q :: s) loc' σ' Q) (fun _ => True)) :
    wp (hintCast E .u128 .u256 l ++ is) (a :: s) loc σ Q := by
  have hx := hσ.allocated hc
  have hin := allocated_inside hσ.alloc hc
  have hlt := leNat_lt σ.mem a 16
  have hfr := hK.fresh hσ hc hlt _
    ((SameLocs.refl.lset (v := a) (Nat.le_refl l)).lset (v := σ.nextFree) (Nat.le_add_right l 1))
  have hz : ∀ m v j, 16 ≤ j → leNat (putLe (allocated σ 16).mem σ.nextFree 16 v) (σ.nextFree + j) m = 0 := by
    intro m v j hj
    exact leNat_zero_of fun x h1 _ => by
      rw [putLe_out (by omega)]; exact hσ.allocated_zero (by omega)
  simp only [hintCast, List.cons_append, List.nil_append]
  wstep
  refine wp_alloc hσ hc ?_
  have hw := word2 (y := leNat (allocated σ 16).mem (a + 8) 8) (leNat_lt (allocated σ 16).mem a 8)
  wstep
  rw [leNat_putLe_disj (b := a + 8) (.inl (by omega)), putWords2 _ _ _ _ _ hw.1 hw.2, ← leNat_two,
    hx.leNat (k := 16) (by omega)]
  simp only [hz _ _ 16 (by omega), hz _ _ 24 (by omega)]
  wstep
  exact hfr

/-- Constants. -/
theorem wp_hintConst (t : HeapInt) {v e : Nat} (hσ : Heap σ)
    (hl : l + 1 ≤ loc.length) (hc : CanAlloc σ t.bytes) (hv : v < 2 ^ t.bits)
    (hK : IntK σ e t.bytes (some v)
      (fun q σ' => ∀ loc', SameLocs l loc loc' → wp is (q :: s) loc' σ' Q) (fun _ => True)) :
    wp (hintConst t v l ++ is) s loc σ Q := by
  have hx := hσ.allocated hc
  have hin := allocated_inside hσ.alloc hc
  rw [← t.pow] at hv
  have hfr := hK.fresh hσ hc hv _ (SameLocs.refl.lset (v := σ.nextFree) (Nat.le_refl l))
  cases t with
  | u128 =>
    simp only [HeapInt.bytes] at *
    simp only [hintConst, HeapInt.bytes, Nat.reduceDiv, List.range, List.range.loop, List.flatMap_cons,
      List.flatMap_nil, List.append_nil, List.cons_append, List.nil_append]
    wstep
    refine wp_alloc hσ hc ?_
    wstep
    rw [putWords2 _ _ v]
    · exact hfr
    · simp only [Nat.reducePow]; omega
    · simp only [Nat.reducePow]
  | u256 =>
    simp only [HeapInt.bytes] at *
    simp only [hintConst, HeapInt.bytes, Nat.reduceDiv, List.range, List.range.loop, List.flatMap_cons,
      List.flatMap_nil, List.append_nil, List.cons_append, List.nil_append]
    wstep
    refine wp_alloc hσ hc ?_
    wstep
    rw [putWords4 _ _ v]
    · exact hfr
    · simp only [Nat.reducePow]; omega
    · simp only [Nat.reducePow]
    · simp only [Nat.reducePow]
    · simp only [Nat.reducePow]

end Rt
