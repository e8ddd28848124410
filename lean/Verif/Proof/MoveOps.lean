import Verif.Proof.MoveMem
import Verif.Proof.RegCode
import Verif.Proof.HeapDiv
import Verif.Proof.HeapShift
import Verif.Proof.Equality
import Verif.Proof.BigEndian

/-! The code of the operators on Move values computes what the operators do. -/

namespace Move
open Wasm Rt

variable {E : ErrPtrs} {σ σ' : Store} {v x y : MVal} {w a b l : Nat}
variable {is : List Instr} {s loc : List Nat} {Q : Res → Prop} {ty : RetTy}

theorem RepV.mono (h : RepV σ v w) (hx : Extends σ σ') : RepV σ' v w := by
  have hn := hx.nextFree
  refine ⟨h.1, ?_⟩
  have h2 := h.2
  split at h2 <;> first
    | exact h2
    | exact ⟨by omega, by rw [hx.leNat h2.1]; exact h2.2⟩
    | exact ⟨by omega, by rw [hx.beNat h2.1]; exact h2.2⟩

/-- What happens after an operator. -/
def EvK (E : ErrPtrs) (ty : RetTy) (is : List Instr) (s loc : List Nat) (l : Nat) (σ : Store)
    (Q : Res → Prop) : Ev → Prop
  | .val v => ∀ w loc' σ', RepV σ' v w → (v.ty.isReg = false → σ.nextFree ≤ w) → Extends σ σ' → σ'.nextFree ≤ σ.nextFree + 64 →
      SameLocs l loc loc' → wp is (w :: s) loc' σ' Q
  | .fail f => ∀ e σ', FaultErr f e → Extends (errStore σ (E e)) σ' → Q (.ret (badStk ty) σ')
  | .divZero => Q .trap

/-- A register result. -/
theorem EvK.same (hσ : Heap σ) (h : EvK E ty is s loc l σ Q (.val v)) (hr : RepV σ v w)
    (hg : v.ty.isReg = true := by rfl) : wp is (w :: s) loc σ Q :=
  h w loc σ hr (fun h0 => by rw [hg] at h0; cases h0) hσ.refl (by omega) SameLocs.refl

theorem EvK.reg {r : RegInt} {f : Fault} {e : RtErr} {o : Option Nat} (hσ : Heap σ)
    (h : EvK E ty is s loc l σ Q (.of (.int (.reg r)) f o)) (he : FaultErr f e)
    (ho : ∀ n, o = some n → n < 2 ^ r.bits) : RegK is s loc σ Q ty (E e) o := by
  cases o with
  | some n => exact h.same hσ ⟨ho n rfl, rfl⟩
  | none =>
    have hx := (hσ.refl).err (e := E e) hσ
    exact h e _ he hx

theorem repV_heap {t : HeapInt} {n : Nat} : RepV σ ⟨.int t.intTy, n⟩ w ↔
    w + t.bytes ≤ σ.nextFree ∧ leNat σ.mem w t.bytes = n := by
  have := leNat_lt σ.mem w t.bytes
  cases t
  · constructor
    · exact fun h => h.2
    · intro h; exact ⟨by rw [← h.2]; simpa [HeapInt.bytes, STy.bits, IntTy.bits, HeapInt.intTy] using this, h⟩
  · constructor
    · exact fun h => h.2
    · intro h; exact ⟨by rw [← h.2]; simpa [HeapInt.bytes, STy.bits, IntTy.bits, HeapInt.intTy] using this, h⟩

theorem HeapInt.bytes_le (t : HeapInt) : t.bytes ≤ 32 := by cases t <;> simp [HeapInt.bytes]

theorem EvK.heap {t : HeapInt} {f : Fault} {e : RtErr} {o : Option Nat}
    (h : EvK E ty is s loc l σ Q (.of (.int t.intTy) f o)) (he : FaultErr f e) :
    IntK σ (E e) t.bytes o (fun q σ' => wp is (q :: s) loc σ' Q) (fun σ' => Q (.ret (badStk ty) σ')) := by
  have hb := HeapInt.bytes_le t
  constructor
  · rintro v rfl q σ' h0 hq hv hx
    exact h q loc σ' (repV_heap.mpr ⟨hq.1, hv⟩) (fun _ => h0) hx (by omega) SameLocs.refl
  · rintro rfl σ' hx
    exact h e σ' he hx

theorem EvK.heapL {t : HeapInt} {p n : Nat}
    (h : EvK E ty is s loc l σ Q (.val ⟨.int t.intTy, n⟩)) :
    IntK σ p t.bytes (some n) (fun q σ' => ∀ loc', SameLocs l loc loc' → wp is (q :: s) loc' σ' Q)
      (fun _ => True) := by
  have hb := HeapInt.bytes_le t
  constructor
  · intro v hv0 q σ' h0 hq hv hx loc' hl
    cases hv0
    exact h q loc' σ' (repV_heap.mpr ⟨hq.1, hv⟩) (fun _ => h0) hx (by omega) hl
  · intros; trivial

/-! ### Arithmetic -/

theorem intTy_cases (t : IntTy) : (∃ r, t = .reg r) ∨ ∃ u : HeapInt, t = u.intTy := by
  cases t with
  | reg r => exact .inl ⟨r, rfl⟩
  | u128 => exact .inr ⟨.u128, rfl⟩
  | u256 => exact .inr ⟨.u256, rfl⟩

theorem intTy_bits (u : HeapInt) : u.intTy.bits = u.bits := by cases u <;> rfl

theorem arithCode_heap (o : ArithOp) (u : HeapInt) : arithCode E ty o u.intTy =
    match o with
    | .add => hintAdd E u ty | .sub => hintSub E u ty | .mul => hintMul E u ty
    | .div => hintDiv E u ty | .rem => hintRem E u ty := by
  cases u <;> cases o <;> rfl

theorem repV_reg {r : RegInt} {n : Nat} : RepV σ ⟨.int (.reg r), n⟩ w ↔ n < 2 ^ r.bits ∧ w = n := Iff.rfl

theorem add_lt {k n m v : Nat} (h : Spec.add k n m = some v) : v < 2 ^ k := by
  unfold Spec.add at h; split at h <;> simp_all
theorem sub_le' {n m v : Nat} (h : Spec.sub n m = some v) : v ≤ n := by
  unfold Spec.sub at h; split at h <;> simp_all; omega
theorem mul_lt {k n m v : Nat} (h : Spec.mul k n m = some v) : v < 2 ^ k := by
  unfold Spec.mul at h; split at h <;> simp_all
theorem shl_lt {k n m v : Nat} (h : Spec.shl k n m = some v) : v < 2 ^ k := by
  unfold Spec.shl at h; split at h <;> simp_all
  rw [← h]; exact Nat.mod_lt _ (by positivity)
theorem shr_le {k n m v : Nat} (h : Spec.shr k n m = some v) : v ≤ n := by
  unfold Spec.shr at h; split at h <;> simp_all
  rw [← h]; exact Nat.div_le_self _ _
theorem cast_lt {k n v : Nat} (h : Spec.cast k n = some v) : v < 2 ^ k := by
  unfold Spec.cast at h; split at h <;> simp_all

theorem wp_arith {o : ArithOp} {t : IntTy} {m n : Nat} (hE : E.Valid) (hσ : Heap σ) (hr : Room σ 64)
    (ha : RepV σ ⟨.int t, m⟩ a) (hb : RepV σ ⟨.int t, n⟩ b)
    (hx : o = .mul → t = .u128 ∨ t = .u256 → m * n < 2 ^ t.bits)
    (hk : EvK E ty is s loc l σ Q (o.eval t m n)) :
    wp (arithCode E ty o t ++ is) (b :: a :: s) loc σ Q := by
  obtain ⟨r, rfl⟩ | ⟨u, rfl⟩ := intTy_cases t
  · obtain ⟨ha, rfl⟩ := repV_reg.mp ha
    obtain ⟨hb, rfl⟩ := repV_reg.mp hb
    have hR := hσ.ready
    cases o <;> simp only [arithCode]
    · exact wp_intAdd E r hE hR ha hb (hk.reg hσ rfl fun n h => add_lt h)
    · exact wp_intSub E r hE hR ha (hk.reg hσ rfl fun n h => Nat.lt_of_le_of_lt (sub_le' h) ha)
    · exact wp_intMul E r hE hR ha hb (hk.reg hσ rfl fun n h => mul_lt h)
    · apply wp_intDiv
      · intro h; simp only [ArithOp.eval, h, ↓reduceIte] at hk; exact hk
      · intro h; simp only [ArithOp.eval, h, ↓reduceIte] at hk
        exact hk.same hσ ⟨Nat.lt_of_le_of_lt (Nat.div_le_self _ _) ha, rfl⟩
    · apply wp_intRem
      · intro h; simp only [ArithOp.eval, h, ↓reduceIte] at hk; exact hk
      · intro h; simp only [ArithOp.eval, h, ↓reduceIte] at hk
        exact hk.same hσ ⟨Nat.lt_of_le_of_lt (Nat.mod_le _ _) ha, rfl⟩
  · replace ha := repV_heap.mp ha; obtain ⟨ha, rfl⟩ := ha
    replace hb := repV_heap.mp hb; obtain ⟨hb, rfl⟩ := hb
    have hB := HeapInt.bytes_le u
    have hc := hr.canAlloc hσ.alloc (k := u.bytes) (by omega)
    have hc2 := hr.canAlloc hσ.alloc (k := u.bytes + u.bytes) (by omega)
    rw [arithCode_heap]
    cases o <;> simp only [ArithOp.eval, intTy_bits] at hk ⊢
    · exact wp_hintAdd E u hE hσ hc ha hb (hk.heap rfl)
    · exact wp_hintSub E u hE hσ hc ha hb (hk.heap rfl)
    · have hlt := hx rfl (by cases u <;> simp [HeapInt.intTy])
      rw [intTy_bits] at hlt
      refine wp_hintMul E u hE hσ hc ha hb ?_
      rw [if_neg, Nat.mod_eq_of_lt hlt]
      · have e : Spec.mul u.bits (leNat σ.mem a u.bytes) (leNat σ.mem b u.bytes) = some _ := if_pos hlt
        rw [e] at hk
        exact hk.heap rfl
      · intro ho
        have := ho.overflow
        have e : 256 ^ (4 * (u.bytes / 4)) = 2 ^ u.bits := by cases u <;> norm_num [HeapInt.bytes, HeapInt.bits]
        rw [e] at this
        omega
    · by_cases hz : leNat σ.mem b u.bytes = 0
      · rw [if_pos hz] at hk
        exact wp_hintDiv_zero E u hσ hb hz hk
      · rw [if_neg hz] at hk
        refine wp_hintDiv E u hσ hc2 ha hb hz ?_
        intro q σ' h0 hq hv hx
        exact hk q loc σ' (repV_heap.mpr ⟨hq.1, hv⟩) (fun _ => h0) hx (by omega) SameLocs.refl
    · by_cases hz : leNat σ.mem b u.bytes = 0
      · rw [if_pos hz] at hk
        exact wp_hintRem_zero E u hσ hb hz hk
      · rw [if_neg hz] at hk
        refine wp_hintRem E u hσ hc2 ha hb hz ?_
        intro q σ' h0 hq hv hx
        exact hk q loc σ' (repV_heap.mpr ⟨hq.1, hv⟩) (fun _ => h0) hx (by omega) SameLocs.refl

/-! ### Bits, shifts, comparisons -/

theorem wp_bit {o : BitOp} {t : IntTy} {m n : Nat} (hσ : Heap σ) (hr : Room σ 64)
    (hl : l + (bitCode o t l).2 ≤ loc.length)
    (ha : RepV σ ⟨.int t, m⟩ a) (hb : RepV σ ⟨.int t, n⟩ b)
    (hk : EvK E ty is s loc l σ Q (.val ⟨.int t, bitNat o m n⟩)) :
    wp ((bitCode o t l).1 ++ is) (b :: a :: s) loc σ Q := by
  have en : bitNat o m n = o.nat m n := by cases o <;> rfl
  rw [en] at hk
  obtain ⟨r, rfl⟩ | ⟨u, rfl⟩ := intTy_cases t
  · obtain ⟨ha, rfl⟩ := repV_reg.mp ha
    obtain ⟨hb, rfl⟩ := repV_reg.mp hb
    refine wp_intBitwise o r (hk.same hσ ⟨?_, rfl⟩)
    show o.nat a b < 2 ^ r.bits
    cases o
    · exact Nat.lt_of_le_of_lt (Nat.and_le_left) ha
    · exact Nat.or_lt_two_pow ha hb
    · exact Nat.xor_lt_two_pow ha hb
  · replace ha := repV_heap.mp ha; obtain ⟨ha, rfl⟩ := ha
    replace hb := repV_heap.mp hb; obtain ⟨hb, rfl⟩ := hb
    have hB := HeapInt.bytes_le u
    have hc := hr.canAlloc hσ.alloc (k := u.bytes) (by omega)
    have e : bitCode o u.intTy l = (hintBitwise o u l, 3) := by cases u <;> rfl
    rw [e] at hl ⊢
    exact wp_hintBitwise o u (e := 0) hσ hl hc ha hb hk.heapL

theorem wp_shl {t : IntTy} {m n : Nat} (hE : E.Valid) (hσ : Heap σ) (hr : Room σ 64)
    (ha : RepV σ ⟨.int t, m⟩ a) (hb : RepV σ ⟨.int (.reg .u8), n⟩ b)
    (hk : EvK E ty is s loc l σ Q (.of (.int t) .shl (Spec.shl t.bits m n))) :
    wp (shlCode E ty t ++ is) (b :: a :: s) loc σ Q := by
  obtain ⟨hb, rfl⟩ := repV_reg.mp hb
  obtain ⟨r, rfl⟩ | ⟨u, rfl⟩ := intTy_cases t
  · obtain ⟨ha, rfl⟩ := repV_reg.mp ha
    exact wp_intShl E r hE hσ.ready hb (hk.reg hσ rfl fun n h => shl_lt h)
  · replace ha := repV_heap.mp ha; obtain ⟨ha, rfl⟩ := ha
    have hB := HeapInt.bytes_le u
    have hc := hr.canAlloc hσ.alloc (k := u.bytes) (by omega)
    have e : shlCode E ty u.intTy = hintShl E u ty := by cases u <;> rfl
    rw [intTy_bits] at hk
    rw [e]
    exact wp_hintShl E u hE hσ hc ha (hk.heap rfl)

theorem wp_shr {t : IntTy} {m n : Nat} (hE : E.Valid) (hσ : Heap σ) (hr : Room σ 64)
    (ha : RepV σ ⟨.int t, m⟩ a) (hb : RepV σ ⟨.int (.reg .u8), n⟩ b)
    (hk : EvK E ty is s loc l σ Q (.of (.int t) .shr (Spec.shr t.bits m n))) :
    wp (shrCode E ty t ++ is) (b :: a :: s) loc σ Q := by
  obtain ⟨hb, rfl⟩ := repV_reg.mp hb
  obtain ⟨r, rfl⟩ | ⟨u, rfl⟩ := intTy_cases t
  · obtain ⟨ha, rfl⟩ := repV_reg.mp ha
    exact wp_intShr E r hE hσ.ready hb (hk.reg hσ rfl fun n h => Nat.lt_of_le_of_lt (shr_le h) ha)
  · replace ha := repV_heap.mp ha; obtain ⟨ha, rfl⟩ := ha
    have hB := HeapInt.bytes_le u
    have hc := hr.canAlloc hσ.alloc (k := u.bytes) (by omega)
    have e : shrCode E ty u.intTy = hintShr E u ty := by cases u <;> rfl
    rw [intTy_bits] at hk
    rw [e]
    exact wp_hintShr E u hE hσ hc ha (hk.heap rfl)

theorem repV_bool {p : Prop} [Decidable p] (hw : w = b2n p) : RepV σ (bool p) w := by
  subst hw
  refine ⟨?_, rfl⟩
  show (if p then 1 else 0) < 2 ^ 1
  split <;> norm_num

theorem wp_cmp {o : CmpOp} {t : IntTy} {m n : Nat} (hσ : Heap σ)
    (hl : l + (cmpCode o t l).2 ≤ loc.length)
    (ha : RepV σ ⟨.int t, m⟩ a) (hb : RepV σ ⟨.int t, n⟩ b)
    (hk : EvK E ty is s loc l σ Q (.val (cmpBool o m n))) :
    wp ((cmpCode o t l).1 ++ is) (b :: a :: s) loc σ Q := by
  have hrep : ∀ m n, RepV σ (cmpBool o m n) (b2n (o.prop m n)) := by
    intro m n
    cases o <;> exact repV_bool (by first | rfl | (unfold b2n; congr))
  obtain ⟨r, rfl⟩ | ⟨u, rfl⟩ := intTy_cases t
  · obtain ⟨ha, rfl⟩ := repV_reg.mp ha
    obtain ⟨hb, rfl⟩ := repV_reg.mp hb
    exact wp_intCmp o r (hk.same hσ (hrep _ _) (by cases o <;> rfl))
  · replace ha := repV_heap.mp ha; obtain ⟨ha, rfl⟩ := ha
    replace hb := repV_heap.mp hb; obtain ⟨hb, rfl⟩ := hb
    have e : cmpCode o u.intTy l = (hintCmp o u l, 2) := by cases u <;> rfl
    rw [e] at hl ⊢
    exact wp_hintCmp o u hσ hl ha hb fun loc' hl' => hk _ loc' σ (hrep _ _) (fun h0 => by cases o <;> cases h0) hσ.refl (by omega) hl'

/-! ### Equality -/

theorem isReg_cases (t : STy) : (t = .bool ∨ ∃ r, t = .int (.reg r)) ∧ t.isReg = true ∨
    (t = .int .u128 ∨ t = .int .u256 ∨ t = .addr) ∧ t.isReg = false := by
  rcases t with _ | (r | _ | _) | _ <;> simp [STy.isReg]

/-- Values on the heap: where they are, and when two of them are the same. -/
theorem RepV.inside (h : RepV σ v w) (ht : v.ty.isReg = false) : w + v.ty.heapSize ≤ σ.nextFree := by
  obtain ⟨t, n⟩ := v
  rcases isReg_cases t with ⟨-, h'⟩ | ⟨rfl | rfl | rfl, -⟩
  · simp [h'] at ht
  all_goals exact h.2.1

theorem RepV.reg (h : RepV σ v w) (ht : v.ty.isReg = true) : w = v.n := by
  obtain ⟨t, n⟩ := v
  rcases isReg_cases t with ⟨rfl | ⟨r, rfl⟩, -⟩ | ⟨-, h'⟩
  · exact h.2
  · exact h.2
  · simp [h'] at ht

theorem RepV.eq_iff (hx : RepV σ x a) (hy : RepV σ y b) (ht : x.ty = y.ty) (hr : x.ty.isReg = false) :
    x.n = y.n ↔ EqBytes σ.mem a b x.ty.heapSize := by
  obtain ⟨t, n⟩ := x
  obtain ⟨t', m⟩ := y
  obtain rfl : t = t' := ht
  rcases isReg_cases t with ⟨-, h'⟩ | ⟨rfl | rfl | rfl, -⟩
  · simp [h'] at hr
  · have h1 : leNat σ.mem a 16 = n := hx.2.2
    have h2 : leNat σ.mem b 16 = m := hy.2.2
    rw [eqBytes_iff, ← h1, ← h2]; exact Iff.rfl
  · have h1 : leNat σ.mem a 32 = n := hx.2.2
    have h2 : leNat σ.mem b 32 = m := hy.2.2
    rw [eqBytes_iff, ← h1, ← h2]; exact Iff.rfl
  · have h1 : beNat σ.mem a 32 = n := hx.2.2
    have h2 : beNat σ.mem b 32 = m := hy.2.2
    rw [← h1, ← h2]
    exact ⟨fun h => beNat_inj h, fun h => beNat_ext h⟩

theorem b2n_congr {p q : Prop} [Decidable p] [Decidable q] (h : p ↔ q) : b2n p = b2n q := by
  unfold b2n; simp [h]

theorem wp_eqV (hσ : Heap σ) (hx : RepV σ x a) (hy : RepV σ y b) (ht : x.ty = y.ty)
    (hk : wp is (b2n (x.n = y.n) :: s) loc σ Q) :
    wp (eqCode x.ty ++ is) (b :: a :: s) loc σ Q := by
  have hle := hσ.alloc.nextFree_le
  have hlt := hσ.alloc.size_lt
  by_cases hr : x.ty.isReg = true
  · rw [← hx.reg hr, ← hy.reg (ht ▸ hr)] at hk
    rcases isReg_cases x.ty with ⟨h | ⟨r, h⟩, -⟩ | ⟨-, h'⟩
    · rw [h]; simp only [eqCode, List.cons_append, List.nil_append, wp_eq]; exact hk
    · rw [h]; simp only [eqCode, List.cons_append, List.nil_append, wp_eq]; exact hk
    · simp [h'] at hr
  · have hr : x.ty.isReg = false := by simpa using hr
    have h1 := hx.inside hr
    have h2 := hy.inside (ht ▸ hr)
    rw [← ht] at h2
    have e : eqCode x.ty = code[Op.c32 x.ty.heapSize, heapEq.call] := by
      rcases isReg_cases x.ty with ⟨-, h'⟩ | ⟨h | h | h, -⟩
      · simp [h'] at hr
      all_goals rw [h]; rfl
    have hm : x.ty.heapSize % 4294967296 = x.ty.heapSize := by
      rcases isReg_cases x.ty with ⟨-, h'⟩ | ⟨h | h | h, -⟩
      · simp [h'] at hr
      all_goals rw [h]; rfl
    rw [e]
    simp only [List.cons_append, List.nil_append, wp_c32, hm]
    refine wp_call3 (heapEq_spec hlt (by omega) (by omega)) ?_
    rintro r σ' ⟨rfl, rfl⟩
    rw [← b2n_congr (hx.eq_iff hy ht hr)]
    exact hk

/-! ### All binary operators -/

theorem bool_lt (h : RepV σ v w) (ht : v.ty = .bool) : w = v.n ∧ v.n < 2 := by
  obtain ⟨t, n⟩ := v
  obtain rfl : t = .bool := ht
  exact ⟨h.2, h.1⟩

theorem wp_bin {o : BOp} {ev : Ev} {is0 : List Instr} {r : STy} {k : Nat} (hE : E.Valid) (hσ : Heap σ)
    (hr : Room σ 64) (hx : RepV σ x a) (hy : RepV σ y b)
    (hc : binCode E ty l o x.ty y.ty = some (is0, r, k)) (hl : l + k ≤ loc.length)
    (hev : o.eval x y = some ev)
    (hm : o = .arith .mul → x.ty = .int .u128 ∨ x.ty = .int .u256 → x.n * y.n < 2 ^ x.ty.bits)
    (hk : EvK E ty is s loc l σ Q ev) : wp (is0 ++ is) (b :: a :: s) loc σ Q := by
  obtain ⟨t, m⟩ := x
  obtain ⟨t', n⟩ := y
  cases o <;> simp only [binCode, BOp.eval] at hc hev <;> dsimp only at hm
  case arith o =>
    cases t with
    | int u =>
      simp only at hc hev
      split_ifs at hc hev with h
      cases hc; cases hev; subst h
      refine wp_arith hE hσ hr hx hy (fun ho h => hm (by rw [ho]) ?_) hk
      rcases h with rfl | rfl
      · exact .inl rfl
      · exact .inr rfl
    | _ => simp at hc
  case bit o =>
    cases t with
    | int u =>
      simp only at hc hev
      split_ifs at hc hev with h
      cases hc; cases hev; subst h
      exact wp_bit hσ hr hl hx hy hk
    | _ => simp at hc
  case shl =>
    cases t with
    | int u =>
      simp only at hc hev
      split_ifs at hc hev with h
      cases hc; cases hev; subst h
      exact wp_shl hE hσ hr hx hy hk
    | _ => simp at hc
  case shr =>
    cases t with
    | int u =>
      simp only at hc hev
      split_ifs at hc hev with h
      cases hc; cases hev; subst h
      exact wp_shr hE hσ hr hx hy hk
    | _ => simp at hc
  case cmp o =>
    cases t with
    | int u =>
      simp only at hc hev
      split_ifs at hc hev with h
      cases hc; cases hev; subst h
      exact wp_cmp hσ hl hx hy hk
    | _ => simp at hc
  case eq =>
    split_ifs at hc hev with h
    cases hc; cases hev; subst h
    exact wp_eqV (x := ⟨t, m⟩) (y := ⟨t, n⟩) hσ hx hy rfl (hk.same hσ (repV_bool rfl))
  case neq =>
    split_ifs at hc hev with h
    cases hc; cases hev; subst h
    rw [List.append_assoc]
    refine wp_eqV (x := ⟨t, m⟩) (y := ⟨t, n⟩) hσ hx hy rfl ?_
    simp only [negate, List.cons_append, List.nil_append, wp_c32, wp_ne]
    refine hk.same hσ (repV_bool (b2n_congr ?_))
    show b2n (m = n) ≠ 1 ↔ m ≠ n
    unfold b2n; split <;> simp_all
  case and =>
    split_ifs at hc hev with h
    cases hc; cases hev
    obtain ⟨rfl, rfl⟩ := h
    obtain ⟨e1, h1⟩ := bool_lt hx rfl
    obtain ⟨e2, h2⟩ := bool_lt hy rfl
    dsimp only at h1 h2 e1 e2
    rw [e1, e2]
    simp only [List.cons_append, List.nil_append, wp_and']
    refine hk.same hσ (repV_bool ?_)
    interval_cases m <;> interval_cases n <;> rfl
  case or =>
    split_ifs at hc hev with h
    cases hc; cases hev
    obtain ⟨rfl, rfl⟩ := h
    obtain ⟨e1, h1⟩ := bool_lt hx rfl
    obtain ⟨e2, h2⟩ := bool_lt hy rfl
    dsimp only at h1 h2 e1 e2
    rw [e1, e2]
    simp only [List.cons_append, List.nil_append, wp_or']
    refine hk.same hσ (repV_bool ?_)
    interval_cases m <;> interval_cases n <;> rfl

/-- The type of the result is the one the translation expects. -/
theorem bin_ty {o : BOp} {is0 : List Instr} {r : STy} {k : Nat}
    (hc : binCode E ty l o x.ty y.ty = some (is0, r, k)) (hev : o.eval x y = some (.val v)) : v.ty = r := by
  obtain ⟨t, m⟩ := x
  obtain ⟨t', n⟩ := y
  cases o <;> simp only [binCode, BOp.eval] at hc hev
  case arith o =>
    cases t <;> simp only [reduceCtorEq] at hc hev
    split_ifs at hc hev with h
    cases hc
    have hev := Option.some.inj hev
    cases o <;> simp only [ArithOp.eval] at hev
    case div => split_ifs at hev; cases hev; rfl
    case rem => split_ifs at hev; cases hev; rfl
    all_goals
      rename_i u
      generalize Spec.add _ _ _ = o1 at hev <;> generalize Spec.sub _ _ = o2 at hev <;> generalize Spec.mul _ _ _ = o3 at hev
      first
        | (cases o1 <;> cases hev; rfl) | (cases o2 <;> cases hev; rfl) | (cases o3 <;> cases hev; rfl)
  case bit o =>
    cases t <;> simp only [reduceCtorEq] at hc hev
    split_ifs at hc hev with h
    cases hc; cases hev; rfl
  case shl =>
    cases t <;> simp only [reduceCtorEq] at hc hev
    split_ifs at hc hev with h
    cases hc
    have hev := Option.some.inj hev
    generalize Spec.shl _ _ _ = o1 at hev
    cases o1 <;> cases hev; rfl
  case shr =>
    cases t <;> simp only [reduceCtorEq] at hc hev
    split_ifs at hc hev with h
    cases hc
    have hev := Option.some.inj hev
    generalize Spec.shr _ _ _ = o1 at hev
    cases o1 <;> cases hev; rfl
  case cmp o =>
    cases t <;> simp only [reduceCtorEq] at hc hev
    split_ifs at hc hev with h
    cases hc; cases hev; cases o <;> rfl
  all_goals
    split_ifs at hc hev with h
    cases hc; cases hev; rfl

/-! ### Casts -/

theorem wp_castV {t u : IntTy} {m : Nat} (hE : E.Valid) (hσ : Heap σ) (hr : Room σ 64)
    (hx : RepV σ ⟨.int u, m⟩ a) (hl : l + (castCode E ty l t u).2 ≤ loc.length)
    (h1 : ¬ (t = .u128 ∧ u = .u256)) (h0 : (STy.int t).isReg = false → t ≠ u)
    (h2 : u = .reg .u64 → t = .reg .u8 ∨ t = .reg .u16 → m < 2 ^ t.bits)
    (hk : EvK E ty is s loc l σ Q (.of (.int t) (.cast u t) (Spec.cast t.bits m))) :
    wp ((castCode E ty l t u).1 ++ is) (a :: s) loc σ Q := by
  have hle := hσ.alloc.nextFree_le
  obtain ⟨r, rfl⟩ | ⟨q, rfl⟩ := intTy_cases t
  · have hK : ∀ e, CastErr e → RegK is s loc σ Q ty (E e) (Spec.cast r.bits m) :=
      fun e he => hk.reg hσ he fun n h => cast_lt h
    obtain ⟨r', rfl⟩ | ⟨q', rfl⟩ := intTy_cases u
    · obtain ⟨ha, rfl⟩ := repV_reg.mp hx
      refine wp_castReg E r r' hE hσ.ready ha (fun e h => h2 (by rw [e]) ?_) hK
      rcases h with rfl | rfl <;> simp
    · replace hx := repV_heap.mp hx; obtain ⟨hx, rfl⟩ := hx
      exact wp_castHeap E r q' hE hσ.ready (by omega) hK
  · have hB := HeapInt.bytes_le q
    have hc := hr.canAlloc hσ.alloc (k := q.bytes) (by omega)
    have hl2 : l + 2 ≤ loc.length := by cases q <;> simp only [castCode, HeapInt.intTy] at hl <;> omega
    have ec : (castCode E ty l q.intTy u).1 = hintCast E q u l := by cases q <;> rfl
    rw [ec]
    have hmax : m < 2 ^ u.bits := hx.1
    have hval : m < 2 ^ q.bits → EvK E ty is s loc l σ Q (.val ⟨.int q.intTy, m⟩) := by
      intro h
      rw [intTy_bits, cast_fits h] at hk
      exact hk
    obtain ⟨r', rfl⟩ | ⟨q', rfl⟩ := intTy_cases u
    · obtain ⟨ha, rfl⟩ := repV_reg.mp hx
      refine wp_hintCast_reg E q r' (e := 0) hσ hl2 hc ha (hval ?_).heapL
      refine Nat.lt_of_lt_of_le ha (Nat.pow_le_pow_right (by norm_num) ?_)
      cases q <;> cases r' <;> simp [HeapInt.bits, HeapInt.bytes, RegInt.bits]
    · replace hx := repV_heap.mp hx; obtain ⟨hx, rfl⟩ := hx
      cases q <;> cases q'
      · exact absurd rfl (h0 rfl)
      · exact absurd ⟨rfl, rfl⟩ h1
      · exact wp_hintCast_up E (e := 0) hσ hl2 hc hx (hval (Nat.lt_of_lt_of_le hmax (by norm_num [HeapInt.bits, HeapInt.bytes, IntTy.bits, HeapInt.intTy]))).heapL
      · exact absurd rfl (h0 rfl)

end Move
