import Verif.Rt.Consts
import Verif.Proof.Copy
import Verif.Proof.HeapInts3
import Verif.Proof.MoveCode

/-! Constants and vector literals. -/

namespace Bcs
open Mv

/-- ULEB128: seven bits per byte, least significant first; all bytes but the last have their highest bit set. -/
def uleb (n : Nat) : List UInt8 :=
  if n < 128 then [UInt8.ofNat n] else UInt8.ofNat (n % 128 + 128) :: uleb (n / 128)
termination_by n

/-- The `k` bytes of `n`, least significant first. -/
def le : Nat → Nat → List UInt8
  | 0, _ => []
  | k + 1, n => UInt8.ofNat n :: le k (n / 256)

/-- BCS, the format of constants: numbers little-endian, addresses as their bytes, vectors with their length in front. -/
def enc : Ty → Val → List UInt8
  | .bool, .num n | .u8, .num n => le 1 n
  | .u16, .num n => le 2 n
  | .u32, .num n => le 4 n
  | .u64, .num n => le 8 n
  | .u128, .num n => le 16 n
  | .u256, .num n => le 32 n
  | .address, .num n => (le 32 n).reverse
  | .vec t, .vec vs => uleb vs.length ++ vs.flatMap (enc t)
  | _, _ => []

/-- Constants: Move has no constants of other types. -/
inductive IsConst : Ty → Val → Prop
  | bool {n} : n < 2 → IsConst .bool (.num n)
  | u8 {n} : n < 2 ^ 8 → IsConst .u8 (.num n)
  | u16 {n} : n < 2 ^ 16 → IsConst .u16 (.num n)
  | u32 {n} : n < 2 ^ 32 → IsConst .u32 (.num n)
  | u64 {n} : n < 2 ^ 64 → IsConst .u64 (.num n)
  | u128 {n} : n < 2 ^ 128 → IsConst .u128 (.num n)
  | u256 {n} : n < 2 ^ 256 → IsConst .u256 (.num n)
  | address {n} : n < 2 ^ 160 → IsConst .address (.num n)
  | vec {t vs} : vs.length < 2 ^ 32 → (∀ v ∈ vs, IsConst t v) → IsConst (.vec t) (.vec vs)

/-- Memory the value takes. -/
def space : Ty → Val → Nat
  | .u128, _ => 16
  | .u256, _ => 32
  | .address, _ => 32
  | .vec t, .vec vs => 8 + vs.length * t.size + (vs.map (space t)).sum
  | _, _ => 0

theorem le_length : ∀ {k n : Nat}, (le k n).length = k
  | 0, _ => rfl
  | k + 1, n => by rw [le, List.length_cons, le_length]

theorem leBytes_le : ∀ {k n : Nat}, n < 256 ^ k → Rt.leBytes (le k n) = n
  | 0, n, h => by simp at h; simp [le, Rt.leBytes, h]
  | k + 1, n, h => by
    rw [le, Rt.leBytes, leBytes_le (by rw [pow_succ] at h; omega)]
    simp only [UInt8.toNat_ofNat']
    omega

theorem uleb_decode : ∀ (n shift value : Nat) (rest : List UInt8), value < 2 ^ shift → n * 2 ^ shift < 2 ^ 64 → shift < 64 → 
    (n ≠ 0 ∨ shift = 0) →
    Rt.decodeUleb shift value (uleb n ++ rest) = some (value + n * 2 ^ shift, rest) := by
  intro n
  induction n using Nat.strong_induction_on with
  | _ n ih =>
    intro shift value rest hv hn hs h0
    have hor : ∀ d, d * 2 ^ shift < 2 ^ 64 → (value ||| (d * 2 ^ shift % 2 ^ 64)) = value + d * 2 ^ shift := by
      intro d hd
      rw [Nat.mod_eq_of_lt hd, Nat.or_comm, Nat.mul_comm d, ← Nat.two_pow_add_eq_or_of_lt hv, Nat.add_comm]
    rw [uleb]
    split_ifs with h
    · rw [List.singleton_append, Rt.decodeUleb, if_neg (by omega)]
      have e : (UInt8.ofNat n).toNat = n := by simp only [UInt8.toNat_ofNat']; omega
      simp only [e, Nat.mod_eq_of_lt h, if_pos h, hor n hn]
    · rw [List.cons_append, Rt.decodeUleb, if_neg (by omega)]
      have e : (UInt8.ofNat (n % 128 + 128)).toNat = n % 128 + 128 := by simp only [UInt8.toNat_ofNat']; omega
      have h1 : n % 128 * 2 ^ shift < 2 ^ 64 := Nat.lt_of_le_of_lt (Nat.mul_le_mul_right _ (Nat.mod_le _ _)) hn
      have h2 : n = n % 128 + 128 * (n / 128) := by omega
      have h3 : n / 128 * 2 ^ (shift + 7) = 128 * (n / 128) * 2 ^ shift := by rw [pow_add]; ring
      have h4 : 128 * (n / 128) * 2 ^ shift ≤ n * 2 ^ shift := Nat.mul_le_mul_right _ (by omega)
      have h5 : value + n % 128 * 2 ^ shift < 2 ^ (shift + 7) := by
        have : n % 128 * 2 ^ shift ≤ 127 * 2 ^ shift := Nat.mul_le_mul_right _ (by omega)
        rw [pow_add]; omega
      simp only [e, show (n % 128 + 128) % 128 = n % 128 by omega, if_neg (show ¬ n % 128 + 128 < 128 by omega), hor _ h1]
      have h6 : shift + 7 < 64 := by
        refine Nat.lt_of_not_le fun hle => ?_
        have : 2 ^ 64 ≤ 2 ^ (shift + 7) := Nat.pow_le_pow_right (by norm_num) hle
        have : 1 * 2 ^ (shift + 7) ≤ n / 128 * 2 ^ (shift + 7) := Nat.mul_le_mul_right _ (by omega)
        omega
      rw [ih (n / 128) (by omega) (shift + 7) _ rest h5 (by omega) h6 (.inl (by omega)), h3]
      congr 2
      conv_rhs => rw [h2, Nat.add_mul]
      omega

end Bcs

namespace Rt
open Wasm Mv Bcs

variable {σ σ' σ'' : Store}

theorem takeZ_append {n : Nat} {bs rest : List UInt8} (h : bs.length = n) : takeZ n (bs ++ rest) = bs := by
  unfold takeZ
  rw [List.append_assoc, List.take_append_of_le_length (by omega), List.take_of_length_le (by omega)]

/-- A new value `v` of type `t`, all of it in memory allocated since `σ`. -/
structure Made (σ σ' : Store) (t : Ty) (v : Val) (w : Nat) : Prop where
  ext : Extends σ σ'
  nextFree : σ'.nextFree = σ.nextFree + space t v
  rep : Mv.Rep σ'.mem (Between σ.nextFree σ'.nextFree) t v w
  lt : w < 256 ^ t.size

/-- What the code for a constant does. -/
def MakesConst (is0 : List Instr) (t : Ty) (v : Val) (k k' : Nat) : Prop :=
  ∀ (σ : Store) (s l : List Nat) (is : List Instr) (Q : Res → Prop), Heap σ → Room σ (space t v) → k' ≤ l.length →
    (∀ σ' w l', Made σ σ' t v w → l'.length = l.length → (∀ j, j < k → lget l' j = lget l j) → wp is (w :: s) l' σ' Q) →
    wp (is0 ++ is) s l σ Q

def ConstOk (t : Ty) (v : Val) : Prop :=
  ∀ (rest : List UInt8) (k : Nat), ∃ is0 k', loadConst t (enc t v ++ rest) k = some (is0, rest, k') ∧ k ≤ k' ∧ MakesConst is0 t v k k'

/-- The elements of a vector have been stored from `a` on. -/
structure ElemsMade (σ σ' : Store) (t : Ty) (vs : List Val) (a : Nat) : Prop where
  alters : Alters (Between a (a + vs.length * t.size)) σ σ'
  nextFree : σ'.nextFree = σ.nextFree + (vs.map (space t)).sum
  rep : ∀ i (h : i < vs.length), Mv.Rep σ'.mem (Between σ.nextFree σ'.nextFree) t vs[i] (leNat σ'.mem (a + i * t.size) t.size)

theorem ElemsMade.cons {t : Ty} {v : Val} {vs : List Val} {w a : Nat} (h : Made σ σ' t v w)
    (ha : a + (vs.length + 1) * t.size ≤ σ.nextFree)
    (h' : ElemsMade (σ'.setMem (putLe σ'.mem a t.size w)) σ'' t vs (a + t.size)) : ElemsMade σ σ'' t (v :: vs) a := by
  have n1 := h.nextFree
  have n2 : σ''.nextFree = σ'.nextFree + (vs.map (space t)).sum := h'.nextFree
  have hp := t.size_pos
  have e1 : (vs.length + 1) * t.size = vs.length * t.size + t.size := Nat.succ_mul _ _
  have al : Alters (Between a (a + (v :: vs).length * t.size)) σ (σ'.setMem (putLe σ'.mem a t.size w)) := by
    refine h.ext.alters.write (fun x hx hr => putLe_out ?_) (fun x hx => ?_)
    · by_cases h1 : a ≤ x
      · exact .inr (Nat.le_of_not_lt fun h2 => hr ⟨h1, by simp only [List.length_cons]; omega⟩)
      · omega
    · rw [putLe_out (by omega), h.ext.fresh x hx]
  refine ⟨al.trans (h'.alters.mono fun x _ hx => ?_), ?_, ?_⟩
  · exact ⟨by have := hx.1; omega, by have := hx.2; simp only [List.length_cons]; omega⟩
  · simp only [List.map_cons, List.sum_cons]; omega
  · intro i hi
    cases i with
    | zero =>
      have e2 : leNat σ''.mem a t.size = w := by
        rw [h'.alters.leNat (show a + t.size ≤ σ'.nextFree by omega) fun x h1 h2 h3 => by have := h3.1; omega]
        rw [setMem_mem, leNat_putLe_same, Nat.mod_eq_of_lt h.lt]
      rw [Nat.zero_mul, Nat.add_zero, e2]
      refine Rep.change (fun x hx => ?_) (fun x hx => ⟨hx.1, by have := hx.2; omega⟩) t h.rep
      rw [h'.alters.mem x (show x < σ'.nextFree from hx.2) (fun hc => by have := hc.2; have := hx.1; omega), setMem_mem,
        putLe_out (by have := hx.1; omega)]
    | succ i =>
      have := h'.rep i (by simpa using hi)
      rw [show a + (i + 1) * t.size = a + t.size + i * t.size by rw [Nat.succ_mul]; omega]
      refine Rep.change (fun _ _ => rfl) (fun x hx => ⟨?_, hx.2⟩) t this
      have : σ'.nextFree ≤ x := hx.1
      omega

theorem loadElems_ok {t : Ty} : ∀ {vs : List Val}, (∀ v ∈ vs, ConstOk t v) → ∀ (rest : List UInt8) (ptr off k : Nat), ptr < k →
    ∃ is0 k', loadElems (loadConst t) ptr t.size vs.length off (vs.flatMap (enc t) ++ rest) k = some (is0, rest, k') ∧ k ≤ k' ∧
      ∀ (σ : Store) (p : Nat) (s l : List Nat) (is : List Instr) (Q : Res → Prop), Heap σ → Room σ (vs.map (space t)).sum → k' ≤ l.length →
        lget l ptr = p → reserved ≤ p → p + off + vs.length * t.size ≤ σ.nextFree →
        (∀ σ' l', ElemsMade σ σ' t vs (p + off) → l'.length = l.length → (∀ j, j < k → lget l' j = lget l j) → wp is (p :: s) l' σ' Q) →
        wp (is0 ++ is) (p :: s) l σ Q
  | [], _, rest, ptr, off, k, _ => by
    refine ⟨[], k, rfl, Nat.le_refl _, ?_⟩
    intro σ p s l is Q hσ _ _ hp _ _ h
    rw [List.nil_append]
    exact h σ l ⟨hσ.refl.alters, by simp, fun i hi => absurd hi (by simp)⟩ rfl (fun _ _ => rfl)
  | v :: vs, hvs, rest, ptr, off, k, hk => by
    obtain ⟨is1, k1, e1, hk1, m1⟩ := hvs v (List.mem_cons_self ..) (vs.flatMap (enc t) ++ rest) k
    obtain ⟨is2, k2, e2, hk2, m2⟩ := loadElems_ok (fun v hv => hvs v (List.mem_cons_of_mem _ hv)) rest ptr (off + t.size) k1 (by omega)
    refine ⟨is1 ++ (code[Op.store t.size off, Op.lget ptr] ++ is2), k2, ?_, by omega, ?_⟩
    · rw [List.flatMap_cons, List.append_assoc, List.length_cons, loadElems, e1]
      simp only [e2]
    · intro σ p s l is Q hσ hr hl hp hres hb h
      simp only [List.map_cons, List.sum_cons] at hr
      have e3 : (vs.length + 1) * t.size = vs.length * t.size + t.size := Nat.succ_mul _ _
      simp only [List.length_cons] at hb
      have a1 := hσ.alloc.nextFree_le
      have a2 := hσ.alloc.size_lt
      rw [List.append_assoc]
      refine m1 σ (p :: s) l _ Q hσ (hr.mono (by omega)) (by omega) fun σ1 w l1 hm hl1 hloc => ?_
      have b1 := hm.ext.nextFree
      have b2 := hm.ext.size
      have b3 := hm.ext.alloc.nextFree_le
      have b4 := hm.ext.alloc.size_lt
      have hp1 : lget l1 ptr = p := by rw [hloc _ hk, hp]
      wstep
      rw [hp1]
      have hz : Alters (Between (p + off) (p + off + t.size)) σ (σ1.setMem (putLe σ1.mem (p + off) t.size w)) := by
        refine hm.ext.alters.write (fun x hx hr => putLe_out ?_) (fun x hx => ?_)
        · by_cases h1 : p + off ≤ x
          · exact .inr (Nat.le_of_not_lt fun h2 => hr ⟨h1, by omega⟩)
          · omega
        · rw [putLe_out (by omega), hm.ext.fresh x hx]
      refine m2 _ p s l1 is Q (hz.heap hσ fun x hx => ?_) ?_ (by omega) hp1 hres ?_ ?_
      · have := hx.1; unfold reserved at hres; omega
      · refine (hr.mono (k := space t v + (vs.map (space t)).sum) (by omega)).after ?_ hm.ext.maxPages
        have := hm.nextFree
        show σ1.nextFree ≤ _
        omega
      · show _ ≤ σ1.nextFree; omega
      · intro σ2 l2 hE hl2 hloc2
        refine h σ2 l2 (ElemsMade.cons hm (by omega) (by rw [show p + off + t.size = p + (off + t.size) by omega]; exact hE)) (by omega) fun j hj => ?_
        rw [hloc2 j (by omega), hloc j hj]

theorem le_one {n : Nat} : le 1 n = [UInt8.ofNat n] := rfl

theorem makes_reg {n : Nat} {t : Ty} {k : Nat} (o : Op) (ho : ∀ s l σ, o.exec s l σ = some (n :: s, l, σ)) (hs : t.scalar = true)
    (hr : ∀ f R, Mv.Rep f R t (.num n) n) : MakesConst [.op o] t (.num n) k k := by
  intro σ s l is Q hσ _ _ h
  rw [List.singleton_append, wp_op, ho s l σ]
  have e : space t (.num n) = 0 := by cases t <;> simp [Ty.scalar] at hs <;> rfl
  exact h σ n l ⟨hσ.refl, by rw [e]; rfl, hr _ _, ((hr (fun _ => 0) (fun _ => True)).scalar hs).2.1⟩ rfl (fun _ _ => rfl)

theorem makes_heap (u : HeapInt) {n m : Nat} {t : Ty} {k : Nat} (hn : n < 2 ^ u.bits) (hneed : space t (.num m) = u.bytes) (ht : t.size = 4)
    (hr : ∀ f R q, leNat f q u.bytes = n → Within R q u.bytes → Mv.Rep f R t (.num m) q) :
    MakesConst (hintConst u n k) t (.num m) k (k + 1) := by
  intro σ s l is Q hσ hroom hl h
  rw [hneed] at hroom
  have hB : u.bytes ≤ 32 := by cases u <;> simp [HeapInt.bytes]
  rw [← u.pow] at hn
  have key : ∀ σ1, Alloced u.bytes σ σ1 → wp is (σ.nextFree :: s) (lset l k σ.nextFree) (σ1.setMem (putLe σ1.mem σ.nextFree u.bytes n)) Q := by
    intro σ1 a1
    have c1 := a1.nextFree
    have c2 := a1.extends.alloc.nextFree_le
    have c3 := a1.extends.alloc.size_lt
    refine h _ _ _ ⟨?_, ?_, ?_, ?_⟩ (by simp only [lset_length]) fun j hj => lget_lset_ne (by omega)
    · refine a1.extends.write (fun x hx => putLe_out (by omega)) fun x hx => ?_
      rw [putLe_out (by omega), a1.extends.fresh x hx]
    · rw [hneed]; exact c1
    · refine hr _ _ _ ?_ fun x h1 h2 => ⟨h1, ?_⟩
      · rw [setMem_mem, leNat_putLe_same, Nat.mod_eq_of_lt hn]
      · show x < σ1.nextFree; omega
    · rw [ht]; show _ < 4294967296; omega
  cases u with
  | u128 =>
    simp only [HeapInt.bytes] at *
    simp only [hintConst, HeapInt.bytes, Nat.reduceDiv, List.range, List.range.loop, List.flatMap_cons,
      List.flatMap_nil, List.append_nil, List.cons_append, List.nil_append]
    wstep
    refine wp_allocR hσ hroom (Nat.le_refl _) fun σ1 a1 => ?_
    have c0 := a1.inside
    have c1 := a1.nextFree
    have c2 := a1.size
    wstep
    rw [putWords2 _ _ n]
    · exact key σ1 a1
    · simp only [Nat.reducePow]; omega
    · simp only [Nat.reducePow]
  | u256 =>
    simp only [HeapInt.bytes] at *
    simp only [hintConst, HeapInt.bytes, Nat.reduceDiv, List.range, List.range.loop, List.flatMap_cons,
      List.flatMap_nil, List.append_nil, List.cons_append, List.nil_append]
    wstep
    refine wp_allocR hσ hroom (Nat.le_refl _) fun σ1 a1 => ?_
    have c0 := a1.inside
    have c1 := a1.nextFree
    have c2 := a1.size
    wstep
    rw [putWords4 _ _ n]
    · exact key σ1 a1
    · simp only [Nat.reducePow]; omega
    · simp only [Nat.reducePow]
    · simp only [Nat.reducePow]
    · simp only [Nat.reducePow]

theorem take_le {k n : Nat} {rest : List UInt8} (h : n < 256 ^ k) : leBytes (takeZ k (le k n ++ rest)) = n ∧ (le k n ++ rest).drop k = rest := by
  refine ⟨by rw [takeZ_append le_length, leBytes_le h], ?_⟩
  rw [List.drop_append_of_le_length (by rw [le_length]), List.drop_of_length_le (by rw [le_length]), List.nil_append]

theorem le_snoc : ∀ {k n : Nat}, le (k + 1) n = le k n ++ [UInt8.ofNat (n / 256 ^ k)]
  | 0, n => by simp [le]
  | k + 1, n => by
    rw [le, le_snoc (k := k) (n := n / 256), le, List.cons_append, Nat.div_div_eq_div_mul, pow_succ, Nat.mul_comm]

theorem beNat_le {f : Bytes} {q : Nat} : ∀ {k n : Nat}, n < 256 ^ k → (∀ i (h : i < k), f (q + i) = (le k n).reverse[i]'(by rw [List.length_reverse, le_length]; exact h)) →
    beNat f q k = n := by
  intro k n hn h
  have e := Move.beNat_beBytes (f := f) (le k n).reverse q (fun i hi => h i (by rw [List.length_reverse, le_length] at hi; exact hi))
  rw [List.length_reverse, le_length] at e
  rw [e]
  clear e h
  induction k generalizing n with
  | zero => simp at hn; subst hn; rfl
  | succ k ih =>
    rw [le, List.reverse_cons, Move.beBytes, List.foldl_append, ← Move.beBytes, ih (by rw [pow_succ] at hn; omega)]
    simp only [List.foldl_cons, List.foldl_nil, UInt8.toNat_ofNat']
    omega

theorem address_rep {f : Bytes} {R : Nat → Prop} {q n : Nat} (hn : n < 256 ^ 32) (h : leNat f q 32 = leBytes (le 32 n).reverse) (hw : Within R q 32) :
    Mv.Rep f R .address (.num n) q := by
  simp only [Mv.Rep]
  refine ⟨?_, hw⟩
  have hlen : (le 32 n).reverse.length = 32 := by rw [List.length_reverse, le_length]
  rw [beNat_le hn fun i hi => Move.leNat_leBytes _ q (by rw [hlen]; exact h) i (by rw [hlen]; exact hi)]

theorem le_high : ∀ {k m n : Nat}, n < 256 ^ k → le (k + m) n = le k n ++ List.replicate m 0
  | 0, m, n, h => by
    simp at h; subst h
    rw [Nat.zero_add, le, List.nil_append]
    induction m with
    | zero => rfl
    | succ m ih => rw [le, Nat.zero_div, ih, List.replicate_succ]; rfl
  | k + 1, m, n, h => by
    rw [show k + 1 + m = (k + m) + 1 by omega, le, le_high (by rw [pow_succ] at h; omega), le, List.cons_append]

theorem constOk {t : Ty} {v : Val} (h : IsConst t v) : ConstOk t v := by
  induction h with
  | @bool n h =>
    intro rest k
    have hn : n < 256 ^ 1 := by omega
    obtain ⟨e1, e2⟩ := take_le (rest := rest) hn
    exact ⟨_, _, by rw [loadConst, enc, e1, e2], Nat.le_refl _,
      makes_reg _ (fun s l σ => by simp only [Op.exec]; rw [Nat.mod_eq_of_lt (by omega)]) rfl fun f R => by simp only [Mv.Rep]; exact ⟨trivial, h⟩⟩
  | @u8 n h =>
    intro rest k
    have hn : n < 256 ^ 1 := by omega
    obtain ⟨e1, e2⟩ := take_le (rest := rest) hn
    exact ⟨_, _, by rw [loadConst, enc, e1, e2], Nat.le_refl _,
      makes_reg _ (fun s l σ => by simp only [Op.exec]; rw [Nat.mod_eq_of_lt (by omega)]) rfl fun f R => by simp only [Mv.Rep]; exact ⟨trivial, h⟩⟩
  | @u16 n h =>
    intro rest k
    have hn : n < 256 ^ 2 := by omega
    obtain ⟨e1, e2⟩ := take_le (rest := rest) hn
    exact ⟨_, _, by rw [loadConst, enc, e1, e2], Nat.le_refl _,
      makes_reg _ (fun s l σ => by simp only [Op.exec]; rw [Nat.mod_eq_of_lt (by omega)]) rfl fun f R => by simp only [Mv.Rep]; exact ⟨trivial, h⟩⟩
  | @u32 n h =>
    intro rest k
    have hn : n < 256 ^ 4 := by omega
    obtain ⟨e1, e2⟩ := take_le (rest := rest) hn
    exact ⟨_, _, by rw [loadConst, enc, e1, e2], Nat.le_refl _,
      makes_reg _ (fun s l σ => by simp only [Op.exec]; rw [Nat.mod_eq_of_lt (by omega)]) rfl fun f R => by simp only [Mv.Rep]; exact ⟨trivial, h⟩⟩
  | @u64 n h =>
    intro rest k
    have hn : n < 256 ^ 8 := by omega
    obtain ⟨e1, e2⟩ := take_le (rest := rest) hn
    exact ⟨_, _, by rw [loadConst, enc, e1, e2], Nat.le_refl _,
      makes_reg _ (fun s l σ => by simp only [Op.exec]; rw [Nat.mod_eq_of_lt (by omega)]) rfl fun f R => by simp only [Mv.Rep]; exact ⟨trivial, h⟩⟩
  | @u128 n h =>
    intro rest k
    have hn : n < 256 ^ 16 := by omega
    obtain ⟨e1, e2⟩ := take_le (rest := rest) hn
    exact ⟨_, _, by rw [loadConst, enc, e1, e2], Nat.le_succ _,
      makes_heap .u128 h rfl rfl fun f R q h1 h2 => by simp only [Mv.Rep]; exact ⟨by rw [← h1]; rfl, h2⟩⟩
  | @u256 n h =>
    intro rest k
    have hn : n < 256 ^ 32 := by omega
    obtain ⟨e1, e2⟩ := take_le (rest := rest) hn
    exact ⟨_, _, by rw [loadConst, enc, e1, e2], Nat.le_succ _,
      makes_heap .u256 h rfl rfl fun f R q h1 h2 => by simp only [Mv.Rep]; exact ⟨by rw [← h1]; rfl, h2⟩⟩
  | @address n h =>
    intro rest k
    have hn : n < 256 ^ 20 := by omega
    have hn' : n < 256 ^ 32 := by omega
    have hlen : (le 32 n).reverse.length = 32 := by rw [List.length_reverse, le_length]
    have e1 : takeZ 32 ((le 32 n).reverse ++ rest) = (le 32 n).reverse := takeZ_append hlen
    have e2 : ((le 32 n).reverse ++ rest).drop 32 = rest := by
      rw [List.drop_append_of_le_length (by rw [hlen]), List.drop_of_length_le (by rw [hlen]), List.nil_append]
    have e3 : ((le 32 n).reverse.take 12).all (· == 0) = true := by
      rw [show (32 : Nat) = 20 + 12 from rfl, le_high hn, List.reverse_append, List.reverse_replicate,
        List.take_append_of_le_length (by simp)]
      simp
    refine ⟨_, _, by rw [loadConst, enc, e1, e2, if_pos e3], Nat.le_succ _,
      makes_heap .u256 ?_ rfl rfl fun f R q h1 h2 => address_rep hn' h1 h2⟩
    have := leBytes_lt (le 32 n).reverse
    rw [hlen] at this
    exact Nat.lt_of_lt_of_le this (by norm_num [HeapInt.bits, HeapInt.bytes])
  | @vec t vs hlen hvs ih =>
    intro rest k
    have e0 := uleb_decode vs.length 0 0 (vs.flatMap (enc t) ++ rest) (by norm_num) (by omega) (by norm_num) (.inr rfl)
    rw [Nat.zero_add, pow_zero, Nat.mul_one] at e0
    obtain ⟨is1, k1, e1, hk1, m1⟩ := loadElems_ok ih rest k 8 (k + 2) (by omega)
    refine ⟨_, k1, by rw [loadConst, enc, List.append_assoc, e0]; simp only [e1]; rfl, by omega, ?_⟩
    intro σ s l is Q hσ hroom hl h
    simp only [space] at hroom
    have hsz := t.size_le
    have hr1 := hroom.1
    rw [List.append_assoc]
    wstep
    refine wp_call3 (allocVec_spec (len := vs.length) (cap := vs.length) (size := t.size) hσ (Nat.le_refl _) (hroom.mono (by omega))) ?_
    rintro r σ1 ⟨rfl, hx, hn, hm⟩
    have a1 := hx.alloc.nextFree_le
    have a2 := hx.alloc.size_lt
    have hb := hσ.base
    wstep
    refine m1 σ1 σ.nextFree s _ is Q (hx.heap hσ) (hroom.after (by omega) hx.maxPages) (by simp only [lset_length]; omega) ?_ hb (by omega) ?_
    · rw [lget_lset_same (by simp only [lset_length]; omega)]
    intro σ2 l2 he hl2 hloc
    have n2 := he.nextFree
    have a3 := he.alters.alloc.nextFree_le
    have a4 := he.alters.alloc.size_lt
    refine h σ2 σ.nextFree l2 ⟨?_, ?_, ?_, ?_⟩ (by rw [hl2]; simp only [lset_length]) fun j hj => ?_
    · exact hx.then he.alters fun x hx => by have := hx.1; omega
    · simp only [space]; omega
    · have g1 : leNat σ2.mem σ.nextFree 4 = vs.length := by
        rw [he.alters.leNat (by omega) fun x h1 h2 h3 => by have := h3.1; omega, hm, leNat_putLe_disj (by omega), leNat_putLe_same,
          Nat.mod_eq_of_lt (by omega)]
      have g2 : leNat σ2.mem (σ.nextFree + 4) 4 = vs.length := by
        rw [he.alters.leNat (by omega) fun x h1 h2 h3 => by have := h3.1; omega, hm, leNat_putLe_same, Nat.mod_eq_of_lt (by omega)]
      simp only [Mv.Rep]
      refine ⟨vs, rfl, g1, by rw [g2], ?_, fun i hi => ?_⟩
      · rw [g2]; exact fun x h1 h2 => ⟨h1, by omega⟩
      · exact Rep.change (fun _ _ => rfl) (fun x hx' => ⟨by have := hx'.1; omega, hx'.2⟩) t (he.rep i hi)
    · show _ < 4294967296; omega
    · rw [hloc j (by omega), lget_lset_ne (by omega), lget_lset_ne (by omega)]

end Rt
