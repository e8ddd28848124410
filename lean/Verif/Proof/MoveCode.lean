import Verif.Proof.MoveOps
import Verif.Proof.MoveCopy
import Verif.Proof.Slots

/-! Constants, locals, results of functions. -/

namespace Move
open Wasm Rt

variable {E : ErrPtrs} {σ σ' : Store} {v x y : MVal} {w a b l : Nat}
variable {is : List Instr} {s loc : List Nat} {Q : Res → Prop} {ty : RetTy}

/-! ### Constants -/

theorem repV_addr {n : Nat} : RepV σ ⟨.addr, n⟩ w ↔ w + 32 ≤ σ.nextFree ∧ beNat σ.mem w 32 = n := by
  constructor
  · exact fun h => h.2
  · intro h
    refine ⟨?_, h⟩
    rw [← h.2]
    exact Nat.lt_of_lt_of_le (beNat_lt _ _ _) (by norm_num [STy.bits])

theorem wp_const {is0 : List Instr} {k bytes : Nat} (hσ : Heap σ) (hr : Room σ 64)
    (hc : constCode v bytes l = some (is0, k)) (hl : l + k ≤ loc.length) (hv : v.n < 2 ^ v.ty.bits)
    (ha : v.ty = .addr → bytes < 2 ^ 256 ∧ ∀ f p, leNat f p 32 = bytes → beNat f p 32 = v.n)
    (hk : EvK E ty is s loc l σ Q (.val v)) : wp (is0 ++ is) s loc σ Q := by
  obtain ⟨t, n⟩ := v
  have hreg : t.isReg = true → n < 4294967296 → wp (.op (.c32 n) :: is) s loc σ Q := by
    intro ht h
    rw [wp_c32, Nat.mod_eq_of_lt h]
    refine hk.same hσ ⟨hv, ?_⟩ ht
    rcases isReg_cases t with ⟨rfl | ⟨r, rfl⟩, -⟩ | ⟨-, h'⟩
    · rfl
    · rfl
    · simp [h'] at ht
  have hheap : ∀ u : HeapInt, t = .int u.intTy → l + 1 ≤ loc.length → wp (hintConst u n l ++ is) s loc σ Q := by
    rintro u rfl hl
    have hB := HeapInt.bytes_le u
    have hc := hr.canAlloc hσ.alloc (k := u.bytes) (by omega)
    have hv' : n < 2 ^ u.bits := by have : n < 2 ^ u.intTy.bits := hv; rwa [intTy_bits] at this
    exact wp_hintConst u (e := 0) hσ hl hc hv' hk.heapL
  rcases t with _ | (r | _ | _) | _
  · cases hc; exact hreg rfl (Nat.lt_trans hv (by norm_num [STy.bits]))
  · cases r <;> cases hc
    · exact hreg rfl (Nat.lt_trans hv (by norm_num [STy.bits, IntTy.bits, RegInt.bits]))
    · exact hreg rfl (Nat.lt_trans hv (by norm_num [STy.bits, IntTy.bits, RegInt.bits]))
    · exact hreg rfl hv
    · have h : n < 18446744073709551616 := hv
      simp only [List.cons_append, List.nil_append, wp_c64, Nat.mod_eq_of_lt h]
      exact hk.same hσ ⟨hv, rfl⟩
  · cases hc; exact hheap .u128 rfl hl
  · cases hc; exact hheap .u256 rfl hl
  · simp only [constCode] at hc
    split_ifs at hc with h160
    cases hc
    obtain ⟨h1, h2⟩ := ha rfl
    have hc := hr.canAlloc hσ.alloc (k := 32) (by omega)
    refine wp_hintConst .u256 (e := 0) hσ hl hc h1 ⟨?_, fun h => by cases h⟩
    intro v hv0 q σ' h0 hq hv hx loc' hl'
    cases hv0
    exact hk q loc' σ' (repV_addr.mpr ⟨hq.1, h2 _ _ hv⟩) (fun _ => h0) hx (by simp only [HeapInt.bytes] at hq; omega) hl'

/-- The bytes of a number are those of its list of bytes. -/
theorem leNat_leBytes {f : Bytes} : ∀ (l : List UInt8) (p : Nat), leNat f p l.length = leBytes l →
    ∀ i (h : i < l.length), f (p + i) = l[i]
  | [], _, _, i, h => absurd h (by simp)
  | b :: bs, p, he, i, hi => by
    simp only [List.length_cons, leNat, leBytes] at he
    have hb := b.toNat_lt
    have hf := (f p).toNat_lt
    have h0 : f p = b := UInt8.toNat_inj.mp (by omega)
    cases i with
    | zero => exact h0
    | succ i =>
      have := leNat_leBytes (f := f) bs (p + 1) (by omega) i (by simpa using hi)
      rw [show p + (i + 1) = p + 1 + i by omega, this]
      rfl

theorem beNat_beBytes {f : Bytes} (l : List UInt8) (p : Nat)
    (h : ∀ i (h : i < l.length), f (p + i) = l[i]) : beNat f p l.length = beBytes l := by
  suffices ∀ (l : List UInt8) (p a : Nat), (∀ i (h : i < l.length), f (p + i) = l[i]) →
      l.foldl (fun a b => 256 * a + b.toNat) a = a * 256 ^ l.length + beNat f p l.length by
    have := this l p 0 h
    unfold beBytes
    omega
  intro l
  induction l with
  | nil => intro p a _; simp [beNat]
  | cons b bs ih =>
    intro p a h
    have h0 : f p = b := h 0 (by simp)
    rw [List.foldl_cons, ih (p + 1) _ (fun i hi => by
      have := h (i + 1) (by simpa using hi)
      rw [show p + 1 + i = p + (i + 1) by omega, this]; rfl)]
    simp only [List.length_cons, beNat, Nat.pow_succ, h0]
    ring

theorem Const.val_ok {c : Const} (h : c.val = some v) : v.n < 2 ^ v.ty.bits ∧
    (v.ty = .addr → leBytes c.data < 2 ^ 256 ∧
      ∀ f p, leNat f p 32 = leBytes c.data → beNat f p 32 = v.n) := by
  unfold Const.val at h
  have hlt := leBytes_lt c.data
  split at h
  · split_ifs at h <;> cases h <;> simp [STy.bits]
  · rename_i t _
    split_ifs at h with hlen
    cases h
    refine ⟨?_, fun h => by cases h⟩
    show leBytes c.data < 2 ^ t.bits
    rw [← hlen, Nat.pow_mul]
    exact hlt
  · split_ifs at h with hlen
    cases h
    have h256 : leBytes c.data < 2 ^ 256 := by
      rw [hlen] at hlt; exact Nat.lt_of_lt_of_le hlt (by norm_num)
    have hbe : ∀ f p, leNat f p 32 = leBytes c.data → beNat f p 32 = beBytes c.data := by
      intro f p hl
      rw [← hlen] at hl ⊢
      exact beNat_beBytes _ _ (leNat_leBytes _ _ hl)
    refine ⟨?_, fun _ => ⟨h256, hbe⟩⟩
    -- some memory holds these bytes
    have := hbe (putLe (fun _ => 0) 0 32 (leBytes c.data)) 0
      (by rw [leNat_putLe_same, Nat.mod_eq_of_lt (Nat.lt_of_lt_of_le h256 (by norm_num))])
    show beBytes c.data < 2 ^ 256
    rw [← this]
    exact Nat.lt_of_lt_of_le (beNat_lt _ _ _) (by norm_num)
  · cases h

/-! ### Values at addresses -/

/-- A representation fits in the bytes of a slot. -/
theorem RepV.lt (hσ : Heap σ) (h : RepV σ v w) : w < 256 ^ v.ty.size := by
  have hle := hσ.alloc.nextFree_le
  have hlt : σ.size < 4294967296 := hσ.alloc.size_lt
  obtain ⟨t, n⟩ := v
  have h1 := h.1
  rcases t with _ | (r | _ | _) | _
  · have := h.2; subst this; exact Nat.lt_trans h1 (by norm_num [STy.size, STy.bits])
  · have := h.2; subst this; refine Nat.lt_of_lt_of_le h1 ?_
    cases r <;> norm_num [STy.size, STy.bits, IntTy.bits, RegInt.bits]
  all_goals
    have h2 := h.2.1
    show w < 256 ^ 4
    omega

theorem Ty.isReg_ty (d : Data) : d.ty.isReg = d.isReg := rfl

/-- Operands that are not in registers are values in memory. -/
theorem OpdRep.holds {Fz : Nat → Prop} {ρ : List Nat} {d : Data} {m : Nat → Nat} (h : OpdRep σ Fz ρ (.data d) w m)
    (hr : d.isReg = false) : Holds σ Fz d w m := by
  cases d with
  | num v =>
    replace hr : v.ty.isReg = false := hr
    simp only [OpdRep, hr, Bool.false_eq_true, if_false] at h
    simp only [Holds, Cell, hr, Bool.false_eq_true, if_false]
    exact h
  | struct id ds => exact h

theorem Holds.opd {Fz : Nat → Prop} {ρ : List Nat} {d : Data} {m : Nat → Nat} (h : Holds σ Fz d w m)
    (hr : d.isReg = false) : OpdRep σ Fz ρ (.data d) w m := by
  cases d with
  | num v =>
    replace hr : v.ty.isReg = false := hr
    simp only [OpdRep, hr, Bool.false_eq_true, if_false]
    simp only [Holds, Cell, hr, Bool.false_eq_true, if_false] at h
    exact h
  | struct id ds => exact h

theorem Data.reg_cases {d : Data} (h : d.isReg = true) : ∃ v, d = .num v ∧ v.ty.isReg = true := by
  cases d with
  | num v => exact ⟨v, rfl, h⟩
  | struct id ds => cases h

/-- The address of an operand is a number of 32 bits. -/
theorem Holds.lt {Fz : Nat → Prop} {d : Data} {m : Nat → Nat} (hσ : Heap σ) (h : Holds σ Fz d w m) : w < 2 ^ 32 := by
  have h1 := hσ.alloc.nextFree_le
  have h2 := hσ.alloc.size_lt
  cases d with
  | num v =>
    simp only [Holds] at h
    have := h.1.bound
    omega
  | struct id ds =>
    simp only [Holds] at h
    have := h.1
    omega

theorem OpdRep.lt {Fz : Nat → Prop} {ρ : List Nat} {o : Opd} {m : Nat → Nat} (hσ : Heap σ)
    (hF : ∀ x, Fz x → x < σ.nextFree) (h : OpdRep σ Fz ρ o w m) : w < 256 ^ o.ty.size := by
  have h1 := hσ.alloc.nextFree_le
  have h2 := hσ.alloc.size_lt
  rcases o with (v | ⟨id, ds⟩) | r
  · exact h.1.lt hσ
  · exact Holds.lt hσ (d := .struct id ds) h
  · have := hF _ (h.1.1 w (Nat.le_refl _) (by omega))
    show w < 256 ^ 4
    omega

/-- A value is moved to the operand stack. -/
theorem wp_loadOpd {Fz : Nat → Prop} {ρ : List Nat} {d : Data} {q : Nat} {m : Nat → Nat} (hσ : Heap σ)
    (h : Holds σ Fz d q m)
    (hk : ∀ w m', OpdRep σ Fz ρ (.data d) w m' → (∀ x, m' x ≤ m x) → wp is (w :: s) loc σ Q) :
    wp ((if d.ty.isReg then code[Op.load d.ty.size 0] else []) ++ is) (q :: s) loc σ Q := by
  have hle := hσ.alloc.nextFree_le
  by_cases hr : d.isReg = true
  · obtain ⟨v, rfl, hv⟩ := Data.reg_cases hr
    rw [if_pos (by exact hr)]
    simp only [Holds, Cell, hv, if_true] at h
    have hb := h.1.1
    simp only [List.cons_append, List.nil_append, Data.ty, Ty.size]
    rw [wp_load (by omega), Nat.add_zero]
    refine hk _ (fun _ => 0) ?_ (fun x => Nat.zero_le _)
    simp only [OpdRep, hv, if_true, implies_true, and_true]
    exact h.1.2
  · have hr' : d.isReg = false := by simpa using hr
    rw [if_neg (by exact hr)]
    exact hk q m (h.opd hr') (fun x => Nat.le_refl _)

/-- A value is copied. -/
theorem wp_loadCopy {Fz : Nat → Prop} {ρ : List Nat} {d : Data} {q : Nat} {m : Nat → Nat} (hσ : Heap σ)
    (hr : Room σ (36 * d.count)) (h : Holds σ Fz d q m) (hF : ∀ x, Fz x → x < σ.nextFree)
    (hl : l + nlP d.ty.mv ≤ loc.length)
    (hk : ∀ w loc' σ' m', OpdRep σ' (New σ σ' m') ρ (.data d) w m' → Trades σ σ' (fun _ => 0) m' →
      σ'.nextFree ≤ σ.nextFree + 36 * d.count → SameLocs l loc loc' → wp is (w :: s) loc' σ' Q) :
    wp (loadCopy E d.ty l ++ is) (q :: s) loc σ Q := by
  have hle := hσ.alloc.nextFree_le
  unfold loadCopy
  by_cases hg : d.isReg = true
  · obtain ⟨v, rfl, hv⟩ := Data.reg_cases hg
    rw [if_pos (by exact hg)]
    simp only [Holds, Cell, hv, if_true] at h
    have hb := h.1.1
    simp only [List.cons_append, List.nil_append, Data.ty, Ty.size]
    rw [wp_load (by omega), Nat.add_zero]
    refine hk _ loc σ (fun _ => 0) ?_ (Trades.refl hσ (fun _ => Nat.le_refl _) (fun _ h => absurd rfl h)) (by omega) .refl
    simp only [OpdRep, hv, if_true, implies_true, and_true]
    exact h.1.2
  · have hg' : d.isReg = false := by simpa using hg
    rw [if_neg (by exact hg)]
    have hs : d.ty.mv.scalar = false := by
      cases d with
      | num v => show v.ty.mv.scalar = false; rw [STy.mv_scalar]; exact hg'
      | struct id ds => rfl
    have hrep := (h.mv hF).2
    rw [hs, if_neg (by simp)] at hrep
    refine copyH_ok E d hg' σ _ q l s loc is Q hσ (hr.mono (by omega)) (fun _ h => h) hrep hl ?_
    intro σ' w' l' m' hc h1 h2
    have := hc.room
    exact hk w' l' σ' m' (hc.holds.opd hg') (.made hc.ext hc.once hc.fresh) (by omega) ⟨h1, h2⟩

/-! ### Boxes -/

theorem wp_boxPtr {dst : Nat} {t : Ty} (ht : t.isReg = false) (hσ : Heap σ) (hr : Room σ 4) (hw : w < 2 ^ 32)
    (hd : dst < l) (hl : l + (boxCode t dst l).2 ≤ loc.length)
    (hk : ∀ loc' σ', Extends σ σ' → σ'.nextFree = σ.nextFree + 4 → leNat σ'.mem σ.nextFree 4 = w →
      lget loc' dst = σ.nextFree → loc'.length = loc.length → (∀ i, i < l → i ≠ dst → lget loc' i = lget loc i) →
      wp is s loc' σ' Q) :
    wp ((boxCode t dst l).1 ++ is) (w :: s) loc σ Q := by
  unfold boxCode at hl ⊢
  rw [ht, if_neg (by simp)] at hl ⊢
  simp only [List.append_assoc, List.cons_append, List.nil_append] at hl ⊢
  rw [wp_lset, wp_c32]
  refine wp_allocR hσ hr (by omega) ?_
  intro σ1 h1
  have n1 := h1.nextFree
  have i2 := h1.inside
  wstep
  have hx3 := h1.extends.putLe (p := σ.nextFree) (n := 4) (v := w) (by omega) (by omega)
  refine hk _ _ hx3 (by simp only [setMem_nextFree]; omega) ?_ ?_ ?_ ?_
  · rw [setMem_mem, leNat_putLe_same, Nat.mod_eq_of_lt (by omega)]
  · rw [lget_lset_same (by rw [lset_length]; omega)]
  · simp only [lset_length]
  · intro i hi hne
    rw [lget_lset_ne (by omega), lget_lset_ne (by omega)]

/-- A value is put into a new box. -/
theorem wp_box {Fz : Nat → Prop} {ρ : List Nat} {d : Data} {m : Nat → Nat} {dst : Nat} (hσ : Heap σ) (hr : Room σ 12)
    (hv : OpdRep σ Fz ρ (.data d) w m) (hF : ∀ x, Fz x → x < σ.nextFree) (hm : ∀ x, m x ≠ 0 → x < σ.nextFree)
    (hd : dst < l) (hl : l + (boxCode d.ty dst l).2 ≤ loc.length)
    (hk : ∀ loc' σ' m', Trades σ σ' m m' → σ'.nextFree ≤ σ.nextFree + 12 → Mv.Within (New σ σ' m') (lget loc' dst) 4 →
      Holds σ' (fun x => Fz x ∨ New σ σ' m' x) d (leNat σ'.mem (lget loc' dst) 4) m' →
      loc'.length = loc.length → (∀ i, i < l → i ≠ dst → lget loc' i = lget loc i) → wp is s loc' σ' Q) :
    wp ((boxCode d.ty dst l).1 ++ is) (w :: s) loc σ Q := by
  by_cases hg : d.isReg = true
  · obtain ⟨v, rfl, hv'⟩ := Data.reg_cases hg
    simp only [OpdRep, hv', if_true] at hv
    replace hg : (Data.num v).ty.isReg = true := hg
    have hB := STy.size_le v.ty
    have hlt := hv.1.lt hσ
    unfold boxCode at hl ⊢
    rw [if_pos hg] at hl ⊢
    simp only [List.append_assoc, List.cons_append, List.nil_append, Data.ty, Ty.size] at hl ⊢
    rw [wp_lset, wp_c32]
    refine wp_allocR hσ hr (by omega) ?_
    intro σ1 h1
    have hr1 : Room σ1 8 := hr.after (k := 4) (by rw [h1.nextFree]) h1.maxPages
    rw [wp_ltee, wp_c32, Nat.mod_eq_of_lt (by omega)]
    refine wp_allocR h1.heap hr1 (by omega) ?_
    intro σ2 h2
    have n1 := h1.nextFree; have n2 := h2.nextFree
    have i2 := h2.inside
    have hs2 := h2.heap.alloc.size_lt
    wstep
    have hx3 := ((h1.extends.trans h2.extends).putLe (p := σ.nextFree) (n := 4) (v := σ1.nextFree) (by omega) (by omega)).putLe
      (p := σ1.nextFree) (n := v.ty.size) (v := w) (by omega) (by simp only [setMem_nextFree]; omega)
    simp only [setMem_mem, setMem_setMem] at hx3
    have hq : leNat (putLe (putLe σ2.mem σ.nextFree 4 σ1.nextFree) σ1.nextFree v.ty.size w) σ.nextFree 4 = σ1.nextFree := by
      rw [leNat_putLe_disj (.inl (by omega)), leNat_putLe_same, Nat.mod_eq_of_lt (by omega)]
    have hdst : lget (lset (lset (lset loc l w) dst σ.nextFree) (l + 1) σ1.nextFree) dst = σ.nextFree := by
      rw [lget_lset_ne (by omega), lget_lset_same (by rw [lset_length]; omega)]
    refine hk _ _ (ind σ1.nextFree v.ty.size) (.made hx3 (fun x => ind_le) fun x hx => ?_) (by simp only [setMem_nextFree]; omega) ?_ ?_ ?_ ?_
    · rw [ind_pos] at hx
      simp only [setMem_nextFree]; omega
    · rw [hdst]
      intro x g1 g2
      refine ⟨g1, by simp only [setMem_nextFree]; omega, ?_⟩
      by_contra h0
      rw [← ne_eq, ind_pos] at h0
      omega
    · rw [hdst, setMem_mem, hq]
      simp only [Holds, Cell, hv', if_true, STy.bytes, implies_true, and_true]
      refine ⟨by simp only [setMem_nextFree]; omega, ?_⟩
      rw [setMem_mem, leNat_putLe_same, Nat.mod_eq_of_lt hlt]
      exact hv.1.mono hx3
    · simp only [lset_length]
    · intro i hi hne
      rw [lget_lset_ne (by omega), lget_lset_ne (by omega), lget_lset_ne (by omega)]
  · have hg' : d.isReg = false := by simpa using hg
    have hh := hv.holds hg'
    refine wp_boxPtr hg' hσ (hr.mono (by omega)) (hh.lt hσ) hd hl ?_
    intro loc' σ' hx hn h4 h5 h6 h7
    refine hk loc' σ' m ⟨hx, fun _ _ => Nat.le_refl _, fun x h0 => ?_⟩ (by omega) ?_ ?_ h6 h7
    · have := hm x; omega
    · rw [h5]
      intro x g1 g2
      exact ⟨g1, by omega, by have := hm x; omega⟩
    · rw [h5, h4]
      exact hh.change hx.nextFree (fun x h => .inl h) (fun x h => hx.mem x (hF x h)) (fun x h => hx.mem x (hm x h))

end Move
