import Verif.Proof.Copy3
import Verif.Proof.Equality

/-! Equality of structured values. -/

namespace Rt
open Wasm Mv

variable {σ : Store} {E : ErrPtrs}

theorem eraseL_eq (vs : List Val) : eraseL vs = vs.map Val.erase := by
  induction vs with
  | nil => rfl
  | cons v vs ih => simp only [eraseL, ih, List.map_cons]

theorem eraseL_iff {vs ws : List Val} (h : vs.length = ws.length) :
    eraseL vs = eraseL ws ↔ ∀ i (h1 : i < vs.length), vs[i].erase = ws[i].erase := by
  rw [eraseL_eq, eraseL_eq]
  constructor
  · intro he i hi
    have := congrArg (fun l => l[i]?) he
    simpa [hi, h ▸ hi] using this
  · intro ha
    refine List.ext_getElem (by simpa using h) fun i h1 h2 => ?_
    simpa using ha i (by simpa using h1)

/-- The result of a comparison. -/
def Decides (b : Nat) (p : Prop) : Prop := b = 1 ∧ p ∨ b = 0 ∧ ¬ p

theorem decides_b2n {p q : Prop} [Decidable p] (h : p ↔ q) : Decides (b2n p) q := by
  by_cases hp : p
  · exact .inl ⟨b2n_true hp, h.mp hp⟩
  · exact .inr ⟨b2n_false hp, fun hq => hp (h.mpr hq)⟩

/-- What is needed to compare values. -/
structure EqPre (σ : Store) (R : Nat → Prop) (t : Ty) (v1 v2 : Val) (w1 w2 : Nat) : Prop where
  size : σ.size < 2 ^ 32
  below : ∀ x, R x → x < σ.size
  rep1 : Mv.Rep σ.mem R t v1 w1
  rep2 : Mv.Rep σ.mem R t v2 w2
  clear : Clear t v1 v2

/-- The code `eqP E t k` compares two values of type `t`. -/
def EqOk (E : ErrPtrs) (t : Ty) : Prop :=
  ∀ (σ : Store) (R : Nat → Prop) (v1 v2 : Val) (w1 w2 k : Nat) (s l : List Nat) (is : List Instr) (Q : Res → Prop),
    EqPre σ R t v1 v2 w1 w2 → k + nlE t ≤ l.length →
    (∀ b l', Decides b (v1.erase = v2.erase) → l'.length = l.length → (∀ j, j < k → lget l' j = lget l j) →
      wp is (b :: s) l' σ Q) →
    wp (eqP E t k ++ is) (w2 :: w1 :: s) l σ Q

theorem num_erase {m n : Nat} : (Val.num m).erase = (Val.num n).erase ↔ m = n := by
  simp [Val.erase]

theorem eqScalar_ok {t : Ty} (hs : t.scalar = true) : EqOk E t := by
  intro σ R v1 v2 w1 w2 k s l is Q hp hl h
  obtain ⟨rfl, h1, _⟩ := hp.rep1.scalar hs
  obtain ⟨rfl, h2, _⟩ := hp.rep2.scalar hs
  have key : ∀ w : W, eqP E t k = [Instr.op (Op.bin w .eq)] → wp (eqP E t k ++ is) (w2 :: w1 :: s) l σ Q := by
    intro w hw
    rw [hw, List.cons_append, List.nil_append, wp_eq]
    exact h _ l (decides_b2n num_erase.symm) rfl (fun _ _ => rfl)
  cases t with
  | u64 => exact key .w64 (by simp only [eqP])
  | bool | u8 | u16 | u32 => exact key .w32 (by simp only [eqP])
  | _ => simp [Ty.scalar] at hs

theorem eqHeap_ok {t : Ty} {n : Nat} (ht : t = .u128 ∧ n = 16 ∨ t = .u256 ∧ n = 32 ∨ t = .address ∧ n = 32) :
    EqOk E t := by
  intro σ R v1 v2 w1 w2 k s l is Q hp hl h
  have hcode : eqP E t k = [.op (.c32 n), heapEq.call] := by
    rcases ht with ⟨rfl, rfl⟩ | ⟨rfl, rfl⟩ | ⟨rfl, rfl⟩ <;> simp only [eqP]
  have hn : n < 4294967296 := by omega
  rw [hcode, List.cons_append, List.cons_append, List.nil_append]
  wstep
  refine wp_call3 (heapEq_spec hp.size (heap_bound ht hp.rep1 hp.below) (heap_bound ht hp.rep2 hp.below)) ?_
  rintro r σ' ⟨rfl, rfl⟩
  refine h _ l (decides_b2n ?_) rfl (fun _ _ => rfl)
  have r1 := hp.rep1
  have r2 := hp.rep2
  rcases ht with ⟨rfl, rfl⟩ | ⟨rfl, rfl⟩ | ⟨rfl, rfl⟩ <;> simp only [Mv.Rep] at r1 r2 <;>
    rw [r1.1, r2.1, num_erase]
  · exact eqBytes_iff
  · exact eqBytes_iff
  · exact ⟨fun h => beNat_ext h, fun h => beNat_inj h⟩

theorem eqFields_ok {ts : List Ty} (hts : ∀ t ∈ ts, EqOk E t) {R : Nat → Prop} {vs1 vs2 : List Val}
    {p q off p1 p2 r k : Nat} {s l : List Nat} {Q : Res → Prop}
    (hσ : σ.size < 2 ^ 32) (hR : ∀ x, R x → x < σ.size)
    (hr1 : Mv.RepFs σ.mem R ts vs1 (p + off)) (hr2 : Mv.RepFs σ.mem R ts vs2 (q + off)) (hf : ClearFs ts vs1 vs2)
    (hp1 : lget l p1 = p) (hp2 : lget l p2 = q) (hr : lget l r = 1) (h1 : p1 < k) (h2 : p2 < k) (h3 : r < k)
    (hne : p1 ≠ r ∧ p2 ≠ r)
    (hl : k + nlEFs ts ≤ l.length)
    (h : ∀ l', l'.length = l.length → (∀ j, j < k → j ≠ r → lget l' j = lget l j) →
      (lget l' r = 1 → eraseL vs1 = eraseL vs2 → Q (.ok s l' σ)) ∧
      (lget l' r = 0 → eraseL vs1 ≠ eraseL vs2 → Q (.br 0 [] l' σ))) :
    wp (eqFields E ts p1 p2 r k off) s l σ Q := by
  induction ts generalizing vs1 vs2 off k l with
  | nil =>
    simp only [Mv.RepFs] at hr1 hr2
    subst hr1 hr2
    simp only [eqFields, wp_nil]
    exact (h l rfl (fun _ _ _ => rfl)).1 hr rfl
  | cons t ts ih =>
    simp only [Mv.RepFs] at hr1 hr2
    obtain ⟨v1, vs1, rfl, a1, a2, a3, a4⟩ := hr1
    obtain ⟨v2, vs2, rfl, b1, b2, b3, b4⟩ := hr2
    simp only [ClearFs] at hf
    simp only [nlEFs] at hl
    have c1 := a1.lt hR (by omega)
    have c2 := b1.lt hR (by omega)
    have e1 := leNat_lt σ.mem (p + off) 4
    -- the values are on the stack
    have main : ∀ w1 w2, Mv.Rep σ.mem R t v1 w1 → Mv.Rep σ.mem R t v2 w2 →
        wp (eqP E t k ++ (code[.ite 0 code[] code[Op.c32 0, Op.lset r, .br 1]] ++
          eqFields E ts p1 p2 r (k + nlE t) (off + 4))) (w2 :: w1 :: s) l σ Q := by
      intro w1 w2 hw1 hw2
      refine hts t (List.mem_cons_self ..) σ R v1 v2 w1 w2 k s l _ Q ⟨hσ, hR, hw1, hw2, hf.1⟩ (by omega) ?_
      intro b l' hb hl' hloc
      rcases hb with ⟨rfl, hb⟩ | ⟨rfl, hb⟩
      · wstep
        refine ih (fun t ht => hts t (List.mem_cons_of_mem _ ht)) a4 b4 hf.2 (by rw [hloc _ h1, hp1])
          (by rw [hloc _ h2, hp2]) (by rw [hloc _ h3, hr]) (by omega) (by omega) (by omega) (by omega) ?_
        intro l2 hl2 hloc2
        obtain ⟨g1, g2⟩ := h l2 (by omega) fun j hj hjr => by rw [hloc2 j (by omega) hjr, hloc j hj]
        refine ⟨fun h1 h2 => g1 h1 ?_, fun h1 h2 => g2 h1 ?_⟩
        · simp only [eraseL, hb, h2]
        · simp only [eraseL, hb]; exact fun hc => h2 (List.cons.inj hc).2
      · wstep
        refine (h _ (by simp only [lset_length]; omega) fun j hj hjr => ?_).2 ?_ ?_
        · rw [lget_lset_ne (by omega), hloc j hj]
        · rw [lget_lset_same (by omega)]
        · simp only [eraseL]; exact fun hc => hb (List.cons.inj hc).1
    unfold eqFields
    by_cases hs : t.scalar = true
    · rw [if_pos hs] at a3 b3
      have c3 := (a2 hs).lt hR t.size_pos
      have c4 := (b2 hs).lt hR t.size_pos
      have := main _ _ a3 b3
      simp only [hs, if_true, List.cons_append, List.nil_append, List.append_assoc] at this ⊢
      wstep
      rw [hp1]
      wstep
      rw [hp2]
      wstep
      exact this
    · rw [if_neg hs] at a3 b3
      have := main _ _ a3 b3
      simp only [hs, if_false, Bool.false_eq_true, List.cons_append, List.nil_append, List.append_assoc] at this ⊢
      wstep
      rw [hp1, hp2]
      exact this

mutual
theorem clear_symm (t : Ty) {v w : Val} (h : Clear t v w) : Clear t w v := by
  match t with
  | .vec t =>
    cases v <;> cases w <;> simp only [Clear] at h ⊢
    intro he
    obtain ⟨h1, h2⟩ := h he.symm
    refine ⟨fun hs hn => h1 hs ?_, fun i hi hi' => clear_symm t (h2 i hi' hi)⟩
    rw [hn] at he; exact List.length_eq_zero_iff.mp he.symm
  | .struct fs => cases v <;> cases w <;> simp only [Clear] at h ⊢; exact clearFs_symm fs h
  | .object fs => cases v <;> cases w <;> simp only [Clear] at h ⊢; exact clearFs_symm fs h
  | .enum vss =>
    cases v <;> cases w <;> simp only [Clear] at h ⊢
    intro he; subst he; exact clearVar_symm vss (h rfl)
  | .bool | .u8 | .u16 | .u32 | .u64 | .u128 | .u256 | .address => simp only [Clear]
theorem clearFs_symm (ts : List Ty) {vs ws : List Val} (h : ClearFs ts vs ws) : ClearFs ts ws vs := by
  match ts with
  | [] => simp only [ClearFs]
  | t :: ts =>
    cases vs <;> cases ws <;> simp only [ClearFs] at h ⊢
    exact ⟨clear_symm t h.1, clearFs_symm ts h.2⟩
theorem clearVar_symm (vss : List (List Ty)) {i : Nat} {vs ws : List Val} (h : ClearVar vss i vs ws) :
    ClearVar vss i ws vs := by
  match vss with
  | [] => simp only [ClearVar]
  | fs :: vss =>
    cases i <;> simp only [ClearVar] at h ⊢
    · exact clearFs_symm fs h
    · exact clearVar_symm vss h
end

theorem Decides.symm {b : Nat} {α : Type} {x y : α} (h : Decides b (x = y)) : Decides b (y = x) := by
  rcases h with h | h
  · exact .inl ⟨h.1, h.2.symm⟩
  · exact .inr ⟨h.1, fun hc => h.2 hc.symm⟩

/-- The block in which the fields of two structs are compared. -/
theorem eqBlock_ok {ts : List Ty} (hts : ∀ t ∈ ts, EqOk E t) {R : Nat → Prop} {vs1 vs2 : List Val}
    {p q k r : Nat} {s l : List Nat} {is : List Instr} {Q : Res → Prop} {p1 p2 : Nat}
    (hσ : σ.size < 2 ^ 32) (hR : ∀ x, R x → x < σ.size)
    (hr1 : Mv.RepFs σ.mem R ts vs1 p) (hr2 : Mv.RepFs σ.mem R ts vs2 q) (hf : ClearFs ts vs1 vs2)
    (hp1 : lget l p1 = q) (hp2 : lget l p2 = p) (hr : lget l r = 1) (h1 : p1 < r) (h2 : p2 < r) (h3 : r < k)
    (hl : k + nlEFs ts ≤ l.length)
    (h : ∀ b l', Decides b (eraseL vs1 = eraseL vs2) → lget l' r = b → l'.length = l.length →
      (∀ j, j < r → lget l' j = lget l j) → wp is s l' σ Q) :
    wp (.block 0 (eqFields E ts p1 p2 r k 0) :: is) s l σ Q := by
  rw [wp_block]
  refine eqFields_ok hts (p := q) (q := p) (off := 0) hσ hR hr2 hr1 (clearFs_symm ts hf) hp1 hp2 hr (by omega) (by omega)
    h3 (by omega) hl fun l' hl' hloc => ⟨fun e1 e2 => ?_, fun e1 e2 => ?_⟩
  · exact h 1 l' (.inl ⟨rfl, e2.symm⟩) e1 hl' fun j hj => hloc j (by omega) (by omega)
  · exact h 0 l' (.inr ⟨rfl, fun hc => e2 hc.symm⟩) e1 hl' fun j hj => hloc j (by omega) (by omega)

theorem eqStruct_ok {ts : List Ty} (hts : ∀ t ∈ ts, EqOk E t) : EqOk E (.struct ts) := by
  intro σ R v1 v2 w1 w2 k s l is Q hp hl h
  have r1 := hp.rep1
  have r2 := hp.rep2
  simp only [Mv.Rep] at r1 r2
  obtain ⟨vs1, rfl, r1⟩ := r1
  obtain ⟨vs2, rfl, r2⟩ := r2
  have hf := hp.clear
  simp only [Clear] at hf
  simp only [nlE] at hl
  simp only [Val.erase, Val.struct.injEq] at h
  simp only [eqP, List.cons_append, List.nil_append, wp_lset, wp_c32]
  refine eqBlock_ok hts (k := k + 3) (r := k + 2) (p1 := k) (p2 := k + 1) hp.size hp.below r1 r2 hf ?_ ?_ ?_ (by omega) (by omega) (by omega) ?_ ?_
  · rw [lget_lset_ne (by omega), lget_lset_ne (by omega), lget_lset_same (by omega)]
  · rw [lget_lset_ne (by omega), lget_lset_same (by simp only [lset_length]; omega)]
  · rw [lget_lset_same (by simp only [lset_length]; omega)]
  · simp only [lset_length]; omega
  intro b l' hb hr hl' hloc
  rw [wp_lget, hr]
  refine h b l' hb (by simpa only [lset_length] using hl') fun j hj => ?_
  rw [hloc j (by omega), lget_lset_ne (by omega), lget_lset_ne (by omega), lget_lset_ne (by omega)]

theorem eqObject_ok {ts : List Ty} (hts : ∀ t ∈ ts, EqOk E t) : EqOk E (.object ts) := by
  intro σ R v1 v2 w1 w2 k s l is Q hp hl h
  have r1 := hp.rep1
  have r2 := hp.rep2
  simp only [Mv.Rep] at r1 r2
  obtain ⟨vs1, _, rfl, _, r1⟩ := r1
  obtain ⟨vs2, _, rfl, _, r2⟩ := r2
  have hf := hp.clear
  simp only [Clear] at hf
  simp only [nlE] at hl
  simp only [Val.erase, Val.struct.injEq] at h
  simp only [eqP, List.cons_append, List.nil_append, wp_lset, wp_c32]
  refine eqBlock_ok hts (k := k + 3) (r := k + 2) (p1 := k) (p2 := k + 1) hp.size hp.below r1 r2 hf ?_ ?_ ?_ (by omega) (by omega) (by omega) ?_ ?_
  · rw [lget_lset_ne (by omega), lget_lset_ne (by omega), lget_lset_same (by omega)]
  · rw [lget_lset_ne (by omega), lget_lset_same (by simp only [lset_length]; omega)]
  · rw [lget_lset_same (by simp only [lset_length]; omega)]
  · simp only [lset_length]; omega
  intro b l' hb hr hl' hloc
  rw [wp_lget, hr]
  refine h b l' hb (by simpa only [lset_length] using hl') fun j hj => ?_
  rw [hloc j (by omega), lget_lset_ne (by omega), lget_lset_ne (by omega), lget_lset_ne (by omega)]

theorem clearVar_get {vss : List (List Ty)} {i : Nat} {vs ws : List Val} {fs : List Ty} (h : vss[i]? = some fs)
    (hc : ClearVar vss i vs ws) : ClearFs fs vs ws := by
  induction vss generalizing i with
  | nil => simp at h
  | cons fs' vss ih =>
    cases i with
    | zero => simp at h; subst h; simpa only [ClearVar] using hc
    | succ i => exact ih (by simpa using h) (by simpa only [ClearVar] using hc)

/-- The arms of an enum comparison run the one of the variant and leave the block. -/
theorem eqArms_ok {vss : List (List Ty)} (hts : ∀ fs ∈ vss, ∀ t ∈ fs, EqOk E t)
    {R : Nat → Prop} {vs1 vs2 : List Val} {fs : List Ty} {p q k0 k i i0 : Nat} {s l : List Nat} {Q : Res → Prop}
    (hi : vss[i]? = some fs) (hi0 : i0 + i < 2 ^ 32) (hvar : lget l (k0 + 2) = i0 + i)
    (hσ : σ.size < 2 ^ 32) (hR : ∀ x, R x → x < σ.size)
    (hr1 : Mv.RepFs σ.mem R fs vs1 p) (hr2 : Mv.RepFs σ.mem R fs vs2 q) (hf : ClearFs fs vs1 vs2)
    (hp1 : lget l k0 = q) (hp2 : lget l (k0 + 1) = p) (h3 : k0 + 4 ≤ k) (hl : k + nlEVs vss ≤ l.length)
    (h : ∀ b l', Decides b (eraseL vs1 = eraseL vs2) → lget l' (k0 + 3) = b → l'.length = l.length →
      (∀ j, j < k0 → lget l' j = lget l j) → Q (.br 0 [] l' σ)) :
    wp (eqArms E vss k0 k i0) s l σ Q := by
  induction vss generalizing i i0 k with
  | nil => simp at hi
  | cons fs' vss ih =>
    simp only [nlEVs] at hl
    have hnl : 1 ≤ nlEVs vss := by cases vss <;> simp only [nlEVs] <;> omega
    unfold eqArms
    simp only [wp_block, wp_lget, wp_c32, wp_ne, wp_brIf, List.cons_append, List.nil_append]
    rw [hvar, Nat.mod_eq_of_lt (by omega)]
    refine .intro (fun hne => ?_) (fun he => ?_)
    · wstep
      cases i with
      | zero => simp [b2n] at hne
      | succ i =>
        exact ih (fun fs hfs => hts fs (List.mem_cons_of_mem _ hfs)) (by simpa using hi) (by omega) (by omega)
          (by omega) (by omega)
    · have he' : i = 0 := by
        simp only [b2n] at he
        split at he <;> omega
      subst he'
      simp at hi
      subst hi
      simp only [wp_lset]
      refine eqBlock_ok (hts fs' (List.mem_cons_self ..)) (k := k + 1) (r := k) (p1 := k0) (p2 := k0 + 1) hσ hR hr1 hr2
        hf ?_ ?_ ?_ (by omega) (by omega) (by omega) ?_ ?_
      · rw [lget_lset_ne (by omega), hp1]
      · rw [lget_lset_ne (by omega), hp2]
      · rw [lget_lset_same (by omega)]
      · rw [lset_length]; omega
      intro b l' hb hr hl' hloc
      rw [lset_length] at hl'
      wstep
      rw [hr]
      refine h b _ hb (lget_lset_same (by omega)) (by rw [lset_length]; exact hl') fun j hj => ?_
      rw [lget_lset_ne (by omega), hloc j (by omega), lget_lset_ne (by omega)]

theorem eqEnum_ok {vss : List (List Ty)} (hts : ∀ fs ∈ vss, ∀ t ∈ fs, EqOk E t) : EqOk E (.enum vss) := by
  intro σ R v1 v2 w1 w2 k s l is Q hp hl h
  have r1 := hp.rep1
  have r2 := hp.rep2
  simp only [Mv.Rep] at r1 r2
  obtain ⟨vs1, rfl, a1, r1⟩ := r1
  obtain ⟨vs2, rfl, a2, r2⟩ := r2
  have hf := hp.clear
  simp only [Clear] at hf
  simp only [nlE] at hl
  simp only [Val.erase, Val.variant.injEq] at h
  have b1 := a1.lt hp.below (by omega)
  have b2 := a2.lt hp.below (by omega)
  have hσ := hp.size
  have hidx := leNat_lt σ.mem w2 4
  simp only [eqP]
  wstep
  refine .intro (fun he => ?_) (fun hne => ?_)
  · rw [← he] at r1
    obtain ⟨fs, hfs, r1⟩ := RepVar.get r1
    obtain ⟨fs', hfs', r2⟩ := RepVar.get r2
    obtain rfl : fs = fs' := by rw [hfs] at hfs'; exact Option.some.inj hfs'
    have hf' := clearVar_get (by rw [← he]; exact hfs) (hf he.symm)
    refine eqArms_ok hts (p := w1 + 4) (q := w2 + 4) (i := leNat σ.mem w2 4) (i0 := 0) hfs (by omega) ?_ hσ hp.below
      r1 r2 hf' ?_ ?_ (by omega) ?_ ?_
    · rw [lget_lset_ne (by omega), lget_lset_ne (by omega), lget_lset_ne (by omega),
        lget_lset_same (by simp only [lset_length]; omega)]; omega
    · rw [lget_lset_ne (by omega), lget_lset_ne (by omega), lget_lset_same (by simp only [lset_length]; omega)]
    · rw [lget_lset_ne (by omega), lget_lset_same (by simp only [lset_length]; omega)]
    · simp only [lset_length]; omega
    intro b l' hb hr hl' hloc
    simp only [lset_length] at hl'
    wstep
    rw [hr]
    refine h b l' ?_ hl' fun j hj => ?_
    · rcases hb with ⟨h1, h2⟩ | ⟨h1, h2⟩
      · exact .inl ⟨h1, he.symm, h2⟩
      · exact .inr ⟨h1, fun hc => h2 hc.2⟩
    · rw [hloc j (by omega), lget_lset_ne (by omega), lget_lset_ne (by omega), lget_lset_ne (by omega),
        lget_lset_ne (by omega), lget_lset_ne (by omega), lget_lset_ne (by omega)]
  · refine h 0 _ (.inr ⟨rfl, fun hc => hne hc.1.symm⟩) ?_ fun j hj => ?_
    · simp only [lset_length]
    · rw [lget_lset_ne (by omega), lget_lset_ne (by omega), lget_lset_ne (by omega),
        lget_lset_ne (by omega), lget_lset_ne (by omega)]

/-- Blocks of bytes are equal if all pieces are. -/
theorem eqBytes_mul {f : Bytes} {p q n m : Nat} :
    EqBytes f p q (n * m) ↔ ∀ i, i < n → leNat f (p + i * m) m = leNat f (q + i * m) m := by
  constructor
  · intro h i hi
    refine leNat_ext fun j hj => ?_
    have : i * m + m ≤ n * m := by rw [← Nat.succ_mul]; exact Nat.mul_le_mul_right _ hi
    have := h (i * m + j) (by omega)
    rw [Nat.add_assoc, Nat.add_assoc]; exact this
  · intro h j hj
    have hm : 0 < m := by
      rcases Nat.eq_zero_or_pos m with rfl | h
      · simp at hj
      · exact h
    have h1 : j / m < n := Nat.div_lt_of_lt_mul (by rwa [Nat.mul_comm])
    have h2 := leNat_inj (h (j / m) h1) (j % m) (Nat.mod_lt _ hm)
    have h3 : j / m * m + j % m = j := by rw [Nat.mul_comm]; exact Nat.div_add_mod j m
    rwa [Nat.add_assoc, Nat.add_assoc, h3] at h2

theorem vecEq_spec {t : Ty} (ht : EqOk E t) {R : Nat → Prop} {vs1 vs2 : List Val} {w1 w2 : Nat}
    (hp : EqPre σ R (.vec t) (.vec vs1) (.vec vs2) w1 w2) :
    (vecEq E t).Calls [w1, w2] σ (fun r σ' => σ' = σ ∧ ∃ b, r = [b] ∧ Decides b (eraseL vs1 = eraseL vs2)) := by
  have hts := t.size_pos
  have hts8 := t.size_le
  have hts32 : t.size < 4294967296 := by omega
  have r1 := hp.rep1
  have r2 := hp.rep2
  simp only [Mv.Rep] at r1 r2
  obtain ⟨_, hv, g1, g2, g3, g4⟩ := r1
  injection hv with hv
  subst hv
  obtain ⟨_, hv, k1, k2, k3, k4⟩ := r2
  injection hv with hv
  subst hv
  have gb := g3.lt hp.below (by omega)
  have kb := k3.lt hp.below (by omega)
  have hσ := hp.size
  have hf := hp.clear
  simp only [Clear] at hf
  have gm : vs1.length * t.size ≤ leNat σ.mem (w1 + 4) 4 * t.size := Nat.mul_le_mul_right _ g2
  have km : vs2.length * t.size ≤ leNat σ.mem (w2 + 4) 4 * t.size := Nat.mul_le_mul_right _ k2
  refine ⟨rfl, ?_⟩
  show wp (vecEqF t (eqP E t 5) (nlE t)).body [] ([w1, w2] ++ List.replicate (3 + nlE t) 0) σ _
  have hrepl : List.replicate (3 + nlE t) 0 = [0, 0, 0] ++ List.replicate (nlE t) 0 := by
    rw [List.replicate_add]; rfl
  rw [hrepl]
  simp only [vecEqF, List.cons_append, List.nil_append]
  wstep
  rw [g1, k1]
  refine .intro (fun hlen => ?_) (fun hlen => ?_)
  swap
  · exact ⟨0, rfl, .inr ⟨rfl, fun h => hlen (by have := congrArg List.length h; simpa [eraseL_eq] using this)⟩⟩
  replace hf := hf hlen
  by_cases hs : t.scalar = true
  · simp only [hs, if_true]
    unfold skipVecHeader
    wstep
    refine wp_call3 (heapEq_spec hp.size (p := w1 + 8) (q := w2 + 8) (by rw [← hlen]; omega) (by omega)) ?_
    rintro r σ' ⟨rfl, rfl⟩
    wstep
    refine ⟨_, rfl, decides_b2n ?_⟩
    rw [eqBytes_mul, eraseL_iff hlen]
    have key : ∀ i (h1 : i < vs1.length) (h2 : i < vs2.length),
        leNat σ'.mem (w1 + 8 + i * t.size) t.size = leNat σ'.mem (w2 + 8 + i * t.size) t.size ↔
        vs1[i].erase = vs2[i].erase := fun i h1 h2 => by
      rw [(Rep.scalar hs (g4 i h1)).1, (Rep.scalar hs (k4 i h2)).1, num_erase]
    exact ⟨fun h i hi => (key i hi (by omega)).mp (h i (by omega)),
      fun h i hi => (key i (by omega) hi).mpr (h i (by omega))⟩
  · have hs' : t.scalar = false := by simpa using hs
    have h4 := Ty.size_ptr hs'
    have hn : vs2.length < 2 ^ 32 := by rw [← k1]; exact leNat_lt σ.mem w2 4
    have hpos : vs2.length ≠ 0 := by
      have := hf.1 hs'; rw [← hlen]; exact fun h => this (List.length_eq_zero_iff.mp h)
    simp only [if_neg hs]
    refine wp_loop (fun m l σ' => ∃ i, m + i + 1 = vs2.length ∧ σ' = σ ∧ l.length = 5 + nlE t ∧
      lget l 0 = w1 ∧ lget l 1 = w2 ∧ lget l 2 = vs2.length ∧ lget l 3 = 1 ∧ lget l 4 = i ∧
      ∀ j (h1 : j < vs1.length) (h2 : j < vs2.length), j < i → vs1[j].erase = vs2[j].erase) (vs2.length - 1)
      ⟨0, by omega, rfl, by simp only [List.length_cons, List.length_replicate]; omega, rfl, rfl, rfl, rfl, rfl,
        fun j _ _ h => absurd h (by omega)⟩ ?_
    rintro m l σ' ⟨i, hi, rfl, hl, e0, e1, e2, e3, e4, hall⟩
    have hi1 : (i + 1) * t.size ≤ leNat σ'.mem (w1 + 4) 4 * t.size := Nat.mul_le_mul_right _ (by omega)
    have hi2 : (i + 1) * t.size ≤ leNat σ'.mem (w2 + 4) 4 * t.size := Nat.mul_le_mul_right _ (by omega)
    have e5 : (i + 1) * t.size = i * t.size + t.size := Nat.succ_mul _ _
    unfold vecElemPtr skipVecHeader
    simp only [List.append_assoc, List.cons_append, List.nil_append]
    wstep
    rw [e0, e4]
    wstep
    rw [e1, e4]
    wstep
    refine ht σ' R _ _ _ _ 5 [] l _ _ ⟨hσ, hp.below, g4 i (by omega), k4 i (by omega),
      hf.2 i _ _⟩ (by omega) ?_
    intro b l' hb hl' hloc
    rcases hb with ⟨rfl, hb⟩ | ⟨rfl, hb⟩
    · wstep
      rw [hloc 2 (by omega), hloc 4 (by omega), e2, e4]
      have hall' : ∀ j (h1 : j < vs1.length) (h2 : j < vs2.length), j < i + 1 → vs1[j].erase = vs2[j].erase := by
        intro j h1 h2 hj
        by_cases hji : j = i
        · subst hji; exact hb
        · exact hall j h1 h2 (by omega)
      wstep
      refine .intro (fun hlt => ?_) (fun hlt => ?_)
      · refine ⟨m - 1, by omega, i + 1, by omega, by rw [lset_length]; omega, ?_, ?_, ?_, ?_, ?_⟩
        · rw [hloc 0 (by omega), e0]
        · rw [hloc 1 (by omega), e1]
        · rw [hloc 3 (by omega), e3]
        · rfl
        · exact hall'
      · refine ⟨_, rfl, .inl ⟨?_, ?_⟩⟩
        · rw [hloc 3 (by omega), e3]
        · exact (eraseL_iff hlen).mpr fun j hj => hall' j hj (by omega) (by omega)
    · wstep
      refine ⟨_, rfl, .inr ⟨rfl, fun hc => hb ?_⟩⟩
      exact (eraseL_iff hlen).mp hc i (by omega)

theorem eqVec_ok {t : Ty} (ht : EqOk E t) : EqOk E (.vec t) := by
  intro σ R v1 v2 w1 w2 k s l is Q hp hl h
  obtain ⟨vs1, rfl, _, _⟩ := vecAt_of_rep hp.rep1
  obtain ⟨vs2, rfl, _, _⟩ := vecAt_of_rep hp.rep2
  simp only [eqP, List.cons_append, List.nil_append]
  refine wp_call2 (vecEq_spec ht hp) ?_
  rintro r σ' ⟨rfl, b, rfl, hb⟩
  refine h b l ?_ rfl (fun _ _ => rfl)
  simpa only [Val.erase, Val.vec.injEq] using hb

mutual
/-- Comparisons of all types of values. -/
theorem eqP_ok (E : ErrPtrs) (t : Ty) : EqOk E t := by
  match t with
  | .bool | .u8 | .u16 | .u32 | .u64 => exact eqScalar_ok rfl
  | .u128 => exact eqHeap_ok (.inl ⟨rfl, rfl⟩)
  | .u256 => exact eqHeap_ok (.inr (.inl ⟨rfl, rfl⟩))
  | .address => exact eqHeap_ok (.inr (.inr ⟨rfl, rfl⟩))
  | .vec t => exact eqVec_ok (eqP_ok E t)
  | .struct fs => exact eqStruct_ok (eqPs_ok E fs)
  | .object fs => exact eqObject_ok (eqPs_ok E fs)
  | .enum vss => exact eqEnum_ok (eqPss_ok E vss)
theorem eqPs_ok (E : ErrPtrs) (ts : List Ty) : ∀ t ∈ ts, EqOk E t := by
  match ts with
  | [] => exact fun _ h => absurd h (by simp)
  | t' :: ts =>
    intro t ht
    rcases List.mem_cons.mp ht with ht | ht
    · rw [ht]; exact eqP_ok E t'
    · exact eqPs_ok E ts t ht
theorem eqPss_ok (E : ErrPtrs) (vss : List (List Ty)) : ∀ fs ∈ vss, ∀ t ∈ fs, EqOk E t := by
  match vss with
  | [] => exact fun _ h => absurd h (by simp)
  | fs' :: vss =>
    intro fs hfs t ht
    rcases List.mem_cons.mp hfs with hfs | hfs
    · rw [hfs] at ht; exact eqPs_ok E fs' t ht
    · exact eqPss_ok E vss fs hfs t ht
end

/-- A comparison of two values. -/
theorem eqFn_spec {t : Ty} {R : Nat → Prop} {v1 v2 : Val} {w1 w2 : Nat} (hp : EqPre σ R t v1 v2 w1 w2) :
    (eqFn E t).Calls [w1, w2] σ (fun r σ' => σ' = σ ∧ ∃ b, r = [b] ∧ Decides b (v1.erase = v2.erase)) := by
  refine ⟨rfl, ?_⟩
  show wp (eqFn E t).body [] ([w1, w2] ++ List.replicate (nlE t) 0) σ _
  simp only [eqFn, List.cons_append, List.nil_append]
  wstep
  rw [← List.append_nil (eqP E t 2)]
  refine eqP_ok E t σ R v1 v2 w1 w2 2 [] _ _ _ hp ?_ ?_
  · simp only [List.length_cons, List.length_replicate]; omega
  intro b l' hb _ _
  wstep
  exact ⟨b, rfl, hb⟩

end Rt
