import Verif.Proof.Valid10
import Verif.Rt.Event
import Verif.Rt.External
import Verif.Rt.CustomError
import Verif.Rt.Ascii

/-!
# Validity of the code for enums, constants, events, calls to other contracts and custom errors
-/

namespace Rt
open Wasm Mv

local notation "v" => VT.i32
local notation "z" => VT.i64

variable {E : ErrPtrs}

/-! ## Enums -/

theorem lgets_typed {L R : List VT} {ls} {s : List VT} : ∀ (ts : List VT) {k : Nat}, LocTys L k ts →
    ∀ {n}, n = ts.length → Ok L R ls ((List.range n).map (fun i => (Op.lget (k + i) : Instr))) s (ts.reverse ++ s)
  | [], _, _, _, rfl => .nil
  | t :: ts, k, h, _, rfl => by
    rw [List.length_cons, List.range_succ_eq_map, List.map_cons, List.map_map]
    refine ok_lget h.1 ?_
    have := lgets_typed ts h.2 rfl (R := R) (ls := ls) (s := t :: s)
    simp only [Nat.add_assoc, Nat.add_comm 1] at this
    rw [List.reverse_cons, List.append_assoc]
    exact this

theorem packVarFields_typed {L R : List VT} {ls} {k : Nat} (h0 : L[k]? = some .i32) (h1 : L[k + 1]? = some .i32) : ∀ (ts : List Mv.Ty) {j n : Nat},
    LocTys L j ((ts.filter Mv.Ty.scalar).map Mv.Ty.vt) → ∀ {s}, Ok L R ls (packVarFields k ts j n) (ts.map Mv.Ty.vt ++ s) s
  | [], _, _, _, _ => .nil
  | t :: ts, j, n, hl, s => by
    simp only [packVarFields, List.append_assoc]
    cases ht : t.scalar with
    | true =>
      rw [List.filter_cons_of_pos ht] at hl
      simp only [if_true]
      refine ok_lset hl.1 (ok_c32 (ok_call1 alloc_valid (ok_ltee h1 (ok_lget hl.1 (ok_store t.vt_mem ?_)))))
      refine ok_lget h0 (ok_lget h1 (ok_store4 ?_))
      exact packVarFields_typed h0 h1 ts hl.2
    | false =>
      rw [List.filter_cons_of_neg (by simp [ht])] at hl
      simp only [Bool.false_eq_true, if_false, List.map_cons, List.cons_append, Mv.Ty.vt_heap ht]
      refine ok_lset h1 ?_
      refine ok_lget h0 (ok_lget h1 (ok_store4 ?_))
      exact packVarFields_typed h0 h1 ts hl

/-- Building a variant: its fields are the parameters. -/
theorem mkVariant_valid (vss : List (List Mv.Ty)) (i : Nat) (fs : List Mv.Ty) : (mkVariant vss i fs).Valid (fs.map Mv.Ty.vt) [v] := by
  let S := (fs.reverse.filter Mv.Ty.scalar).map Mv.Ty.vt
  have hS : S.length ≤ fs.length := by
    have := List.length_filter_le Mv.Ty.scalar fs.reverse
    simpa [S] using this
  refine ⟨[v, v] ++ (S ++ List.replicate (fs.length - S.length) v), by simp [mkVariant], rfl, by simp [mkVariant]; omega, ?_⟩
  have p : LocTys (fs.map Mv.Ty.vt ++ ([v, v] ++ (S ++ List.replicate (fs.length - S.length) v))) 0 (fs.map Mv.Ty.vt) :=
    (LocTys.from (p := fs.map Mv.Ty.vt) rfl).1
  have q := (LocTys.from (p := fs.map Mv.Ty.vt) (T := [v, v] ++ (S ++ List.replicate (fs.length - S.length) v)) (List.length_map _)).2
  obtain ⟨⟨q0, q1, -⟩, q⟩ := q.append
  obtain ⟨q2, -⟩ := q.append
  generalize fs.map Mv.Ty.vt ++ ([v, v] ++ (S ++ List.replicate (fs.length - S.length) v)) = L at *
  unfold mkVariant packVariant
  have h := lgets_typed (R := [v]) (ls := [[v]]) (s := []) _ p (n := fs.length) (by simp)
  simp only [Nat.zero_add] at h
  refine h.append ?_
  simp only [List.append_assoc]
  refine ok_c32 (ok_call1 alloc_valid (ok_lset q0 (ok_lget q0 (ok_c32 (ok_store4 ?_)))))
  have := packVarFields_typed q0 q1 (R := [v]) (ls := [[v]]) fs.reverse (n := fs.length) q2 (s := [])
  rw [List.map_reverse] at this
  exact this.append (ok_lget q0 .nil)

theorem unpackVarFs_typed {L R : List VT} {ls} {k : Nat} (h0 : L[k]? = some .i32) : ∀ (ts : List Mv.Ty) {off : Nat} {s},
    Ok L R ls (unpackVarFs k ts off) s ((ts.map Mv.Ty.vt).reverse ++ s)
  | [], _, _ => .nil
  | t :: ts, off, s => by
    simp only [unpackVarFs, List.map_cons, List.reverse_cons]
    flat
    refine ok_lget h0 (ok_load4 ?_)
    refine Ok.append (s1 := t.vt :: s) ?_ (unpackVarFs_typed h0 ts)
    split
    · exact ok_load t.vt_mem .nil
    · next h => rw [Mv.Ty.vt_heap (by simpa using h)]; exact .nil

/-- Taking a variant apart leaves its fields, the last one on top. -/
theorem openVariant_valid (fs : List Mv.Ty) : (openVariant fs).Valid [v] (fs.map Mv.Ty.vt).reverse := by
  refine ⟨[v], rfl, by simp [openVariant], rfl, ?_⟩
  unfold openVariant unpackVariant
  have := unpackVarFs_typed (L := [v] ++ [v]) (R := (fs.map Mv.Ty.vt).reverse) (ls := [(fs.map Mv.Ty.vt).reverse]) (k := 1) rfl fs (off := 0) (s := [])
  rw [List.append_nil] at this
  exact ok_lget rfl (ok_c32 (ok_bin32 (ok_lset rfl this)))

theorem refFs_typed {L R : List VT} {ls} {k : Nat} (h0 : L[k]? = some .i32) : ∀ (ts : List Mv.Ty) {off : Nat} {s},
    Ok L R ls (refFs k ts off) s (List.replicate ts.length v ++ s)
  | [], _, _ => .nil
  | t :: ts, off, s => by
    have := refFs_typed h0 (R := R) (ls := ls) ts (off := off + 4) (s := v :: s)
    rw [List.length_cons, List.replicate_succ', List.append_assoc]
    exact ok_lget h0 (ok_c32 (ok_bin32 this))

theorem openVariantRef_valid (fs : List Mv.Ty) : (openVariantRef fs).Valid [v] (List.replicate fs.length v) := by
  refine ⟨[v], rfl, by simp [openVariantRef], rfl, ?_⟩
  unfold openVariantRef unpackVariantRef
  have := refFs_typed (L := [v] ++ [v]) (R := List.replicate fs.length v) (ls := [List.replicate fs.length v]) (k := 1) rfl fs (off := 4) (s := [])
  rw [List.append_nil] at this
  exact ok_lget rfl (ok_load4 (ok_lset rfl this))

/-- A match with two arms. -/
theorem matchFn_valid (o0 o1 : Nat) {f0 f1 : Fn} (h0 : f0.Valid [] [v]) (h1 : f1.Valid [] [v]) : (matchFn o0 o1 f0 f1).Valid [v] [v] := by
  refine ⟨[v, v], rfl, rfl, rfl, ?_⟩
  have key : ∀ {g : Fn}, (g = f0 ∨ g = f1) → g.Valid [] [v] := by rintro g (rfl | rfl) <;> assumption
  unfold matchFn matchTwo variantSwitch
  have l0 : ([v] ++ [v, v])[0]? = some VT.i32 := rfl
  have l1 : ([v] ++ [v, v])[1]? = some VT.i32 := rfl
  have l2 : ([v] ++ [v, v])[2]? = some VT.i32 := rfl
  generalize [v] ++ [v, v] = L at *
  flat
  refine ok_lget l0 (ok_load4 (ok_load4 (ok_c32 (ok_bin32 (ok_lset l1 ?_)))))
  refine ok_block (ok_block ?_ (ok_call01 (key (by split <;> simp)) (ok_lset l2 .nil))) (ok_lget l2 .nil)
  exact ok_lget l1 (ok_brIf rfl (ok_call01 (key (by split <;> simp)) (ok_lset l2 (ok_br (s1 := []) rfl .nil))))

/-! ## Vector literals and constants -/

theorem vecPack_typed {L R : List VT} {ls} {t : Mv.Ty} {k : Nat} (h0 : L[k]? = some .i32) (h1 : L[k + 1]? = some .i32) (h2 : L[k + 2]? = some t.vt) (n : Nat) {s} :
    Ok L R ls (vecPack t n k) (List.replicate n t.vt ++ s) (v :: s) := by
  have key : ∀ (is : List Nat) {s}, Ok L R ls (is.flatMap (fun i => code[Op.lget k, Op.lset k, Op.lset (k + 2), Op.lget k, Op.lget (k + 2),
      Op.store t.size (8 + (n - 1 - i) * t.size)])) (List.replicate is.length t.vt ++ s) s := by
    intro is
    induction is with
    | nil => exact .nil
    | cons i is ih =>
      rw [List.flatMap_cons, List.length_cons, List.replicate_succ]
      exact ok_lget h0 (ok_lset h0 (ok_lset h2 (ok_lget h0 (ok_lget h2 (ok_store t.vt_mem ih)))))
  have := key (List.range n) (s := s)
  rw [List.length_range] at this
  unfold vecPack
  simp only [List.append_assoc]
  exact ok_c32 (ok_lset h1 (ok_lget h1 (ok_lget h1 (ok_c32 (ok_call3 allocVec_valid (ok_lset h0 (this.append (ok_lget h0 .nil))))))))

theorem vecLit_valid (t : Mv.Ty) (n : Nat) : (vecLit t n).Valid (List.replicate n t.vt) [v] := by
  refine ⟨[v, v, t.vt], by simp [vecLit], rfl, rfl, ?_⟩
  obtain ⟨p, q0, q1, q2, -⟩ := LocTys.from (p := List.replicate n t.vt) (T := [v, v, t.vt]) List.length_replicate
  generalize List.replicate n t.vt ++ [v, v, t.vt] = L at *
  have h := lgets_typed (R := [v]) (ls := [[v]]) (s := []) _ p (n := n) (by simp)
  simp only [Nat.zero_add, List.reverse_replicate] at h
  unfold vecLit
  exact h.append (vecPack_typed q0 q1 q2 n)

attribute [local irreducible] returnError in
theorem destroyEmpty_valid (t : Mv.Ty) : (destroyEmpty E t).Valid [v] [] := by
  refine ⟨[v, v, v], rfl, rfl, rfl, ?_⟩
  obtain ⟨l0, l1, l2, l3, -⟩ : LocTys ([v] ++ [v, v, v]) 0 [v, v, v, v] := ⟨rfl, rfl, rfl, rfl, trivial⟩
  generalize [v] ++ [v, v, v] = L at *
  simp only [Nat.zero_add, Nat.reduceAdd] at l0 l1 l2 l3
  unfold destroyEmpty vecUnpack
  flat
  ok2s
  refine ok_block ?_ ?_
  · ok2s
    exact ok_returnError (Or.inl rfl) l3
  ok2s
  refine ok_block (ok_loop ?_ .nil) .nil
  ok2s
  refine ok_load t.vt_mem ?_
  ok2s
  exact ok_br (s1 := []) rfl .nil

/-! ## Custom errors -/

theorem selStores_typed {L R : List VT} {ls} {p : Nat} (h : L[p]? = some .i32) : ∀ (bs : List UInt8) {off : Nat} {s}, Ok L R ls (selStores p off bs) s s
  | [], _, _ => .nil
  | _ :: bs, _, _ => ok_lget h (ok_c32 (ok_store1 (selStores_typed h bs)))

theorem fieldLoads_typed {L R : List VT} {ls} {q : Nat} (h : L[q]? = some .i32) : ∀ (ts : List MTy) {i : Nat} {s},
    Ok L R ls (fieldLoads q i ts) s ((ts.map MTy.vt).reverse ++ s)
  | [], _, _ => .nil
  | t :: ts, i, s => by
    simp only [fieldLoads, List.map_cons, List.reverse_cons]
    flat
    refine ok_lget h (ok_load4 ?_)
    refine Ok.append (s1 := t.vt :: s) ?_ (fieldLoads_typed h ts)
    split
    · exact ok_load t.vt_mem .nil
    · next h => rw [MTy.vt_heap (by simpa using h)]; exact .nil

/-- `revert` with an error of any type. -/
theorem revertFn_valid (sel : List UInt8) {ts : List MTy} (h0 : ts ≠ []) : (revertFn E sel ts).Valid [v] [] := by
  refine ⟨[v] ++ (((ts.map PTy.val).map PTy.vt).reverse ++ [v, v, v, v] ++ [v]), rfl, rfl, by simp [revertFn], ?_⟩
  obtain ⟨⟨l0, l1, -⟩, hl⟩ := LocTys.from (p := [v, v]) (T := ((ts.map PTy.val).map PTy.vt).reverse ++ [v, v, v, v] ++ [v]) rfl
  rw [← List.append_assoc]
  show Ok ([v, v] ++ (((ts.map PTy.val).map PTy.vt).reverse ++ [v, v, v, v] ++ [v])) _ _ _ _ _
  generalize [v, v] ++ (((ts.map PTy.val).map PTy.vt).reverse ++ [v, v, v, v] ++ [v]) = L at *
  simp only [Nat.zero_add] at l0 l1
  obtain ⟨hp, hl⟩ := hl.append
  have h6 : L[ts.length + 6]? = some v := by
    have := hl.1
    simp only [List.length_append, List.length_reverse, List.length_map, List.length_cons, List.length_nil] at this
    rwa [show ts.length + 6 = 2 + (ts.length + (0 + 1 + 1 + 1 + 1)) by omega]
  have h3 : L[2 + (ts.map PTy.val).length + 1]? = some v := by
    obtain ⟨-, h⟩ := hp.append
    have := h.2.1
    simpa using this
  have hR : RetOk .i32 [] := Or.inl rfl
  unfold revertFn customErrorMessage
  simp only [List.append_assoc]
  refine ok_c32 (ok_call1 alloc_valid (ok_lset l1 ?_))
  refine (selStores_typed l1 sel).append ?_
  refine (fieldLoads_typed l0 ts).append ?_
  have := packAll_typed (E := E) (R := []) (ls := [[]]) (checkOk_propagate hR) (checkOk_propagate hR) (ts := ts.map PTy.val) (by simpa using h0) hp (s := [])
  rw [List.map_map, show PTy.vt ∘ PTy.val = MTy.vt from rfl] at this
  refine this.append ?_
  refine ok_lget l1 (ok_lget h3 (ok_c32 (ok_bin32 (ok_store4 (ok_lget l1 ?_)))))
  unfold handleError
  refine ok_lset h6 (ok_c32 (ok_lget h6 (ok_store4 ?_)))
  exact ok_badRet (ty := .none) (Or.inl rfl)

/-! ## Calls to other contracts -/

theorem packArgs_typed {L R : List VT} {ls} {w o : Nat} (hR : RetOk .i32 R) (hw : L[w]? = some .i32) (ho : L[o]? = some .i32) : ∀ (ts : List PTy) {j : Nat},
    LocTys L j (ts.map fun t => t.ty.vt) → ∀ {s}, Ok L R ls (packArgs E w o j ts) s s
  | [], _, _, _ => .nil
  | t :: ts, j, hl, s => by
    simp only [packArgs, List.append_assoc]
    refine (packT_typed t.ty (checkOk_propagate hR) (checkOk_propagate hR) hl.1 hw ho).append ?_
    exact ok_lget hw (ok_c32 (ok_bin32 (ok_lset hw (packArgs_typed hR hw ho ts hl.2))))

/-- A parameter of a call has the type of the value that is packed, unless it is a reference to a u64. -/
def PTy.Packs (t : PTy) : Prop := t.ty.vt = t.vt

theorem externalCall_valid (static payable : Bool) (sel : Nat) {args : List PTy} (ha : ∀ t ∈ args, t.Packs) (res : Option MTy) :
    (externalCall E static payable sel args res).Valid (v :: args.map PTy.vt) [v] := by
  refine ⟨[v, v, z, v, v, v, v, v, v, v, v, v, v, v, (res.elim v MTy.vt), v], by simp [externalCall], rfl, rfl, ?_⟩
  have e : args.map PTy.vt = args.map fun t => t.ty.vt := List.map_congr_left fun t h => (ha t h).symm
  rw [e]
  obtain ⟨⟨l0, -⟩, hl⟩ := LocTys.from (p := [v])
    (T := (args.map fun t => t.ty.vt) ++ [v, v, z, v, v, v, v, v, v, v, v, v, v, v, (res.elim v MTy.vt), v]) rfl
  rw [List.cons_append]
  rw [List.singleton_append] at l0 hl
  generalize v :: ((args.map fun t => t.ty.vt) ++ [v, v, z, v, v, v, v, v, v, v, v, v, v, v, (res.elim v MTy.vt), v]) = L at *
  obtain ⟨hp, hl⟩ := hl.append
  rw [List.length_map, show [v].length + args.length = args.length + 1 from Nat.add_comm ..] at hl
  have hR : RetOk .i32 [v] := Or.inr rfl
  unfold externalCall
  rw [show args.length + 11 = args.length + 1 + 10 from rfl]
  generalize args.length + 1 = k at *
  obtain ⟨k0, k1, k2, k3, k4, k5, k6, k7, k8, k9, k10, k11, k12, k13, k14, k15, -⟩ := hl
  simp only [Nat.add_assoc, Nat.reduceAdd] at k1 k2 k3 k4 k5 k6 k7 k8 k9 k10 k11 k12 k13 k14 k15
  unfold callObject callData callSend callStatus
  simp only [List.append_assoc]
  refine Ok.append (s1 := []) (by ok2s) ?_
  refine Ok.append (s1 := []) (by cases payable <;> ok2s) ?_
  refine Ok.append (s1 := []) (by ok2s) ?_
  refine Ok.append (s1 := []) ?_ ?_
  · split_ifs
    · exact .nil
    · refine Ok.append (s1 := []) (by ok2s) ?_
      exact packArgs_typed hR k6 k7 args hp
  refine Ok.append (s1 := []) (by ok2s) ?_
  refine Ok.append (s1 := []) ?_ ?_
  · cases static
    · ok2s
      refine ok_ite (by ok2s; exact .op (s1 := [v]) (by simp [opTys, HostFn.sig, popTys]) (by ok2s))
        (by ok2s; exact .op (s1 := [v]) (by simp [opTys, HostFn.sig, popTys]) (by ok2s)) .nil
    · ok2s
      exact .op (s1 := [v]) (by simp [opTys, HostFn.sig, popTys]) (by ok2s)
  refine Ok.append (s1 := []) ?_ (by ok2s)
  cases res with
  | none => ok2s
  | some t =>
    refine Ok.append (s1 := []) (by ok2s) ?_
    unfold callValue
    simp only [List.append_assoc]
    refine ok_block ?_ .nil
    refine Ok.append (s1 := []) (by ok2s; exact .op (s1 := [v]) (by simp [opTys, HostFn.sig, popTys]) (by ok2s)) ?_
    refine (unpackT_typed t (checkOk_propagate hR) k12 k13).append ?_
    refine ok_lset k14 ?_
    cases t <;> ok2s

/-! ## Calls that are not valid -/

theorem Ok.suffix {L R ls js s2} : ∀ {is s}, Ok L R ls (is ++ js) s s2 → ∃ s1, Ok L R ls js s1 s2
  | [], s, h => ⟨s, h⟩
  | _ :: is, _, h => by
    rw [List.cons_append] at h
    cases h with
    | op _ h => exact Ok.suffix (is := is) h
    | unreachable h => exact Ok.suffix (is := is) h
    | block _ h => exact Ok.suffix (is := is) h
    | loop _ h => exact Ok.suffix (is := is) h
    | ite _ _ h => exact Ok.suffix (is := is) h
    | br _ h => exact Ok.suffix (is := is) h
    | brIf _ h => exact Ok.suffix (is := is) h
    | ret h => exact Ok.suffix (is := is) h
    | call _ h => exact Ok.suffix (is := is) h

theorem ok_call_inv {L R ls is s s2} {f : Fn} (h : Ok L R ls (f.call :: is) s s2) :
    ∃ ps rs s', f.Valid ps rs ∧ s = ps.reverse ++ s' ∧ Ok L R ls is (rs ++ s') s2 := by
  unfold Fn.call at h
  generalize e : (Instr.call f.na f.nr f.nl f.body) = i at h
  cases h with
  | call hb h =>
    injection e with h1 h2 h3 h4
    exact ⟨_, _, _, ⟨_, h1.symm, h2.symm, h3.symm, h4 ▸ hb⟩, rfl, h⟩
  | _ => cases e

theorem ok_lget_inv {L R ls is s s2} {i : Nat} (h : Ok L R ls (.op (.lget i) :: is) s s2) : ∃ t, L[i]? = some t ∧ Ok L R ls is (t :: s) s2 := by
  cases h with
  | op h1 h =>
    cases e : L[i]? with
    | none => simp [opTys, e] at h1
    | some t =>
      simp only [opTys, e, Option.map_some, Option.toList_some, List.mem_singleton] at h1
      exact ⟨t, rfl, h1 ▸ h⟩

theorem swap64_arg {ps rs : List VT} (h : swap64.Valid ps rs) : ps = [z] := by
  obtain ⟨L, h1, -, -, h⟩ := h
  obtain ⟨t, rfl⟩ := List.length_eq_one_iff.mp h1
  obtain ⟨t', e, h⟩ := ok_lget_inv h
  obtain rfl : t = t' := by simpa using e
  cases t with
  | i64 => rfl
  | i32 =>
    cases h with
    | op h2 h =>
      simp only [opTys, List.mem_singleton] at h2; subst h2
      cases h with
      | op h3 h => simp [opTys, W.vt] at h3

theorem packU64_arg {ps rs : List VT} (h : packU64.Valid ps rs) : ps[0]? = some z := by
  obtain ⟨L, h1, -, h3, h⟩ := h
  obtain rfl := List.length_eq_zero_iff.mp h3
  rw [List.append_nil] at h
  obtain ⟨t, e, h⟩ := ok_lget_inv h
  obtain ⟨t', e', h⟩ := ok_lget_inv h
  obtain ⟨qs, rs', s', hv, he, -⟩ := ok_call_inv h
  rw [swap64_arg hv] at he
  cases he
  exact e'

theorem packArgs_inv {L R ls} {w o : Nat} : ∀ {ts : List PTy} {j i : Nat} {is s s2}, Ok L R ls (packArgs E w o j ts ++ is) s s2 →
    ts[i]? = some (.ref .u64) → L[j + i]? = some z
  | [], _, _, _, _, _, _, h => by simp at h
  | t :: ts, j, 0, is, s, s2, h, hi => by
    obtain rfl : t = .ref .u64 := by simpa using hi
    simp only [packArgs, PTy.ty, packT, List.cons_append, List.nil_append] at h
    obtain ⟨t1, e1, h⟩ := ok_lget_inv h
    obtain ⟨t2, e2, h⟩ := ok_lget_inv h
    obtain ⟨ps, rs, s', hv, he, -⟩ := ok_call_inv h
    have h0 := packU64_arg hv
    obtain ⟨_, h1, -⟩ := hv
    match ps, h1, h0, he with
    | [a, b], _, h0, he =>
      simp only [List.reverse_cons, List.reverse_nil, List.nil_append, List.cons_append, List.cons.injEq] at he
      rw [Nat.add_zero, e1, he.2.1]
      simpa using h0
  | t :: ts, j, i + 1, is, s, s2, h, hi => by
    simp only [packArgs, List.append_assoc] at h
    obtain ⟨_, h⟩ := Ok.suffix h
    obtain ⟨_, h⟩ := Ok.suffix h
    have := packArgs_inv (i := i) h (by simpa using hi)
    rwa [show j + (i + 1) = j + 1 + i by omega]

theorem externalCall_invalid {static payable : Bool} {sel : Nat} {args : List PTy} {res : Option MTy}
    (h : (externalCall E static payable sel args res).Valid (v :: args.map PTy.vt) [v]) : .ref .u64 ∉ args := by
  intro hm
  obtain ⟨i, hi⟩ := List.mem_iff_getElem?.mp hm
  obtain ⟨L, -, -, -, h⟩ := h
  unfold externalCall callData at h
  simp only [List.append_assoc] at h
  obtain ⟨_, h⟩ := Ok.suffix h
  obtain ⟨_, h⟩ := Ok.suffix h
  rw [if_neg (by cases args with | nil => simp at hm | cons => simp)] at h
  simp only [List.append_assoc] at h
  obtain ⟨_, h⟩ := Ok.suffix h
  have := packArgs_inv h hi
  rw [List.cons_append, Nat.add_comm, List.getElem?_cons_succ, List.getElem?_append_left (by
    rw [List.length_map]; exact (List.getElem?_eq_some_iff.mp hi).1), List.getElem?_map, hi] at this
  cases this

theorem PTy.packs_iff (t : PTy) : t.Packs ↔ t ≠ .ref .u64 := by
  unfold PTy.Packs
  cases t with
  | val t => simp [PTy.ty, PTy.vt]
  | ref t => cases t <;> simp [PTy.ty, PTy.vt, MTy.vt]

end Rt
