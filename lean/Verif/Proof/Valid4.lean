import Verif.Proof.Valid3
import Verif.Rt.Verifier

/-!
# Validity of compiled functions
-/

namespace Move
open Wasm Rt

/-- The locals of the Move function and the result local are pointers. -/
structure LocalsOk (x : Ctx) (L : List VT) : Prop where
  map : ∀ i p : Nat, x.map[i]? = some p → L[p]? = some .i32
  res : L[x.res]? = some .i32

/-- The translation takes place in the program `P`, whose functions translated so far are valid. -/
structure CtxOk (P : Prog) (x : Ctx) : Prop where
  consts : x.consts = P.consts
  tbl : ∀ f : Nat, ∀ G fn, x.tbl[f]? = some (G, fn) → P.funs[f]? = some G ∧ fn.Valid (G.args.map Ty.vt) G.retTy.vts

theorem retTy_ok (F : MFun) : RetOk .i32 F.retTy.vts := by
  unfold MFun.retTy
  split
  · exact Or.inl rfl
  · exact Or.inr rfl

theorem nativeSender_valid : nativeSender.Valid [] [.i32] := .of_chk [.i32] [([.i32], [.i32])] (by krfl) ⟨alloc_valid, trivial⟩
theorem nativeValue_valid : nativeValue.Valid [] [.i32] := .of_chk [.i32] [([.i32], [.i32])] (by krfl) ⟨alloc_valid, trivial⟩
theorem nativeBaseFee_valid : nativeBaseFee.Valid [] [.i32] := .of_chk [.i32] [([.i32], [.i32])] (by krfl) ⟨alloc_valid, trivial⟩
theorem nativeGasPrice_valid : nativeGasPrice.Valid [] [.i32] := .of_chk [.i32] [([.i32], [.i32])] (by krfl) ⟨alloc_valid, trivial⟩
theorem swap64_valid : swap64.Valid [.i64] [.i64] := .of_chk [.i32] [([.i32], [.i32]), ([.i32], [.i32])] (by krfl) ⟨swap32_valid, swap32_valid, trivial⟩
theorem swapBytes4_valid : (swapBytes 4).Valid [.i32, .i32] [] := .of_chk [] [([.i64], [.i64]), ([.i64], [.i64]), ([.i64], [.i64]), ([.i64], [.i64])] (by krfl)
  ⟨swap64_valid, swap64_valid, swap64_valid, swap64_valid, trivial⟩
theorem nativeBalance_valid : nativeBalance.Valid [.i32] [.i32] :=
  .of_chk [.i32] [([.i32], [.i32]), ([.i32, .i32], [])] (by krfl) ⟨alloc_valid, swapBytes4_valid, trivial⟩
theorem nativeCodeSize_valid : nativeCodeSize.Valid [.i32] [.i32] := .of_chk [] [] (by krfl) trivial

theorem queryCode_ok {L R ls s} (q : Query) :
    Ok L R ls (queryCode q) (if q.account then .i32 :: s else s) (Ty.vt (.sc q.res) :: s) := by
  cases q with
  | sender => exact ok_call nativeSender_valid .nil
  | value => exact ok_call nativeValue_valid .nil
  | baseFee => exact ok_call nativeBaseFee_valid .nil
  | gasPrice => exact ok_call nativeGasPrice_valid .nil
  | number | timestamp | gasLimit | chainId => exact .op (s1 := .i64 :: s) (by simp [opTys, HostFn.sig, popTys, Query.account]) .nil
  | balance => exact ok_call1 nativeBalance_valid .nil
  | codeSize => exact ok_call1 nativeCodeSize_valid .nil

/-- Code that takes the operand stack from the types `ts` to the types `ts'`, with fresh locals from `n` to `m`. -/
def CodeOk (x : Ctx) (n m : Nat) (is : List Instr) (ts ts' : List Ty) : Prop :=
  ∃ T : List VT, m = n + T.length ∧ ∀ {L ls}, LocalsOk x L → LocTys L n T → Ok L x.ty.vts ls is (ts.map Ty.vt) (ts'.map Ty.vt)

theorem replicate_ok {x : Ctx} {n k : Nat} {is : List Instr} {ts ts' : List Ty}
    (h : ∀ {L ls}, LocalsOk x L → LocTys L n (List.replicate k .i32) → Ok L x.ty.vts ls is (ts.map Ty.vt) (ts'.map Ty.vt)) :
    CodeOk x n (n + k) is ts ts' := ⟨List.replicate k .i32, by simp, h⟩

theorem zero_ok {x : Ctx} {n : Nat} {is : List Instr} {ts ts' : List Ty}
    (h : ∀ {L ls}, LocalsOk x L → Ok L x.ty.vts ls is (ts.map Ty.vt) (ts'.map Ty.vt)) : CodeOk x n n is ts ts' := ⟨[], by simp, fun hx _ => h hx⟩

theorem trOp_typed {P : Prog} {x : Ctx} (hx : CtxOk P x) {g g' : CG} {b : Bc} {is : List Instr} {ts ts' junk : List Ty}
    (h : trOp x g b = some (is, g')) (hc : b.check P x.F ts = some ts') (hj : b.isJump = false) (hg : g.tys = ts ++ junk) :
    g'.tys = ts' ++ junk ∧ CodeOk x g.next g'.next is ts ts' := by
  have hr : RetOk x.ty x.ty.vts := Or.inr rfl
  have hR : RetOk .i32 x.ty.vts := retTy_ok x.F
  cases b with
  | ldTrue =>
    cases hc
    simp only [trOp, Option.some.injEq, Prod.mk.injEq] at h
    obtain ⟨rfl, rfl⟩ := h
    exact ⟨by simp [CG.push, hg], zero_ok fun _ => ok_c32 .nil⟩
  | ldFalse =>
    cases hc
    simp only [trOp, Option.some.injEq, Prod.mk.injEq] at h
    obtain ⟨rfl, rfl⟩ := h
    exact ⟨by simp [CG.push, hg], zero_ok fun _ => ok_c32 .nil⟩
  | ldInt t n =>
    cases hc
    simp only [trOp] at h
    split at h
    · next js k hcc =>
      simp only [Option.some.injEq, Prod.mk.injEq] at h
      obtain ⟨rfl, rfl⟩ := h
      exact ⟨by simp [CG.push, hg], replicate_ok fun _ hl => constCode_ok hcc hl⟩
    · cases h
  | ldConst i =>
    simp only [trOp] at h
    split at h
    · next c hcon =>
      split at h
      · next v hv =>
        split at h
        · next js k hcc =>
          simp only [Option.some.injEq, Prod.mk.injEq] at h
          obtain ⟨rfl, rfl⟩ := h
          rw [hx.consts] at hcon
          simp only [Bc.check, hcon, Option.bind_some, hv, Option.map_some, Option.some.injEq] at hc
          subst hc
          exact ⟨by simp [CG.push, hg], replicate_ok fun _ hl => constCode_ok hcc hl⟩
        · cases h
      · cases h
    · cases h
  | bin o =>
    match ts, hc with
    | t :: s :: rest, hc =>
      simp only [Bc.check, Option.map_eq_some_iff] at hc
      obtain ⟨r, hr', rfl⟩ := hc
      simp only [trOp, hg, List.cons_append] at h
      split at h
      · next tt ss rr heq =>
        simp only [List.cons.injEq] at heq
        obtain ⟨rfl, rfl, rfl⟩ := heq
        split at h
        · next js q k hb =>
          simp only [Option.some.injEq, Prod.mk.injEq] at h
          obtain ⟨rfl, rfl⟩ := h
          have hq : r = .sc q := by
            cases o with
            | arith o | bit o | cmp o | shl | shr =>
              cases ss with
              | int u =>
                simp only [binCode] at hb
                simp only [BOp.ty] at hr'
                split_ifs at hb with h1
                cases hb
                subst h1
                split_ifs at hr'
                cases hr'; rfl
              | _ => simp [binCode] at hb
            | eq | neq =>
              simp only [binCode] at hb
              simp only [BOp.ty] at hr'
              split_ifs at hb with h1
              cases hb
              subst h1
              split_ifs at hr'
              cases hr'; rfl
            | and | or =>
              simp only [binCode] at hb
              simp only [BOp.ty] at hr'
              split_ifs at hb with h1
              cases hb
              obtain ⟨rfl, rfl⟩ := h1
              split_ifs at hr'
              cases hr'; rfl
          subst hq
          exact ⟨by simp [CG.push], replicate_ok fun _ hl => binCode_ok hr hb hl⟩
        · cases h
      · next t2 s2 r2 _ heq =>
        simp only [List.cons.injEq] at heq
        obtain ⟨rfl, rfl, rfl⟩ := heq
        split_ifs at h with hst
        subst hst
        split at h
        · next js k he =>
          simp only [BOp.ty, ↓reduceIte, Option.some.injEq] at hr'
          simp only [Option.some.injEq, Prod.mk.injEq] at h
          obtain ⟨rfl, rfl⟩ := h
          subst hr'
          obtain ⟨T, hT, hok⟩ := eqTy_ok hR he
          exact ⟨by simp [CG.push], T, by simp [CG.push, hT], fun _ hl => hok hl⟩
        · next js k he =>
          simp only [BOp.ty, ↓reduceIte, Option.some.injEq] at hr'
          simp only [Option.some.injEq, Prod.mk.injEq] at h
          obtain ⟨rfl, rfl⟩ := h
          subst hr'
          obtain ⟨T, hT, hok⟩ := eqTy_ok hR he
          exact ⟨by simp [CG.push], T, by simp [CG.push, hT], fun _ hl => (hok hl).append negate_ok⟩
        · cases h
      · cases h
    | [_], hc => simp [Bc.check] at hc
    | [], hc => simp [Bc.check] at hc
  | not =>
    match ts, hc with
    | .sc .bool :: rest, hc =>
      cases hc
      simp only [trOp, hg, List.cons_append, Option.some.injEq, Prod.mk.injEq] at h
      obtain ⟨rfl, rfl⟩ := h
      exact ⟨by simp [CG.push], zero_ok fun _ => ok_eqz .nil⟩
  | cast t =>
    match ts, hc with
    | .sc (.int u) :: rest, hc =>
      cases hc
      simp only [trOp, hg, List.cons_append, Option.some.injEq, Prod.mk.injEq] at h
      obtain ⟨rfl, rfl⟩ := h
      exact ⟨by simp [CG.push], castTys t u, by simp [CG.push, castCode_len], fun _ hl => castCode_ok hr hR hl⟩
  | copyLoc i =>
    simp only [trOp] at h
    split at h
    · next t p ht hp =>
      simp only [Option.some.injEq, Prod.mk.injEq] at h
      obtain ⟨rfl, rfl⟩ := h
      simp only [Bc.check, ht, Option.map_some, Option.some.injEq] at hc
      subst hc
      exact ⟨by simp [CG.push, hg], copyTys t, by simp [CG.push, copyCode_len], fun hL hl => copyCode_ok hR (hL.map _ _ hp) hl⟩
    · cases h
  | moveLoc i =>
    simp only [trOp] at h
    split at h
    · next t p ht hp =>
      simp only [Option.some.injEq, Prod.mk.injEq] at h
      obtain ⟨rfl, rfl⟩ := h
      simp only [Bc.check, ht, Option.map_some, Option.some.injEq] at hc
      subst hc
      exact ⟨by simp [CG.push, hg], zero_ok fun hL => moveCode_ok (hL.map _ _ hp)⟩
    · cases h
  | stLoc i =>
    match ts, hc with
    | t :: rest, hc =>
      simp only [Bc.check] at hc
      split_ifs at hc with ht
      cases hc
      simp only [trOp, hg, List.cons_append, ht] at h
      split at h
      · next t' p u us h1 hp h2 =>
        cases h1
        simp only [List.cons.injEq] at h2
        obtain ⟨rfl, rfl⟩ := h2
        simp only [↓reduceIte] at h
        split_ifs at h with href
        · simp only [Option.some.injEq, Prod.mk.injEq] at h
          obtain ⟨rfl, rfl⟩ := h
          refine ⟨rfl, zero_ok fun hL => ok_lset ?_ .nil⟩
          rw [show Ty.vt t = .i32 by cases t <;> first | rfl | simp [Ty.isRef] at href]
          exact hL.map _ _ hp
        · simp only [Option.some.injEq, Prod.mk.injEq] at h
          obtain ⟨rfl, rfl⟩ := h
          exact ⟨rfl, boxTys t, by simp [boxCode_len], fun hL hl => boxCode_ok (hL.map _ _ hp) hl⟩
      · cases h
  | pop =>
    match ts, hc with
    | t :: rest, hc =>
      cases hc
      simp only [trOp, hg, List.cons_append, Option.some.injEq, Prod.mk.injEq] at h
      obtain ⟨rfl, rfl⟩ := h
      exact ⟨rfl, zero_ok fun _ => ok_drop .nil⟩
  | nop =>
    cases hc
    simp only [trOp, Option.some.injEq, Prod.mk.injEq] at h
    obtain ⟨rfl, rfl⟩ := h
    exact ⟨hg, zero_ok fun _ => .nil⟩
  | pack id fs =>
    simp only [Bc.check] at hc
    split_ifs at hc with hp
    cases hc
    obtain ⟨rest, rfl⟩ := hp
    simp only [trOp] at h
    split_ifs at h
    simp only [Option.some.injEq, Prod.mk.injEq] at h
    obtain ⟨rfl, rfl⟩ := h
    have e : (fs.reverse ++ rest).drop fs.length = rest := by rw [List.drop_append_of_le_length (by simp)]; simp
    rw [e]
    refine ⟨?_, packTys fs, by simp [CG.push, packTys_len], fun _ hl => ?_⟩
    · simp only [CG.push, hg, List.append_assoc, List.cons_append, List.cons.injEq, true_and]
      rw [List.drop_append_of_le_length (by simp)]; simp
    · rw [List.map_append]; exact packCode_ok hl
  | unpack id fs =>
    match ts, hc with
    | t :: rest, hc =>
      simp only [Bc.check] at hc
      split_ifs at hc with ht
      cases hc
      simp only [trOp, hg, List.cons_append] at h
      split_ifs at h
      simp only [Option.some.injEq, Prod.mk.injEq] at h
      obtain ⟨rfl, rfl⟩ := h
      refine ⟨by simp, replicate_ok (k := 1) fun _ hl => ?_⟩
      rw [List.map_append, ht]
      exact ok_lset hl.1 (unpackFields_ok hl.1 fs)
  | borrowLoc m i =>
    simp only [trOp] at h
    split at h
    · next t p ht hp =>
      simp only [Option.some.injEq, Prod.mk.injEq] at h
      obtain ⟨rfl, rfl⟩ := h
      simp only [Bc.check, ht, Option.map_some, Option.some.injEq] at hc
      subst hc
      exact ⟨by simp [CG.push, hg], zero_ok fun hL => ok_lget (hL.map _ _ hp) .nil⟩
    · cases h
  | borrowField m id fs k =>
    match ts, hc with
    | .ref n s :: rest, hc =>
      simp only [Bc.check] at hc
      split_ifs at hc with hs
      simp only [Option.map_eq_some_iff] at hc
      obtain ⟨t, ht, rfl⟩ := hc
      simp only [trOp, hg, List.cons_append, ht] at h
      split_ifs at h
      simp only [Option.some.injEq, Prod.mk.injEq] at h
      obtain ⟨rfl, rfl⟩ := h
      exact ⟨by simp [CG.push], zero_ok fun _ => ok_load4 (ok_c32 (ok_bin32 .nil))⟩
  | readRef =>
    match ts, hc with
    | .ref n t :: rest, hc =>
      cases hc
      simp only [trOp, hg, List.cons_append] at h
      split_ifs at h
      simp only [Option.some.injEq, Prod.mk.injEq] at h
      obtain ⟨rfl, rfl⟩ := h
      exact ⟨by simp [CG.push], ltP t.mv, by simp [CG.push, ltP_length], fun _ hl => ok_load4 (loadCopy_ok hR hl)⟩
  | writeRef =>
    match ts, hc with
    | .ref n t :: s :: rest, hc =>
      simp only [Bc.check] at hc
      split_ifs at hc with hs
      cases hc
      obtain ⟨rfl, rfl⟩ := hs
      simp only [trOp, hg, List.cons_append] at h
      split_ifs at h
      simp only [Option.some.injEq, Prod.mk.injEq] at h
      obtain ⟨rfl, rfl⟩ := h
      refine ⟨rfl, [Ty.vt s, .i32], rfl, fun {L ls} _ hl => ?_⟩
      rw [← Ty.mv_vt] at hl
      have := writeRef_ok (R := x.ty.vts) (ls := ls) (s := ts'.map Ty.vt) hl
      rw [Ty.mv_vt] at this
      exact this
    | [.ref n t], hc => simp [Bc.check] at hc
  | freeze =>
    match ts, hc with
    | .ref n t :: rest, hc =>
      simp only [Bc.check] at hc
      split_ifs at hc with hs
      cases hc
      simp only [trOp, hg, List.cons_append, hs, ↓reduceIte, Option.some.injEq, Prod.mk.injEq] at h
      obtain ⟨rfl, rfl⟩ := h
      exact ⟨by simp [CG.push], zero_ok fun _ => .nil⟩
  | call f =>
    simp only [trOp] at h
    split at h
    · next G fn hf =>
      obtain ⟨hG, hfn⟩ := hx.tbl f G fn hf
      simp only [Bc.check, hG] at hc
      split_ifs at hc with hp
      cases hc
      obtain ⟨rest, rfl⟩ := hp
      split_ifs at h
      simp only [Option.some.injEq, Prod.mk.injEq] at h
      obtain ⟨rfl, rfl⟩ := h
      have e : (G.args.reverse ++ rest).drop G.args.length = rest := by rw [List.drop_append_of_le_length (by simp)]; simp
      rw [e]
      refine ⟨?_, prepTys G.args ++ [.i32], by simp [prepArgs_len, Nat.add_assoc], fun _ hl => ?_⟩
      · simp only [hg, List.append_assoc]
        rw [List.drop_append_of_le_length (by simp)]; simp
      · obtain ⟨h1, h2, -⟩ := LocTys.append hl
        rw [List.map_append, List.map_append]
        rw [← prepArgs_len (l := g.next)] at h2
        exact (prepArgs_ok h1).append (callCode_ok hr hfn h2)
    · cases h
  | query q =>
    have hok := fun L ls s => queryCode_ok (L := L) (R := x.ty.vts) (ls := ls) (s := s) q
    by_cases hq : q.account = true
    · simp only [hq, ↓reduceIte] at hok
      simp only [Bc.check, hq, ↓reduceIte] at hc
      split at hc
      · next rest =>
        cases hc
        simp only [trOp, hq, ↓reduceIte, hg, List.cons_append, Option.some.injEq, Prod.mk.injEq] at h
        obtain ⟨rfl, rfl⟩ := h
        exact ⟨by simp [CG.push], zero_ok fun _ => hok _ _ _⟩
      · cases hc
    · rw [Bool.not_eq_true] at hq
      simp only [hq, Bool.false_eq_true, ↓reduceIte] at hok
      simp only [Bc.check, hq, Bool.false_eq_true, ↓reduceIte, Option.some.injEq] at hc
      subst hc
      simp only [trOp, hq, Bool.false_eq_true, ↓reduceIte, Option.some.injEq, Prod.mk.injEq] at h
      obtain ⟨rfl, rfl⟩ := h
      exact ⟨by simp [CG.push, hg], zero_ok fun _ => hok _ _ _⟩
  | branch _ | brTrue _ | brFalse _ | ret | abort => simp [Bc.isJump] at hj

end Move
