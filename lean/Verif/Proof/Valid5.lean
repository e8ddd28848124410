import Verif.Proof.Valid4

/-!
# Validity of compiled programs
-/

namespace Move
open Wasm Rt

/-- The labels of the WebAssembly blocks inside a compiled function. -/
abbrev labels (tgts : List Tgt) (R : List VT) : List (List VT) := tgts.map (fun _ => []) ++ [R]

theorem depth_lt {t : Tgt} {ts : List Tgt} {d : Nat} (h : depth t ts = some d) : d < ts.length := by
  unfold depth at h
  exact (List.findIdx?_eq_some_iff_getElem.mp h).1

theorem resolve_lt {ts : List Tgt} {m : Mode} {l d : Nat} (h : resolve ts m l = some d) : d < ts.length := by
  cases m with
  | merged => exact depth_lt h
  | loopBreak id =>
    simp only [resolve, Option.or_eq_some_iff] at h
    rcases h with h | ⟨-, h⟩
    · exact depth_lt h
    · exact depth_lt h
  | loopContinue id => exact depth_lt h
  | other => simp [resolve] at h

theorem labels_get {ts : List Tgt} {R : List VT} {d : Nat} (h : d < ts.length) : (labels ts R)[d]? = some [] := by
  unfold labels
  rw [List.getElem?_append_left (by simpa using h)]
  simp [h]

/-- What a flow finds on the operand stack: the condition of an `IfElse`. -/
def Flow.start : Flow → List VT
  | .ifElse _ _ => [.i32]
  | _ => []

theorem start_nil {f : Flow} (h : f.isIf = false) : f.start = [] := by cases f <;> first | rfl | simp [Flow.isIf] at h

theorem start_entry {f : Flow} {K : Option Nat} {n : Nat} (h : f.entry K = some n) : f.start = [] := by
  cases f <;> first | rfl | simp [Flow.entry] at h

theorem trInstr_op {x : Ctx} {ts br b g} (h : b.isJump = false) : trInstr x ts br b g = trOp x g b := by
  cases b <;> first | rfl | simp [Bc.isJump] at h

theorem trBlock_typed {P : Prog} {x : Ctx} (hx : CtxOk P x) {tgts : List Tgt} {br : List (Nat × Mode)} {im : Flow} {fs : List Frame}
    {K : Option Nat} : ∀ (bs : List Bc) {ts junk : List Ty} {g g' : CG} {is : List Instr} {pc : Nat},
    trBlock x tgts br bs g = some (is, g') → blockTys P x.F bs ts = true → blockOk x.F fs br im K bs pc = true → g.tys = ts ++ junk →
    ∃ T : List VT, g'.next = g.next + T.length ∧ ∀ {L}, LocalsOk x L → LocTys L g.next T →
      Ok L x.ty.vts (labels tgts x.ty.vts) is (ts.map Ty.vt) im.start
  | [], ts, junk, g, g', is, pc, h, ht, hb, hg => by
    simp only [trBlock, Option.some.injEq, Prod.mk.injEq] at h
    obtain ⟨rfl, rfl⟩ := h
    simp only [blockTys, List.isEmpty_iff] at ht
    subst ht
    simp only [blockOk, Bool.and_eq_true, beq_iff_eq] at hb
    rw [start_entry hb.1]
    exact ⟨[], rfl, fun _ _ => .nil⟩
  | b :: bs, ts, junk, g, g', is, pc, h, ht, hb, hg => by
    simp only [trBlock] at h
    split at h
    case h_2 => cases h
    rename_i is1 g1 h1
    split at h
    case h_2 => cases h
    rename_i is2 g2 h2
    cases h
    simp only [blockTys] at ht
    split at ht
    case h_2 => cases ht
    rename_i ts1 hc
    simp only [blockOk] at hb
    by_cases hj : b.isJump = true
    · rw [if_pos hj] at hb
      simp only [Bool.and_eq_true, List.isEmpty_iff] at hb
      obtain ⟨rfl, hb⟩ := hb
      cases h2
      simp only [blockTys, List.isEmpty_iff] at ht
      subst ht
      rw [List.append_nil]
      cases b with
      | branch t =>
        cases hc
        simp only [trInstr] at h1
        simp only [jumpOk] at hb
        split at h1
        · next m hm =>
          simp only [Option.map_eq_some_iff] at h1
          obtain ⟨d, hd, h1⟩ := h1
          cases h1
          exact ⟨[], rfl, fun _ _ => ok_br (s1 := im.start) (labels_get (resolve_lt hd)) .nil⟩
        · next hm =>
          cases h1
          rw [hm] at hb
          simp only [beq_iff_eq] at hb
          rw [start_entry hb]
          exact ⟨[], rfl, fun _ _ => .nil⟩
      | brTrue t =>
        match ts, hc with
        | .sc .bool :: rest, hc =>
          cases hc
          simp only [trInstr] at h1
          simp only [jumpOk] at hb
          split at h1
          · next m hm =>
            simp only [Option.map_eq_some_iff] at h1
            obtain ⟨d, hd, h1⟩ := h1
            cases h1
            rw [hm] at hb
            simp only [Bool.and_eq_true, beq_iff_eq] at hb
            rw [start_entry hb.2]
            exact ⟨[], rfl, fun _ _ => ok_brIf (labels_get (resolve_lt hd)) .nil⟩
          · next hm =>
            cases h1
            rw [hm] at hb
            simp only at hb
            split at hb
            · exact ⟨[], rfl, fun _ _ => .nil⟩
            · cases hb
      | brFalse t =>
        match ts, hc with
        | .sc .bool :: rest, hc =>
          cases hc
          simp only [trInstr] at h1
          simp only [jumpOk] at hb
          split at h1
          · next m hm =>
            simp only [Option.map_eq_some_iff] at h1
            obtain ⟨d, hd, h1⟩ := h1
            cases h1
            rw [hm] at hb
            simp only [Bool.and_eq_true, beq_iff_eq] at hb
            rw [start_entry hb.2]
            exact ⟨[], rfl, fun _ _ => ok_eqz (ok_brIf (labels_get (resolve_lt hd)) .nil)⟩
          · next hm =>
            cases h1
            rw [hm] at hb
            simp only at hb
            split at hb
            · exact ⟨[], rfl, fun _ _ => .nil⟩
            · cases hb
      | ret =>
        simp only [Bc.check] at hc
        split_ifs at hc with hts
        subst hts
        simp only [trInstr] at h1
        split at h1
        · next d hd =>
          split_ifs at h1
          cases h1
          refine ⟨x.F.rets.reverse.map Ty.vt, by simp, fun hL hl => ?_⟩
          have := retCode_ok (R := x.ty.vts) (s := []) (s1 := im.start) hL.res (labels_get (R := x.ty.vts) (depth_lt hd)) hl
          rwa [List.append_nil] at this
        · cases h1
      | abort =>
        simp only [Bc.check] at hc
        split_ifs at hc with hts
        subst hts
        simp only [trInstr, hg, List.cons_append, List.nil_append] at h1
        split at h1
        · next js k ha =>
          cases h1
          exact ⟨List.replicate k .i32, by simp, fun _ hl => abortCode_ok (retTy_ok x.F) ha hl⟩
        · cases h1
      | _ => simp [Bc.isJump] at hj
    · simp only [Bool.not_eq_true] at hj
      rw [if_neg (by simp [hj])] at hb
      rw [trInstr_op hj] at h1
      obtain ⟨e1, T1, n1, ok1⟩ := trOp_typed hx h1 hc hj hg
      obtain ⟨T2, n2, ok2⟩ := trBlock_typed hx bs h2 ht hb e1
      refine ⟨T1 ++ T2, by rw [n2, n1, List.length_append, Nat.add_assoc], fun hL hl => ?_⟩
      obtain ⟨hl1, hl2⟩ := LocTys.append hl
      rw [← n1] at hl2
      exact (ok1 hL hl1).append (ok2 hL hl2)

theorem trFlow_typed {P : Prog} {x : Ctx} (hx : CtxOk P x) : ∀ (flow : Flow) {tgts : List Tgt} {fs : List Frame} {K : Option Nat}
    {g g' : CG} {is : List Instr},
    trFlow x tgts flow g = some (is, g') → flow.checked P x.F = true → flow.ok x.F fs K = true →
    ∃ T : List VT, g'.next = g.next + T.length ∧ ∀ {L}, LocalsOk x L → LocTys L g.next T →
      Ok L x.ty.vts (labels tgts x.ty.vts) is flow.start []
  | .simple label len br im nx, tgts, fs, K, g, g', is, h, ht, hb => by
    simp only [trFlow] at h
    split at h
    case h_2 => cases h
    rename_i is1 g1 h1
    split at h
    case h_2 => cases h
    rename_i is2 g2 h2
    split at h
    case h_2 => cases h
    rename_i is3 g3 h3
    cases h
    simp only [Flow.checked, Bool.and_eq_true, Bool.not_eq_true'] at ht
    simp only [Flow.ok, Bool.and_eq_true] at hb
    obtain ⟨T1, n1, ok1⟩ := trBlock_typed hx _ (junk := g.tys) h1 ht.1.1.1 hb.1.1 rfl
    obtain ⟨T2, n2, ok2⟩ := trFlow_typed hx im h2 ht.1.1.2 hb.1.2
    obtain ⟨T3, n3, ok3⟩ := trFlow_typed hx nx h3 ht.1.2 hb.2
    refine ⟨T1 ++ (T2 ++ T3), by rw [n3, n2, n1, List.length_append, List.length_append]; omega, fun hL hl => ?_⟩
    obtain ⟨hl1, hl2⟩ := LocTys.append hl
    obtain ⟨hl2, hl3⟩ := LocTys.append hl2
    rw [← n1] at hl2 hl3
    rw [← n2] at hl3
    have := ok3 hL hl3
    rw [start_nil ht.2] at this
    exact ok_block ((ok1 hL hl1).append (ok2 hL hl2)) this
  | .loop id inner nx, tgts, fs, K, g, g', is, h, ht, hb => by
    simp only [trFlow] at h
    split at h
    case h_2 => cases h
    rename_i is1 g1 h1
    split at h
    case h_2 => cases h
    rename_i is2 g2 h2
    cases h
    simp only [Flow.checked, Bool.and_eq_true, Bool.not_eq_true'] at ht
    simp only [Flow.ok, Bool.and_eq_true] at hb
    obtain ⟨T1, n1, ok1⟩ := trFlow_typed hx inner h1 ht.1.1.1 hb.1
    obtain ⟨T2, n2, ok2⟩ := trFlow_typed hx nx h2 ht.1.1.2 hb.2
    refine ⟨T1 ++ T2, by rw [n2, n1, List.length_append, Nat.add_assoc], fun hL hl => ?_⟩
    obtain ⟨hl1, hl2⟩ := LocTys.append hl
    rw [← n1] at hl2
    have a1 := ok1 hL hl1
    have a2 := ok2 hL hl2
    rw [start_nil ht.1.2] at a1
    rw [start_nil ht.2] at a2
    exact ok_block (ok_loop a1 .nil) a2
  | .ifElse thn els, tgts, fs, K, g, g', is, h, ht, hb => by
    simp only [trFlow] at h
    split at h
    case h_2 => cases h
    rename_i is1 g1 h1
    split at h
    case h_2 => cases h
    rename_i is2 g2 h2
    cases h
    simp only [Flow.checked, Bool.and_eq_true, Bool.not_eq_true'] at ht
    simp only [Flow.ok, Bool.and_eq_true] at hb
    obtain ⟨T1, n1, ok1⟩ := trFlow_typed hx els h1 ht.1.1.2 hb.2
    obtain ⟨T2, n2, ok2⟩ := trFlow_typed hx thn h2 ht.1.1.1 hb.1
    refine ⟨.i32 :: (T1 ++ T2), by simp only at n1; rw [n2, n1, List.length_cons, List.length_append]; omega, fun hL hl => ?_⟩
    obtain ⟨l0, hl⟩ := hl
    obtain ⟨hl1, hl2⟩ := LocTys.append hl
    rw [← n1] at hl2
    have a1 := ok1 hL hl1
    have a2 := ok2 hL hl2
    rw [start_nil ht.2] at a1
    rw [start_nil ht.1.2] at a2
    refine ok_lset l0 (ok_block (ok_block ?_ a2) .nil)
    flat
    exact ok_lget l0 (ok_brIf rfl (a1.append (ok_br (s1 := []) rfl .nil)))
  | .empty, tgts, fs, K, g, g', is, h, ht, hb => by
    simp only [trFlow, Option.some.injEq, Prod.mk.injEq] at h
    obtain ⟨rfl, rfl⟩ := h
    exact ⟨[], rfl, fun _ _ => .nil⟩

theorem boxArgs_typed : ∀ (ts : List Ty) {i l : Nat}, ∃ T : List VT, (boxArgs ts i l).2.2 = l + T.length ∧
    ∀ {L R ls}, LocTys L i (ts.map Ty.vt) → LocTys L l T →
      (∀ {s}, Ok L R ls (boxArgs ts i l).1 s s) ∧ ∀ j p : Nat, (boxArgs ts i l).2.1[j]? = some p → L[p]? = some .i32
  | [], i, l => ⟨[], rfl, fun _ _ => ⟨.nil, fun j p h => by simp [boxArgs] at h⟩⟩
  | t :: ts, i, l => by
    unfold boxArgs
    split
    · next ht =>
      obtain ⟨T, n, ok⟩ := boxArgs_typed ts (i := i + 1) (l := l + 1 + (boxCode t l (l + 1)).2)
      refine ⟨.i32 :: (boxTys t ++ T), ?_, ?_⟩
      · simp only; rw [n, boxCode_len, List.length_cons, List.length_append]; omega
      · intro L R ls hi hl
        obtain ⟨hi0, hi⟩ := hi
        obtain ⟨l0, hl⟩ := hl
        obtain ⟨hl1, hl2⟩ := LocTys.append hl
        rw [← boxCode_len (dst := l) (l := l + 1)] at hl2
        obtain ⟨ok1, ok2⟩ := ok (R := R) (ls := ls) hi hl2
        refine ⟨fun {s} => ?_, fun j p h => ?_⟩
        · simp only
          exact ok_lget hi0 ((boxCode_ok l0 hl1).append ok1)
        · cases j with
          | zero => simp only [List.getElem?_cons_zero, Option.some.injEq] at h; rw [← h]; exact l0
          | succ j => exact ok2 j p (by simpa using h)
    · next ht =>
      obtain ⟨T, n, ok⟩ := boxArgs_typed ts (i := i + 1) (l := l + (boxCode t i l).2)
      refine ⟨boxTys t ++ T, ?_, ?_⟩
      · simp only; rw [n, boxCode_len, List.length_append]; omega
      · intro L R ls hi hl
        obtain ⟨hi0, hi⟩ := hi
        obtain ⟨hl1, hl2⟩ := LocTys.append hl
        rw [← boxCode_len (dst := i) (l := l)] at hl2
        obtain ⟨ok1, ok2⟩ := ok (R := R) (ls := ls) hi hl2
        have hv : t.vt = .i32 := by
          unfold Ty.vt
          split
          · exact (ht rfl).elim
          · rfl
        refine ⟨fun {s} => ?_, fun j p h => ?_⟩
        · simp only
          exact ok_lget hi0 ((boxCode_ok (hv ▸ hi0) hl1).append ok1)
        · cases j with
          | zero => simp only [List.getElem?_cons_zero, Option.some.injEq] at h; rw [← h, hi0, hv]
          | succ j => exact ok2 j p (by simpa using h)

theorem compileFun_valid {P : Prog} {E : ErrPtrs} {tbl : List (MFun × Fn)} {F : MFun} {flow : Flow} {fn : Fn}
    (htbl : ∀ f : Nat, ∀ G fn, tbl[f]? = some (G, fn) → P.funs[f]? = some G ∧ fn.Valid (G.args.map Ty.vt) G.retTy.vts)
    (hfit : flow.fits F = true) (hck : flow.checked P F = true) (hc : compileFun E P.consts tbl F flow = some fn) :
    fn.Valid (F.args.map Ty.vt) F.retTy.vts := by
  unfold compileFun at hc
  simp only at hc
  split at hc
  case h_2 => cases hc
  rename_i is g htr
  cases hc
  simp only [Flow.fits, Bool.and_eq_true, beq_iff_eq] at hfit
  obtain ⟨Tb, nb, okb⟩ := boxArgs_typed F.args (i := 0) (l := F.args.length + F.locals.length)
  obtain ⟨T, n, ok⟩ := trFlow_typed (P := P) ⟨rfl, htbl⟩ flow htr hck hfit.2
  simp only at n
  refine ⟨List.replicate F.locals.length .i32 ++ (Tb ++ (.i32 :: T)), by simp, ?_, ?_, ?_⟩
  · show _ = F.retTy.nr
    cases F.retTy <;> rfl
  · simp only [List.length_append, List.length_replicate, List.length_cons]
    rw [n, nb]; omega
  · generalize hL : F.args.map Ty.vt ++ (List.replicate F.locals.length .i32 ++ (Tb ++ (.i32 :: T))) = L
    have a0 : LocTys L 0 (F.args.map Ty.vt) := by
      rw [← hL]; exact LocTys.mk (p := []) (T := F.args.map Ty.vt)
    have a1 : LocTys L F.args.length (List.replicate F.locals.length .i32) := by
      rw [← hL]
      have := LocTys.mk (p := F.args.map Ty.vt) (T := List.replicate F.locals.length .i32) (q := Tb ++ (.i32 :: T))
      rwa [List.length_map] at this
    have a2 : LocTys L (F.args.length + F.locals.length) Tb := by
      rw [← hL]
      have := LocTys.mk (p := F.args.map Ty.vt ++ List.replicate F.locals.length .i32) (T := Tb) (q := .i32 :: T)
      rwa [List.length_append, List.length_map, List.length_replicate, List.append_assoc] at this
    have a3 : LocTys L (boxArgs F.args 0 (F.args.length + F.locals.length)).2.2 (.i32 :: T) := by
      rw [← hL, nb]
      have := LocTys.mk (p := F.args.map Ty.vt ++ (List.replicate F.locals.length .i32 ++ Tb)) (T := .i32 :: T) (q := [])
      simp only [List.length_append, List.length_map, List.length_replicate, List.append_assoc, List.append_nil] at this
      rwa [Nat.add_assoc]
    obtain ⟨ob, om⟩ := okb (R := F.retTy.vts) (ls := [F.retTy.vts]) a0 a2
    have hLo : LocalsOk ⟨E, P.consts, tbl, F, (boxArgs F.args 0 (F.args.length + F.locals.length)).2.1 ++
        (List.range F.locals.length).map (F.args.length + ·), (boxArgs F.args 0 (F.args.length + F.locals.length)).2.2⟩ L := by
      refine ⟨fun i p h => ?_, a3.1⟩
      simp only at h
      rw [List.getElem?_append] at h
      split_ifs at h with hi
      · exact om i p h
      · simp only [List.getElem?_map, Option.map_eq_some_iff] at h
        obtain ⟨j, hj, rfl⟩ := h
        obtain ⟨hj1, hj2⟩ := List.getElem?_eq_some_iff.mp hj
        rw [List.length_range] at hj1
        rw [List.getElem_range] at hj2
        refine LocTys.get a1 ?_
        rw [List.getElem?_replicate, if_pos (by omega)]
    have := ok hLo a3.2
    rw [start_entry hfit.1] at this
    rw [List.append_assoc]
    refine ob.append (ok_block this ?_)
    show Ok L F.retTy.vts _ _ _ F.retTy.vts
    unfold MFun.retTy
    split
    · exact .nil
    · exact ok_lget a3.1 .nil

theorem compileFuns_valid {E : ErrPtrs} {P : Prog} : ∀ (zs : List (MFun × Flow)) (tbl tbl' : List (MFun × Fn)),
    compileFuns E P.consts zs tbl = some tbl' → P.funs = tbl.map (·.1) ++ zs.map (·.1) →
    (∀ z ∈ zs, z.2.fits z.1 = true ∧ z.2.checked P z.1 = true) →
    (∀ f : Nat, ∀ G fn, tbl[f]? = some (G, fn) → fn.Valid (G.args.map Ty.vt) G.retTy.vts) →
    P.funs = tbl'.map (·.1) ∧ ∀ f : Nat, ∀ G fn, tbl'[f]? = some (G, fn) → fn.Valid (G.args.map Ty.vt) G.retTy.vts
  | [], tbl, tbl', hc, hp, hfit, htbl => by
    cases hc
    exact ⟨by simpa using hp, htbl⟩
  | (F, flow) :: zs, tbl, tbl', hc, hp, hfit, htbl => by
    simp only [compileFuns] at hc
    split at hc
    case h_2 => cases hc
    rename_i fn hfn
    have hok := compileFun_valid (P := P) (tbl := tbl) (fun f G fn h => ⟨by
      rw [hp, List.getElem?_append_left (by simpa using (List.getElem?_eq_some_iff.mp h).1), List.getElem?_map, h]
      rfl, htbl f G fn h⟩) (hfit _ (List.mem_cons_self ..)).1 (hfit _ (List.mem_cons_self ..)).2 hfn
    refine compileFuns_valid zs _ tbl' hc (by rw [hp]; simp) (fun z hz => hfit z (List.mem_cons_of_mem _ hz)) ?_
    intro f G fn' h
    rw [List.getElem?_append] at h
    split_ifs at h with hf
    · exact htbl f G fn' h
    · rw [List.getElem?_singleton] at h
      split_ifs at h
      cases h
      exact hok

end Move
