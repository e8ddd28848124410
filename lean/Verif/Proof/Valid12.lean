import Verif.Proof.Valid11

/-!
# Validity of the code for events, constants and aborts
-/

namespace Rt
open Wasm Mv

local notation "v" => VT.i32
local notation "z" => VT.i64

variable {E : ErrPtrs}

/-! ## Events -/

/-- The types of the locals of `ixVec`. -/
def ixVecVts : MTy → List VT
  | .vec t => [v, v, v] ++ ixVecVts t
  | .string => [v, v, v, v, v, v]
  | t => [v, v, t.vt, v]

mutual
/-- The same of `ixField`. -/
def ixFieldVts : MTy → List VT
  | .vec t => [v] ++ ixVecVts t
  | .string => [v, v, v, v]
  | .struct fs => [v] ++ ixStructVts fs
  | t => [t.vt, v]
def ixStructVts : List MTy → List VT
  | [] => []
  | t :: ts => ixFieldVts t ++ ixStructVts ts
end

theorem ixVecVts_length : ∀ t : MTy, (ixVecVts t).length = nlIxVec t
  | .vec t => by simp [ixVecVts, nlIxVec, ixVecVts_length t]; omega
  | .string | .bool | .u8 | .u16 | .u32 | .u64 | .u128 | .u256 | .address | .struct _ | .enum _ => rfl

mutual
theorem ixFieldVts_length : ∀ t : MTy, (ixFieldVts t).length = nlIxField t
  | .vec t => by simp [ixFieldVts, nlIxField, ixVecVts_length t]; omega
  | .struct fs => by simp [ixFieldVts, nlIxField, ixStructVts_length fs]; omega
  | .string | .bool | .u8 | .u16 | .u32 | .u64 | .u128 | .u256 | .address | .enum _ => by simp [ixFieldVts, nlIxField]
theorem ixStructVts_length : ∀ ts : List MTy, (ixStructVts ts).length = nlIxStruct ts
  | [] => by simp [ixStructVts, nlIxStruct]
  | t :: ts => by simp [ixStructVts, nlIxStruct, ixFieldVts_length t, ixStructVts_length ts]
end

theorem ixString_typed {L R : List VT} {ls} {padded : Bool} {p k : Nat} (hp : L[p]? = some v) (h : LocTys L k [v, v, v]) {s} :
    Ok L R ls (ixString padded p k) s s := by
  obtain ⟨k0, k1, k2, -⟩ := h
  simp only [Nat.add_assoc, Nat.reduceAdd] at k1 k2
  unfold ixString skipVecHeader
  simp only [List.append_assoc]
  cases padded <;> flat <;> ok2s <;> refine ok_loop ?_ .nil <;> ok2s

theorem ixWord_typed {L R : List VT} {ls} {p w : Nat} (hR : RetOk .none R) {t : MTy} (hp : L[p]? = some t.vt) (hw : L[w]? = some v) {s} :
    Ok L R ls (ixWord E t p w) s s := by
  unfold ixWord
  exact ok_c32 (ok_call1 alloc_valid (ok_lset hw (packT_typed t (checkOk_propagate hR) (checkOk_propagate hR) hp hw hw)))

theorem ixLoop_typed {L R : List VT} {ls} {p k size : Nat} {b : List Instr} (hp : L[p]? = some v) (h0 : L[k]? = some v) (h1 : L[k + 1]? = some v)
    (hb : Ok L R ([] :: ls) b [] []) {s} : Ok L R ls (ixLoop p k size b) s s := by
  unfold ixLoop skipVecHeader
  simp only [List.append_assoc]
  flat
  ok2s
  exact ok_loop (hb.append (by ok2s)) .nil

theorem valLoad_typed {L R : List VT} {ls s s2} (t : MTy) {is : List Instr} (h : Ok L R ls is (t.vt :: s) s2) :
    Ok L R ls ((if t.isScalar then code[Op.load t.size 0] else []) ++ is) (v :: s) s2 := by
  split_ifs with hs
  · exact ok_load t.vt_mem h
  · cases t <;> first | exact h | exact absurd rfl hs

theorem ixVec_typed {R : List VT} (hR : RetOk .none R) : ∀ (t : MTy) {p k : Nat} {L ls}, L[p]? = some v → LocTys L k (ixVecVts t) →
    ∀ {s}, Ok L R ls (ixVec E t p k) s s := by
  intro t
  induction t using ixVecVts.induct with
  | case1 t ih =>
    intro p k L ls hp h s
    obtain ⟨⟨k0, k1, k2, -⟩, h⟩ := LocTys.append (a := [v, v, v]) h
    simp only [Nat.add_assoc, Nat.reduceAdd] at k1 k2
    simp only [ixVec]
    refine ixLoop_typed hp k0 k1 (ok_lget hp (ok_load4 (ok_lset k2 ?_)))
    exact ih k2 h
  | case2 =>
    intro p k L ls hp h s
    obtain ⟨⟨k0, k1, k2, -⟩, h⟩ := LocTys.append (a := [v, v, v]) (b := [v, v, v]) h
    simp only [Nat.add_assoc, Nat.reduceAdd] at k1 k2
    simp only [ixVec]
    refine ixLoop_typed hp k0 k1 (ok_lget hp (ok_load4 (ok_lset k2 ?_)))
    exact ixString_typed k2 h
  | case3 t h1 h2 =>
    intro p k L ls hp h s
    cases t with
    | vec t => exact absurd rfl (h1 t)
    | string => exact absurd rfl h2
    | struct => simp only [ixVec]; exact .unreachable .nil
    | _ =>
      obtain ⟨k0, k1, k2, k3, -⟩ := h
      simp only [Nat.add_assoc, Nat.reduceAdd] at k1 k2 k3
      simp only [ixVec]
      refine ixLoop_typed hp k0 k1 ?_
      refine Ok.append (s1 := []) ?_ (ixWord_typed hR (by exact k2) k3)
      refine ok_lget hp ?_
      first
      | exact ok_load (MTy.vt_mem _) (ok_lset k2 .nil)
      | exact ok_load4 (ok_load4 (ok_lset k2 .nil))

mutual
theorem ixField_typed {R : List VT} (hR : RetOk .none R) : ∀ (t : MTy) {p off k : Nat} {L ls}, L[p]? = some v → LocTys L k (ixFieldVts t) →
    ∀ {s}, Ok L R ls (ixField E t p off k) s s
  | .vec t, p, off, k, L, ls, hp, h, s => by
    simp only [ixFieldVts] at h
    simp only [ixField]
    exact ok_lget hp (ok_load4 (ok_lset h.1 (ixVec_typed hR t h.1 h.2)))
  | .string, p, off, k, L, ls, hp, h, s => by
    simp only [ixFieldVts] at h
    simp only [ixField]
    exact ok_lget hp (ok_load4 (ok_lset h.1 (ixString_typed h.1 h.2)))
  | .struct fs, p, off, k, L, ls, hp, h, s => by
    simp only [ixFieldVts] at h
    simp only [ixField]
    exact ok_lget hp (ok_load4 (ok_load4 (ok_lset h.1 (ixStruct_typed hR fs h.1 h.2))))
  | .bool, p, off, k, L, ls, hp, h, s | .u8, p, off, k, L, ls, hp, h, s | .u16, p, off, k, L, ls, hp, h, s | .u32, p, off, k, L, ls, hp, h, s
  | .u64, p, off, k, L, ls, hp, h, s | .u128, p, off, k, L, ls, hp, h, s | .u256, p, off, k, L, ls, hp, h, s | .address, p, off, k, L, ls, hp, h, s
  | .enum _, p, off, k, L, ls, hp, h, s => by
    simp only [ixFieldVts] at h
    obtain ⟨k0, k1, -⟩ := h
    simp only [ixField]
    first
    | exact ok_lget hp (ok_load4 (ok_load1 (ok_lset k0 (ixWord_typed hR (by exact k0) k1))))
    | rw [List.append_assoc, List.append_assoc]
      exact ok_lget hp (ok_load4 (valLoad_typed _ (ok_lset k0 (ixWord_typed hR k0 k1))))
theorem ixStruct_typed {R : List VT} (hR : RetOk .none R) : ∀ (ts : List MTy) {p off k : Nat} {L ls}, L[p]? = some v → LocTys L k (ixStructVts ts) →
    ∀ {s}, Ok L R ls (ixStruct E ts p off k) s s
  | [], _, _, _, _, _, _, _, _ => by simp only [ixStruct]; exact .nil
  | t :: ts, p, off, k, L, ls, hp, h, s => by
    simp only [ixStructVts] at h
    obtain ⟨h1, h2⟩ := h.append
    rw [ixFieldVts_length] at h2
    simp only [ixStruct]
    exact (ixField_typed hR t hp h1).append (ixStruct_typed hR ts hp h2)
end

/-- The same of `ixPrep`. -/
def ixPrepVts : ETy → List VT
  | .val (.vec t) => ixVecVts t
  | .val .string => [v, v, v, v]
  | .val (.struct fs) => ixStructVts fs
  | .id => ixStructVts [.address]
  | .val _ => []

theorem ixPrepVts_length (t : ETy) : (ixPrepVts t).length = nlIxPrep t := by
  cases t with
  | id => exact ixStructVts_length _
  | val t =>
    cases t with
    | vec t => exact ixVecVts_length t
    | struct fs => exact ixStructVts_length fs
    | _ => rfl

theorem ixPrep_typed {L R : List VT} {ls} (hR : RetOk .none R) (t : ETy) {i k : Nat} (h0 : L[0]? = some v) (h4 : L[4]? = some v)
    (h1 : L[10 + 2 * i]? = some v) (h2 : L[11 + 2 * i]? = some v) (h : LocTys L k (ixPrepVts t)) {s} : Ok L R ls (ixPrep E i k t) s s := by
  have hb {is js : List Instr} (hi : Ok L R ls is s s) : Ok L R ls (code[Op.lget 0, Op.load 4 (4 * i), Op.lset 4, Op.c32 0, alloc.call, Op.lset (10 + 2 * i)] ++
      is ++ code[Op.c32 0, alloc.call, Op.lset (11 + 2 * i)]) s s := by
    refine Ok.append (s1 := s) (Ok.append (s1 := s) ?_ hi) (ok_c32 (ok_call1 alloc_valid (ok_lset h2 .nil)))
    exact ok_lget h0 (ok_load4 (ok_lset h4 (ok_c32 (ok_call1 alloc_valid (ok_lset h1 .nil)))))
  cases t with
  | id => exact hb (js := []) (ixStruct_typed hR _ h4 h)
  | val t =>
    cases t with
    | vec t => exact hb (js := []) (ixVec_typed hR t h4 h)
    | struct fs => exact hb (js := []) (ixStruct_typed hR fs h4 h)
    | string =>
      obtain ⟨k0, h⟩ := h
      refine Ok.append (s1 := s) (Ok.append (s1 := s) ?_ (ixString_typed k0 h)) (ok_c32 (ok_call1 alloc_valid (ok_lset h2 .nil)))
      exact ok_lget h0 (ok_load4 (ok_lset k0 (ok_c32 (ok_call1 alloc_valid (ok_lset h1 .nil)))))
    | _ => exact .nil

theorem ixPreps_typed {L R : List VT} {ls} (hR : RetOk .none R) (h0 : L[0]? = some v) (h4 : L[4]? = some v) : ∀ (ts : List ETy) {i k : Nat},
    LocTys L (10 + 2 * i) (List.replicate (2 * ts.length) v) → LocTys L k (ts.flatMap ixPrepVts) → ∀ {s}, Ok L R ls (ixPreps E ts i k) s s
  | [], _, _, _, _, _ => .nil
  | t :: ts, i, k, h, hl, s => by
    rw [List.flatMap_cons] at hl
    obtain ⟨hl1, hl2⟩ := hl.append
    rw [ixPrepVts_length] at hl2
    obtain ⟨a1, a2, h⟩ := h
    refine (ixPrep_typed hR t h0 h4 a1 (by rwa [show 11 + 2 * i = 10 + 2 * i + 1 by omega]) hl1).append (ixPreps_typed hR h0 h4 ts ?_ hl2)
    rwa [show 10 + 2 * (i + 1) = 10 + 2 * i + 1 + 1 by omega]

theorem ixHash_typed {L R : List VT} {ls} {i : Nat} (l1 : L[1]? = some v) (l6 : L[6]? = some v)
    (h1 : L[10 + 2 * i]? = some v) (h2 : L[11 + 2 * i]? = some v) {s} : Ok L R ls (ixHash i) s s := by
  unfold ixHash
  refine ok_lget h2 (ok_lget h1 (ok_bin32 (ok_lset l6 (ok_c32 (ok_call1 alloc_valid (ok_lset l1 (ok_lget h1 (ok_lget l6 (ok_lget l1 ?_)))))))))
  exact .op (s1 := s) (by simp [opTys, HostFn.sig, popTys]) .nil

theorem ixTopic_typed {L R : List VT} {ls} (hR : RetOk .none R) (t : ETy) {i : Nat} (hl : LocTys L 0 [v, v, v, v, v, z, v])
    (h1 : L[10 + 2 * i]? = some v) (h2 : L[11 + 2 * i]? = some v) {s} : Ok L R ls (ixTopic E i t) s s := by
  obtain ⟨l0, l1, l2, l3, l4, l5, l6, -⟩ := hl
  simp only [Nat.zero_add, Nat.reduceAdd] at l0 l1 l2 l3 l4 l5 l6
  cases t with
  | id =>
    refine Ok.append (s1 := s) ?_ (packT_typed .address (checkOk_propagate hR) (checkOk_propagate hR) l4 l1 l2)
    exact ok_lget l0 (ok_load4 (ok_lset l4 (ok_c32 (ok_call1 alloc_valid (ok_ltee l1 (ok_lset l2 (ok_lget l4 (ok_load4 (ok_lset l4 .nil)))))))))
  | val t =>
    cases t with
    | vec | string | struct => exact ok_lget l0 (ok_load4 (ok_lset l4 (ixHash_typed l1 l6 h1 h2)))
    | u64 =>
      simp only [ixTopic, List.append_assoc]
      exact ok_lget l0 (ok_load4 (valLoad_typed _ (ok_lset l5 (ok_c32 (ok_call1 alloc_valid (ok_ltee l1 (ok_lset l2
        (packT_typed .u64 (checkOk_propagate hR) (checkOk_propagate hR) l5 l1 l2))))))))
    | _ =>
      simp only [ixTopic, List.append_assoc]
      exact ok_lget l0 (ok_load4 (valLoad_typed _ (ok_lset l4 (ok_c32 (ok_call1 alloc_valid (ok_ltee l1 (ok_lset l2
        (packT_typed _ (checkOk_propagate hR) (checkOk_propagate hR) l4 l1 l2))))))))

theorem ixTopics_typed {L R : List VT} {ls} (hR : RetOk .none R) (hl : LocTys L 0 [v, v, v, v, v, z, v]) : ∀ (ts : List ETy) {i : Nat},
    LocTys L (10 + 2 * i) (List.replicate (2 * ts.length) v) → ∀ {s}, Ok L R ls (ixTopics E ts i) s s
  | [], _, _, _ => .nil
  | t :: ts, i, h, s => by
    obtain ⟨a1, a2, h⟩ := h
    refine (ixTopic_typed hR t hl a1 (by rwa [show 11 + 2 * i = 10 + 2 * i + 1 by omega])).append (ixTopics_typed hR hl ts ?_)
    rwa [show 10 + 2 * (i + 1) = 10 + 2 * i + 1 + 1 by omega]

theorem emitEvent_valid (sig : Option Nat) {is : List ETy} (hi : is.length ≤ 4) (ds : List MTy) : (emitEvent E sig is ds).Valid [v] [] := by
  refine ⟨[v, v, v, v, z, v, v, v, v] ++ List.replicate 8 v ++ is.flatMap ixPrepVts, rfl, rfl, ?_, ?_⟩
  · simp only [emitEvent, List.length_append, List.length_cons, List.length_nil, List.length_replicate, List.length_flatMap]
    congr 2
    exact List.map_congr_left fun t _ => ixPrepVts_length t
  obtain ⟨hl, hr⟩ := LocTys.from (p := [v, v, v, v, v, z, v, v, v, v] ++ List.replicate 8 v) (m := 18) (T := is.flatMap ixPrepVts) rfl
  show Ok ([v, v, v, v, v, z, v, v, v, v] ++ List.replicate 8 v ++ is.flatMap ixPrepVts) _ _ _ _ _
  generalize [v, v, v, v, v, z, v, v, v, v] ++ List.replicate 8 v ++ is.flatMap ixPrepVts = L at *
  obtain ⟨hl, h8⟩ := hl.append
  obtain ⟨hs, ht⟩ := LocTys.append (a := [v, v, v, v, v, z, v]) (b := [v, v, v]) hl
  have hl' := hl
  obtain ⟨l0, l1, l2, l3, l4, l5, l6, l7, l8, l9, -⟩ := hl
  simp only [Nat.zero_add, Nat.reduceAdd] at l0 l1 l2 l3 l4 l5 l6 l7 l8 l9
  have h10 : LocTys L (10 + 2 * 0) (List.replicate (2 * is.length) v) := by
    rw [show (8 : Nat) = 2 * is.length + (8 - 2 * is.length) by omega] at h8
    exact (LocTys.rep h8).1
  have hR : RetOk .none [] := Or.inl rfl
  unfold emitEvent
  simp only [List.append_assoc]
  refine (ixPreps_typed hR l0 l4 is h10 hr).append ?_
  refine Ok.append (s1 := []) ?_ ?_
  · cases sig with
    | none => ok2s
    | some h => exact ok_c32 (ok_call1 alloc_valid (ok_ltee l1 (ok_lset l3 (storeHash_typed l1))))
  refine (ixTopics_typed hR hs is h10).append ?_
  refine Ok.append (s1 := []) ?_ ?_
  · have hp : (packStruct (MTy.encSizeFs ds) (packFs E 0 ds)).Valid [v, v, v, v] [] := packStruct_valid (fun h => packFs_typed ds h)
    unfold evData
    split_ifs <;> ok2s
    all_goals
      refine ok_call40 hp ?_
      ok2s
  · exact ok_lget l3 (ok_lget l7 (ok_c32 (.op (s1 := []) (by simp [opTys, HostFn.sig, popTys]) .nil)))

/-! ## Aborts -/

theorem abortEnd_typed {L R : List VT} {ls} (hR : RetOk .i32 R) {p : Nat} (hp : L[p]? = some v) {s s2} : Ok L R ls (abortEnd p) s s2 := by
  unfold abortEnd
  refine ok_c32 (ok_lget hp (ok_store4 (ok_c32 ?_)))
  rcases hR with rfl | rfl
  · exact .ret (R := []) (s1 := s2) .nil
  · exact .ret (R := [v]) (s1 := s2) .nil

theorem abiErrorStructure_typed {L R : List VT} {ls} {e p t d : Nat} (he : L[e]? = some v) (hp : L[p]? = some v) (ht : L[t]? = some v) (hd : L[d]? = some v) {s} :
    Ok L R ls (abiErrorStructure e p t d) s s := by
  unfold abiErrorStructure
  ok2s

theorem abortFn_valid (ty : RetTy) (h : ty ≠ .i64) : (abortFn ty).Valid [z] ty.vts := by
  refine ⟨[v, v, v, v, v], rfl, ?_, rfl, ?_⟩
  · cases ty <;> rfl
  obtain ⟨l0, l1, l2, l3, l4, l5, -⟩ : LocTys ([z] ++ [v, v, v, v, v]) 0 [z, v, v, v, v, v] := ⟨rfl, rfl, rfl, rfl, rfl, rfl, trivial⟩
  generalize [z] ++ [v, v, v, v, v] = L at *
  simp only [Nat.zero_add, Nat.reduceAdd] at l0 l1 l2 l3 l4 l5
  have hR : RetOk .i32 ty.vts := by
    cases ty with
    | i64 => exact absurd rfl h
    | none => exact Or.inl rfl
    | i32 => exact Or.inr rfl
  unfold abortFn abortMessage
  simp only [List.append_assoc]
  refine ok_lget l0 (ok_call1 ascii_valid (ok_ltee l1 (ok_load1 (ok_lset l2 (ok_lget l1 (ok_c32 (ok_bin32 (ok_lset l1 ?_))))))))
  refine (abiErrorStructure_typed l2 l3 l4 l5).append ?_
  exact ok_lget l3 (ok_c32 (ok_bin32 (ok_lget l1 (ok_lget l2 (ok_memCopy (abortEnd_typed hR l3))))))

theorem writeChunks_typed {L R : List VT} {ls} {p : Nat} (hp : L[p]? = some v) (off : Nat) (bs : List UInt8) {s} : Ok L R ls (writeChunks p off bs) s s := by
  induction off, bs using writeChunks.induct with
  | case1 => unfold writeChunks; exact .nil
  | case2 off b bs ih =>
    unfold writeChunks
    exact ok_lget hp (ok_c32 (ok_bin32 (ok_c64 (ok_store8 ih))))

theorem abortConstFn_valid (c : Nat) (msg : List UInt8) (ty : RetTy) (h : ty ≠ .i64) : (abortConstFn c msg ty).Valid [z] ty.vts := by
  refine ⟨[v, v, v, v], rfl, ?_, rfl, ?_⟩
  · cases ty <;> rfl
  obtain ⟨l0, l1, l2, l3, l4, -⟩ : LocTys ([z] ++ [v, v, v, v]) 0 [z, v, v, v, v] := ⟨rfl, rfl, rfl, rfl, rfl, trivial⟩
  generalize [z] ++ [v, v, v, v] = L at *
  simp only [Nat.zero_add, Nat.reduceAdd] at l0 l1 l2 l3 l4
  have hR : RetOk .i32 ty.vts := by
    cases ty with
    | i64 => exact absurd rfl h
    | none => exact Or.inl rfl
    | i32 => exact Or.inr rfl
  unfold abortConstFn abortMessageConst
  simp only [List.append_assoc]
  refine Ok.append (s1 := []) ?_ ?_
  · exact ok_lget l0 (ok_c64 (ok_cmp64 rfl (ok_ite .nil (.unreachable .nil) .nil)))
  refine Ok.append (s1 := []) (by ok2s) ?_
  refine (abiErrorStructure_typed l1 l2 l3 l4).append ?_
  exact (writeChunks_typed l2 _ _).append (abortEnd_typed hR l2)

/-! ## Constants -/

theorem loadElems_typed {f : List UInt8 → Nat → Option (List Instr × List UInt8 × Nat)} {ptr size : Nat} {w : VT} (hw : w ∈ memTys size)
    (hf : ∀ {bs k is rest k'}, f bs k = some (is, rest, k') → k ≤ k' ∧ ∀ {L R ls s}, LocTys L k (List.replicate (k' - k) v) → Ok L R ls is s (w :: s)) :
    ∀ (n : Nat) {off bs k is rest k'}, loadElems f ptr size n off bs k = some (is, rest, k') →
      k ≤ k' ∧ ∀ {L R ls s}, L[ptr]? = some v → LocTys L k (List.replicate (k' - k) v) → Ok L R ls is (v :: s) (v :: s)
  | 0, _, _, _, _, _, _, h => by
    simp only [loadElems, Option.some.injEq, Prod.mk.injEq] at h
    obtain ⟨rfl, -, rfl⟩ := h
    exact ⟨Nat.le_refl _, fun _ _ => .nil⟩
  | n + 1, off, bs, k, is, rest, k', h => by
    simp only [loadElems] at h
    split at h
    · cases h
    rename_i is1 bs1 k1 h1
    split at h
    · cases h
    rename_i js bs2 k2 h2
    simp only [Option.some.injEq, Prod.mk.injEq] at h
    obtain ⟨rfl, -, rfl⟩ := h
    obtain ⟨a1, b1⟩ := hf h1
    obtain ⟨a2, b2⟩ := loadElems_typed hw hf n h2
    refine ⟨Nat.le_trans a1 a2, fun hp hl => ?_⟩
    rw [show k2 - k = k1 - k + (k2 - k1) by omega] at hl
    obtain ⟨hl1, hl2⟩ := LocTys.rep hl
    rw [show k + (k1 - k) = k1 by omega] at hl2
    exact (b1 hl1).append (ok_store hw (ok_lget hp (b2 hp hl2)))

/-- The code for a constant leaves a value of its type. -/
theorem loadConst_typed : ∀ (t : Mv.Ty) {bs : List UInt8} {k : Nat} {is rest k'}, loadConst t bs k = some (is, rest, k') →
    k ≤ k' ∧ ∀ {L R ls s}, LocTys L k (List.replicate (k' - k) v) → Ok L R ls is s (t.vt :: s)
  | .vec t, bs, k, is, rest, k', h => by
    simp only [loadConst] at h
    split at h
    · cases h
    rename_i n bs1 h1
    split at h
    · cases h
    rename_i js bs2 k2 h2
    simp only [Option.some.injEq, Prod.mk.injEq] at h
    obtain ⟨rfl, -, rfl⟩ := h
    obtain ⟨a, b⟩ := loadElems_typed (Mv.Ty.vt_mem t) (fun h => loadConst_typed t h) n h2
    refine ⟨by omega, fun hl => ?_⟩
    rw [show k2 - k = 2 + (k2 - (k + 2)) by omega] at hl
    obtain ⟨⟨k0, k1, -⟩, hl⟩ := LocTys.rep hl
    exact ok_c32 (ok_lset k1 (ok_lget k1 (ok_lget k1 (ok_c32 (ok_call3 allocVec_valid (ok_lset k0 (ok_lget k0 (b k0 hl))))))))
  | .bool, bs, k, is, rest, k', h | .u8, bs, k, is, rest, k', h | .u16, bs, k, is, rest, k', h | .u32, bs, k, is, rest, k', h => by
    simp only [loadConst, Option.some.injEq, Prod.mk.injEq] at h
    obtain ⟨rfl, -, rfl⟩ := h
    exact ⟨Nat.le_refl _, fun _ => ok_c32 .nil⟩
  | .u64, bs, k, is, rest, k', h => by
    simp only [loadConst, Option.some.injEq, Prod.mk.injEq] at h
    obtain ⟨rfl, -, rfl⟩ := h
    exact ⟨Nat.le_refl _, fun _ => ok_c64 .nil⟩
  | .u128, bs, k, is, rest, k', h | .u256, bs, k, is, rest, k', h => by
    simp only [loadConst, Option.some.injEq, Prod.mk.injEq] at h
    obtain ⟨rfl, -, rfl⟩ := h
    refine ⟨Nat.le_succ _, fun hl => ?_⟩
    rw [Nat.add_sub_cancel_left] at hl
    exact Move.hintConst_ok hl.1
  | .address, bs, k, is, rest, k', h => by
    simp only [loadConst] at h
    split_ifs at h
    simp only [Option.some.injEq, Prod.mk.injEq] at h
    obtain ⟨rfl, -, rfl⟩ := h
    refine ⟨Nat.le_succ _, fun hl => ?_⟩
    rw [Nat.add_sub_cancel_left] at hl
    exact Move.hintConst_ok hl.1
  | .struct _, _, _, _, _, _, h | .enum _, _, _, _, _, _, h => by simp [loadConst] at h

theorem constFn_valid {t : Mv.Ty} {bs : List UInt8} {f : Fn} (h : constFn t bs = some f) : f.Valid [] [t.vt] := by
  unfold constFn at h
  split at h
  · rename_i is k h1
    cases h
    obtain ⟨-, b⟩ := loadConst_typed t h1
    refine ⟨List.replicate k v, rfl, rfl, List.length_replicate, b ?_⟩
    have := (LocTys.from (p := List.replicate k v) (T := []) rfl).1
    simpa using this
  · cases h

end Rt
