import Verif.Proof.Valid8
import Verif.Rt.Storage

/-!
# Validity of the functions that save, read and delete objects
-/

namespace Rt
open Wasm Mv

local notation "v" => VT.i32
local notation "z" => VT.i64

section
variable {L R : List VT} {ls : List (List VT)} {is : List Instr} {s s2 : List VT}

theorem ok_memFill (h : Ok L R ls is s s2) : Ok L R ls (.op .memFill :: is) (.i32 :: .i32 :: .i32 :: s) s2 := .op (by simp [opTys]) h
theorem ok_keccak (h : Ok L R ls is s s2) : Ok L R ls (.op (.host .keccak) :: is) (.i32 :: .i32 :: .i32 :: s) s2 :=
  .op (s1 := s) (by simp [opTys, HostFn.sig, popTys]) h
theorem ok_storageLoad (h : Ok L R ls is s s2) : Ok L R ls (.op (.host .storageLoad) :: is) (.i32 :: .i32 :: s) s2 :=
  .op (s1 := s) (by simp [opTys, HostFn.sig, popTys]) h
theorem ok_storageCache (h : Ok L R ls is s s2) : Ok L R ls (.op (.host .storageCache) :: is) (.i32 :: .i32 :: s) s2 :=
  .op (s1 := s) (by simp [opTys, HostFn.sig, popTys]) h
end

variable {E : ErrPtrs}

theorem deriveMappingSlot_valid : deriveMappingSlot.Valid [v, v, v] [] := .of_chk [] [] (by krfl) trivial
theorem writeObjectSlot_valid : writeObjectSlot.Valid [v, v, v] [] :=
  .of_chk [] [([v, v, v], []), ([v, v, v], [])] (by krfl) ⟨deriveMappingSlot_valid, deriveMappingSlot_valid, trivial⟩
theorem getIdBytesPtr_valid : getIdBytesPtr.Valid [v] [v] := .of_chk [] [] (by krfl) trivial
theorem getStructOwner_valid : getStructOwner.Valid [v] [v] := .of_chk [] [] (by krfl) trivial
theorem locateStructSlot_valid : locateStructSlot.Valid [v] [] :=
  .of_chk [] [([v], [v]), ([v], [v]), ([v, v, v], [])] (by krfl) ⟨getStructOwner_valid, getIdBytesPtr_valid, writeObjectSlot_valid, trivial⟩
theorem nextSlot_valid : (nextSlot E).Valid [v] [v] :=
  .of_chk [] [([v, v], []), ([v, v, v, v], [v]), ([v, v], [])] (by krfl)
    ⟨Move.swapBytes4_valid, heapAdd_valid E, Move.swapBytes4_valid, trivial⟩
theorem deriveDynArraySlot_valid : (deriveDynArraySlot E).Valid [v, v, v, v] [] :=
  .of_chk [v] [([v], [v]), ([v], [v]), ([v], [v]), ([v], [v]), ([v, v, v, v], [v])] (by krfl)
    ⟨alloc_valid, swap32_valid, alloc_valid, alloc_valid, heapAdd_valid E, trivial⟩
theorem locateData_valid : (locateData E).Valid [v, v] [v] :=
  .of_chk [v] [([v, v, v], []), ([v, v], [v]), ([v, v, v], []), ([v, v], [v]), ([v, v, v], []), ([v, v], [v])] (by krfl)
    ⟨writeObjectSlot_valid, isZero_valid, writeObjectSlot_valid, isZero_valid, writeObjectSlot_valid, isZero_valid, trivial⟩
theorem locateOwned_valid : (locateOwned E).Valid [v] [v] :=
  .of_chk [v] [([v, v, v], []), ([v, v], [v])] (by krfl) ⟨writeObjectSlot_valid, isZero_valid, trivial⟩
theorem locateShared_valid : (locateShared E).Valid [v] [v] :=
  .of_chk [v] [([v, v, v], []), ([v, v], [v])] (by krfl) ⟨writeObjectSlot_valid, isZero_valid, trivial⟩
theorem locateFrozen_valid : (locateFrozen E).Valid [v] [v] :=
  .of_chk [v] [([v, v, v], []), ([v, v], [v])] (by krfl) ⟨writeObjectSlot_valid, isZero_valid, trivial⟩
theorem accW_valid : (accW E).Valid [v, v, v] [v] := .of_chk [] [([v], [v])] (by krfl) ⟨nextSlot_valid, trivial⟩
theorem accR_valid : (accR E).Valid [v, v, v] [v] := .of_chk [] [([v], [v])] (by krfl) ⟨nextSlot_valid, trivial⟩
theorem accD_valid : (accD E).Valid [v, v, v] [v] := .of_chk [] [([v], [v])] (by krfl) ⟨nextSlot_valid, trivial⟩
theorem storageSize_valid (vss : List (List Mv.Ty)) : (storageSize vss).Valid [v] [v] := .of_chk [] [] (by krfl) trivial
theorem tailPos_valid (vss : List (List Mv.Ty)) : (tailPos E vss).Valid [v, v] [v] :=
  .of_chk [v, v, v, v, v] [([v], [v]), ([v], [v]), ([v], [v]), ([v, v], []), ([v, v, v, v], [v]), ([v, v], [])] (by krfl)
    ⟨storageSize_valid vss, alloc_valid, alloc_valid, Move.swapBytes4_valid, heapAdd_valid E, Move.swapBytes4_valid, trivial⟩

/-- One instruction more than `ok1'`. -/
macro "ok2" : tactic => `(tactic| first
  | ok1' | refine ok_memFill ?_ | refine ok_keccak ?_ | refine ok_storageLoad ?_ | refine ok_storageCache ?_
  | refine ok_call1 nextSlot_valid ?_ | refine ok_call1 getStructOwner_valid ?_ | refine ok_call1 getIdBytesPtr_valid ?_
  | refine ok_call10 locateStructSlot_valid ?_ | refine ok_call30 writeObjectSlot_valid ?_ | refine ok_call3 heapEq_valid ?_
  | refine ok_call3 accW_valid ?_ | refine ok_call3 accR_valid ?_ | refine ok_call3 accD_valid ?_ | refine ok_call2 (tailPos_valid _) ?_
  | refine ok_call1 Move.swap64_valid ?_ | refine ok_call20 Move.swapBytes4_valid ?_ | refine ok_call20 swapBytes2_valid ?_
  | refine ok_call1 (copyHeap_valid _) ?_ | refine ok_call2 isZero_valid ?_)

macro "ok2s" : tactic => `(tactic| repeat' ok2)

theorem LocTys.rep {L : List VT} {k m n : Nat} (h : LocTys L k (List.replicate (m + n) v)) :
    LocTys L k (List.replicate m v) ∧ LocTys L (k + m) (List.replicate n v) := by
  rw [List.replicate_add] at h
  have := h.append
  rwa [List.length_replicate] at this

mutual
theorem delT_typed {R : List VT} : ∀ (t : Mv.Ty) {sp so k : Nat} {L ls}, L[sp]? = some .i32 → L[so]? = some .i32 →
    LocTys L k (List.replicate (nlDel t) .i32) → ∀ {s}, Ok L R ls (delT E sp so t k) s s
  | .bool, _, _, _, _, _, _, _, _, _ | .u8, _, _, _, _, _, _, _, _, _ | .u16, _, _, _, _, _, _, _, _, _ | .u32, _, _, _, _, _, _, _, _, _
  | .u64, _, _, _, _, _, _, _, _, _ | .u128, _, _, _, _, _, _, _, _, _ | .u256, _, _, _, _, _, _, _, _, _ | .address, _, _, _, _, _, _, _, _, _
  | .object _, _, _, _, _, _, _, _, _, _ => by simp only [delT]; exact .nil
  | .struct fs, sp, so, k, L, ls, hp, ho, hl, s => by
    simp only [delT]
    exact (delFs_typed fs hp ho (by simpa only [nlDel] using hl)).append (by ok2s)
  | .enum vss, sp, so, k, L, ls, hp, ho, hl, s => by
    have hk : L[k]? = some .i32 := hl.1
    simp only [delT]
    ok2s
    refine ok_loop ?_ (by ok2s)
    ok2s
    refine ok_ite .nil ?_ .nil
    ok2s
    exact ok_br (s1 := []) rfl .nil
  | .vec t, sp, so, k, L, ls, hp, ho, hl, s => by
    obtain ⟨⟨l0, l1, l2, l3, -⟩, hl⟩ := LocTys.rep (m := 4) (by simpa only [nlDel] using hl)
    simp only [Nat.add_assoc, Nat.reduceAdd] at l0 l1 l2 l3 hl
    simp only [delT]
    ok2s
    refine ok_block ?_ .nil
    ok2s
    refine ok_block ?_ (by ok2s)
    refine ok_loop ?_ .nil
    flat
    ok2s
    refine (delT_typed t l1 l3 hl).append ?_
    ok2s
    exact ok_br (s1 := []) rfl .nil
theorem delFs_typed {R : List VT} : ∀ (ts : List Mv.Ty) {sp so k : Nat} {L ls}, L[sp]? = some .i32 → L[so]? = some .i32 →
    LocTys L k (List.replicate (nlDelFs ts) .i32) → ∀ {s}, Ok L R ls (delFs E sp so ts k) s s
  | [], _, _, _, _, _, _, _, _, _ => by simp only [delFs]; exact .nil
  | t :: ts, sp, so, k, L, ls, hp, ho, hl, s => by
    obtain ⟨h1, h2⟩ := LocTys.rep (by simpa only [nlDelFs] using hl)
    simp only [delFs]
    flat
    ok2s
    exact (delT_typed t hp ho h1).append (delFs_typed ts hp ho h2)
end

/-- The first `m` locals and the ones from there on. -/
theorem LocTys.from {p : List VT} {m : Nat} {T : List VT} (hp : p.length = m) : LocTys (p ++ T) 0 p ∧ LocTys (p ++ T) m T := by
  have h1 := LocTys.mk (p := []) (T := p) (q := T)
  have h2 := LocTys.mk (p := p) (T := T) (q := [])
  rw [List.append_nil, hp] at h2
  exact ⟨h1, h2⟩

attribute [local irreducible] returnError in
theorem deleteObject_valid (fs : List Mv.Ty) : (deleteObject E fs).Valid [v] [] := by
  refine ⟨[v, v, v] ++ List.replicate (nlDelFs fs) v, rfl, rfl, by simp [deleteObject]; omega, ?_⟩
  obtain ⟨⟨l0, l1, l2, l3, -⟩, hl⟩ := LocTys.from (p := [v, v, v, v]) (T := List.replicate (nlDelFs fs) v) rfl
  rw [← List.append_assoc]
  show Ok ([v, v, v, v] ++ List.replicate (nlDelFs fs) v) _ _ _ _ _
  generalize [v, v, v, v] ++ List.replicate (nlDelFs fs) v = L at *
  simp only [Nat.zero_add, Nat.reduceAdd] at l0 l1 l2 l3
  unfold deleteObject
  flat
  refine ok_block ?_ ?_
  · ok2s
    exact ok_returnError (Or.inl rfl) l1
  ok2s
  refine (delFs_typed fs l2 l3 hl).append ?_
  ok2s

theorem slotPtr_typed {L R : List VT} {ls} {so : Nat} {is : List Instr} {s s2 : List VT} (ho : L[so]? = some .i32)
    (h : Ok L R ls is (.i32 :: s) s2) : Ok L R ls (slotPtr so ++ is) s s2 := by
  unfold slotPtr
  flat
  ok2s
  refine ok_ite (ok_unreachable (s1 := []) .nil) ?_ ?_
  · ok2s
    exact ok_ite (ok_unreachable (s1 := []) .nil) .nil .nil
  · ok2s
    exact h

attribute [local irreducible] slotPtr returnError

mutual
/-- Types of the locals of `encT`. -/
def ltEnc : Mv.Ty → List VT
  | .struct fs => [v, z, v, v] ++ ltEncFs fs
  | .object (_ :: fs) => [v, z, v, v, v, v] ++ ltEncFs fs
  | .object [] => [v, z, v, v, v, v]
  | .enum vss => [v, z, v, v] ++ ltEncVs vss
  | .vec t => [v, z, v, v, v, v, v, v] ++ (List.replicate (nlDel t) v ++ ltEnc t)
  | _ => [v, z]
def ltEncFs : List Mv.Ty → List VT
  | [] => []
  | t :: ts => ltEnc t ++ ltEncFs ts
def ltEncVs : List (List Mv.Ty) → List VT
  | [] => [v]
  | fs :: vss => ltEncFs fs ++ ltEncVs vss
end

mutual
theorem ltEnc_length : ∀ t : Mv.Ty, (ltEnc t).length = nlEnc t
  | .struct fs => by simp [ltEnc, nlEnc, ltEncFs_length fs]; omega
  | .object (_ :: fs) => by simp [ltEnc, nlEnc, ltEncFs_length fs]; omega
  | .object [] => by simp [ltEnc, nlEnc]
  | .enum vss => by simp [ltEnc, nlEnc, ltEncVs_length vss]; omega
  | .vec t => by simp [ltEnc, nlEnc, ltEnc_length t]; omega
  | .bool | .u8 | .u16 | .u32 | .u64 | .u128 | .u256 | .address => by simp [ltEnc, nlEnc]
theorem ltEncFs_length : ∀ ts : List Mv.Ty, (ltEncFs ts).length = nlEncFs ts
  | [] => rfl
  | t :: ts => by simp [ltEncFs, nlEncFs, ltEnc_length t, ltEncFs_length ts]
theorem ltEncVs_length : ∀ vss : List (List Mv.Ty), (ltEncVs vss).length = nlEncVs vss
  | [] => rfl
  | fs :: vss => by simp [ltEncVs, nlEncVs, ltEncFs_length fs, ltEncVs_length vss]
end

/-- What is on the stack before a field or an element is encoded: a pointer, or the element itself. -/
def encIn (fld : Bool) (t : Mv.Ty) : VT := if fld then .i32 else t.vt

theorem unbox_typed {L R : List VT} {ls} {is : List Instr} {s s2 : List VT} {fld : Bool} {t : Mv.Ty} (h : Ok L R ls is (t.vt :: s) s2) :
    Ok L R ls (unbox fld t ++ is) (encIn fld t :: s) s2 := by
  cases fld with
  | true => exact ok_load t.vt_mem h
  | false => exact h

mutual
theorem encT_typed {T : Mv.Ty → Nat} {R : List VT} (hR : RetOk .i32 R) : ∀ (t : Mv.Ty) {sp so ow k : Nat} {fld : Bool} {L ls}, L[sp]? = some .i32 →
    L[so]? = some .i32 → L[ow]? = some .i32 → LocTys L k (ltEnc t) → ∀ {s}, Ok L R ls (encT E T sp so ow fld t k) (encIn fld t :: s) s
  | .bool, sp, so, ow, k, fld, L, ls, hp, ho, hw, ⟨l0, l1, _⟩, s => by
    simp only [encT, List.append_assoc]
    refine unbox_typed (t := .bool) ?_
    show Ok L R ls _ (VT.i32 :: s) s
    flat; ok2s; exact slotPtr_typed ho (by ok2s)
  | .u8, sp, so, ow, k, fld, L, ls, hp, ho, hw, ⟨l0, l1, _⟩, s => by
    simp only [encT, List.append_assoc]
    refine unbox_typed (t := .u8) ?_
    show Ok L R ls _ (VT.i32 :: s) s
    flat; ok2s; exact slotPtr_typed ho (by ok2s)
  | .u16, sp, so, ow, k, fld, L, ls, hp, ho, hw, ⟨l0, l1, _⟩, s => by
    simp only [encT, List.append_assoc]
    refine unbox_typed (t := .u16) ?_
    show Ok L R ls _ (VT.i32 :: s) s
    flat; ok2s; exact slotPtr_typed ho (ok_lget l0 (ok_store (by decide) .nil))
  | .u32, sp, so, ow, k, fld, L, ls, hp, ho, hw, ⟨l0, l1, _⟩, s => by
    simp only [encT, List.append_assoc]
    refine unbox_typed (t := .u32) ?_
    show Ok L R ls _ (VT.i32 :: s) s
    flat; ok2s; exact slotPtr_typed ho (by ok2s)
  | .u64, sp, so, ow, k, fld, L, ls, hp, ho, hw, ⟨l0, l1, _⟩, s => by
    simp only [encT, List.append_assoc]
    refine unbox_typed (t := .u64) ?_
    show Ok L R ls _ (VT.i64 :: s) s
    flat; ok2s; exact slotPtr_typed ho (by ok2s)
  | .u128, sp, so, ow, k, fld, L, ls, hp, ho, hw, ⟨l0, l1, _⟩, s => by
    have e : encIn fld .u128 = .i32 := by cases fld <;> rfl
    simp only [encT, e]
    exact slotPtr_typed ho (by ok2s)
  | .u256, sp, so, ow, k, fld, L, ls, hp, ho, hw, ⟨l0, l1, _⟩, s => by
    have e : encIn fld .u256 = .i32 := by cases fld <;> rfl
    simp only [encT, e]
    exact slotPtr_typed ho (by ok2s)
  | .address, sp, so, ow, k, fld, L, ls, hp, ho, hw, ⟨l0, l1, _⟩, s => by
    have e : encIn fld .address = .i32 := by cases fld <;> rfl
    simp only [encT, e]
    flat; ok2s
    exact slotPtr_typed ho (by ok2s)
  | .struct fs, sp, so, ow, k, fld, L, ls, hp, ho, hw, hl, s => by
    have e : encIn fld (.struct fs) = .i32 := by cases fld <;> rfl
    obtain ⟨⟨l0, l1, l2, l3, -⟩, hl⟩ := LocTys.append (a := [v, z, v, v]) (by simpa only [ltEnc] using hl)
    simp only [List.length_cons, List.length_nil, Nat.add_assoc, Nat.reduceAdd] at l0 l1 l2 l3 hl
    simp only [encT, e]
    flat; ok2s
    exact (encFs_typed hR fs l2 hp ho l3 hl).append (by ok2s)
  | .object [], sp, so, ow, k, fld, L, ls, hp, ho, hw, hl, s => by
    have e : encIn fld (.object []) = .i32 := by cases fld <;> rfl
    obtain ⟨l0, -⟩ : LocTys L k [v, z, v, v, v, v] := by simpa only [ltEnc] using hl
    simp only [encT, e]
    exact ok_lset l0 (ok_unreachable (s1 := s) .nil)
  | .object (u :: fs), sp, so, ow, k, fld, L, ls, hp, ho, hw, hl, s => by
    have e : encIn fld (.object (u :: fs)) = .i32 := by cases fld <;> rfl
    obtain ⟨⟨l0, l1, l2, l3, l4, l5, -⟩, hl⟩ := LocTys.append (a := [v, z, v, v, v, v]) (by simpa only [ltEnc] using hl)
    simp only [List.length_cons, List.length_nil, Nat.add_assoc, Nat.reduceAdd] at l0 l1 l2 l3 l4 l5 hl
    simp only [encT, e]
    flat; ok2s
    exact (encFs_typed hR fs l2 l4 ho l5 hl).append (by ok2s)
  | .enum vss, sp, so, ow, k, fld, L, ls, hp, ho, hw, hl, s => by
    have e : encIn fld (.enum vss) = .i32 := by cases fld <;> rfl
    obtain ⟨⟨l0, l1, l2, l3, -⟩, hl⟩ := LocTys.append (a := [v, z, v, v]) (by simpa only [ltEnc] using hl)
    simp only [List.length_cons, List.length_nil, Nat.add_assoc, Nat.reduceAdd] at l0 l1 l2 l3 hl
    simp only [encT, e]
    ok2s
    exact ok_block (encArms_typed hR vss l0 hp ho hw l2 l3 hl) (by ok2s)
  | .vec t, sp, so, ow, k, fld, L, ls, hp, ho, hw, hl, s => by
    have e : encIn fld (.vec t) = .i32 := by cases fld <;> rfl
    obtain ⟨⟨l0, l1, l2, l3, l4, l5, l6, l7, -⟩, hl⟩ := LocTys.append (a := [v, z, v, v, v, v, v, v]) (by simpa only [ltEnc] using hl)
    obtain ⟨hd, hl⟩ := hl.append
    simp only [List.length_cons, List.length_nil, List.length_replicate, Nat.zero_add, Nat.reduceAdd] at hd hl
    simp only [Nat.add_assoc, Nat.reduceAdd] at l0 l1 l2 l3 l4 l5 l6 l7
    simp only [encT, e]
    ok2s
    refine ok_block ?_ ?_
    · ok2s
      refine ok_block ?_ (by ok2s)
      flat
      ok2s
      refine ok_call (ps := [v, v, v, v]) (rs := []) deriveDynArraySlot_valid (ok_propagate hR ?_)
      refine ok_loop ?_ .nil
      ok2s
      refine (delT_typed t l2 l6 hd).append ?_
      ok2s
      exact ok_br (s1 := []) rfl .nil
    ok2s
    refine ok_block ?_ (by ok2s)
    ok2s
    refine ok_block ?_ (by ok2s)
    refine ok_loop ?_ .nil
    flat
    ok2s
    refine ok_load t.vt_mem ?_
    refine (encT_typed hR t (fld := false) l2 l6 hw hl).append ?_
    ok2s
    exact ok_br (s1 := []) rfl .nil
theorem encFs_typed {T : Mv.Ty → Nat} {R : List VT} (hR : RetOk .i32 R) : ∀ (ts : List Mv.Ty) {p sp so ow k off : Nat} {L ls}, L[p]? = some .i32 →
    L[sp]? = some .i32 → L[so]? = some .i32 → L[ow]? = some .i32 → LocTys L k (ltEncFs ts) → ∀ {s}, Ok L R ls (encFs E T p sp so ow ts k off) s s
  | [], _, _, _, _, _, _, _, _, _, _, _, _, _, _ => by simp only [encFs]; exact .nil
  | t :: ts, p, sp, so, ow, k, off, L, ls, hp, hs, ho, hw, hl, s => by
    obtain ⟨h1, h2⟩ := LocTys.append (by simpa only [ltEncFs] using hl)
    rw [ltEnc_length] at h2
    simp only [encFs]
    flat
    ok2s
    exact (encT_typed hR t (fld := true) hs ho hw h1).append (encFs_typed hR ts hp hs ho hw h2)
theorem encArms_typed {T : Mv.Ty → Nat} {R : List VT} (hR : RetOk .i32 R) : ∀ (vss : List (List Mv.Ty)) {p sp so ow tl vi k i : Nat} {L ls}, L[p]? = some .i32 →
    L[sp]? = some .i32 → L[so]? = some .i32 → L[ow]? = some .i32 → L[tl]? = some .i32 → L[vi]? = some .i32 → LocTys L k (ltEncVs vss) →
    ∀ {s}, Ok L R ([] :: ls) (encArms E T p sp so ow tl vi vss k i) s s
  | [], _, _, _, _, _, _, _, _, _, _, _, _, _, _, _, _, hl, _ => by simp only [encArms]; exact ok_returnError hR hl.1
  | fs :: vss, p, sp, so, ow, tl, vi, k, i, L, ls, hp, hs, ho, hw, ht, hv, hl, s => by
    obtain ⟨h1, h2⟩ := LocTys.append (by simpa only [ltEncVs] using hl)
    rw [ltEncFs_length] at h2
    simp only [encArms]
    refine ok_block ?_ (encArms_typed hR vss hp hs ho hw ht hv h2)
    flat
    ok2s
    refine slotPtr_typed ho ?_
    ok2s
    refine (encFs_typed hR fs hp hs ho hw h1).append ?_
    ok2s
    refine ok_ite .nil ?_ (ok_br (s1 := []) rfl .nil)
    ok2s
    refine ok_loop ?_ .nil
    ok2s
    refine ok_ite .nil ?_ .nil
    ok2s
    exact ok_br (s1 := []) rfl .nil
end

theorem saveObject_valid (T : Mv.Ty → Nat) (u : Mv.Ty) (fs : List Mv.Ty) : (saveObject E T u fs).Valid [v, v] [] := by
  refine ⟨[v, v] ++ ltEncFs fs, rfl, rfl, by simp [saveObject, ltEncFs_length]; omega, ?_⟩
  obtain ⟨⟨l0, l1, l2, l3, -⟩, hl⟩ := LocTys.from (p := [v, v, v, v]) (T := ltEncFs fs) rfl
  rw [← List.append_assoc]
  show Ok ([v, v, v, v] ++ ltEncFs fs) _ _ _ _ _
  generalize [v, v, v, v] ++ ltEncFs fs = L at *
  simp only [Nat.zero_add, Nat.reduceAdd] at l0 l1 l2 l3
  unfold saveObject
  flat
  ok2s
  exact (encFs_typed (Or.inl rfl) fs l0 l1 l2 l3 hl).append (by ok2s)

theorem decHead_typed {T : Mv.Ty → Nat} {t : Mv.Ty} {L R : List VT} {ls} {sp so ow id fop tmp : Nat} (hR : RetOk .i32 R) (hp : L[sp]? = some .i32)
    (ho : L[so]? = some .i32) (hw : L[ow]? = some .i32) (hi : L[id]? = some .i32) (hf : L[fop]? = some .i32) (h0 : L[tmp]? = some .i32)
    (h1 : L[tmp + 1]? = some .i32) {s} : Ok L R ls (decHead E T t sp so ow id fop tmp) s s := by
  unfold decHead
  ok2s
  refine ok_ite (ok_returnError hR h0) .nil ?_
  ok2s
  exact ok_ite (by ok2s) (ok_returnError hR h1) (by ok2s)

theorem decUid_typed {L R : List VT} {ls} {p fp wr id : Nat} (hp : L[p]? = some .i32) (hf : L[fp]? = some .i32) (hw : L[wr]? = some .i32)
    (hi : L[id]? = some .i32) {s} : Ok L R ls (decUid p fp wr id) s s := by
  unfold decUid
  ok2s

attribute [local irreducible] decHead decUid

mutual
theorem decT_typed {T : Mv.Ty → Nat} {R : List VT} (hR : RetOk .i32 R) : ∀ (t : Mv.Ty) {dp sp so ow k : Nat} {L ls}, L[dp]? = some .i32 → L[sp]? = some .i32 →
    L[so]? = some .i32 → L[ow]? = some .i32 → LocTys L k (List.replicate (nlDec t) .i32) → ∀ {s}, Ok L R ls (decT E T dp sp so ow t k) s s
  | .bool, dp, sp, so, ow, k, L, ls, hd, hp, ho, hw, _, s | .u8, dp, sp, so, ow, k, L, ls, hd, hp, ho, hw, _, s
  | .u32, dp, sp, so, ow, k, L, ls, hd, hp, ho, hw, _, s | .u64, dp, sp, so, ow, k, L, ls, hd, hp, ho, hw, _, s => by
    simp only [decT]
    flat; ok2s
    exact slotPtr_typed ho (by ok2s)
  | .u16, dp, sp, so, ow, k, L, ls, hd, hp, ho, hw, _, s => by
    simp only [decT]
    flat; ok2s
    exact slotPtr_typed ho (ok_load (t := .i32) (by decide) (by ok2s))
  | .u128, dp, sp, so, ow, k, L, ls, hd, hp, ho, hw, _, s | .u256, dp, sp, so, ow, k, L, ls, hd, hp, ho, hw, _, s => by
    simp only [decT]
    exact slotPtr_typed ho (by ok2s)
  | .address, dp, sp, so, ow, k, L, ls, hd, hp, ho, hw, _, s => by
    simp only [decT]
    flat; ok2s
    exact slotPtr_typed ho (by ok2s)
  | .struct fs, dp, sp, so, ow, k, L, ls, hd, hp, ho, hw, hl, s => by
    obtain ⟨⟨l0, l1, l2, -⟩, hl⟩ := LocTys.rep (m := 3) (by simpa only [nlDec] using hl)
    simp only [Nat.add_assoc, Nat.reduceAdd] at l0 l1 l2 hl
    simp only [decT]
    flat; ok2s
    exact (decFs_typed hR fs l0 l1 hp ho l2 hl).append (by ok2s)
  | .object [], dp, sp, so, ow, k, L, ls, hd, hp, ho, hw, hl, s => by
    simp only [decT]
    exact ok_unreachable (s1 := s) .nil
  | .object (u :: fs), dp, sp, so, ow, k, L, ls, hd, hp, ho, hw, hl, s => by
    obtain ⟨⟨l0, l1, l2, l3, l4, l5, l6, l7, -⟩, hl⟩ := LocTys.rep (m := 8) (by simpa only [nlDec] using hl)
    simp only [Nat.add_assoc, Nat.reduceAdd] at l0 l1 l2 l3 l4 l5 l6 l7 hl
    simp only [decT]
    flat; ok2s
    refine (decHead_typed hR l4 ho hw l3 l2 l6 l7).append ?_
    ok2s
    refine (decUid_typed l0 l1 l5 l3).append ?_
    exact (decFs_typed hR fs l0 l1 l4 ho l2 hl).append (by ok2s)
  | .enum vss, dp, sp, so, ow, k, L, ls, hd, hp, ho, hw, hl, s => by
    obtain ⟨⟨l0, l1, l2, l3, -⟩, hl⟩ := LocTys.rep (m := 4) (by simpa only [nlDec] using hl)
    simp only [Nat.add_assoc, Nat.reduceAdd] at l0 l1 l2 l3 hl
    simp only [decT]
    flat; ok2s
    refine slotPtr_typed ho ?_
    ok2s
    exact ok_block (decArms_typed hR vss l1 l2 hp ho hw l3 hl) (by ok2s)
  | .vec t, dp, sp, so, ow, k, L, ls, hd, hp, ho, hw, hl, s => by
    obtain ⟨⟨l0, l1, l2, l3, l4, -⟩, hl⟩ := LocTys.rep (m := 5) (by simpa only [nlDec] using hl)
    simp only [Nat.add_assoc, Nat.reduceAdd] at l0 l1 l2 l3 l4 hl
    simp only [decT]
    ok2s
    refine ok_block ?_ .nil
    ok2s
    refine ok_block ?_ .nil
    ok2s
    refine ok_loop ?_ .nil
    flat
    ok2s
    refine (decT_typed hR t l2 l1 l4 hw hl).append ?_
    ok2s
    refine Ok.append (s1 := [t.vt, .i32]) ?_ ?_
    · split
      · exact ok_load (by cases t <;> simp [Mv.Ty.vt, copyStore, memTys]) .nil
      · next h => rw [Mv.Ty.vt_heap (by simpa using h)]; exact .nil
    · refine ok_store (t := t.vt) (by cases t <;> simp [Mv.Ty.vt, copyStore, memTys]) ?_
      ok2s
      exact ok_br (s1 := []) rfl .nil
theorem decFs_typed {T : Mv.Ty → Nat} {R : List VT} (hR : RetOk .i32 R) : ∀ (ts : List Mv.Ty) {p fp sp so ow k off : Nat} {L ls}, L[p]? = some .i32 →
    L[fp]? = some .i32 → L[sp]? = some .i32 → L[so]? = some .i32 → L[ow]? = some .i32 → LocTys L k (List.replicate (nlDecFs ts) .i32) →
    ∀ {s}, Ok L R ls (decFs E T p fp sp so ow ts k off) s s
  | [], _, _, _, _, _, _, _, _, _, _, _, _, _, _, _, _ => by simp only [decFs]; exact .nil
  | t :: ts, p, fp, sp, so, ow, k, off, L, ls, hp, hf, hs, ho, hw, hl, s => by
    obtain ⟨h1, h2⟩ := LocTys.rep (by simpa only [nlDecFs] using hl)
    simp only [decFs]
    flat
    ok2s
    refine (decT_typed hR t hf hs ho hw h1).append ?_
    ok2s
    exact decFs_typed hR ts hp hf hs ho hw h2
theorem decArms_typed {T : Mv.Ty → Nat} {R : List VT} (hR : RetOk .i32 R) : ∀ (vss : List (List Mv.Ty)) {p fp sp so ow vi k i : Nat} {L ls}, L[p]? = some .i32 →
    L[fp]? = some .i32 → L[sp]? = some .i32 → L[so]? = some .i32 → L[ow]? = some .i32 → L[vi]? = some .i32 →
    LocTys L k (List.replicate (nlDecVs vss) .i32) → ∀ {s}, Ok L R ([] :: ls) (decArms E T p fp sp so ow vi vss k i) s s
  | [], _, _, _, _, _, _, _, _, _, _, _, _, _, _, _, _, hl, _ => by simp only [decArms]; exact ok_returnError hR hl.1
  | fs :: vss, p, fp, sp, so, ow, vi, k, i, L, ls, hp, hf, hs, ho, hw, hv, hl, s => by
    obtain ⟨h1, h2⟩ := LocTys.rep (by simpa only [nlDecVs] using hl)
    simp only [decArms]
    refine ok_block ?_ (decArms_typed hR vss hp hf hs ho hw hv h2)
    flat
    ok2s
    exact (decFs_typed hR fs hp hf hs ho hw h1).append (ok_br (s1 := []) rfl .nil)
end

theorem readObject_valid (T : Mv.Ty → Nat) (u : Mv.Ty) (fs : List Mv.Ty) : (readObject E T u fs).Valid [v, v, v] [v] := by
  refine ⟨[v, v, v, v, v, v, v] ++ List.replicate (nlDecFs fs) v, rfl, rfl, by simp [readObject]; omega, ?_⟩
  obtain ⟨⟨l0, l1, l2, l3, l4, l5, l6, l7, l8, l9, -⟩, hl⟩ :=
    LocTys.from (p := [v, v, v, v, v, v, v, v, v, v]) (T := List.replicate (nlDecFs fs) v) rfl
  rw [← List.append_assoc]
  show Ok ([v, v, v, v, v, v, v, v, v, v] ++ List.replicate (nlDecFs fs) v) _ _ _ _ _
  generalize [v, v, v, v, v, v, v, v, v, v] ++ List.replicate (nlDecFs fs) v = L at *
  simp only [Nat.zero_add, Nat.reduceAdd] at l0 l1 l2 l3 l4 l5 l6 l7 l8 l9
  have hR : RetOk .i32 [v] := Or.inr rfl
  unfold readObject
  flat
  ok2s
  refine (decHead_typed hR l0 l3 l2 l1 l6 l8 l9).append ?_
  ok2s
  refine (decUid_typed l4 l5 l7 l1).append ?_
  exact (decFs_typed hR fs l4 l5 l0 l3 l6 hl).append (by ok2s)

end Rt
