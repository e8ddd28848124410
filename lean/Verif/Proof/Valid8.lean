import Verif.Proof.Valid4
import Verif.Rt.Router

/-!
# Validity of packing, unpacking and of the entry point
-/

namespace Rt
open Wasm

local notation "a" => VT.i32
local notation "b" => VT.i64

/-- The WebAssembly type of a value on the operand stack. -/
def MTy.vt : MTy → VT
  | .u64 => .i64
  | _ => .i32

/-- The same of a parameter or result. -/
def PTy.vt : PTy → VT
  | .val t => t.vt
  | .ref _ => .i32

/-- The same of a parameter. -/
def ATy.vt : ATy → VT
  | .val t => t.vt
  | .txCtx => .i32

theorem MTy.vt_mem (t : MTy) : t.vt ∈ memTys t.size := by cases t <;> simp [MTy.vt, MTy.size, memTys]

theorem PTy.vt_mem (t : PTy) : t.vt ∈ memTys t.size := by
  cases t with
  | val t => exact t.vt_mem
  | ref t => simp [PTy.vt, PTy.size, memTys]

theorem MTy.vt_heap {t : MTy} (h : t.isScalar = false) : t.vt = .i32 := by cases t <;> first | rfl | simp [MTy.isScalar] at h

/-- Code that checks for an error and otherwise does nothing. -/
def CheckOk (L R : List VT) (ls : List (List VT)) (pc : Instr) : Prop := ∀ {is s s2}, Ok L R ls is s s2 → Ok L R ls (pc :: is) s s2

section
variable {L R : List VT} {ls : List (List VT)} {is : List Instr} {s s2 : List VT}

theorem ok_gget {g} (h : Ok L R ls is (.i32 :: s) s2) : Ok L R ls (.op (.gget g) :: is) s s2 := .op (by simp [opTys]) h
theorem ok_gset {g} (h : Ok L R ls is s s2) : Ok L R ls (.op (.gset g) :: is) (.i32 :: s) s2 := .op (by simp [opTys]) h
theorem ok_call20 {f : Fn} {x y} (hf : f.Valid [x, y] []) (h : Ok L R ls is s s2) : Ok L R ls (f.call :: is) (y :: x :: s) s2 := ok_call hf h
theorem ok_call30 {f : Fn} {x y z} (hf : f.Valid [x, y, z] []) (h : Ok L R ls is s s2) :
    Ok L R ls (f.call :: is) (z :: y :: x :: s) s2 := ok_call hf h
theorem ok_call40 {f : Fn} {x y z w} (hf : f.Valid [x, y, z, w] []) (h : Ok L R ls is s s2) :
    Ok L R ls (f.call :: is) (w :: z :: y :: x :: s) s2 := ok_call hf h

theorem checkOk_propagate {ty} (hr : RetOk ty R) : CheckOk L R ls (propagate ty) := fun h => ok_propagate hr h

theorem checkOk_to {ty d} (hd : ls[d]? = some []) : CheckOk L R ls (propagateTo ty (d + 1)) := by
  intro is s s2 h
  unfold propagateTo
  rw [List.append_assoc]
  have hd' : ([] :: ls)[d + 1]? = some ([] : List VT) := hd
  refine ok_block (ok_c32 (ok_load4 (ok_c32 (ok_bin32 (ok_brIf rfl ?_))))) h
  cases ty
  · exact ok_c32 (ok_br (s1 := []) hd' .nil)
  · exact ok_c64 (ok_br (s1 := []) hd' .nil)
  · exact ok_br (s1 := []) hd' .nil
end

variable {E : ErrPtrs}

theorem unpackU32_valid : unpackU32.Valid [a, a] [a] := .of_chk [] [([a], [a])] (by krfl) ⟨swap32_valid, trivial⟩
theorem unpackU64_valid : unpackU64.Valid [a] [b] := .of_chk [] [([b], [b])] (by krfl) ⟨Move.swap64_valid, trivial⟩
theorem swapBytes2_valid : (swapBytes 2).Valid [a, a] [] := .of_chk [] [([b], [b]), ([b], [b])] (by krfl) ⟨Move.swap64_valid, Move.swap64_valid, trivial⟩
theorem unpackU128_valid : unpackU128.Valid [a] [a] :=
  .of_chk [a] [([a], [a]), ([a, a], [])] (by krfl) ⟨alloc_valid, swapBytes2_valid, trivial⟩
theorem unpackU256_valid : unpackU256.Valid [a] [a] :=
  .of_chk [a] [([a], [a]), ([a, a], [])] (by krfl) ⟨alloc_valid, Move.swapBytes4_valid, trivial⟩
theorem unpackAddress_valid : unpackAddress.Valid [a] [a] := .of_chk [a] [([a], [a])] (by krfl) ⟨alloc_valid, trivial⟩
theorem unpackEnum_valid (n : Nat) : (unpackEnum E n).Valid [a] [a] :=
  .of_chk [a, a, a] [([a, a], [a]), ([a], [a])] (by krfl) ⟨unpackU32_valid, alloc_valid, trivial⟩
theorem validatePtr_valid : (validatePtr E).Valid [a] [] := .of_chk [a, a, a, a, a, a, a] [] (by krfl) trivial
theorem unpackString_valid : (unpackString E).Valid [a, a] [a] :=
  .of_chk [a, a, a, a, a, a] [([a], []), ([a], [a]), ([a], []), ([a], [a]), ([a, a, a], [a]), ([a], [a])] (by krfl)
    ⟨validatePtr_valid, swap32_valid, validatePtr_valid, swap32_valid, allocVec_valid, alloc_valid, trivial⟩

/-- One instruction more than `ok1`. -/
macro "ok1'" : tactic => `(tactic| first
  | ok1 | refine ok_gget ?_ | refine ok_gset ?_ | refine ok_call1 swap32_valid ?_ | refine ok_call10 validatePtr_valid ?_
  | refine ok_call3 allocVec_valid ?_)

macro "oks'" : tactic => `(tactic| repeat' ok1')

theorem unpackVec_valid {size : Nat} {inner : List Instr} {t : VT} (ht : t ∈ memTys size)
    (hin : ∀ {L ls}, L[2]? = some .i32 → L[7]? = some .i32 → ∀ {s}, Ok L [.i32] ls inner s (t :: s)) :
    (unpackVec E size inner).Valid [a, a] [a] := by
  refine ⟨[a, a, a, a, a, a], rfl, rfl, rfl, ?_⟩
  have h0 : LocTys ([a, a] ++ [a, a, a, a, a, a]) 0 [a, a, a, a, a, a, a, a] := ⟨rfl, rfl, rfl, rfl, rfl, rfl, rfl, rfl, trivial⟩
  generalize [a, a] ++ [a, a, a, a, a, a] = L at h0 ⊢
  obtain ⟨l0, l1, l2, l3, l4, l5, l6, l7, -⟩ := h0
  simp only [Nat.zero_add, Nat.reduceAdd] at l0 l1 l2 l3 l4 l5 l6 l7
  have hR : RetOk .i32 [VT.i32] := Or.inr rfl
  unfold unpackVec findData
  flat
  oks'
  refine ok_block ?_ (by oks')
  oks'
  refine ok_loop ?_ .nil
  oks'
  refine (hin l2 l7).append (ok_store ht ?_)
  oks'

/-- The types of the locals for the fields. -/
def fieldVts (ts : List MTy) : List VT := ts.map MTy.vt

theorem unpackStruct_valid {size : Nat} {dyn : Bool} {fields : List Instr} {T : List VT}
    (hf : ∀ {L ls}, L[2]? = some .i32 → L[3]? = some .i32 → L[4]? = some .i32 → L[5]? = some .i32 → LocTys L 6 T →
      ∀ {s}, Ok L [.i32] ls fields s s) :
    (unpackStruct E T.length size dyn fields).Valid [a, a] [a] := by
  refine ⟨[a, a, a, a] ++ T, rfl, rfl, by simp only [unpackStruct, List.length_append, List.length_cons, List.length_nil], ?_⟩
  have hT : LocTys ([a, a] ++ ([a, a, a, a] ++ T)) 6 T := by
    have := LocTys.mk (p := [a, a, a, a, a, a]) (T := T) (q := [])
    simpa using this
  have h0 : LocTys ([a, a] ++ ([a, a, a, a] ++ T)) 0 [a, a, a, a, a, a] := ⟨rfl, rfl, rfl, rfl, rfl, rfl, trivial⟩
  generalize [a, a] ++ ([a, a, a, a] ++ T) = L at hT h0 ⊢
  obtain ⟨l0, l1, l2, l3, l4, l5, -⟩ := h0
  simp only [Nat.zero_add, Nat.reduceAdd] at l0 l1 l2 l3 l4 l5
  have hR : RetOk .i32 [VT.i32] := Or.inr rfl
  unfold unpackStruct
  simp only [List.append_assoc]
  refine Ok.append (s1 := []) (by split <;> oks') ?_
  refine Ok.append (s1 := []) (by oks') ?_
  refine (hf l2 l3 l4 l5 hT).append ?_
  oks'

theorem storeField_typed {L R : List VT} {ls : List (List VT)} {s : List VT} (t : MTy) (i : Nat) (l4 : L[4]? = some .i32) (l5 : L[5]? = some .i32)
    (li : L[6 + i]? = some t.vt) : Ok L R ls (storeField t i) (t.vt :: s) s := by
  unfold storeField
  refine Ok.append (s1 := s) ?_ (by oks')
  split
  · next h =>
    oks'
    exact ok_store t.vt_mem .nil
  · next h =>
    rw [MTy.vt_heap (by simpa using h)]
    oks'

mutual
theorem unpackT_typed {R : List VT} : ∀ (t : MTy) {pc : Instr} {r o : Nat} {L ls}, CheckOk L R ls pc → L[r]? = some .i32 → L[o]? = some .i32 →
    ∀ {s}, Ok L R ls (unpackT E pc r o t) s (t.vt :: s)
  | .bool, _, _, _, _, _, _, hr, _, _ | .u8, _, _, _, _, _, _, hr, _, _ | .u16, _, _, _, _, _, _, hr, _, _ | .u32, _, _, _, _, _, _, hr, _, _ => by
    simp only [unpackT]; exact ok_lget hr (ok_c32 (ok_call2 unpackU32_valid (ok_gget (ok_lset hr .nil))))
  | .u64, _, _, _, _, _, _, hr, _, _ => by
    simp only [unpackT]; exact ok_lget hr (ok_call1 unpackU64_valid (ok_gget (ok_lset hr .nil)))
  | .u128, _, _, _, _, _, _, hr, _, _ => by
    simp only [unpackT]; exact ok_lget hr (ok_call1 unpackU128_valid (ok_gget (ok_lset hr .nil)))
  | .u256, _, _, _, _, _, _, hr, _, _ => by
    simp only [unpackT]; exact ok_lget hr (ok_call1 unpackU256_valid (ok_gget (ok_lset hr .nil)))
  | .address, _, _, _, _, _, _, hr, _, _ => by
    simp only [unpackT]; exact ok_lget hr (ok_call1 unpackAddress_valid (ok_gget (ok_lset hr .nil)))
  | .enum n, _, _, _, _, _, _, hr, _, _ => by
    simp only [unpackT]; exact ok_lget hr (ok_call1 (unpackEnum_valid n) (ok_gget (ok_lset hr .nil)))
  | .string, _, _, _, _, _, _, hr, ho, _ => by
    simp only [unpackT]; exact ok_lget hr (ok_lget ho (ok_call2 unpackString_valid (ok_gget (ok_lset hr .nil))))
  | .vec t, _, _, _, _, _, hpc, hr, ho, _ => by
    simp only [unpackT]
    have := unpackVec_valid (E := E) t.vt_mem (fun {L ls} h2 h7 {s} =>
      unpackT_typed (R := [.i32]) t (L := L) (ls := ls) (checkOk_propagate (ty := .i32) (Or.inr rfl)) h2 h7 (s := s))
    exact ok_lget hr (ok_lget ho (ok_call2 this (hpc (ok_gget (ok_lset hr .nil)))))
  | .struct fs, _, _, _, _, _, hpc, hr, ho, _ => by
    simp only [unpackT]
    have := unpackStruct_valid (E := E) (size := MTy.encSizeFs fs) (dyn := MTy.dynFs fs) (T := fieldVts fs)
      (fun {L ls} h2 h3 h4 h5 hT {s} => unpackFs_typed fs (i := 0) (L := L) (ls := ls) h2 h3 h4 h5 hT (s := s))
    rw [fieldVts, List.length_map] at this
    exact ok_lget hr (ok_lget ho (ok_call2 this (hpc (ok_gget (ok_lset hr .nil)))))
theorem unpackFs_typed : ∀ (ts : List MTy) {i : Nat} {L ls}, L[2]? = some .i32 → L[3]? = some .i32 → L[4]? = some .i32 → L[5]? = some .i32 →
    LocTys L (6 + i) (fieldVts ts) → ∀ {s}, Ok L [.i32] ls (unpackFs E i ts) s s
  | [], _, _, _, _, _, _, _, _, _ => by simp only [unpackFs]; exact .nil
  | t :: ts, i, L, ls, h2, h3, h4, h5, hT, s => by
    simp only [unpackFs, List.append_assoc]
    exact (unpackT_typed t (checkOk_propagate (ty := .i32) (Or.inr rfl)) h2 h3).append
      ((storeField_typed t i h4 h5 hT.1).append (unpackFs_typed ts (i := i + 1) h2 h3 h4 h5 hT.2))
end

theorem unpackRef_valid (t : MTy) : (unpackRef E t).Valid [a, a] [a] := by
  refine ⟨[a], rfl, rfl, rfl, ?_⟩
  unfold unpackRef
  simp only [List.cons_append, List.nil_append]
  refine ok_c32 (ok_call1 alloc_valid (ok_ltee rfl ?_))
  refine (unpackT_typed t (checkOk_propagate (ty := .i32) (Or.inr rfl)) rfl rfl).append (ok_store t.vt_mem (ok_lget rfl .nil))

theorem unpackA_typed {L R : List VT} {ls} (t : ATy) {pc : Instr} {r o : Nat} (hpc : CheckOk L R ls pc) (hr : L[r]? = some .i32)
    (ho : L[o]? = some .i32) {s} : Ok L R ls (unpackA E pc r o t) s (t.vt :: s) := by
  cases t with
  | txCtx => exact ok_c32 (ok_call1 alloc_valid (ok_gget (ok_lset hr (ok_gget (ok_lset hr .nil)))))
  | val t =>
    cases t with
    | val t => exact unpackT_typed t hpc hr ho
    | ref t =>
      simp only [unpackA, unpackP, ATy.vt, PTy.vt]
      split
      · exact ok_lget hr (ok_lget ho (ok_call2 (unpackRef_valid t) (hpc (ok_gget (ok_lset hr .nil)))))
      · next h =>
        have := fun {s} => unpackT_typed (E := E) t hpc hr ho (s := s)
        rw [MTy.vt_heap (by simpa using h)] at this
        exact this.append (ok_gget (ok_lset hr .nil))

theorem unpackActs_typed {L R : List VT} {ls} {pc : Instr} {p r : Nat} (ts : List ATy) (hpc : CheckOk L R ls pc) (hp : L[p]? = some .i32)
    (hr : L[r]? = some .i32) (ho : L[r + 1]? = some .i32) {s} :
    Ok L R ls (unpackActs E pc p r ts) s ((ts.map ATy.vt).reverse ++ s) := by
  unfold unpackActs
  simp only [List.cons_append, List.nil_append]
  refine ok_lget hp (ok_ltee hr (ok_lset ho (ok_lget hr (ok_gset ?_))))
  induction ts generalizing s with
  | nil => exact .nil
  | cons t ts ih =>
    rw [List.flatMap_cons, List.map_cons, List.reverse_cons, List.append_assoc]
    exact (unpackA_typed t hpc hr ho).append ih

theorem packU32_valid : packU32.Valid [a, a] [] := .of_chk [] [([a], [a])] (by krfl) ⟨swap32_valid, trivial⟩
theorem packU64_valid : packU64.Valid [b, a] [] := .of_chk [] [([b], [b])] (by krfl) ⟨Move.swap64_valid, trivial⟩
theorem packU128_valid : packU128.Valid [a, a] [] := .of_chk [] [([b], [b]), ([b], [b])] (by krfl) ⟨Move.swap64_valid, Move.swap64_valid, trivial⟩
theorem packU256_valid : packU256.Valid [a, a] [] := .of_chk [] [([b], [b]), ([b], [b]), ([b], [b]), ([b], [b])] (by krfl)
  ⟨Move.swap64_valid, Move.swap64_valid, Move.swap64_valid, Move.swap64_valid, trivial⟩
theorem packAddress_valid : packAddress.Valid [a, a] [] := .of_chk [] [] (by krfl) trivial
theorem packEnum_valid : (packEnum E).Valid [a, a] [] := .of_chk [a, a] [([a], [a])] (by krfl) ⟨swap32_valid, trivial⟩
theorem packString_valid : packString.Valid [a, a, a] [] :=
  .of_chk [a, a, a, a] [([a], [a]), ([a, a], []), ([a, a], [])] (by krfl) ⟨alloc_valid, packU32_valid, packU32_valid, trivial⟩

theorem packVec_valid {size hs : Nat} {inner : List Instr} {t : VT} (ht : t ∈ memTys size)
    (hin : ∀ {L ls}, L[8]? = some t → L[3]? = some .i32 → L[4]? = some .i32 → ∀ {s}, Ok L [] ls inner s s) :
    (packVec size hs inner).Valid [a, a, a] [] := by
  refine ⟨[a, a, a, a, a, t], rfl, rfl, rfl, ?_⟩
  have h0 : LocTys ([a, a, a] ++ [a, a, a, a, a, t]) 0 [a, a, a, a, a, a, a, a, t] := ⟨rfl, rfl, rfl, rfl, rfl, rfl, rfl, rfl, rfl, trivial⟩
  generalize [a, a, a] ++ [a, a, a, a, a, t] = L at h0 ⊢
  obtain ⟨l0, l1, l2, l3, l4, l5, l6, l7, l8, -⟩ := h0
  simp only [Nat.zero_add, Nat.reduceAdd] at l0 l1 l2 l3 l4 l5 l6 l7 l8
  unfold packVec
  flat
  oks'
  refine ok_call20 packU32_valid ?_
  oks'
  refine ok_call20 packU32_valid ?_
  oks'
  refine ok_block ?_ .nil
  oks'
  refine ok_loop ?_ .nil
  refine ok_lget l0 (ok_load ht (ok_lset l8 ?_))
  refine (hin l8 l3 l4).append ?_
  oks'

theorem packStruct_valid {size : Nat} {fields : List Instr}
    (hf : ∀ {L ls}, LocTys L 0 [a, a, a, a, a, b, a, a, a] → ∀ {s}, Ok L [] ls fields s s) :
    (packStruct size fields).Valid [a, a, a, a] [] := by
  refine ⟨[a, b, a, a, a], rfl, rfl, rfl, ?_⟩
  have h0 : LocTys ([a, a, a, a] ++ [a, b, a, a, a]) 0 [a, a, a, a, a, b, a, a, a] := ⟨rfl, rfl, rfl, rfl, rfl, rfl, rfl, rfl, rfl, trivial⟩
  generalize [a, a, a, a] ++ [a, b, a, a, a] = L at h0 ⊢
  have h1 := h0
  obtain ⟨l0, l1, l2, l3, l4, l5, l6, l7, l8, -⟩ := h0
  simp only [Nat.zero_add, Nat.reduceAdd] at l0 l1 l2 l3 l4 l5 l6 l7 l8
  unfold packStruct
  flat
  oks'
  refine ok_ite ?_ (by oks') (hf h1)
  oks'
  exact ok_call20 packU32_valid .nil

mutual
theorem packT_typed {R : List VT} : ∀ (t : MTy) {pv pc : Instr} {l w o : Nat} {L ls}, CheckOk L R ls pv → CheckOk L R ls pc → L[l]? = some t.vt →
    L[w]? = some .i32 → L[o]? = some .i32 → ∀ {s}, Ok L R ls (packT E pv pc l w o t) s s
  | .bool, _, _, _, _, _, _, _, _, _, hl, hw, _, _ | .u8, _, _, _, _, _, _, _, _, _, hl, hw, _, _ | .u16, _, _, _, _, _, _, _, _, _, hl, hw, _, _
  | .u32, _, _, _, _, _, _, _, _, _, hl, hw, _, _ => by
    simp only [packT]; exact ok_lget hl (ok_lget hw (ok_call20 packU32_valid .nil))
  | .u64, _, _, _, _, _, _, _, _, _, hl, hw, _, _ => by
    simp only [packT]; exact ok_lget hl (ok_lget hw (ok_call20 packU64_valid .nil))
  | .u128, _, _, _, _, _, _, _, _, _, hl, hw, _, _ => by
    simp only [packT]; exact ok_lget hl (ok_lget hw (ok_call20 packU128_valid .nil))
  | .u256, _, _, _, _, _, _, _, _, _, hl, hw, _, _ => by
    simp only [packT]; exact ok_lget hl (ok_lget hw (ok_call20 packU256_valid .nil))
  | .address, _, _, _, _, _, _, _, _, _, hl, hw, _, _ => by
    simp only [packT]; exact ok_lget hl (ok_lget hw (ok_call20 packAddress_valid .nil))
  | .enum _, _, _, _, _, _, _, _, _, hc, hl, hw, _, _ => by
    simp only [packT]; exact ok_lget hl (ok_lget hw (ok_call20 packEnum_valid (hc .nil)))
  | .string, _, _, _, _, _, _, _, _, _, hl, hw, ho, _ => by
    simp only [packT]; exact ok_lget hl (ok_lget hw (ok_lget ho (ok_call30 packString_valid .nil)))
  | .vec t, _, _, _, _, _, _, _, hv, _, hl, hw, ho, _ => by
    simp only [packT]
    have := packVec_valid (hs := t.headSize) t.vt_mem (fun {L ls} h8 h3 h4 {s} =>
      packT_typed (R := []) t (L := L) (ls := ls) (checkOk_propagate (ty := .none) (Or.inl rfl)) (checkOk_propagate (ty := .none) (Or.inl rfl)) h8 h3 h4 (s := s))
    exact ok_lget hl (ok_lget hw (ok_lget ho (ok_call30 this (hv .nil))))
  | .struct fs, _, _, _, _, _, _, _, _, hc, hl, hw, ho, _ => by
    simp only [packT]
    have := packStruct_valid (size := MTy.encSizeFs fs) (fun {L ls} h {s} => packFs_typed fs (i := 0) (L := L) (ls := ls) h (s := s))
    exact ok_lget hl (ok_lget hw (ok_lget ho (ok_c32 (ok_call40 this (hc .nil)))))
theorem packFs_typed : ∀ (ts : List MTy) {i : Nat} {L ls}, LocTys L 0 [a, a, a, a, a, b, a, a, a] → ∀ {s}, Ok L [] ls (packFs E i ts) s s
  | [], _, _, _, _, _ => by simp only [packFs]; exact .nil
  | t :: ts, i, L, ls, h, s => by
    have ih := fun {s} => packFs_typed ts (i := i + 1) (L := L) (ls := ls) h (s := s)
    obtain ⟨l0, l1, l2, l3, l4, l5, l6, l7, l8, -⟩ := h
    simp only [Nat.zero_add, Nat.reduceAdd] at l0 l1 l2 l3 l4 l5 l6 l7 l8
    have hl : L[t.fieldLocal]? = some t.vt := by cases t <;> assumption
    simp only [packFs, loadField, List.append_assoc]
    refine Ok.append (s1 := .i32 :: s) (by oks') ?_
    refine Ok.append (s1 := t.vt :: s) ?_ ?_
    · split
      · exact ok_load t.vt_mem .nil
      · next h => rw [MTy.vt_heap (by simpa using h)]; exact .nil
    refine Ok.append (s1 := s) (ok_lset hl (ok_block (by oks') .nil)) ?_
    refine (packT_typed (R := []) t (checkOk_propagate (ty := .none) (Or.inl rfl)) (checkOk_propagate (ty := .none) (Or.inl rfl)) hl l7 l8).append ?_
    refine Ok.append (s1 := s) (by oks') ih
end

theorem packRef_valid (t : MTy) : (packRef E t).Valid [a, a, a] [] := by
  unfold packRef
  split
  · refine ⟨[t.vt], rfl, rfl, rfl, ?_⟩
    simp only [List.cons_append, List.nil_append]
    refine ok_lget rfl (ok_load4 (ok_ltee rfl (ok_load t.vt_mem (ok_lset (t := t.vt) rfl ?_))))
    exact packT_typed t (checkOk_propagate (ty := .none) (Or.inl rfl)) (checkOk_propagate (ty := .none) (Or.inl rfl)) rfl rfl rfl
  · next h =>
    refine ⟨[], rfl, rfl, rfl, ?_⟩
    simp only [List.cons_append, List.nil_append]
    refine ok_lget rfl (ok_load4 (ok_lset rfl ?_))
    exact packT_typed t (checkOk_propagate (ty := .none) (Or.inl rfl)) (checkOk_propagate (ty := .none) (Or.inl rfl))
      (by rw [MTy.vt_heap (by simpa using h)]; rfl) rfl rfl

theorem MTy.dyn_heap {t : MTy} (h : t.dyn = true) : t.vt = .i32 := by cases t <;> first | rfl | simp [MTy.dyn] at h

theorem packP_typed {L R : List VT} {ls} (t : PTy) {pv pc : Instr} {l w o : Nat} (hv : CheckOk L R ls pv) (hc : CheckOk L R ls pc)
    (hl : L[l]? = some t.vt) (hw : L[w]? = some .i32) (ho : L[o]? = some .i32) {s} : Ok L R ls (packP E pv pc l w o t) s s := by
  cases t with
  | val t => exact packT_typed t hv hc hl hw ho
  | ref t =>
    simp only [packP]
    have hl' : L[l]? = some .i32 := hl
    split
    · next h =>
      exact ok_lget hl' (ok_load4 (ok_lset hl' (packT_typed t hv hc (by rw [MTy.dyn_heap h]; exact hl') hw ho)))
    · exact ok_lget hl' (ok_lget hw (ok_lget ho (ok_call30 (packRef_valid t) (hc .nil))))

theorem packEach_typed {L R : List VT} {ls} {pv pc : Instr} {top : Nat} (hv : CheckOk L R ls pv) (hc : CheckOk L R ls pc)
    (h1 : L[top + 1]? = some .i32) (h3 : L[top + 3]? = some .i32) (h4 : L[top + 4]? = some .i32) (ts : List PTy) {j : Nat}
    (hl : ∀ i t, ts[i]? = some t → L[top - (j + i)]? = some t.vt) {s} : Ok L R ls (packEach E pv pc top j ts) s s := by
  induction ts generalizing j with
  | nil => exact .nil
  | cons t ts ih =>
    simp only [packEach, List.append_assoc, List.cons_append, List.nil_append]
    refine ok_lget h1 (ok_lset h4 ((packP_typed t hv hc (hl 0 t rfl) h3 h4).append ?_))
    refine ok_lget h3 (ok_c32 (ok_bin32 (ok_lset h3 (ih (fun i t' h => ?_)))))
    rw [Nat.add_assoc, Nat.add_comm 1 i]
    exact hl (i + 1) t' h

theorem popAll_typed {L R : List VT} {ls} {s : List VT} : ∀ (ts : List VT) {k : Nat}, LocTys L k ts →
    ∀ {n}, n = ts.length → Ok L R ls ((List.range n).map (fun i => (Op.lset (k + i) : Instr))) (ts ++ s) s
  | [], _, _, _, rfl => .nil
  | t :: ts, k, h, _, rfl => by
    rw [List.length_cons, List.range_succ_eq_map, List.map_cons, List.map_map]
    refine ok_lset h.1 ?_
    have := popAll_typed ts h.2 rfl (R := R) (ls := ls) (s := s)
    simp only [Nat.add_assoc, Nat.add_comm 1] at this
    exact this

/-- The types of the locals of the wrapper of a function. -/
def wrapTys (f : PubFn) : List VT := [a, a, a] ++ (f.rets.map PTy.vt).reverse ++ [a, a, a, a]

theorem wrapTys_length (f : PubFn) : (wrapTys f).length = f.locals := by simp [wrapTys, PubFn.locals]

theorem packAll_typed {L R : List VT} {ls} {pv pc : Instr} {k : Nat} (hv : CheckOk L R ls pv) (hc : CheckOk L R ls pc) {ts : List PTy} (h0 : ts ≠ [])
    (h : LocTys L k ((ts.map PTy.vt).reverse ++ [a, a, a, a])) {s} :
    Ok L R ls (packAll E pv pc k ts) ((ts.map PTy.vt).reverse ++ s) s := by
  obtain ⟨h1, h2⟩ := h.append
  rw [List.length_reverse, List.length_map] at h2
  obtain ⟨p0, p1, p2, p3, -⟩ := h2
  have hpos : 0 < ts.length := by cases ts with | nil => exact absurd rfl h0 | cons => simp
  unfold packAll
  simp only [List.append_assoc]
  refine (popAll_typed _ h1 (by simp)).append ?_
  refine Ok.append (s1 := s) (ok_c32 (ok_call1 alloc_valid (ok_ltee p0 (ok_lset p2 .nil)))) ?_
  refine Ok.append (s1 := s) (packEach_typed hv hc (by rw [show k + ts.length - 1 + 1 = k + ts.length by omega]; exact p0)
    (by rw [show k + ts.length - 1 + 3 = k + ts.length + 1 + 1 by omega]; exact p2)
    (by rw [show k + ts.length - 1 + 4 = k + ts.length + 1 + 1 + 1 by omega]; exact p3) ts (fun i t hi => ?_)) ?_
  · have hlt := (List.getElem?_eq_some_iff.mp hi).1
    rw [show k + ts.length - 1 - (0 + i) = k + (ts.length - 1 - i) by omega]
    refine h1.get ?_
    rw [List.getElem?_reverse (by simp; omega), List.length_map, List.getElem?_map, show ts.length - 1 - (ts.length - 1 - i) = i by omega, hi]
    rfl
  · exact ok_c32 (ok_call1 alloc_valid (ok_lget p0 (ok_bin32 (ok_lset p1 .nil))))

theorem loadTuple_typed {L R : List VT} {ls} {p : Nat} (hp : L[p]? = some .i32) : ∀ (ts : List PTy) {off s},
    Ok L R ls (loadRets p off ts) s ((ts.map PTy.vt).reverse ++ s)
  | [], _, _ => .nil
  | t :: ts, off, s => by
    simp only [loadRets, List.cons_append, List.nil_append]
    rw [List.map_cons, List.reverse_cons, List.append_assoc]
    exact ok_lget hp (ok_load t.vt_mem (loadTuple_typed hp ts))

/-- The function of a public function takes and returns what its parameters and results say: the results are in a tuple, unless there are none. -/
def PubFn.Valid (f : PubFn) : Prop := f.fn.Valid (f.args.map ATy.vt) (if f.rets = [] then [] else [.i32])

theorem wrap_typed {L : List VT} {ls} {d k : Nat} {f : PubFn} (hf : f.Valid) (hd : ls[d]? = some []) (h1 : L[1]? = some .i32)
    (h : LocTys L k (wrapTys f)) : Ok L [.i32] ls (wrap E d k f) [] [.i32, .i32] := by
  unfold wrapTys at h
  rw [List.append_assoc] at h
  obtain ⟨⟨k0, k1, k2, -⟩, h⟩ := h.append
  simp only [List.length_cons, List.length_nil, Nat.zero_add, Nat.reduceAdd, Nat.add_assoc] at h k0 k1 k2
  unfold PubFn.Valid at hf
  unfold wrap
  simp only [List.append_assoc]
  refine (unpackActs_typed f.args (checkOk_to hd) h1 k0 k1).append ?_
  refine ok_call hf (checkOk_to hd ?_)
  split
  · next he => rw [if_pos he]; exact ok_c32 (ok_c32 .nil)
  · next t ts he =>
    rw [he] at h ⊢
    rw [if_neg (by simp)]
    have h' := h
    obtain ⟨-, h2⟩ := h'.append
    rw [List.length_reverse, List.length_map] at h2
    obtain ⟨p0, p1, -⟩ := h2
    refine ok_lset k2 ((loadTuple_typed k2 (t :: ts)).append ?_)
    refine (packAll_typed (checkOk_propagate (ty := .i32) (Or.inr rfl)) (checkOk_to hd) (by simp) h).append ?_
    exact ok_lget p0 (ok_lget p1 .nil)

/-- The types of the locals of the wrappers. -/
def wrapsTys : List PubFn → List VT
  | [] => []
  | f :: fs => wrapTys f ++ wrapsTys fs

theorem wrapsTys_length : ∀ fs : List PubFn, (wrapsTys fs).length = totalLocals fs
  | [] => rfl
  | f :: fs => by simp [wrapsTys, totalLocals, wrapTys_length, wrapsTys_length fs]

theorem routerBlocks_typed {L : List VT} {ls} (h0 : L[0]? = some .i32) (h1 : L[1]? = some .i32) (h2 : L[2]? = some .i32) : ∀ (fs : List PubFn) {k : Nat},
    (∀ f ∈ fs, f.Valid) → LocTys L k (wrapsTys fs) → Ok L [.i32] ([] :: ls) (routerBlocks E k fs) [] []
  | [], _, _, _ => .nil
  | f :: fs, k, hf, h => by
    obtain ⟨hw, h⟩ := LocTys.append (by simpa only [wrapsTys] using h)
    rw [wrapTys_length] at h
    simp only [routerBlocks, routerBlock]
    refine ok_block ?_ (routerBlocks_typed h0 h1 h2 fs (fun g hg => hf g (by simp [hg])) h)
    simp only [List.append_assoc, List.cons_append, List.nil_append]
    refine ok_lget h2 (ok_c32 (ok_bin32 (ok_brIf rfl ?_)))
    refine (wrap_typed (hf f (by simp)) rfl h1 hw).append ?_
    exact ok_lset h0 (ok_lset h1 (ok_br (s1 := []) rfl .nil))

/-- The types of the locals of the entry point. -/
def routerTys (C : Contract) : List VT :=
  List.replicate 9 .i32 ++ wrapsTys C.fns ++ (match C.named "fallback" with | some f => wrapTys f | none => [])

/-- The entry point of a contract whose public functions are valid is a valid function from i32 to i32. -/
theorem router_valid {C : Contract} (hf : ∀ f ∈ C.fns, f.Valid) (hs : C.save.Valid [] []) : (router C).Valid [.i32] [.i32] := by
  have hcommit : (commitFn C.save).Valid [] [] := by
    refine ⟨[], rfl, rfl, rfl, ?_⟩
    exact ok_call (ps := []) (rs := []) hs (ok_c32 (.op (s1 := []) (by simp [opTys, HostFn.sig, popTys]) .nil))
  refine ⟨routerTys C, rfl, rfl, ?_, ?_⟩
  · simp only [routerTys, router, List.length_append, List.length_replicate, wrapsTys_length]
    cases C.named "fallback" <;> simp [wrapTys_length]
  have e : [VT.i32] ++ routerTys C = List.replicate 10 .i32 ++ (wrapsTys C.fns ++ (match C.named "fallback" with | some f => wrapTys f | none => [])) := by
    simp only [routerTys, ← List.append_assoc]
    rfl
  rw [e]
  have hL : LocTys (List.replicate 10 .i32 ++ (wrapsTys C.fns ++ (match C.named "fallback" with | some f => wrapTys f | none => []))) 0
      ([a, a, a, a, a, a, a, a, a, a] ++ (wrapsTys C.fns ++ (match C.named "fallback" with | some f => wrapTys f | none => []))) := by
    have := LocTys.mk (p := []) (T := [a, a, a, a, a, a, a, a, a, a] ++ (wrapsTys C.fns ++ (match C.named "fallback" with | some f => wrapTys f | none => []))) (q := [])
    simpa using this
  generalize List.replicate 10 VT.i32 ++ (wrapsTys C.fns ++ (match C.named "fallback" with | some f => wrapTys f | none => [])) = L at hL ⊢
  obtain ⟨⟨l0, l1, l2, l3, l4, l5, l6, l7, l8, l9, -⟩, hL⟩ := hL.append
  simp only [Nat.zero_add, Nat.reduceAdd, List.length_cons, List.length_nil] at l0 l1 l2 l3 l4 l5 l6 l7 l8 l9 hL
  obtain ⟨hw, hF⟩ := hL.append
  rw [wrapsTys_length] at hF
  have hbody : Ok L [.i32] [[], [.i32]] (routerBody C) [] [] := by
    unfold routerBody
    simp only [List.append_assoc]
    refine Ok.append (s1 := []) ?_ (Ok.append (s1 := []) (routerBlocks_typed l0 l1 l2 C.fns hf hw) (Ok.append (s1 := []) ?_ ?_))
    · unfold routerSelect
      flat
      oks'
      refine ok_ite ?_ (by oks') (by oks')
      refine Ok.append (s1 := []) (by split <;> oks') (by oks')
    · unfold routerFallback
      split
      · next f hn =>
        rw [hn] at hF
        simp only [List.append_assoc, List.cons_append, List.nil_append]
        refine ok_lget l1 (ok_c32 (ok_bin32 (ok_lset l1 ((wrap_typed ?_ rfl l1 hF).append ?_))))
        · exact hf f (List.mem_of_find?_eq_some hn)
        · exact ok_lset l0 (ok_lset l1 (ok_br (s1 := []) rfl .nil))
      · exact .nil
    · unfold routerNoMatch abortMessage abiErrorStructure
      flat
      refine ok_c64 (ok_call1 ascii_valid ?_)
      oks'
  unfold router routerEnter routerExit
  flat
  refine ok_lget l0 (ok_call1 alloc_valid (ok_ltee l1 (.op (s1 := []) (by simp [opTys, HostFn.sig, popTys]) ?_)))
  oks'
  refine ok_block hbody (ok_block (by oks') ?_)
  refine ok_lget l1 (ok_lget l0 (.op (s1 := []) (by simp [opTys, HostFn.sig, popTys]) ?_))
  refine ok_lget l3 (ok_eqz (ok_ite (ok_call (ps := []) (rs := []) hcommit .nil) .nil ?_))
  exact ok_lget l3 (.ret (R := [.i32]) (s1 := [.i32]) .nil)

end Rt
