import Verif.Proof.Valid

/-!
# Validity of copies and comparisons of structured values
-/

namespace Mv
open Wasm

/-- The WebAssembly type of a value on the operand stack. -/
def Ty.vt : Ty → VT
  | .u64 => .i64
  | _ => .i32

theorem Ty.vt_mem (t : Ty) : t.vt ∈ memTys t.size := by cases t <;> simp [Ty.vt, Ty.size, memTys]

theorem Ty.vt_heap {t : Ty} (h : t.scalar = false) : t.vt = .i32 := by cases t <;> first | rfl | simp [Ty.scalar] at h

end Mv

namespace Rt
open Wasm Mv

/-- One instruction whose typing is determined by the types of the locals at hand. -/
macro "ok1" : tactic => `(tactic| first
  | exact Ok.nil
  | refine ok_c32 ?_ | refine ok_c64 ?_ | refine ok_lget (by assumption) ?_ | refine ok_lset (by assumption) ?_
  | refine ok_ltee (by assumption) ?_ | refine ok_drop ?_ | refine ok_eqz ?_ | refine ok_wrap ?_ | refine ok_extend ?_
  | refine ok_bin32 ?_ | refine ok_bin64 rfl ?_ | refine ok_cmp64 rfl ?_
  | refine ok_load4 ?_ | refine ok_load8 ?_ | refine ok_load1 ?_ | refine ok_store4 ?_ | refine ok_store8 ?_ | refine ok_store1 ?_
  | refine ok_memCopy ?_ | refine ok_brIf rfl ?_ | refine ok_call1 alloc_valid ?_ | refine ok_propagate (by assumption) ?_)

macro "oks" : tactic => `(tactic| repeat' ok1)

macro "flat" : tactic => `(tactic| try simp only [List.append_assoc, List.cons_append, List.nil_append, List.append_nil, skipVecHeader, vecElemPtr, negate, swap, callF])

mutual
/-- Types of the locals of `copyP`. -/
def ltP : Mv.Ty → List VT
  | .struct fs => [.i32, .i32, .i32, .i64, .i32] ++ ltFs fs
  | .object fs => [.i32, .i32, .i32, .i64, .i32] ++ ltFs fs
  | .enum vss => [.i32, .i32, .i32] ++ ltVs vss
  | _ => []
def ltFs : List Mv.Ty → List VT
  | [] => []
  | t :: ts => ltP t ++ ltFs ts
def ltVs : List (List Mv.Ty) → List VT
  | [] => [.i32]
  | fs :: vss => [.i32, .i64, .i32] ++ ltFs fs ++ ltVs vss
end

mutual
theorem ltP_length : ∀ t : Mv.Ty, (ltP t).length = nlP t
  | .struct fs => by simp [ltP, nlP, ltFs_length fs]; omega
  | .object fs => by simp [ltP, nlP, ltFs_length fs]; omega
  | .enum vss => by simp [ltP, nlP, ltVs_length vss]; omega
  | .bool | .u8 | .u16 | .u32 | .u64 | .u128 | .u256 | .address | .vec _ => by simp [ltP, nlP]
theorem ltFs_length : ∀ ts : List Mv.Ty, (ltFs ts).length = nlFs ts
  | [] => rfl
  | t :: ts => by simp [ltFs, nlFs, ltP_length t, ltFs_length ts]
theorem ltVs_length : ∀ vss : List (List Mv.Ty), (ltVs vss).length = nlVs vss
  | [] => rfl
  | fs :: vss => by simp [ltVs, nlVs, ltFs_length fs, ltVs_length vss]; omega
end

variable {E : ErrPtrs}

theorem vecCopyF_valid {t : Mv.Ty} {inner : List Instr} {T : List VT}
    (hin : t.scalar = false → ∀ {L ls}, LocTys L 8 T → ∀ {s}, Ok L [.i32] ls inner (.i32 :: s) (.i32 :: s)) :
    (vecCopyF t inner T.length).Valid [.i32, .i32] [.i32] := by
  refine ⟨[.i32, .i32, .i32, .i32, .i32, .i32] ++ T, rfl, rfl, by simp only [vecCopyF, List.length_append, List.length_cons, List.length_nil], ?_⟩
  have hT : LocTys ([.i32, .i32] ++ ([.i32, .i32, .i32, .i32, .i32, .i32] ++ T)) 8 T := by
    have := LocTys.mk (p := [VT.i32, .i32, .i32, .i32, .i32, .i32, .i32, .i32]) (T := T) (q := [])
    simpa using this
  have h0 : LocTys ([.i32, .i32] ++ ([.i32, .i32, .i32, .i32, .i32, .i32] ++ T)) 0 [.i32, .i32, .i32, .i32, .i32, .i32, .i32, .i32] :=
    ⟨rfl, rfl, rfl, rfl, rfl, rfl, rfl, rfl, trivial⟩
  generalize [VT.i32, .i32] ++ ([.i32, .i32, .i32, .i32, .i32, .i32] ++ T) = L at hT h0 ⊢
  obtain ⟨l0, l1, l2, l3, l4, l5, l6, l7, -⟩ := h0
  simp only [Nat.zero_add, Nat.reduceAdd] at l0 l1 l2 l3 l4 l5 l6 l7
  have el : ∀ {ls s}, Ok L [.i32] ls (elemCopy t inner) (.i32 :: s) (t.vt :: s) := by
    intro ls s
    cases t <;> simp only [elemCopy] <;> flat
    case bool => exact ok_load (Mv.Ty.vt_mem .bool) .nil
    case u8 => exact ok_load (Mv.Ty.vt_mem .u8) .nil
    case u16 => exact ok_load (Mv.Ty.vt_mem .u16) .nil
    case u32 => exact ok_load (Mv.Ty.vt_mem .u32) .nil
    case u64 => exact ok_load (Mv.Ty.vt_mem .u64) .nil
    case u128 | u256 | address => oks
    all_goals exact ok_load4 (hin rfl hT)
  unfold vecCopyF
  flat
  oks
  refine ok_ite (by oks) (by oks) ?_
  oks
  refine ok_call3 allocVec_valid ?_
  oks
  refine ok_block ?_ (by oks)
  oks
  refine ok_loop ?_ .nil
  oks
  refine el.append (ok_store (t := t.vt) (by cases t <;> simp [Mv.Ty.vt, copyStore, memTys]) ?_)
  oks

mutual
theorem copyP_typed {R : List VT} (hR : RetOk .i32 R) : ∀ (t : Mv.Ty) {k : Nat} {L ls}, LocTys L k (ltP t) → ∀ {s}, Ok L R ls (copyP E t k) (t.vt :: s) (t.vt :: s)
  | .bool, k, L, ls, _, s | .u8, k, L, ls, _, s | .u16, k, L, ls, _, s | .u32, k, L, ls, _, s | .u64, k, L, ls, _, s => by
    simp only [copyP]; exact .nil
  | .u128, k, L, ls, _, s | .u256, k, L, ls, _, s | .address, k, L, ls, _, s => by
    simp only [copyP]; exact ok_call1 (copyHeap_valid _) .nil
  | .vec t, k, L, ls, _, s => by
    simp only [copyP]
    have := vecCopyF_valid (t := t) (inner := copyP E t 8) (T := ltP t) (fun h => by
      intro L ls hl s
      have := copyP_typed (R := [.i32]) (Or.inr rfl) t (ls := ls) hl (s := s)
      rwa [Mv.Ty.vt_heap h] at this)
    rw [ltP_length] at this
    exact ok_c32 (ok_call2 this .nil)
  | .struct fs, k, L, ls, hl, s => by
    simp only [copyP]
    flat
    obtain ⟨⟨l0, l1, l2, l3, l4, -⟩, hl⟩ := LocTys.append (a := [VT.i32, .i32, .i32, .i64, .i32]) (by simpa only [ltP] using hl)
    simp only [List.length_cons, List.length_nil, Nat.zero_add, Nat.reduceAdd] at hl
    show Ok L R ls _ (VT.i32 :: s) (.i32 :: s)
    oks
    refine (copyFields_typed hR fs l0 l1 ⟨l2, l3, l4, trivial⟩ hl).append ?_
    oks
  | .object fs, k, L, ls, hl, s => by
    simp only [copyP]
    flat
    obtain ⟨⟨l0, l1, l2, l3, l4, -⟩, hl⟩ := LocTys.append (a := [VT.i32, .i32, .i32, .i64, .i32]) (by simpa only [ltP] using hl)
    simp only [List.length_cons, List.length_nil, Nat.zero_add, Nat.reduceAdd] at hl
    show Ok L R ls _ (VT.i32 :: s) (.i32 :: s)
    oks
    refine (copyFields_typed hR fs l0 l1 ⟨l2, l3, l4, trivial⟩ hl).append ?_
    oks
  | .enum vss, k, L, ls, hl, s => by
    simp only [copyP]
    flat
    obtain ⟨⟨l0, l1, l2, -⟩, hl⟩ := LocTys.append (a := [VT.i32, .i32, .i32]) (by simpa only [ltP] using hl)
    simp only [List.length_cons, List.length_nil, Nat.zero_add, Nat.reduceAdd] at hl
    show Ok L R ls _ (VT.i32 :: s) (.i32 :: s)
    oks
    refine ok_block (copyArms_typed hR vss l0 l1 l2 hl) ?_
    oks
theorem copyFields_typed {R : List VT} (hR : RetOk .i32 R) : ∀ (fs : List Mv.Ty) {src dst c k off : Nat} {L ls}, L[src]? = some .i32 → L[dst]? = some .i32 →
    LocTys L c [.i32, .i64, .i32] → LocTys L k (ltFs fs) → ∀ {s}, Ok L R ls (copyFields E fs src dst c k off) s s
  | [], _, _, _, _, _, _, _, _, _, _, _, _ => by simp only [copyFields]; exact .nil
  | t :: ts, src, dst, c, k, off, L, ls, hs, hd, hc, hl, s => by
    have hl' := LocTys.append (by simpa only [ltFs] using hl)
    rw [ltP_length] at hl'
    simp only [copyFields]
    have ih := fun {s} => copyFields_typed hR ts (off := off + 4) (ls := ls) hs hd hc hl'.2 (s := s)
    obtain ⟨c0, c1, c2, -⟩ := hc
    simp only [List.append_assoc]
    have hv : L[if t.size = 8 then c + 1 else c]? = some t.vt := by cases t <;> first | exact c1 | exact c0
    refine Ok.append (s1 := s) ?_ (by flat; oks; exact ih)
    split
    · next h =>
      flat
      oks
      refine ok_load (t := t.vt) t.vt_mem ?_
      oks
      exact ok_store t.vt_mem .nil
    · next h =>
      have := fun {s} => copyP_typed hR t (ls := ls) hl'.1 (s := s)
      rw [Mv.Ty.vt_heap (by simpa using h)] at this
      flat
      oks
      exact this.append (by oks)
theorem copyArms_typed {R : List VT} (hR : RetOk .i32 R) : ∀ (vss : List (List Mv.Ty)) {k0 k i : Nat} {L ls}, L[k0]? = some .i32 → L[k0 + 1]? = some .i32 →
    L[k0 + 2]? = some .i32 → LocTys L k (ltVs vss) → ∀ {s}, Ok L R ([] :: ls) (copyArms E vss k0 k i) s s
  | [], _, _, _, _, _, _, _, _, hl, _ => by simp only [copyArms]; exact ok_returnError hR hl.1
  | fs :: vss, k0, k, i, L, ls, h0, h1, h2, hl, s => by
    obtain ⟨hl1, hl2⟩ := LocTys.append (by simpa only [ltVs] using hl)
    obtain ⟨hl1, hl3⟩ := LocTys.append hl1
    simp only [List.length_append, List.length_cons, List.length_nil, Nat.zero_add, Nat.reduceAdd, ltFs_length] at hl2 hl3
    simp only [copyArms]
    flat
    refine ok_block ?_ (copyArms_typed hR vss h0 h1 h2 (by rw [Nat.add_assoc]; exact hl2))
    oks
    exact (copyFields_typed hR fs h0 h1 hl1 hl3).append (ok_br (s1 := []) rfl .nil)
end

theorem vecCopy_valid (t : Mv.Ty) : (vecCopy E t).Valid [.i32, .i32] [.i32] := by
  have := vecCopyF_valid (t := t) (inner := copyP E t 8) (T := ltP t) (fun h => by
    intro L ls hl s
    have := copyP_typed (E := E) (R := [.i32]) (Or.inr rfl) t (ls := ls) hl (s := s)
    rwa [Mv.Ty.vt_heap h] at this)
  rwa [ltP_length] at this

mutual
/-- Types of the locals of `eqP`. -/
def ltE : Mv.Ty → List VT
  | .struct fs => [.i32, .i32, .i32] ++ ltEFs fs
  | .object fs => [.i32, .i32, .i32] ++ ltEFs fs
  | .enum vss => [.i32, .i32, .i32, .i32] ++ ltEVs vss
  | _ => []
def ltEFs : List Mv.Ty → List VT
  | [] => []
  | t :: ts => ltE t ++ ltEFs ts
def ltEVs : List (List Mv.Ty) → List VT
  | [] => [.i32]
  | fs :: vss => [.i32] ++ ltEFs fs ++ ltEVs vss
end

mutual
theorem ltE_length : ∀ t : Mv.Ty, (ltE t).length = nlE t
  | .struct fs => by simp [ltE, nlE, ltEFs_length fs]; omega
  | .object fs => by simp [ltE, nlE, ltEFs_length fs]; omega
  | .enum vss => by simp [ltE, nlE, ltEVs_length vss]; omega
  | .bool | .u8 | .u16 | .u32 | .u64 | .u128 | .u256 | .address | .vec _ => by simp [ltE, nlE]
theorem ltEFs_length : ∀ ts : List Mv.Ty, (ltEFs ts).length = nlEFs ts
  | [] => rfl
  | t :: ts => by simp [ltEFs, nlEFs, ltE_length t, ltEFs_length ts]
theorem ltEVs_length : ∀ vss : List (List Mv.Ty), (ltEVs vss).length = nlEVs vss
  | [] => rfl
  | fs :: vss => by simp [ltEVs, nlEVs, ltEFs_length fs, ltEVs_length vss]; omega
end

theorem vecEqF_valid {t : Mv.Ty} {inner : List Instr} {T : List VT}
    (hin : ∀ {L ls}, LocTys L 5 T → ∀ {s}, Ok L [.i32] ls inner (t.vt :: t.vt :: s) (.i32 :: s)) :
    (vecEqF t inner T.length).Valid [.i32, .i32] [.i32] := by
  refine ⟨[.i32, .i32, .i32] ++ T, rfl, rfl, by simp only [vecEqF, List.length_append, List.length_cons, List.length_nil], ?_⟩
  have hT : LocTys ([.i32, .i32] ++ ([.i32, .i32, .i32] ++ T)) 5 T := by
    have := LocTys.mk (p := [VT.i32, .i32, .i32, .i32, .i32]) (T := T) (q := [])
    simpa using this
  have h0 : LocTys ([.i32, .i32] ++ ([.i32, .i32, .i32] ++ T)) 0 [.i32, .i32, .i32, .i32, .i32] := ⟨rfl, rfl, rfl, rfl, rfl, trivial⟩
  generalize [VT.i32, .i32] ++ ([.i32, .i32, .i32] ++ T) = L at hT h0 ⊢
  obtain ⟨l0, l1, l2, l3, l4, -⟩ := h0
  simp only [Nat.zero_add, Nat.reduceAdd] at l0 l1 l2 l3 l4
  unfold vecEqF
  flat
  oks
  refine ok_ite ?_ (by oks) (by oks)
  split
  · flat
    oks
    refine ok_call3 heapEq_valid ?_
    oks
  · oks
    refine ok_loop ?_ .nil
    oks
    refine ok_load t.vt_mem ?_
    oks
    refine ok_load t.vt_mem ?_
    refine (hin hT).append ?_
    refine ok_ite .nil ?_ ?_
    · oks
      exact ok_br (s1 := []) rfl .nil
    · oks

mutual
theorem eqP_typed {R : List VT} (hR : RetOk .i32 R) : ∀ (t : Mv.Ty) {k : Nat} {L ls}, LocTys L k (ltE t) → ∀ {s}, Ok L R ls (eqP E t k) (t.vt :: t.vt :: s) (.i32 :: s)
  | .bool, k, L, ls, _, s | .u8, k, L, ls, _, s | .u16, k, L, ls, _, s | .u32, k, L, ls, _, s => by
    simp only [eqP]; exact ok_bin32 .nil
  | .u64, k, L, ls, _, s => by
    simp only [eqP]; exact ok_cmp64 rfl .nil
  | .u128, k, L, ls, _, s | .u256, k, L, ls, _, s | .address, k, L, ls, _, s => by
    simp only [eqP]; exact ok_c32 (ok_call3 heapEq_valid .nil)
  | .vec t, k, L, ls, _, s => by
    simp only [eqP]
    have := vecEqF_valid (t := t) (inner := eqP E t 5) (T := ltE t) (fun {L ls} hl {s} => eqP_typed (R := [.i32]) (Or.inr rfl) t (ls := ls) hl (s := s))
    rw [ltE_length] at this
    exact ok_call2 this .nil
  | .struct fs, k, L, ls, hl, s => by
    simp only [eqP]
    obtain ⟨⟨l0, l1, l2, -⟩, hl⟩ := LocTys.append (a := [VT.i32, .i32, .i32]) (by simpa only [ltE] using hl)
    simp only [List.length_cons, List.length_nil, Nat.zero_add, Nat.reduceAdd] at hl
    show Ok L R ls _ (VT.i32 :: .i32 :: s) (.i32 :: s)
    oks
    refine ok_block (eqFields_typed hR fs l0 l1 l2 hl) ?_
    oks
  | .object fs, k, L, ls, hl, s => by
    simp only [eqP]
    obtain ⟨⟨l0, l1, l2, -⟩, hl⟩ := LocTys.append (a := [VT.i32, .i32, .i32]) (by simpa only [ltE] using hl)
    simp only [List.length_cons, List.length_nil, Nat.zero_add, Nat.reduceAdd] at hl
    show Ok L R ls _ (VT.i32 :: .i32 :: s) (.i32 :: s)
    oks
    refine ok_block (eqFields_typed hR fs l0 l1 l2 hl) ?_
    oks
  | .enum vss, k, L, ls, hl, s => by
    simp only [eqP]
    obtain ⟨⟨l0, l1, l2, l3, -⟩, hl⟩ := LocTys.append (a := [VT.i32, .i32, .i32, .i32]) (by simpa only [ltE] using hl)
    simp only [List.length_cons, List.length_nil, Nat.zero_add, Nat.reduceAdd] at hl
    show Ok L R ls _ (VT.i32 :: .i32 :: s) (.i32 :: s)
    oks
    refine ok_ite1 ?_ (by oks) .nil
    oks
    refine ok_block (eqArms_typed hR vss l0 l1 l2 l3 hl) ?_
    oks
theorem eqFields_typed {R : List VT} (hR : RetOk .i32 R) : ∀ (fs : List Mv.Ty) {p q r k off : Nat} {L ls}, L[p]? = some .i32 → L[q]? = some .i32 →
    L[r]? = some .i32 → LocTys L k (ltEFs fs) → ∀ {s}, Ok L R ([] :: ls) (eqFields E fs p q r k off) s s
  | [], _, _, _, _, _, _, _, _, _, _, _, _ => by simp only [eqFields]; exact .nil
  | t :: ts, p, q, r, k, off, L, ls, h0, h1, h2, hl, s => by
    have hl' := LocTys.append (by simpa only [ltEFs] using hl)
    rw [ltE_length] at hl'
    simp only [eqFields]
    have ih := fun {s} => eqFields_typed hR ts (off := off + 4) (ls := ls) h0 h1 h2 hl'.2 (s := s)
    have ld : ∀ {s}, Ok L R ([] :: ls) (if t.scalar = true then code[Op.load t.size 0] else code[]) (.i32 :: s) (t.vt :: s) := by
      intro s
      split
      · exact ok_load t.vt_mem .nil
      · next h => rw [Mv.Ty.vt_heap (by simpa using h)]; exact .nil
    flat
    oks
    refine ld.append ?_
    oks
    refine ld.append ((eqP_typed hR t hl'.1).append (ok_ite .nil ?_ ih))
    oks
    exact ok_br (s1 := []) rfl .nil
theorem eqArms_typed {R : List VT} (hR : RetOk .i32 R) : ∀ (vss : List (List Mv.Ty)) {k0 k i : Nat} {L ls}, L[k0]? = some .i32 → L[k0 + 1]? = some .i32 →
    L[k0 + 2]? = some .i32 → L[k0 + 3]? = some .i32 → LocTys L k (ltEVs vss) → ∀ {s}, Ok L R ([] :: ls) (eqArms E vss k0 k i) s s
  | [], _, _, _, _, _, _, _, _, _, hl, _ => by simp only [eqArms]; exact ok_returnError hR hl.1
  | fs :: vss, k0, k, i, L, ls, h0, h1, h2, h3, hl, s => by
    obtain ⟨hl1, hl2⟩ := LocTys.append (by simpa only [ltEVs] using hl)
    obtain ⟨hl1, hl3⟩ := LocTys.append hl1
    obtain ⟨hl1, -⟩ := hl1
    simp only [List.length_append, List.length_cons, List.length_nil, Nat.zero_add, ltEFs_length] at hl2 hl3
    simp only [eqArms]
    refine ok_block ?_ (eqArms_typed hR vss h0 h1 h2 h3 (by rw [Nat.add_assoc]; exact hl2))
    oks
    refine ok_block (eqFields_typed hR fs h0 h1 hl1 hl3) ?_
    oks
    exact ok_br (s1 := []) rfl .nil
end

theorem vecEq_valid (t : Mv.Ty) : (vecEq E t).Valid [.i32, .i32] [.i32] := by
  have := vecEqF_valid (t := t) (inner := eqP E t 5) (T := ltE t) (fun {L ls} hl {s} => eqP_typed (R := [.i32]) (Or.inr rfl) t (ls := ls) hl (s := s))
  rwa [ltE_length] at this

end Rt
