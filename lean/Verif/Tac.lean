import Verif.Rt.Ext
import Mathlib.Tactic.SplitIfs
import Mathlib.Tactic.Ring
import Mathlib.Tactic.Linarith

/-! Tactics for symbolic execution. -/

namespace Wasm

theorem W.mod32 : W.mod .w32 = 4294967296 := rfl
theorem W.mod64 : W.mod .w64 = 18446744073709551616 := rfl
theorem W.bits32 : W.bits .w32 = 32 := rfl
theorem W.bits64 : W.bits .w64 = 64 := rfl

theorem b2n_or {p q : Prop} [Decidable p] [Decidable q] : (b2n p ||| b2n q) = b2n (p ∨ q) := by
  unfold b2n; by_cases hp : p <;> by_cases hq : q <;> simp [hp, hq]
theorem b2n_and {p q : Prop} [Decidable p] [Decidable q] : (b2n p &&& b2n q) = b2n (p ∧ q) := by
  unfold b2n; by_cases hp : p <;> by_cases hq : q <;> simp [hp, hq]
theorem eval_eqz {a} : UnOp.eval a .eqz = b2n (a = 0) := rfl
theorem eval_wrap {a} : UnOp.eval a .wrap = a % 4294967296 := rfl
theorem eval_extend {a} : UnOp.eval a .extend = a := rfl

theorem toSigned32_nonneg {a : Nat} (h : a < 2147483648) : toSigned .w32 a = a := by
  unfold toSigned; rw [if_pos]; simpa [W.mod] using h

theorem toSigned32_neg {a : Nat} (h : 2147483648 ≤ a) : toSigned .w32 a = (a : Int) - 4294967296 := by
  unfold toSigned; rw [if_neg]; · rfl
  · simp only [W.mod]; omega

theorem setGlob_avail {σ : Store} {v} : σ.setGlob .avail v = { σ with avail := v } := rfl
theorem setGlob_nextFree {σ : Store} {v} : σ.setGlob .nextFree v = { σ with nextFree := v } := rfl
theorem setGlob_reader {σ : Store} {v} : σ.setGlob .reader v = { σ with reader := v } := rfl
theorem getGlob_avail {σ : Store} : σ.getGlob .avail = σ.avail := rfl
theorem getGlob_nextFree {σ : Store} : σ.getGlob .nextFree = σ.nextFree := rfl
theorem getGlob_reader {σ : Store} : σ.getGlob .reader = σ.reader := rfl

theorem list1 {a b : Nat} (h : a = b) : [a] = [b] := by rw [h]

theorem consE {a b : Nat} {l m : List Nat} (h : a = b) (h' : l = m) : a :: l = b :: m := by
  rw [h, h']

/-- Equality of two lists of locals, element by element. -/
macro "locs" : tactic => `(tactic| (repeat' (first | with_reducible rfl | refine consE ?_ ?_)) <;> try omega)

theorem some1 {a b : Nat} (h : a = b) : some a = some b := by rw [h]

theorem putLe_mod {f : Bytes} {a n v m : Nat} (h : n ≤ m) :
    putLe f a n (v % 256 ^ m) = putLe f a n v := by
  funext x
  unfold putLe
  split
  · rename_i hx
    apply UInt8.toNat_inj.mp
    rw [UInt8.toNat_ofNat', UInt8.toNat_ofNat']
    obtain ⟨k, hk⟩ : ∃ k, m = (x - a) + 1 + k := ⟨m - (x - a) - 1, by omega⟩
    rw [hk, Nat.pow_add, Nat.pow_add, Nat.pow_one, Nat.mul_assoc, Nat.mod_mul_right_div_self,
      Nat.mod_mul_right_mod]
  · rfl

theorem putLe_mod4 {f : Bytes} {a v : Nat} : putLe f a 4 (v % 4294967296) = putLe f a 4 v :=
  putLe_mod (m := 4) (by omega)
theorem putLe_mod8 {f : Bytes} {a v : Nat} :
    putLe f a 8 (v % 18446744073709551616) = putLe f a 8 v := putLe_mod (m := 8) (by omega)
theorem putLe_mod1 {f : Bytes} {a v : Nat} : putLe f a 1 (v % 256) = putLe f a 1 v :=
  putLe_mod (m := 1) (by omega)
theorem putLe_mod14 {f : Bytes} {a v : Nat} : putLe f a 1 (v % 4294967296) = putLe f a 1 v :=
  putLe_mod (m := 4) (by omega)

theorem leNat_lt1 (f : Bytes) (a : Nat) : leNat f a 1 < 256 := by simpa using leNat_lt f a 1
theorem leNat_lt2 (f : Bytes) (a : Nat) : leNat f a 2 < 65536 := by simpa using leNat_lt f a 2
theorem leNat_lt4 (f : Bytes) (a : Nat) : leNat f a 4 < 4294967296 := by simpa using leNat_lt f a 4
theorem leNat_lt8 (f : Bytes) (a : Nat) : leNat f a 8 < 18446744073709551616 := by
  simpa using leNat_lt f a 8

/-- Symbolic execution of straight-line code.  Side conditions by `omega`. -/
macro "wstep" : tactic => `(tactic| simp (disch := first | assumption | omega | (simp only [setMem_size, lset_length]; first | assumption | omega)) only [
  ne_eq, not_true_eq_false, not_false_eq_true, Classical.not_not,
  List.cons_append, List.nil_append, List.append_nil, List.replicate, Fn.Calls, List.length_cons, List.length_nil,
  wp_c32, wp_c64, wp_lget, wp_lset, wp_ltee, wp_gget, wp_gset, wp_un, wp_drop, wp_unreachable,
  wp_add, wp_sub, wp_mul, wp_divU, wp_remU, wp_and', wp_or', wp_xor', wp_shl, wp_shrU,
  wp_eq, wp_ne, wp_ltU, wp_gtU, wp_leU, wp_geU, wp_ltS, wp_gtS, wp_leS, wp_geS,
  wp_load, wp_store, wp_memCopy, wp_memFill, wp_nil, wp_block, wp_ite, wp_br, wp_brIf, wp_ret,
  lget_zero, lget_succ, lset_zero, lset_succ, lget_lset_same, lget_lset_ne,
  contB_ok, contB_br0, contB_brS, contB_br1, contB_br2, contB_br3, contB_br4, contB_ret, contB_trap,
  contL_ok, contL_br0, contL_brS, contL_br1, contL_br2, contL_br3, contL_ret, contL_trap,
  retK_ok, retK_br0, retK_brS, retK_ret, retK_trap,
  List.take_succ_cons, List.take_zero, List.take_nil,
  setMem_mem, setMem_size, setMem_maxPages, setMem_nextFree, setMem_avail, setMem_reader, setMem_host,
  setMem_setMem, setMem_self,
  b2n_or, b2n_and, eval_eqz, eval_wrap, eval_extend, putLe_mod4, putLe_mod8, putLe_mod1, putLe_mod14,
  b2n_ne_zero, b2n_eq_zero, b2n_eq_one, b2n_ne_one,
  IfP_true, IfP_false, W.sub32, W.sub64, Nat.mod_eq_of_lt,
  IfP.pos, IfP.neg, setGlob_avail, setGlob_nextFree, setGlob_reader, getGlob_avail, getGlob_nextFree,
  getGlob_reader,
  W.mod32, W.mod64, W.bits32, W.bits64,
  Nat.reduceMod, Nat.reduceAdd, Nat.reduceSub, Nat.reduceMul, Nat.reducePow, Nat.reduceDiv, Nat.add_zero,
  true_and, and_true])

end Wasm

namespace Rt
open Wasm

/-- Unfolds the error protocol. -/
macro "unerr" : tactic =>
  `(tactic| simp only [returnError, handleError, badPush, abortPtr, errStore, errWord])

/-- Stack left by `badPush`. -/
def badStk : RetTy → List Nat
  | .i32 => [badF00d]
  | .i64 => [badF00d]
  | .none => []

theorem wp_propagate {ty is s l σ Q} (hs : 260 ≤ σ.size) :
    wp (propagate ty :: is) s l σ Q ↔
      IfP (errWord σ = 0) (wp is s l σ Q) (Q (.ret (badStk ty) σ)) := by
  unfold propagate errWord abortPtr
  cases ty <;> simp only [badPush] <;> wstep <;> rfl

/-- Call of a fallible function that succeeds. -/
theorem wp_callF {f : Fn} {ty args s is l σ Q} {P : List Nat → Store → Prop}
    (h : f.Calls args σ P)
    (hP : ∀ r σ', P r σ' → 260 ≤ σ'.size ∧
      IfP (errWord σ' = 0) (wp is (r ++ s) l σ' Q) (Q (.ret (badStk ty) σ'))) :
    wp (callF f ty ++ is) (args.reverse ++ s) l σ Q := by
  refine wp_call h ?_
  intro r σ' hp
  obtain ⟨h1, h2⟩ := hP r σ' hp
  exact (wp_propagate h1).mpr h2

theorem errWord_errStore {σ : Store} {p : Nat} : errWord (errStore σ p) = p % 4294967296 := by
  unfold errWord errStore; rw [setMem_mem, leNat_putLe_same]

theorem wp_call0 {f : Fn} {s is l σ Q} {P : List Nat → Store → Prop}
    (h : f.Calls [] σ P) (hP : ∀ r σ', P r σ' → wp is (r ++ s) l σ' Q) :
    wp (f.call :: is) s l σ Q := wp_call (args := []) h hP
theorem wp_call1 {f : Fn} {a s is l σ Q} {P : List Nat → Store → Prop}
    (h : f.Calls [a] σ P) (hP : ∀ r σ', P r σ' → wp is (r ++ s) l σ' Q) :
    wp (f.call :: is) (a :: s) l σ Q := wp_call (args := [a]) h hP
theorem wp_call2 {f : Fn} {a b s is l σ Q} {P : List Nat → Store → Prop}
    (h : f.Calls [a, b] σ P) (hP : ∀ r σ', P r σ' → wp is (r ++ s) l σ' Q) :
    wp (f.call :: is) (b :: a :: s) l σ Q := wp_call (args := [a, b]) h hP
theorem wp_call3 {f : Fn} {a b c s is l σ Q} {P : List Nat → Store → Prop}
    (h : f.Calls [a, b, c] σ P) (hP : ∀ r σ', P r σ' → wp is (r ++ s) l σ' Q) :
    wp (f.call :: is) (c :: b :: a :: s) l σ Q := wp_call (args := [a, b, c]) h hP
theorem wp_call4 {f : Fn} {a b c d s is l σ Q} {P : List Nat → Store → Prop}
    (h : f.Calls [a, b, c, d] σ P) (hP : ∀ r σ', P r σ' → wp is (r ++ s) l σ' Q) :
    wp (f.call :: is) (d :: c :: b :: a :: s) l σ Q := wp_call (args := [a, b, c, d]) h hP

/-- Checked call followed by error propagation. -/
theorem wp_checked {f : Fn} {ty args s is l σ p Q} {o : Option Nat}
    (h : Checked f args σ p o) (hσ : Ready σ) (hp : 0 < p ∧ p < 2 ^ 32)
    (hQ : match o with
      | some v => wp is (v :: s) l σ Q
      | none => Q (.ret (badStk ty) (errStore σ p))) :
    wp (f.call :: propagate ty :: is) (args.reverse ++ s) l σ Q := by
  cases o with
  | some v =>
    refine wp_call h ?_
    rintro r σ' ⟨rfl, rfl⟩
    have := hσ.size
    rw [wp_propagate (by omega), IfP.pos hσ.noErr]
    exact hQ
  | none =>
    refine wp_call h ?_
    rintro r σ' rfl
    have := hσ.size
    rw [wp_propagate (by show 260 ≤ σ.size; omega), errWord_errStore, IfP.neg]
    · exact hQ
    · rw [Nat.mod_eq_of_lt (by omega)]; omega

theorem wp_checked1 {f : Fn} {ty a s is l σ p Q} {o : Option Nat}
    (h : Checked f [a] σ p o) (hσ : Ready σ) (hp : 0 < p ∧ p < 2 ^ 32)
    (hQ : match o with
      | some v => wp is (v :: s) l σ Q
      | none => Q (.ret (badStk ty) (errStore σ p))) :
    wp (f.call :: propagate ty :: is) (a :: s) l σ Q := wp_checked (args := [a]) h hσ hp hQ

theorem wp_checked2 {f : Fn} {ty a b s is l σ p Q} {o : Option Nat}
    (h : Checked f [a, b] σ p o) (hσ : Ready σ) (hp : 0 < p ∧ p < 2 ^ 32)
    (hQ : match o with
      | some v => wp is (v :: s) l σ Q
      | none => Q (.ret (badStk ty) (errStore σ p))) :
    wp (f.call :: propagate ty :: is) (b :: a :: s) l σ Q :=
  wp_checked (args := [a, b]) h hσ hp hQ

end Rt
