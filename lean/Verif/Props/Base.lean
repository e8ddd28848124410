import Verif.Proof.Heap

/-! A concrete machine state, used to show that the hypotheses of the theorems can be met. -/

namespace Props
open Wasm Rt

/-- Some host. -/
def host0 : Host := ⟨fun _ => 0, fun _ => 0, fun _ => 0, [], none, 0, 0, [], {}, [], []⟩

/-- One page of zeroed memory, the first 1000 bytes in use. -/
def store0 : Store := ⟨fun _ => 0, 65536, 128, 1000, 64536, 0, host0⟩

/-- Error messages somewhere in the data segment. -/
def E0 : ErrPtrs := fun _ => 468

theorem E0_valid : E0.Valid := fun _ => ⟨by show 0 < 468; decide, by show 468 < _; decide⟩
theorem store0_ready : Ready store0 := ⟨by decide, by decide, by decide⟩
theorem store0_alloc : AllocOk store0 :=
  ⟨by decide, by decide, by decide, by decide, by decide, by decide⟩

theorem store0_heap : Heap store0 := ⟨store0_ready, store0_alloc, by decide, fun _ _ => rfl⟩

/-- Two numbers in memory, at 500 and 540 (at most 32 bytes each). -/
def store2 (a b : Nat) : Store := store0.setMem (putLe (putLe store0.mem 500 32 a) 540 32 b)

theorem store2_heap (a b : Nat) : Heap (store2 a b) := by
  refine ⟨⟨store0_ready.size, store0_ready.size_lt, ?_⟩, store0_alloc.setMem, store0_heap.base, ?_⟩
  · show leNat (putLe (putLe store0.mem 500 32 a) 540 32 b) 256 4 = 0
    rw [leNat_putLe_disj (.inl (by decide)), leNat_putLe_disj (.inl (by decide))]
    rfl
  · intro x hx
    have hx : 1000 ≤ x := hx
    show putLe (putLe store0.mem 500 32 a) 540 32 b x = 0
    rw [putLe_out (by omega), putLe_out (by omega)]
    rfl

theorem store2_fst {a b n : Nat} (hn : n ≤ 32) : leNat (store2 a b).mem 500 n = a % 256 ^ n := by
  show leNat (putLe (putLe store0.mem 500 32 a) 540 32 b) 500 n = _
  rw [leNat_putLe_disj (.inl (by omega)), leNat_putLe_in (by omega) (by omega)]
  simp

theorem store2_snd {a b n : Nat} (hn : n ≤ 32) : leNat (store2 a b).mem 540 n = b % 256 ^ n := by
  show leNat (putLe (putLe store0.mem 500 32 a) 540 32 b) 540 n = _
  rw [leNat_putLe_in (by omega) (by omega)]
  simp

theorem store2_canAlloc {a b n : Nat} (hn : n ≤ 64536) : CanAlloc (store2 a b) n :=
  ⟨by omega, .inl hn⟩

theorem store2_facts {x y : Nat} {σ : Store} (h : store2 x y = σ) :
    Heap σ ∧ σ.nextFree = 1000 ∧ (∀ n, n ≤ 32 → leNat σ.mem 500 n = x % 256 ^ n) ∧
      (∀ n, n ≤ 32 → leNat σ.mem 540 n = y % 256 ^ n) ∧ (∀ n, n ≤ 64536 → CanAlloc σ n) := by
  subst h
  exact ⟨store2_heap _ _, rfl, fun _ => store2_fst, fun _ => store2_snd, fun _ => store2_canAlloc⟩

theorem _root_.Rt.CheckedInt.val_if {f args σ p n v w} {c : Prop} [Decidable c]
    (h : CheckedInt f args σ p n (if c then some v else none)) (hc : c) (hv : v = w) :
    ReturnsInt f args σ n w := by rw [if_pos hc] at h; subst hv; exact h
theorem _root_.Rt.CheckedInt.err_if {f args σ p n v} {c : Prop} [Decidable c]
    (h : CheckedInt f args σ p n (if c then some v else none)) (hc : ¬ c) :
    Raises f args σ p := by rw [if_neg hc] at h; exact h

theorem _root_.Rt.CheckedInt.val {f args σ p n o v} (h : CheckedInt f args σ p n o) (e : o = some v) :
    ReturnsInt f args σ n v := by subst e; exact h
theorem _root_.Rt.CheckedInt.err {f args σ p n o} (h : CheckedInt f args σ p n o) (e : o = none) :
    Raises f args σ p := by subst e; exact h

theorem _root_.Rt.Checked.val {f args σ p o v} (h : Checked f args σ p o) (e : o = some v) :
    Evaluates f args σ v := by subst e; exact h
theorem _root_.Rt.Checked.err {f args σ p o} (h : Checked f args σ p o) (e : o = none) :
    AbortsWith f args σ p := by subst e; exact h

end Props
