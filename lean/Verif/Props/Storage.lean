import Verif.Proof.Codec6
import Verif.Props.Vector

/-!
# Objects in storage: C37, C40, C41, C59

The hash function of the host is arbitrary.
-/

namespace Props
open Wasm Rt Slots Mv Layout

variable {σ σ' : Store} {E : ErrPtrs} {T : Ty → Nat}

/-! ### Example state -/

theorem calls_of_obs {α : Type} {f : Fn} {args : List Nat} (n : Nat) (obs : Store → α) (res : List Nat) (x : α) (ha : args.length = f.na)
    (h : (match run n [f.call] args.reverse [] σ with
      | .ok r l σ' => some (r, l, obs σ')
      | _ => none) = some (res, [], x)) : f.Calls args σ (fun r σ' => r = res ∧ obs σ' = x) := by
  refine Fn.Calls.of_run n ha ?_
  revert h
  generalize run n [f.call] args.reverse [] σ = y
  intro h
  cases y <;> simp at h
  obtain ⟨rfl, rfl, rfl⟩ := h
  exact ⟨rfl, rfl⟩

/-- A hash function for examples. -/
def hashO (l : List UInt8) : Nat := 1000 * l.length

def hostO (S : Nat → Nat) : Host := { host0 with keccak := hashO, storage := S }

/-- Memory with the constants of the runtime and the given words. -/
def memO (ws : List (Nat × Nat)) : Bytes := memW (ws ++ [(32, 1), (188, 2 ^ 24), (220, 2 ^ 25)])

def storeO (ws : List (Nat × Nat)) (S : Nat → Nat) : Store := ⟨memO ws, 65536, 128, 1000, 64536, 0, hostO S⟩

theorem memO_out {ws : List (Nat × Nat)} {x : Nat} (h : ∀ a ∈ ws, 468 ≤ a.1 ∧ a.1 + 4 ≤ 1000)
    (hx : x < 32 ∨ 36 ≤ x ∧ x < 188 ∨ 192 ≤ x ∧ x < 220 ∨ 224 ≤ x ∧ x < 468 ∨ 1000 ≤ x) : memO ws x = 0 := by
  refine memW_out fun a ha => ?_
  rcases List.mem_append.mp ha with ha | ha
  · have := h a ha; omega
  · simp only [List.mem_cons, List.not_mem_nil, or_false] at ha
    rcases ha with rfl | rfl | rfl <;> simp only <;> omega

theorem storeO_heap {ws : List (Nat × Nat)} (S : Nat → Nat) (h : ∀ a ∈ ws, 468 ≤ a.1 ∧ a.1 + 4 ≤ 1000) : Heap (storeO ws S) :=
  ⟨⟨by show 65536 ≤ 65536; omega, by show 65536 < _; omega,
     leNat_zero_of fun x (h1 : 256 ≤ x) (h2 : x < 256 + 4) => memO_out h (by omega)⟩,
   ⟨store0_alloc.sum, store0_alloc.page, store0_alloc.first, store0_alloc.limit, store0_alloc.max, store0_alloc.small⟩,
   by show 468 ≤ 1000; omega, fun x hx => memO_out h (by have : 1000 ≤ x := hx; omega)⟩

theorem storeO_room {ws : List (Nat × Nat)} {S : Nat → Nat} {n : Nat} (hn : n ≤ 1000000) : Room (storeO ws S) n := by
  refine ⟨by omega, ?_⟩
  show 1000 + n + 65536 ≤ 128 * 65536
  omega

/-- The constants are below the words. -/
theorem memO_low {ws : List (Nat × Nat)} (h : ∀ a ∈ ws, 468 ≤ a.1) {x : Nat} (hx : x < 468) : memO ws x = memO [] x := by
  unfold memO
  induction ws with
  | nil => rfl
  | cons a ws ih =>
    rw [List.cons_append, memW, putLe_out (by have := h a (by simp); omega)]
    exact ih fun b hb => h b (by simp [hb])

theorem storeO_statics {ws : List (Nat × Nat)} (S : Nat → Nat) (h : ∀ a ∈ ws, 468 ≤ a.1) : Statics (storeO ws S) := by
  constructor
  · exact (leNat_congr fun x _ h2 => memO_low h (by omega)).trans (by decide +kernel : leNat (memO []) 0 32 = 0)
  · exact (leNat_congr fun x _ h2 => memO_low h (by omega)).trans (by decide +kernel : leNat (memO []) 32 32 = 1)
  · exact (beNat_congr fun x _ h2 => memO_low h (by omega)).trans (by decide +kernel : beNat (memO []) 96 32 = 0)
  · exact (beNat_congr fun x _ h2 => memO_low h (by omega)).trans (by decide +kernel : beNat (memO []) 160 32 = 1)
  · exact (beNat_congr fun x _ h2 => memO_low h (by omega)).trans (by decide +kernel : beNat (memO []) 192 32 = 2)

/-- An object at 600 with id 9 and fields `5: u8`, `[1, 2]: vector<u8>` and the variant `1 (772: u16)` of an enum; a slot
pointer to slot 7 at 960. -/
def wsO : List (Nat × Nat) :=
  [(988, 7 * 2 ^ 24), (600, 640), (640, 644), (644, 660), (688, 9 * 2 ^ 24), (604, 700), (700, 5),
   (608, 720), (720, 2), (724, 2), (728, 0x0201), (612, 740), (740, 1), (744, 748), (748, 772)]

def fsO : List Ty := [.u8, .vec .u8, .enum [[], [.u16]]]
def uidO : Val := .struct [.struct [.num 9]]
def vsO : List Val := [.num 5, .vec [.num 1, .num 2], .variant 1 [.num 772]]

theorem wsO_in : ∀ a ∈ wsO, 468 ≤ a.1 ∧ a.1 + 4 ≤ 1000 := by decide

theorem repO {S : Nat → Nat} : Mv.Rep (storeO wsO S).mem (Between 500 900) (.object (uidTy :: fsO)) (.object 0 (uidO :: vsO)) 600 := by
  have hw : ∀ p n, 500 ≤ p → p + n ≤ 900 → Within (Between 500 900) p n := fun p n h1 h2 x h3 h4 => ⟨by omega, by omega⟩
  show Mv.Rep (memO wsO) _ _ _ _
  have e0 : beNat (memO wsO) (600 - 32) 32 = 0 := by decide +kernel
  have e1 : leNat (memO wsO) 600 4 = 640 := by decide +kernel
  have e2 : leNat (memO wsO) 640 4 = 644 := by decide +kernel
  have e3 : leNat (memO wsO) 644 4 = 660 := by decide +kernel
  have e4 : beNat (memO wsO) 660 32 = 9 := by decide +kernel
  have e5 : leNat (memO wsO) (600 + 4) 4 = 700 := by decide +kernel
  have e6 : leNat (memO wsO) 700 1 = 5 := by decide +kernel
  have e7 : leNat (memO wsO) (600 + 4 + 4) 4 = 720 := by decide +kernel
  have e8 : leNat (memO wsO) 720 4 = 2 := by decide +kernel
  have e9 : leNat (memO wsO) (720 + 4) 4 = 2 := by decide +kernel
  have e10 : leNat (memO wsO) (600 + 4 + 4 + 4) 4 = 740 := by decide +kernel
  have e11 : leNat (memO wsO) 740 4 = 1 := by decide +kernel
  have e12 : leNat (memO wsO) (740 + 4) 4 = 748 := by decide +kernel
  have e13 : leNat (memO wsO) 748 2 = 772 := by decide +kernel
  simp only [Mv.Rep]
  refine ⟨_, by omega, by rw [e0], hw _ _ (by omega) (by omega), ?_⟩
  simp only [uidTy, fsO, Mv.RepFs, Mv.Rep, Ty.scalar, if_true, Bool.false_eq_true, if_false, e1, e2, e3, e4, e5, e6, e7, e8, e9, e10, e11, e12]
  refine ⟨_, _, rfl, hw _ _ (by omega) (by omega), fun h => h.elim, ⟨_, rfl, _, _, rfl, hw _ _ (by omega) (by omega), fun h => h.elim,
    ⟨_, rfl, _, _, rfl, hw _ _ (by omega) (by omega), fun h => h.elim, ⟨rfl, hw _ _ (by omega) (by omega)⟩, rfl⟩, rfl⟩, ?_⟩
  refine ⟨_, _, rfl, hw _ _ (by omega) (by omega), fun _ => hw _ _ (by omega) (by simp [Ty.size]), ⟨by simp [Ty.size, e6], by simp [Ty.size, e6]⟩, ?_⟩
  refine ⟨_, _, rfl, hw _ _ (by omega) (by omega), fun h => h.elim, ⟨_, rfl, rfl, by simp, hw _ _ (by omega) (by simp [Ty.size]), ?_⟩, ?_⟩
  · intro i hi
    match i, hi with
    | 0, _ => rw [show leNat (memO wsO) (720 + 8 + 0 * Ty.u8.size) Ty.u8.size = 1 by decide +kernel]; exact ⟨rfl, by omega⟩
    | 1, _ => rw [show leNat (memO wsO) (720 + 8 + 1 * Ty.u8.size) Ty.u8.size = 2 by decide +kernel]; exact ⟨rfl, by omega⟩
  refine ⟨_, _, rfl, hw _ _ (by omega) (by omega), fun h => h.elim, ⟨_, rfl, hw _ _ (by omega) (by omega), ?_⟩, rfl⟩
  simp only [Mv.RepVar, Mv.RepFs, Mv.Rep, Ty.scalar, if_true, e12]
  exact ⟨_, _, rfl, hw _ _ (by omega) (by omega), fun _ => hw _ _ (by omega) (by simp [Ty.size]), ⟨by simp [Ty.size, e13], by simp [Ty.size, e13]⟩, rfl⟩

theorem safeO {S : Nat → Nat} : Safe (storeO wsO S) (Between 500 900) 960 := fun x hx => by
  have h1 := hx.1; have h2 := hx.2
  exact ⟨by omega, by show x < 1000; omega, by omega⟩

theorem cellO {S : Nat → Nat} : beNat (storeO wsO S).mem 960 32 = 7 := by
  show beNat (memO wsO) 960 32 = 7
  decide +kernel

theorem storableO : StorableFs fsO := by
  simp only [fsO, StorableFs, Storable, StorableVs, true_and, and_true]
  refine ⟨by simp, fun i hi => ?_⟩
  revert i
  decide +kernel

theorem smallO : SmallFs fsO vsO := by
  simp [fsO, vsO, SmallFs, Small, SmallVar, width, atom]

theorem spreadO : Spread hashO fsO uidO vsO 7 := by
  constructor
  · have : area hashO fsO uidO vsO 7 = [(7, 9), (32000, 32000)] := by decide +kernel
    rw [this]; simp [Layout.Apart]
  · have : area hashO fsO uidO vsO 7 = [(7, 9), (32000, 32000)] := by decide +kernel
    rw [this]; simp

/-! ### C37: fields do not overlap -/

/-- Consecutive calls of one of the functions that find a place for the next field, for fields of the sizes `ns`; `q.1` is
the slot of a field, in the cell at `p`, `q.2.1` its first byte, counted from the low-order end, and `q.2.2` its size. -/
inductive PlacedBy (f : Fn) (p : Nat) : Store → Nat → List Nat → List (Nat × Nat × Nat) → Prop
  | nil (σ : Store) (off : Nat) : PlacedBy f p σ off [] []
  | cons {σ σ1 : Store} {off off' n : Nat} {ns : List Nat} {qs : List (Nat × Nat × Nat)}
      (h : f.Calls [p, off, n] σ (fun r σ' => r = [off'] ∧ σ' = σ1)) (hs : PlacedBy f p σ1 off' ns qs) :
      PlacedBy f p σ off (n :: ns) ((beNat σ1.mem p 32, off' - n, n) :: qs)

/-- `q` ends before `q'` begins, in the same slot or an earlier one. -/
def Before (q q' : Nat × Nat × Nat) : Prop := q.1 < q'.1 ∨ q.1 = q'.1 ∧ q.2.1 + q.2.2 ≤ q'.2.1

/-- What the three functions have in common. -/
structure Advances (f : Fn) (p : Nat) (I : Store → Prop) : Prop where
  step : ∀ {σ : Store} {off n : Nat}, I σ → off ≤ 32 → n ≤ 32 → (off + n ≤ 32 ∨ beNat σ.mem p 32 + 1 < 2 ^ 256) →
    ∃ off' σ1, f.Calls [p, off, n] σ (fun r σ' => r = [off'] ∧ σ' = σ1) ∧ I σ1 ∧
      (beNat σ1.mem p 32, off') = place (beNat σ.mem p 32, off) n

/-- The places of consecutive fields. -/
def spots : Pos → List Nat → List (Nat × Nat × Nat)
  | _, [] => []
  | q, n :: ns => ((place q n).1, (place q n).2 - n, n) :: spots (place q n) ns

theorem place_cases {q q' : Pos} {n : Nat} (h : q' = place q n) : q'.1 = q.1 ∧ q'.2 = q.2 + n ∧ q.2 + n ≤ 32 ∨ q'.1 = q.1 + 1 ∧ q'.2 = n := by
  subst h; unfold place; split <;> simp <;> omega

theorem Advances.placed {f : Fn} {p : Nat} {I : Store → Prop} (h : Advances f p I) {off : Nat} {ns : List Nat} (hI : I σ) (ho : off ≤ 32)
    (hn : ∀ n ∈ ns, n ≤ 32) (hv : beNat σ.mem p 32 + ns.length < 2 ^ 256) : PlacedBy f p σ off ns (spots (beNat σ.mem p 32, off) ns) := by
  induction ns generalizing σ off with
  | nil => exact .nil σ off
  | cons n ns ih =>
    simp only [List.length_cons] at hv
    obtain ⟨off', σ1, h1, h2, h3⟩ := h.step (n := n) hI ho (hn n (by simp)) (by omega)
    have hc := place_cases h3
    have hn' := hn n (by simp)
    simp only at hc
    rw [spots, ← h3]
    exact .cons h1 (ih h2 (by omega) (fun m hm => hn m (by simp [hm])) (by omega))

theorem spots_spread {q0 : Pos} {ns : List Nat} (ho : q0.2 ≤ 32) (hn : ∀ n ∈ ns, n ≤ 32) :
    (∀ q ∈ spots q0 ns, q.2.1 + q.2.2 ≤ 32) ∧ (spots q0 ns).Pairwise Before ∧
      ∀ q ∈ spots q0 ns, q0.1 < q.1 ∨ q0.1 = q.1 ∧ q0.2 ≤ q.2.1 := by
  induction ns generalizing q0 with
  | nil => simp [spots]
  | cons n ns ih =>
    have hc := place_cases (q := q0) (n := n) rfl
    have hn' := hn n (by simp)
    obtain ⟨i2, i3, i4⟩ := ih (q0 := place q0 n) (by omega) (fun m hm => hn m (by simp [hm]))
    rw [spots]
    refine ⟨fun q hq => ?_, List.pairwise_cons.mpr ⟨fun q hq => ?_, i3⟩, fun q hq => ?_⟩
    · rcases List.mem_cons.mp hq with rfl | hq
      · simp only; omega
      · exact i2 q hq
    · have := i4 q hq
      unfold Before; simp only; omega
    · rcases List.mem_cons.mp hq with rfl | hq
      · simp only; omega
      · have := i4 q hq; omega

theorem spots_sizes (q0 : Pos) (ns : List Nat) : (spots q0 ns).map (fun q => q.2.2) = ns := by
  induction ns generalizing q0 with
  | nil => rfl
  | cons n ns ih => rw [spots, List.map_cons, ih]

theorem cellAt_setMem {p : Nat} {f : Bytes} {h : Host} (hc : CellAt σ p) (hf : leNat f 32 32 = 1) : CellAt ({ σ with mem := f, host := h } : Store) p :=
  ⟨hc.place, hc.size, hc.size_lt, hc.inside, hf⟩

theorem next_cell {p : Nat} {f : Bytes} {v : Nat} (hv : v + 1 < 2 ^ 256) : beNat (putBe f p 32 (v + 1)) p 32 = v + 1 := by
  rw [beNat_putBe_same, Nat.mod_eq_of_lt (Nat.lt_of_lt_of_eq hv (by norm_num))]

theorem accW_advances (p : Nat) : Advances (accW E) p (fun σ => CellAt σ p) := by
  refine ⟨fun {σ off n} hI ho hn hv => ?_⟩
  have h := accW_spec (E := E) hI ho hn hv
  have hp := hI.place
  by_cases hc : off + n ≤ 32
  · simp only [if_pos hc] at h
    exact ⟨off + n, σ, h, hI, by rw [place, if_pos hc]⟩
  · simp only [if_neg hc] at h
    refine ⟨n, advW σ p, h, cellAt_setMem (σ := σ) hI ?_, Prod.ext ?_ ?_⟩
    rotate_left
    · rw [place, if_neg hc]; exact next_cell (by omega)
    · rw [place, if_neg hc]
    rw [leNat_putBe_disj (by omega), leNat_congr fun x h1 h2 => fillBytes_out (by omega), hI.one]

theorem accR_advances (p : Nat) : Advances (accR E) p (fun σ => CellAt σ p) := by
  refine ⟨fun {σ off n} hI ho hn hv => ?_⟩
  have h := accR_spec (E := E) hI ho hn hv
  have hp := hI.place
  by_cases hc : off + n ≤ 32
  · simp only [if_pos hc] at h
    exact ⟨off + n, σ, h, hI, by rw [place, if_pos hc]⟩
  · simp only [if_neg hc] at h
    refine ⟨n, advR σ p, h, cellAt_setMem hI ?_, Prod.ext ?_ ?_⟩
    rotate_right
    · rw [place, if_neg hc]
    · rw [leNat_putBe_disj (by omega), leNat_putBe_disj (by omega), hI.one]
    · rw [place, if_neg hc]
      show beNat (putBe (putBe σ.mem p 32 _) 64 32 _) p 32 = _
      rw [beNat_putBe_disj (by omega), next_cell (by omega)]

theorem accD_advances (p : Nat) : Advances (accD E) p (fun σ => CellAt σ p ∧ beNat σ.mem 0 32 = 0) := by
  refine ⟨fun {σ off n} hI ho hn hv => ?_⟩
  have h := accD_spec (E := E) hI.1 hI.2 ho hn hv
  have hp := hI.1.place
  by_cases hc : off + n ≤ 32
  · simp only [if_pos hc] at h
    exact ⟨off + n, σ, h, hI, by rw [place, if_pos hc]⟩
  · simp only [if_neg hc] at h
    refine ⟨n, advD σ p, h, ⟨cellAt_setMem (σ := σ) hI.1 ?_, ?_⟩, Prod.ext ?_ ?_⟩
    rotate_left 2
    · rw [place, if_neg hc]; exact next_cell (by omega)
    · rw [place, if_neg hc]
    · rw [leNat_putBe_disj (by omega), hI.1.one]
    · show beNat (putBe σ.mem p 32 _) 0 32 = 0
      rw [beNat_putBe_disj (by omega), hI.2]

/-- The places that saving, reading and deleting find for consecutive fields of any sizes: every call succeeds; the bytes of
a field are in one slot; every field begins behind the end of all fields before it, and behind the bytes already in use.  All
three find the same places. -/
theorem C37_layout {p off : Nat} {ns : List Nat} (hc : CellAt σ p) (h0 : beNat σ.mem 0 32 = 0) (ho : off ≤ 32) (hn : ∀ n ∈ ns, n ≤ 32)
    (hv : beNat σ.mem p 32 + ns.length < 2 ^ 256) : ∃ qs : List (Nat × Nat × Nat),
    PlacedBy (accW E) p σ off ns qs ∧ PlacedBy (accR E) p σ off ns qs ∧ PlacedBy (accD E) p σ off ns qs ∧
    qs.map (fun q => q.2.2) = ns ∧ (∀ q ∈ qs, q.2.1 + q.2.2 ≤ 32) ∧ qs.Pairwise Before ∧
    ∀ q ∈ qs, beNat σ.mem p 32 < q.1 ∨ beNat σ.mem p 32 = q.1 ∧ off ≤ q.2.1 := by
  obtain ⟨h1, h2, h3⟩ := spots_spread (q0 := (beNat σ.mem p 32, off)) ho hn
  exact ⟨_, (accW_advances p).placed hc ho hn hv, (accR_advances p).placed hc ho hn hv, (accD_advances p).placed ⟨hc, h0⟩ ho hn hv,
    spots_sizes _ _, h1, h2, h3⟩

example : ∃ qs, PlacedBy (accW E) 960 (storeO wsO 0) 8 [20, 8, 1, 32, 2] qs :=
  have h := storeO_heap (ws := wsO) 0 wsO_in
  have ⟨qs, hq⟩ := C37_layout (E := E) (p := 960) (off := 8) (ns := [20, 8, 1, 32, 2]) ⟨by omega, h.ready.size, h.ready.size_lt, by decide,
    (storeO_statics 0 (by decide)).one⟩ (zero_be (storeO_statics 0 (by decide))) (by omega) (by decide) (by rw [cellO]; simp)
  ⟨qs, hq.1⟩

example : spots (7, 8) [20, 8, 1, 32, 2] = [(7, 8, 20), (8, 0, 8), (8, 8, 1), (9, 0, 32), (10, 0, 2)] := by decide

/-! ### C41: the table of enum sizes -/

/-- The table entry for an enum that starts at byte `off` of a slot: no variant ends further away, and one does end there.  An
enum takes its tag and the fields of the variant (`place q 1`, `nexts`); `lin` counts bytes. -/
theorem C41_table {vss : List (List Ty)} {s off : Nat} (ho : off ≤ 32) (hs : 388 ≤ σ.size) (hn : lin (next (.enum vss) (0, off)) < 2 ^ 32) :
    (storageSize vss).Calls [off] σ (fun r σ' => ∃ n, r = [n] ∧ (∀ x, σ'.mem x ≠ σ.mem x → 260 ≤ x ∧ x < 388) ∧
      (∀ fs ∈ vss, lin (nexts fs (place (s, off) 1)) ≤ lin (s, off) + n) ∧
      (vss ≠ [] → ∃ fs ∈ vss, lin (nexts fs (place (s, off) 1)) = lin (s, off) + n)) := by
  refine (storageSize_spec hs).mono ?_
  rintro _ σ' ⟨rfl, ht⟩
  have key : ∀ s, furthest vss (place (s, off) 1) = lin (s, off) + enumSize vss (off % 32) := by
    intro s
    have := variantMax_eq vss (tag_tracks (p := (s, off)) (off := off % 32) ⟨ho, by omega, by simp only; omega⟩)
    have e := @place_one (s, off) ho
    unfold enumSize; omega
  rw [next_enum, lin_split, key 0] at hn
  rw [Nat.mod_eq_of_lt (by omega)]
  refine ⟨_, rfl, fun x hx => ?_, fun fs hfs => ?_, fun hne => ?_⟩
  · by_contra hc
    exact hx (ht.mem x hc)
  · obtain ⟨i, hi⟩ := List.getElem?_of_mem hfs
    rw [← key s]; exact le_furthest hi _
  · rw [← key s]
    exact furthest_mem (place (s, off) 1) hne fun fs _ => (nexts_Le fs (place_le (by omega))).lin

/-- An enum with variants of two and of forty bytes. -/
example : (storageSize [[.u8], [.u64, .u256]]).Calls [20] (storeO wsO 0) (fun r _ => r = [44]) := by
  refine (C41_table (vss := [[.u8], [.u64, .u256]]) (s := 3) (off := 20) (by omega) (by decide) (by decide +kernel)).mono ?_
  rintro _ σ' ⟨n, rfl, -, h1, h2⟩
  have e1 : lin (nexts [.u8] (place (3, 20) 1)) = 118 := by decide +kernel
  have e2 : lin (nexts [.u64, .u256] (place (3, 20) 1)) = 160 := by decide +kernel
  have h3 := h1 [.u64, .u256] (by simp)
  obtain ⟨fs, h4, h5⟩ := h2 (by simp)
  simp only [List.mem_cons, List.not_mem_nil, or_false] at h4
  rw [e2] at h3
  simp only [lin] at h3 h5
  rcases h4 with rfl | rfl
  · simp only [lin] at e1; rw [e1] at h5; omega
  · simp only [lin] at e2; rw [e2] at h5
    have : n = 44 := by omega
    rw [this]

/-! ### C59: what saving an object stores -/

/-- The type tag in the slot of an object: the hash of the type, with its bytes reversed. -/
def tagOf (T : Ty → Nat) (t : Ty) : Nat := bswap 8 (T t)

theorem tagOf_lt (T : Ty → Nat) (t : Ty) : tagOf T t < 2 ^ 64 := Nat.lt_of_lt_of_eq (bswap_lt 8 _) (by norm_num)

/-- Saving an object whose parts have slots of their own (`Spread`): the slots hold the object afterwards, and no other slot
changes.  `Storable` describes the types, `Small` the values: numbers are in range and addresses have 20 bytes.  Missing: stored
vectors that get shorter (`Grows`), for which `C59_false` shows that the call may trap. -/
theorem C59_partial {R : Nat → Prop} {fs : List Ty} {uid : Val} {vs : List Val} {w a ow : Nat} (hσ : Heap σ) (hst : Statics σ)
    (hfs : StorableFs fs) (hv : SmallFs fs vs) (ha : Cell a) (hin : a + 32 ≤ σ.nextFree) (hsafe : Safe σ R a)
    (hrep : Mv.Rep σ.mem R (.object (uidTy :: fs)) (.object ow (uid :: vs)) w) (hroom : Room σ (ecostFs fs vs))
    (hsp : Spread σ.host.keccak fs uid vs (beNat σ.mem a 32))
    (hgr : HeadsFs Grows σ.host.keccak σ.host.storage (idOf uid) fs vs (beNat σ.mem a 32, 8)) :
    (saveObject E T uidTy fs).Calls [w, a] σ (fun r σ' => r = [] ∧ Heap σ' ∧
      σ'.host = { σ.host with storage := σ'.host.storage } ∧
      Stored σ.host.keccak (tagOf T) σ'.host.storage fs uid vs (beNat σ.mem a 32) ∧
      (∀ x, Off (area σ.host.keccak fs uid vs (beNat σ.mem a 32)) x → σ'.host.storage x = σ.host.storage x) ∧
      Mv.Rep σ'.mem R (.object (uidTy :: fs)) (.object ow (uid :: vs)) w) := by
  obtain ⟨st', h1, h2, h3, h4⟩ := save_ok (tagOf_lt T) (tagOf_lt T (.object (uidTy :: fs))) hfs hv hsp hgr
  refine (saveObject_spec hfs hσ hst ha hin rfl hsafe hrep hroom h1).mono fun r σ' h => ?_
  have hs : σ'.host.storage = st'.view := by rw [h.2.2.1]
  have hl := h.2.1
  refine ⟨h.1, hl.heap, ?_, ⟨?_, ?_⟩, ?_, Rep.change (fun x hx => hl.safe hsafe hx) (fun _ h => h) _ hrep⟩
  · rw [hs]; exact h.2.2.1
  · rw [hs]; exact h2
  · rw [hs]; exact h3
  · rw [hs]; exact h4

theorem headsO {S : Nat → Nat} (h : S 8 = 0) : HeadsFs Blank hashO S (idOf uidO) fsO vsO (7, 8) := by
  simp [fsO, vsO, uidO, idOf, HeadsFs, Heads, HeadsVar, walk, next, place, width, Blank, h]

example : (saveObject E T uidTy fsO).Calls [600, 960] (storeO wsO 0) (fun _ σ' =>
    dig (σ'.host.storage 7) 8 1 = 5 ∧ σ'.host.storage 8 % 2 ^ 256 = 2 ∧ dig (σ'.host.storage 9) 1 2 = 772 ∧
    dig (σ'.host.storage 32000) 0 1 = 1 ∧ dig (σ'.host.storage 32000) 1 1 = 2 ∧ ∀ x, 32000 < x → σ'.host.storage x = 0) := by
  have hc := @cellO 0
  refine (C59_partial (E := E) (T := T) (storeO_heap 0 wsO_in) (storeO_statics 0 (by decide)) storableO smallO (Or.inr (by omega)) (by decide) safeO repO
    (storeO_room (by decide +kernel)) (by rw [hc]; exact spreadO)
    (by rw [hc]; exact HeadsFs.mono _ Blank.grows (headsO rfl))).mono fun r σ' h => ?_
  have h1 := h.2.2.2.1.fields
  have h2 := h.2.2.2.2.1
  rw [hc] at h1 h2
  have e : area (storeO wsO 0).host.keccak fsO uidO vsO 7 = [(7, 9), (32000, 32000)] := by decide +kernel
  rw [e] at h2
  simp [fsO, vsO, uidO, idOf, HoldsFs, Layout.Holds, HoldsVar, walk, next, place, width, elems, storeO, hostO, hashO] at h1
  obtain ⟨k1, ⟨k2, k3, k3'⟩, -, k4⟩ := h1
  refine ⟨k1, ?_, k4, k3, k3', fun x hx => ?_⟩
  · have := k2
    unfold dig at this
    norm_num at this
    norm_num
    exact this
  · exact h2 x fun g hg => by
      simp only [List.mem_cons, List.not_mem_nil, or_false] at hg
      rcases hg with rfl | rfl <;> simp only <;> omega

/-- The id of an object in the words of an example. -/
def wsId : List (Nat × Nat) := [(988, 7 * 2 ^ 24), (600, 640), (640, 644), (644, 660), (688, 9 * 2 ^ 24)]

theorem repId {f : Bytes} {fs : List Ty} {vs : List Val} (h0 : beNat f 568 32 = 0) (h1 : leNat f 600 4 = 640) (h2 : leNat f 640 4 = 644)
    (h3 : leNat f 644 4 = 660) (h4 : beNat f 660 32 = 9) (h : Mv.RepFs f (Between 500 900) fs vs 604) :
    Mv.Rep f (Between 500 900) (.object (uidTy :: fs)) (.object 0 (uidO :: vs)) 600 := by
  have hw : ∀ p n, 500 ≤ p → p + n ≤ 900 → Within (Between 500 900) p n := fun p n h1 h2 x h3 h4 => ⟨by omega, by omega⟩
  simp only [Mv.Rep]
  refine ⟨_, by omega, by rw [h0], hw _ _ (by omega) (by omega), ?_⟩
  simp only [uidTy, Mv.RepFs, Mv.Rep, Ty.scalar, Bool.false_eq_true, if_false, h1, h2, h3, h4]
  exact ⟨_, _, rfl, hw _ _ (by omega) (by omega), fun h => h.elim, ⟨_, rfl, _, _, rfl, hw _ _ (by omega) (by omega), fun h => h.elim,
    ⟨_, rfl, _, _, rfl, hw _ _ (by omega) (by omega), fun h => h.elim, ⟨rfl, hw _ _ (by omega) (by omega)⟩, rfl⟩, rfl⟩, h⟩

/-- An object with the empty vector. -/
def wsE : List (Nat × Nat) := wsId ++ [(604, 700)]

/-- Storage with a vector of length 1 in the object. -/
def storE (x : Nat) : Nat := if x = 8 then 1 else 0

/-- Saving an object may trap: emptying a stored vector of structs does. -/
theorem C59_false : ∃ (σ : Store) (R : Nat → Prop) (fs : List Ty) (uid : Val) (vs : List Val) (w a ow : Nat),
    Heap σ ∧ Statics σ ∧ StorableFs fs ∧ SmallFs fs vs ∧ Cell a ∧ a + 32 ≤ σ.nextFree ∧ Safe σ R a ∧
    Mv.Rep σ.mem R (.object (uidTy :: fs)) (.object ow (uid :: vs)) w ∧ Room σ (ecostFs fs vs) ∧
    Spread σ.host.keccak fs uid vs (beNat σ.mem a 32) ∧
    (saveObject E0 (fun _ => 5) uidTy fs).Traps [w, a] σ := by
  refine ⟨storeO wsE storE, Between 500 900, [.vec (.struct [.u8])], uidO, [.vec []], 600, 960, 0, storeO_heap _ (by decide), storeO_statics _ (by decide),
    ?_, ?_, Or.inr (by omega), by decide, ?_, ?_, storeO_room (by decide +kernel), ?_, traps_of_run 400 rfl (by decide +kernel)⟩
  · simp [StorableFs, Storable]
  · simp [SmallFs, Small]
  · intro x hx
    have h1 := hx.1; have h2 := hx.2
    exact ⟨by omega, by show x < 1000; omega, by omega⟩
  · show Mv.Rep (memO wsE) _ _ _ _
    refine repId (by decide +kernel) (by decide +kernel) (by decide +kernel) (by decide +kernel) (by decide +kernel) ?_
    have e1 : leNat (memO wsE) 604 4 = 700 := by decide +kernel
    have e2 : leNat (memO wsE) 700 4 = 0 := by decide +kernel
    have e3 : leNat (memO wsE) (700 + 4) 4 = 0 := by decide +kernel
    simp only [Mv.RepFs, Mv.Rep, Ty.scalar, Bool.false_eq_true, if_false, e1, e2, e3]
    exact ⟨_, _, rfl, fun x h1 h2 => ⟨by omega, by omega⟩, fun h => h.elim, ⟨[], rfl, rfl, by simp, fun x h1 h2 => ⟨by omega, by omega⟩,
      fun i hi => absurd hi (by simp)⟩, rfl⟩
  · have e : beNat (storeO wsE storE).mem 960 32 = 7 := by show beNat (memO wsE) 960 32 = 7; decide +kernel
    have e' : area (storeO wsE storE).host.keccak [.vec (.struct [.u8])] uidO [.vec []] 7 = [(7, 8)] := by decide +kernel
    rw [e]
    constructor <;> rw [e'] <;> simp

/-! ### C40: nothing survives in the slots of an object -/

/-- The store with other contents of storage. -/
def withS (σ : Store) (S : Nat → Nat) : Store := { σ with host := { σ.host with storage := S } }

theorem withS_heap {S : Nat → Nat} (h : Heap σ) : Heap (withS σ S) :=
  ⟨⟨h.ready.size, h.ready.size_lt, h.ready.noErr⟩,
   ⟨h.alloc.sum, h.alloc.page, h.alloc.first, h.alloc.limit, h.alloc.max, h.alloc.small⟩, h.base, h.fresh⟩

theorem withS_statics {S : Nat → Nat} (h : Statics σ) : Statics (withS σ S) := ⟨h.zero, h.one, h.objects, h.shared, h.frozen⟩

/-- After saving an object the words in all its slots are determined by the object, whatever storage contained before.
Missing: objects with vectors whose slots were not empty (`Blank`), for which `C40_false` shows that the claim fails. -/
theorem C40_partial {R : Nat → Prop} {fs : List Ty} {uid : Val} {vs : List Val} {w a ow : Nat} (hσ : Heap σ) (hst : Statics σ)
    (hfs : StorableFs fs) (hv : SmallFs fs vs) (ha : Cell a) (hin : a + 32 ≤ σ.nextFree) (hsafe : Safe σ R a)
    (hrep : Mv.Rep σ.mem R (.object (uidTy :: fs)) (.object ow (uid :: vs)) w) (hroom : Room σ (ecostFs fs vs))
    (hsp : Spread σ.host.keccak fs uid vs (beNat σ.mem a 32)) :
    ∃ W : Nat → Nat, ∀ S : Nat → Nat, HeadsFs Blank σ.host.keccak S (idOf uid) fs vs (beNat σ.mem a 32, 8) →
      (saveObject E T uidTy fs).Calls [w, a] (withS σ S) (fun r σ' => r = [] ∧
        ∀ x, ¬ Off (area σ.host.keccak fs uid vs (beNat σ.mem a 32)) x → σ'.host.storage x = W x) := by
  have hz : HeadsFs Blank σ.host.keccak (fun _ => 0) (idOf uid) fs vs (beNat σ.mem a 32, 8) := headsFs_zero fs
  have ok : ∀ S : Nat → Nat, HeadsFs Blank σ.host.keccak S (idOf uid) fs vs (beNat σ.mem a 32, 8) → _ := fun S hS =>
    save_ok (tagOf_lt T) (tagOf_lt T (.object (uidTy :: fs))) hfs hv hsp (HeadsFs.mono fs Blank.grows hS)
  obtain ⟨b, hb, -⟩ := ok _ hz
  refine ⟨b.view, fun S hS => ?_⟩
  obtain ⟨st', h1, -⟩ := ok S hS
  refine (saveObject_spec (σ := withS σ S) hfs (withS_heap hσ) (withS_statics hst) ha hin rfl hsafe hrep hroom h1).mono fun r σ' h => ?_
  refine ⟨h.1, fun x hx => ?_⟩
  have hs : σ'.host.storage = st'.view := by rw [h.2.2.1]
  rw [hs]
  exact save_same (tagOf_lt T) hfs hv hsp hS hz h1 hb x hx

/-- In particular, for types without vectors, there is no condition on storage. -/
theorem C40_noVec_partial {R : Nat → Prop} {fs : List Ty} {uid : Val} {vs : List Val} {w a ow : Nat} (hσ : Heap σ) (hst : Statics σ)
    (hfs : StorableFs fs) (hvec : noVecFs fs = true) (hv : SmallFs fs vs) (ha : Cell a) (hin : a + 32 ≤ σ.nextFree) (hsafe : Safe σ R a)
    (hrep : Mv.Rep σ.mem R (.object (uidTy :: fs)) (.object ow (uid :: vs)) w) (hroom : Room σ (ecostFs fs vs))
    (hsp : Spread σ.host.keccak fs uid vs (beNat σ.mem a 32)) :
    ∃ W : Nat → Nat, ∀ S : Nat → Nat, (saveObject E T uidTy fs).Calls [w, a] (withS σ S) (fun r σ' => r = [] ∧
        ∀ x, ¬ Off (area σ.host.keccak fs uid vs (beNat σ.mem a 32)) x → σ'.host.storage x = W x) := by
  obtain ⟨W, h⟩ := C40_partial (E := E) (T := T) hσ hst hfs hv ha hin hsafe hrep hroom hsp
  exact ⟨W, fun S => h S (headsFs_noVec fs hvec)⟩

example : ∃ W : Nat → Nat, ∀ S : Nat → Nat, S 8 = 0 → (saveObject E T uidTy fsO).Calls [600, 960] (withS (storeO wsO 0) S) (fun _ σ' =>
    σ'.host.storage 7 = W 7 ∧ σ'.host.storage 9 = W 9 ∧ σ'.host.storage 32000 = W 32000) := by
  have hc := @cellO 0
  obtain ⟨W, h⟩ := C40_partial (E := E) (T := T) (storeO_heap 0 wsO_in) (storeO_statics 0 (by decide)) storableO smallO (Or.inr (by omega))
    (by decide) safeO repO (storeO_room (by decide +kernel)) (by rw [hc]; exact spreadO)
  refine ⟨W, fun S hS => (h S (by rw [hc]; exact headsO hS)).mono fun r σ' h => ?_⟩
  have e : area (storeO wsO 0).host.keccak fsO uidO vsO 7 = [(7, 9), (32000, 32000)] := by decide +kernel
  have h := h.2
  rw [hc, e] at h
  exact ⟨h 7 fun h => h (7, 9) (by simp) (by simp), h 9 fun h => h (7, 9) (by simp) (by simp),
    h 32000 fun h => h (32000, 32000) (by simp) (by simp)⟩

/-- An object with the variant `1 ([1]: vector<u8>)`. -/
def wsG : List (Nat × Nat) := wsId ++ [(604, 700), (700, 1), (704, 720), (720, 1), (724, 1), (728, 1)]

def fsG : List Ty := [.enum [[.u256], [.vec .u8]]]

/-- Storage with the variant `0 (2^40)` in the object. -/
def storG (x : Nat) : Nat := if x = 7 then tagOf (fun _ => 5) (.object (uidTy :: fsG)) else if x = 8 then 1099511627776 else 0

/-- Earlier contents can survive: a vector in the place of a number of another variant. -/
theorem C40_false : ∃ (σ : Store) (R : Nat → Prop) (fs : List Ty) (uid : Val) (old vs : List Val) (w a ow x : Nat),
    Heap σ ∧ Statics σ ∧ StorableFs fs ∧ SmallFs fs vs ∧ Cell a ∧ a + 32 ≤ σ.nextFree ∧ Safe σ R a ∧
    Mv.Rep σ.mem R (.object (uidTy :: fs)) (.object ow (uid :: vs)) w ∧ Room σ (ecostFs fs vs) ∧
    Spread σ.host.keccak fs uid vs (beNat σ.mem a 32) ∧
    Stored σ.host.keccak (tagOf fun _ => 5) σ.host.storage fs uid old (beNat σ.mem a 32) ∧
    ¬ Off (area σ.host.keccak fs uid vs (beNat σ.mem a 32)) x ∧
    (saveObject E0 (fun _ => 5) uidTy fs).Calls [w, a] σ (fun _ σ' => σ'.host.storage x = 1099511627776 + 1) ∧
    (saveObject E0 (fun _ => 5) uidTy fs).Calls [w, a] (withS σ 0) (fun _ σ' => σ'.host.storage x = 1) := by
  have e : beNat (storeO wsG storG).mem 960 32 = 7 := by show beNat (memO wsG) 960 32 = 7; decide +kernel
  have e' : area (storeO wsG storG).host.keccak fsG uidO [.variant 1 [.vec [.num 1]]] 7 = [(7, 9), (32000, 32000)] := by decide +kernel
  refine ⟨storeO wsG storG, Between 500 900, fsG, uidO, [.variant 0 [.num (1099511627776)]], [.variant 1 [.vec [.num 1]]], 600, 960, 0, 32000,
    storeO_heap _ (by decide), storeO_statics _ (by decide),
    ?_, ?_, Or.inr (by omega), by decide, ?_, ?_, storeO_room (by decide +kernel), ?_, ?_, ?_, ?_, ?_⟩
  · simp only [fsG, StorableFs, Storable, StorableVs, true_and, and_true]
    refine ⟨by simp, fun i hi => ?_⟩
    revert i
    decide +kernel
  · simp [fsG, SmallFs, Small, SmallVar, atom, width]
  · intro x hx
    have h1 := hx.1; have h2 := hx.2
    exact ⟨by omega, by show x < 1000; omega, by omega⟩
  · show Mv.Rep (memO wsG) _ _ _ _
    refine repId (by decide +kernel) (by decide +kernel) (by decide +kernel) (by decide +kernel) (by decide +kernel) ?_
    have e1 : leNat (memO wsG) 604 4 = 700 := by decide +kernel
    have e2 : leNat (memO wsG) 700 4 = 1 := by decide +kernel
    have e3 : leNat (memO wsG) (700 + 4) 4 = 720 := by decide +kernel
    have e4 : leNat (memO wsG) 720 4 = 1 := by decide +kernel
    have e5 : leNat (memO wsG) (720 + 4) 4 = 1 := by decide +kernel
    have hw : ∀ p n, 500 ≤ p → p + n ≤ 900 → Within (Between 500 900) p n := fun p n h1 h2 x h3 h4 => ⟨by omega, by omega⟩
    simp only [fsG, Mv.RepFs, Mv.Rep, Ty.scalar, Bool.false_eq_true, if_false, e1, e2]
    refine ⟨_, _, rfl, hw _ _ (by omega) (by omega), fun h => h.elim, ⟨_, rfl, hw _ _ (by omega) (by omega), ?_⟩, rfl⟩
    simp only [Mv.RepVar, Mv.RepFs, Mv.Rep, Ty.scalar, Bool.false_eq_true, if_false, e3, e4, e5]
    refine ⟨_, _, rfl, hw _ _ (by omega) (by omega), fun h => h.elim, ⟨_, rfl, rfl, by simp, hw _ _ (by omega) (by simp [Ty.size]), fun i hi => ?_⟩, rfl⟩
    match i, hi with
    | 0, _ => rw [show leNat (memO wsG) (720 + 8 + 0 * Ty.u8.size) Ty.u8.size = 1 by decide +kernel]; exact ⟨rfl, by omega⟩
  · rw [e]
    constructor <;> rw [e'] <;> simp [Layout.Apart]
  · rw [e]
    constructor
    · decide +kernel
    · simp only [fsG, HoldsFs, Layout.Holds, HoldsVar, and_true]
      exact ⟨by decide +kernel, by decide +kernel⟩
  · rw [e, e']
    exact fun h => h (32000, 32000) (by simp) (by simp)
  · exact (calls_of_obs 1000 (fun σ' => σ'.host.storage 32000) [] 1099511627777 rfl (by decide +kernel)).mono fun _ _ h => h.2
  · exact (calls_of_obs 1000 (fun σ' => σ'.host.storage 32000) [] 1 rfl (by decide +kernel)).mono fun _ _ h => h.2

end Props
