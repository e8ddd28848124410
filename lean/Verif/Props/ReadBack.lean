import Verif.Proof.StorageDec9
import Verif.Props.Storage

/-!
# Reading objects from storage: C38, C39

The hash function of the host is arbitrary.
-/

namespace Props
open Wasm Rt Slots Mv Layout

variable {σ σ' : Store} {E : ErrPtrs} {T : Ty → Nat}

/-- The state in which an object is read: the cell at `a` contains the slot, the 32 bytes at `id` are the id of the object, the
32 bytes at `ow` its owner, and there is memory for the object. -/
structure Reader (σ : Store) (a id ow slot n : Nat) (fs : List Ty) (vs : List Val) : Prop where
  heap : Heap σ
  statics : Statics σ
  cell : Cell a
  inside : a + 32 ≤ σ.nextFree
  slot : beNat σ.mem a 32 = slot
  safe : Safe σ (Between id (id + 32)) a
  id : beNat σ.mem id 32 = n
  owner : ow + 32 ≤ σ.nextFree
  room : Room σ (48 + 4 * fs.length + dcostFs fs vs)
  edge : narrowFs fs = true → σ.nextFree + (48 + 4 * fs.length + dcostFs fs vs) + 3 ≤ σ.size

/-- The call has returned the object: a new value in memory, with the given owner, id and fields.  The owners of objects in the
fields are not part of the comparison (`eraseL`). -/
def Returned (σ σ' : Store) (r : List Nat) (id ow : Nat) (fs : List Ty) (uid : Val) (vs : List Val) : Prop :=
  ∃ w vs', r = [w] ∧ Heap σ' ∧ σ'.host = σ.host ∧ eraseL vs' = eraseL vs ∧
    Mv.Rep σ'.mem (fun x => Between id (id + 32) x ∨ σ.nextFree ≤ x ∧ x < σ'.nextFree) (.object (uidTy :: fs)) (.object (beNat σ.mem ow 32) (uid :: vs')) w

/-- Reading an object that storage holds. -/
theorem read_stored {fs : List Ty} {uid : Val} {vs : List Val} {a id ow slot : Nat} (hT : Tags T) (hfs : StorableFs fs) (hty : TypedFs fs vs)
    (huid : ∃ n, uid = .struct [.struct [.num n]]) (hf : freshFs fs vs (slot, 8) true ≠ none)
    (hs : Stored σ.host.keccak (tagOf T) σ.host.storage fs uid vs slot)
    (hseg : ∀ g ∈ area σ.host.keccak fs uid vs slot, g.2 < 2 ^ 256) (h : Reader σ a id ow slot (idOf uid) fs vs) :
    (readObject E T uidTy fs).Calls [a, id, ow] σ (fun r σ' => Returned σ σ' r id ow fs uid vs) := by
  obtain ⟨n, rfl⟩ := huid
  obtain ⟨b', hf⟩ := Option.ne_none_iff_exists'.mp hf
  refine (readObject_spec (d := narrowFs fs) hT hfs h.heap h.statics h.cell h.inside h.slot h.safe h.id h.owner hs hty hf
    ⟨h.room, h.edge⟩ (fun h => h) hseg).mono ?_
  rintro r σ' ⟨w, vs', c', rfl, hl, hh, hr, he⟩
  refine ⟨w, vs', rfl, hl.heap, hh, he, Rep.change (fun _ _ => rfl) (fun x hx => ?_) _ hr⟩
  rcases hx with hx | hx
  · exact .inl hx
  · exact .inr ⟨hx.1, hx.2.1⟩

theorem rep_uid {f : Bytes} {R : Nat → Prop} {fs : List Ty} {uid : Val} {vs : List Val} {ow w : Nat} (hfs : StorableFs fs)
    (h : Mv.Rep f R (.object (uidTy :: fs)) (.object ow (uid :: vs)) w) : (∃ n, uid = .struct [.struct [.num n]]) ∧ TypedFs fs vs := by
  simp only [Mv.Rep] at h
  obtain ⟨vs0, -, e, -, h⟩ := h
  obtain ⟨uid', vs', p1, p2, p, rfl, hu, h'⟩ := uid_rep h
  simp only [Val.object.injEq, List.cons.injEq] at e
  obtain ⟨-, rfl, rfl⟩ := e
  exact ⟨⟨_, hu.uid⟩, rep_typedFs fs hfs h'⟩

/-! ### C39: objects are read back unchanged -/

/-- An object that has been saved is read back unchanged, in the same or a later transaction: in any state whose storage has the
same words in the slots of the object.  Missing: types and values for which the code takes a field behind an enum from the wrong
slot (`freshFs`, `C39_false`), addresses of more than 20 bytes (`SmallFs`, `C38_false`), and saves that trap (`Grows`, `C59_false`). -/
theorem C39_partial {R : Nat → Prop} {fs : List Ty} {uid : Val} {vs : List Val} {w a ow : Nat} (hσ : Heap σ) (hst : Statics σ)
    (hT : Tags T) (hfs : StorableFs fs) (hv : SmallFs fs vs) (ha : Cell a) (hin : a + 32 ≤ σ.nextFree) (hsafe : Safe σ R a)
    (hrep : Mv.Rep σ.mem R (.object (uidTy :: fs)) (.object ow (uid :: vs)) w) (hroom : Room σ (ecostFs fs vs))
    (hsp : Spread σ.host.keccak fs uid vs (beNat σ.mem a 32))
    (hgr : HeadsFs Grows σ.host.keccak σ.host.storage (idOf uid) fs vs (beNat σ.mem a 32, 8))
    (hfresh : freshFs fs vs (beNat σ.mem a 32, 8) true ≠ none) :
    (saveObject E T uidTy fs).Calls [w, a] σ (fun r σ1 => r = [] ∧
      ∀ (σ2 : Store) (a2 id2 ow2 : Nat), σ2.host.keccak = σ.host.keccak →
        (∀ x, ¬ Off (area σ.host.keccak fs uid vs (beNat σ.mem a 32)) x → σ2.host.storage x = σ1.host.storage x) →
        Reader σ2 a2 id2 ow2 (beNat σ.mem a 32) (idOf uid) fs vs →
        (readObject E T uidTy fs).Calls [a2, id2, ow2] σ2 (fun r σ' => Returned σ2 σ' r id2 ow2 fs uid vs)) := by
  obtain ⟨hu, hty⟩ := rep_uid hfs hrep
  refine (C59_partial (E := E) (T := T) hσ hst hfs hv ha hin hsafe hrep hroom hsp hgr).mono fun r σ1 h => ⟨h.1, fun σ2 a2 id2 ow2 hk hS hr => ?_⟩
  refine read_stored hT hfs hty hu hfresh ?_ (by rw [hk]; exact hsp.lt) hr
  rw [hk]
  exact h.2.2.2.1.congr hS

theorem tags5 : Tags (fun _ => 5) := fun _ => ⟨by show 0 < 5; omega, by show 5 < _; norm_num⟩

theorem readerO {ws : List (Nat × Nat)} {S : Nat → Nat} {fs : List Ty} {vs : List Val} (h : ∀ a ∈ ws, 468 ≤ a.1 ∧ a.1 + 4 ≤ 1000)
    (h1 : beNat (memO ws) 960 32 = 7) (h2 : beNat (memO ws) 660 32 = 9) (hc : 48 + 4 * fs.length + dcostFs fs vs ≤ 10000) :
    Reader (storeO ws S) 960 660 568 7 (idOf uidO) fs vs :=
  ⟨storeO_heap S h, storeO_statics S fun a ha => (h a ha).1, Or.inr (by omega), by show 960 + 32 ≤ 1000; omega, h1,
    fun x hx => ⟨by have := hx.1; omega, by show x < 1000; have := hx.2; omega, by have := hx.2; omega⟩, h2, by show 568 + 32 ≤ 1000; omega,
    storeO_room (by omega), fun _ => by show 1000 + _ + 3 ≤ 65536; omega⟩

example : (saveObject E (fun _ => 5) uidTy fsO).Calls [600, 960] (storeO wsO 0) (fun _ σ1 =>
    (readObject E (fun _ => 5) uidTy fsO).Calls [960, 660, 568] (storeO wsO σ1.host.storage) (fun r σ' => ∃ w, r = [w] ∧
      leNat σ'.mem (leNat σ'.mem (w + 4) 4) 1 = 5)) := by
  have hc := @cellO 0
  refine (C39_partial (E := E) (T := fun _ => 5) (storeO_heap 0 wsO_in) (storeO_statics 0 (by decide)) tags5 storableO smallO (Or.inr (by omega))
    (by decide) safeO repO (storeO_room (by decide +kernel)) (by rw [hc]; exact spreadO)
    (by rw [hc]; exact HeadsFs.mono _ Blank.grows (headsO rfl)) (by rw [hc]; decide +kernel)).mono fun r σ1 h => ?_
  rw [hc] at h
  refine (h.2 (storeO wsO σ1.host.storage) 960 660 568 rfl (fun _ _ => rfl) (readerO wsO_in (by decide +kernel) (by decide +kernel) (by decide +kernel))).mono ?_
  rintro _ σ' ⟨w, vs', rfl, -, -, he, hr⟩
  refine ⟨w, rfl, ?_⟩
  simp only [Mv.Rep, Mv.RepFs, fsO, Ty.scalar, if_true] at hr
  obtain ⟨_, -, e, -, _, _, rfl, -, -, -, _, _, rfl, -, -, ⟨rfl, -⟩, -⟩ := hr
  simp only [Val.object.injEq, List.cons.injEq] at e
  obtain ⟨-, -, rfl⟩ := e
  simp [vsO, eraseL, Val.erase, Ty.size] at he
  exact he.1

/-! ### C38: objects without enums are read back unchanged -/

/-- For types without enums there is no condition on the layout.  Missing: addresses of more than 20 bytes (`SmallFs`,
`C38_false`), and saves that trap (`Grows`, `C59_false`). -/
theorem C38_partial {R : Nat → Prop} {fs : List Ty} {uid : Val} {vs : List Val} {w a ow : Nat} (hσ : Heap σ) (hst : Statics σ)
    (hT : Tags T) (hfs : StorableFs fs) (hne : noEnumFs fs = true) (hv : SmallFs fs vs) (ha : Cell a) (hin : a + 32 ≤ σ.nextFree) (hsafe : Safe σ R a)
    (hrep : Mv.Rep σ.mem R (.object (uidTy :: fs)) (.object ow (uid :: vs)) w) (hroom : Room σ (ecostFs fs vs))
    (hsp : Spread σ.host.keccak fs uid vs (beNat σ.mem a 32))
    (hgr : HeadsFs Grows σ.host.keccak σ.host.storage (idOf uid) fs vs (beNat σ.mem a 32, 8)) :
    (saveObject E T uidTy fs).Calls [w, a] σ (fun r σ1 => r = [] ∧
      ∀ (σ2 : Store) (a2 id2 ow2 : Nat), σ2.host.keccak = σ.host.keccak →
        (∀ x, ¬ Off (area σ.host.keccak fs uid vs (beNat σ.mem a 32)) x → σ2.host.storage x = σ1.host.storage x) →
        Reader σ2 a2 id2 ow2 (beNat σ.mem a 32) (idOf uid) fs vs →
        (readObject E T uidTy fs).Calls [a2, id2, ow2] σ2 (fun r σ' => Returned σ2 σ' r id2 ow2 fs uid vs)) := by
  refine C39_partial hσ hst hT hfs hv ha hin hsafe hrep hroom hsp hgr ?_
  obtain ⟨-, hty⟩ := rep_uid hfs hrep
  obtain ⟨b', hb, -⟩ := fresh_okFs fs hne hty (p := (beNat σ.mem a 32, 8)) (b := true) ⟨by simp, .inl rfl⟩
  rw [hb]; simp

/-- An object with a field `5: u8`. -/
def wsN : List (Nat × Nat) := wsId ++ [(604, 700), (700, 5)]

theorem repN : Mv.Rep (memO wsN) (Between 500 900) (.object (uidTy :: [.u8])) (.object 0 (uidO :: [.num 5])) 600 := by
  refine repId (by decide +kernel) (by decide +kernel) (by decide +kernel) (by decide +kernel) (by decide +kernel) ?_
  have e1 : leNat (memO wsN) 604 4 = 700 := by decide +kernel
  have e2 : leNat (memO wsN) 700 1 = 5 := by decide +kernel
  have hw : ∀ p n, 500 ≤ p → p + n ≤ 900 → Within (Between 500 900) p n := fun p n h1 h2 x h3 h4 => ⟨by omega, by omega⟩
  simp only [Mv.RepFs, Mv.Rep, Ty.scalar, if_true, e1, Ty.size, e2]
  exact ⟨_, _, rfl, hw _ _ (by omega) (by omega), fun _ => hw _ _ (by omega) (by omega), ⟨rfl, by omega⟩, rfl⟩

theorem safeN {ws : List (Nat × Nat)} {S : Nat → Nat} {a : Nat} (ha : 900 ≤ a) : Safe (storeO ws S) (Between 500 900) a := fun x hx => by
  have h1 := hx.1; have h2 := hx.2
  exact ⟨by omega, by show x < 1000; omega, by omega⟩

example : (saveObject E (fun _ => 5) uidTy [.u8]).Calls [600, 960] (storeO wsN 0) (fun _ σ1 =>
    (readObject E (fun _ => 5) uidTy [.u8]).Calls [960, 660, 568] (storeO wsN σ1.host.storage) (fun r σ' => ∃ w, r = [w] ∧
      leNat σ'.mem (leNat σ'.mem (w + 4) 4) 1 = 5)) := by
  have hc : beNat (storeO wsN 0).mem 960 32 = 7 := by show beNat (memO wsN) 960 32 = 7; decide +kernel
  have e' : area (storeO wsN 0).host.keccak [.u8] uidO [.num 5] 7 = [(7, 7)] := by decide +kernel
  refine (C38_partial (E := E) (T := fun _ => 5) (storeO_heap 0 (by decide)) (storeO_statics 0 (by decide)) tags5 (by simp [StorableFs, Storable]) rfl
    (vs := [.num 5]) (uid := uidO) (by simp [SmallFs, Small, atom, width]) (Or.inr (by omega)) (by decide) (safeN (by omega)) repN (storeO_room (by decide +kernel))
    (by rw [hc]; constructor <;> rw [e'] <;> simp) (by simp [HeadsFs, Heads])).mono fun r σ1 h => ?_
  rw [hc] at h
  refine (h.2 (storeO wsN σ1.host.storage) 960 660 568 rfl (fun _ _ => rfl) (readerO (by decide) (by decide +kernel) (by decide +kernel) (by decide +kernel))).mono ?_
  rintro _ σ' ⟨w, vs', rfl, -, -, he, hr⟩
  refine ⟨w, rfl, ?_⟩
  simp only [Mv.Rep, Mv.RepFs, Ty.scalar, if_true] at hr
  obtain ⟨_, -, e, -, _, _, rfl, -, -, -, _, _, rfl, -, -, ⟨rfl, -⟩, rfl⟩ := hr
  simp only [Val.object.injEq, List.cons.injEq] at e
  obtain ⟨-, -, rfl⟩ := e
  simpa [eraseL, Val.erase, Ty.size] using he

/-! ### Counterexamples -/

/-- Two calls, the second one in the state the first one leaves behind. -/
theorem calls_twice {α : Type} {f g : Fn} {as bs : List Nat} (n : Nat) (obs : List Nat → Store → α) (x : α) (ha : as.length = f.na)
    (hb : bs.length = g.na)
    (h : (match run n [f.call] as.reverse [] σ with
      | .ok r1 l σ1 => some (r1, l, match run n [g.call] bs.reverse [] σ1 with
        | .ok r l σ2 => some (l, obs r σ2)
        | _ => none)
      | _ => none) = some ([], [], some ([], x))) :
    f.Calls as σ (fun r σ1 => r = [] ∧ g.Calls bs σ1 (fun r σ2 => obs r σ2 = x)) := by
  refine (calls_of_obs n _ _ _ ha h).mono fun r σ1 h1 => ⟨h1.1, Fn.Calls.of_run n hb ?_⟩
  have h := h1.2
  revert h
  generalize run n [g.call] bs.reverse [] σ1 = y
  intro h
  cases y <;> simp at h
  obtain ⟨rfl, rfl⟩ := h
  rfl

/-- An object with an `ID` field, of value `2^160 + 9`; cells with slot 7 at 904 and 960. -/
def wsI : List (Nat × Nat) := wsId ++ [(604, 700), (700, 720), (728, 16777216), (748, 150994944), (932, 117440512)]

/-- Objects without enums are not always read back unchanged: an `ID` in a field loses all but 20 bytes. -/
theorem C38_false : ∃ (σ : Store) (R : Nat → Prop) (fs : List Ty) (uid : Val) (vs : List Val) (w a a2 id ow : Nat),
    Heap σ ∧ Statics σ ∧ StorableFs fs ∧ noEnumFs fs = true ∧ Cell a ∧ a + 32 ≤ σ.nextFree ∧ Safe σ R a ∧ Safe σ R a2 ∧ Cell a2 ∧
    Mv.Rep σ.mem R (.object (uidTy :: fs)) (.object ow (uid :: vs)) w ∧ Room σ (ecostFs fs vs) ∧
    Spread σ.host.keccak fs uid vs (beNat σ.mem a 32) ∧ Reader σ a2 id 568 (beNat σ.mem a 32) (idOf uid) fs vs ∧
    (saveObject E0 (fun _ => 5) uidTy fs).Calls [w, a] σ (fun _ σ1 => (readObject E0 (fun _ => 5) uidTy fs).Calls [a2, id, 568] σ1 (fun r σ2 =>
      ¬ ∃ R' w' ow' vs', r = [w'] ∧ Mv.Rep σ2.mem R' (.object (uidTy :: fs)) (.object ow' (uid :: vs')) w' ∧ eraseL vs' = eraseL vs)) := by
  have e : beNat (storeO wsI 0).mem 960 32 = 7 := by show beNat (memO wsI) 960 32 = 7; decide +kernel
  refine ⟨storeO wsI 0, Between 500 900, [.struct [.address]], uidO, [.struct [.num 1461501637330902918203684832716283019655932542985]], 600, 960, 904, 660, 0,
    storeO_heap _ (by decide), storeO_statics _ (by decide), ?_, rfl, Or.inr (by omega), by decide, safeN (by omega), safeN (by omega), Or.inr (by omega), ?_,
    storeO_room (by decide +kernel), ?_, ?_, ?_⟩
  · simp [StorableFs, Storable]
  · show Mv.Rep (memO wsI) _ _ _ _
    refine repId (by decide +kernel) (by decide +kernel) (by decide +kernel) (by decide +kernel) (by decide +kernel) ?_
    have e1 : leNat (memO wsI) 604 4 = 700 := by decide +kernel
    have e2 : leNat (memO wsI) 700 4 = 720 := by decide +kernel
    have e3 : beNat (memO wsI) 720 32 = 1461501637330902918203684832716283019655932542985 := by decide +kernel
    have hw : ∀ p n, 500 ≤ p → p + n ≤ 900 → Within (Between 500 900) p n := fun p n h1 h2 x h3 h4 => ⟨by omega, by omega⟩
    simp only [Mv.RepFs, Mv.Rep, Ty.scalar, Bool.false_eq_true, if_false, e1, e2, e3]
    exact ⟨_, _, rfl, hw _ _ (by omega) (by omega), fun h => h.elim, ⟨_, rfl, _, _, rfl, hw _ _ (by omega) (by omega), fun h => h.elim,
      ⟨rfl, hw _ _ (by omega) (by omega)⟩, rfl⟩, rfl⟩
  · have e' : area (storeO wsI 0).host.keccak [.struct [.address]] uidO [.struct [.num 1461501637330902918203684832716283019655932542985]] 7 = [(7, 7)] := by decide +kernel
    rw [e]
    constructor <;> rw [e'] <;> simp
  · rw [e]
    exact ⟨storeO_heap _ (by decide), storeO_statics _ (by decide), Or.inr (by omega), by decide, by show beNat (memO wsI) 904 32 = 7; decide +kernel,
      fun x hx => ⟨by have := hx.1; omega, by show x < 1000; have := hx.2; omega, by have := hx.2; omega⟩,
      by show beNat (memO wsI) 660 32 = 9; decide +kernel, by decide, storeO_room (by decide +kernel), fun _ => by decide +kernel⟩
  · refine (calls_twice 1000 (fun r σ2 => beNat σ2.mem (leNat σ2.mem (leNat σ2.mem (r.headD 0 + 4) 4) 4) 32 :: r) [9, 1032] rfl rfl
      (by decide +kernel)).mono fun _ _ h => h.2.mono fun r σ2 h => ?_
    rintro ⟨R', w', ow', vs', rfl, hr, he⟩
    simp only [Mv.Rep, Mv.RepFs, Ty.scalar, Bool.false_eq_true, if_false] at hr
    obtain ⟨_, -, e, -, _, _, rfl, -, -, -, _, _, rfl, -, -, ⟨_, rfl, _, _, rfl, -, -, ⟨rfl, -⟩, rfl⟩, rfl⟩ := hr
    simp only [Val.object.injEq, List.cons.injEq] at e
    obtain ⟨-, -, rfl⟩ := e
    simp [eraseL, Val.erase] at he
    simp at h
    rw [he] at h
    simp at h

/-- An object with the fields `1: address`, `2: u16`, `3: u8`, the variant 1 of an enum with two variants without fields, and
`77: u8`; cells with slot 7 at 904 and 960. -/
def wsS : List (Nat × Nat) := wsId ++ [(604, 720), (748, 16777216), (608, 760), (760, 2), (612, 764), (764, 3), (616, 768), (768, 1),
  (620, 772), (772, 77), (932, 117440512)]

def fsS : List Ty := [.address, .u16, .u8, .enum [[], []], .u8]
def vsS : List Val := [.num 1, .num 2, .num 3, .variant 1 [], .num 77]

/-- Objects with enums are not always read back unchanged, here the field behind an enum that ends at the end of a slot. -/
theorem C39_false : ∃ (σ : Store) (R : Nat → Prop) (fs : List Ty) (uid : Val) (vs : List Val) (w a a2 id ow : Nat),
    Heap σ ∧ Statics σ ∧ StorableFs fs ∧ SmallFs fs vs ∧ Cell a ∧ a + 32 ≤ σ.nextFree ∧ Safe σ R a ∧ Safe σ R a2 ∧ Cell a2 ∧
    Mv.Rep σ.mem R (.object (uidTy :: fs)) (.object ow (uid :: vs)) w ∧ Room σ (ecostFs fs vs) ∧
    Spread σ.host.keccak fs uid vs (beNat σ.mem a 32) ∧ Reader σ a2 id 568 (beNat σ.mem a 32) (idOf uid) fs vs ∧
    (saveObject E0 (fun _ => 5) uidTy fs).Calls [w, a] σ (fun _ σ1 => (readObject E0 (fun _ => 5) uidTy fs).Calls [a2, id, 568] σ1 (fun r σ2 =>
      ¬ ∃ R' w' ow' vs', r = [w'] ∧ Mv.Rep σ2.mem R' (.object (uidTy :: fs)) (.object ow' (uid :: vs')) w' ∧ eraseL vs' = eraseL vs)) := by
  have e : beNat (storeO wsS 0).mem 960 32 = 7 := by show beNat (memO wsS) 960 32 = 7; decide +kernel
  refine ⟨storeO wsS 0, Between 500 900, fsS, uidO, vsS, 600, 960, 904, 660, 0,
    storeO_heap _ (by decide), storeO_statics _ (by decide), ?_, ?_, Or.inr (by omega), by decide, safeN (by omega), safeN (by omega), Or.inr (by omega), ?_,
    storeO_room (by decide +kernel), ?_, ?_, ?_⟩
  · simp only [fsS, StorableFs, Storable, StorableVs, true_and, and_true]
    refine ⟨by simp, fun i hi => ?_⟩
    revert i
    decide +kernel
  · simp [fsS, vsS, SmallFs, Small, SmallVar, atom, width]
  · show Mv.Rep (memO wsS) _ _ _ _
    refine repId (by decide +kernel) (by decide +kernel) (by decide +kernel) (by decide +kernel) (by decide +kernel) ?_
    have e1 : leNat (memO wsS) 604 4 = 720 := by decide +kernel
    have e2 : beNat (memO wsS) 720 32 = 1 := by decide +kernel
    have e3 : leNat (memO wsS) (604 + 4) 4 = 760 := by decide +kernel
    have e4 : leNat (memO wsS) 760 2 = 2 := by decide +kernel
    have e5 : leNat (memO wsS) (604 + 4 + 4) 4 = 764 := by decide +kernel
    have e6 : leNat (memO wsS) 764 1 = 3 := by decide +kernel
    have e7 : leNat (memO wsS) (604 + 4 + 4 + 4) 4 = 768 := by decide +kernel
    have e8 : leNat (memO wsS) 768 4 = 1 := by decide +kernel
    have e9 : leNat (memO wsS) (604 + 4 + 4 + 4 + 4) 4 = 772 := by decide +kernel
    have e10 : leNat (memO wsS) 772 1 = 77 := by decide +kernel
    have hw : ∀ p n, 500 ≤ p → p + n ≤ 900 → Within (Between 500 900) p n := fun p n h1 h2 x h3 h4 => ⟨by omega, by omega⟩
    simp only [fsS, vsS, Mv.RepFs, Mv.Rep, Mv.RepVar, Ty.scalar, Bool.false_eq_true, if_false, if_true, Ty.size, e1, e2, e3, e4, e5, e6, e7, e8, e9, e10]
    exact ⟨_, _, rfl, hw _ _ (by omega) (by omega), fun h => h.elim, ⟨rfl, hw _ _ (by omega) (by omega)⟩,
      _, _, rfl, hw _ _ (by omega) (by omega), fun _ => hw _ _ (by omega) (by omega), ⟨rfl, by omega⟩,
      _, _, rfl, hw _ _ (by omega) (by omega), fun _ => hw _ _ (by omega) (by omega), ⟨rfl, by omega⟩,
      _, _, rfl, hw _ _ (by omega) (by omega), fun h => h.elim, ⟨_, rfl, hw _ _ (by omega) (by omega), rfl⟩,
      _, _, rfl, hw _ _ (by omega) (by omega), fun _ => hw _ _ (by omega) (by omega), ⟨rfl, by omega⟩, rfl⟩
  · have e' : area (storeO wsS 0).host.keccak fsS uidO vsS 7 = [(7, 8)] := by decide +kernel
    rw [e]
    constructor <;> rw [e'] <;> simp
  · rw [e]
    exact ⟨storeO_heap _ (by decide), storeO_statics _ (by decide), Or.inr (by omega), by decide, by show beNat (memO wsS) 904 32 = 7; decide +kernel,
      fun x hx => ⟨by have := hx.1; omega, by show x < 1000; have := hx.2; omega, by have := hx.2; omega⟩,
      by show beNat (memO wsS) 660 32 = 9; decide +kernel, by decide, storeO_room (by decide +kernel), fun _ => by decide +kernel⟩
  · refine (calls_twice 1000 (fun r σ2 => leNat σ2.mem (leNat σ2.mem (r.headD 0 + 4 + 4 + 4 + 4 + 4) 4) 1 :: r) [0, 1100] rfl rfl
      (by decide +kernel)).mono fun _ _ h => h.2.mono fun r σ2 h => ?_
    rintro ⟨R', w', ow', vs', rfl, hr, he⟩
    simp only [fsS, Mv.Rep, Mv.RepFs, Ty.scalar, Bool.false_eq_true, if_false, if_true] at hr
    obtain ⟨_, -, e, -, _, _, rfl, -, -, -, _, _, rfl, -, -, -, _, _, rfl, -, -, -, _, _, rfl, -, -, -, _, _, rfl, -, -, -, _, _, rfl, -, -, ⟨rfl, -⟩, rfl⟩ := hr
    simp only [Val.object.injEq, List.cons.injEq] at e
    obtain ⟨-, -, rfl⟩ := e
    simp [vsS, eraseL, Val.erase, Ty.size] at he
    simp at h
    omega

end Props
