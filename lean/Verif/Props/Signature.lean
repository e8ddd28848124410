import Verif.Proof.Signature
import Verif.Props.Slots

/-!
# Checks on public functions: C46, C47, C56
-/

namespace Props
open Wasm Rt Sig Slots

variable {σ σ' : Store} {E : ErrPtrs}

/-! ### C47: signers in signatures -/

/-- The claim is false: a reference to a signer is accepted at any position.  For such a signature fewer
values are pushed than the function has arguments, so the emitted call is not valid. -/
theorem C47_false : ∃ ts : List Sig.Ty, checkSignature ts = .ok () ∧ ts[1]? = some (.ref .signer) ∧ pushedValues ts < ts.length :=
  ⟨[.u64, .ref .signer], rfl, rfl, by decide⟩

/-- What holds: in an accepted signature a signer that is not behind a reference is the type of the first
argument, and every argument is pushed.  Missing: signers behind references, see `C47_false`. -/
theorem C47_partial {ts : List Sig.Ty} (h : checkSignature ts = .ok ()) (hr : ∀ t ∈ ts, signerBehindRef t = false) :
    (∀ i t, ts[i]? = some t → mentionsSigner t = true → i = 0 ∧ t = .signer) ∧ pushedValues ts = ts.length := by
  have hc := (checkFrom_iff ts 0).mp h
  have h1 : ∀ i t, ts[i]? = some t → mentionsSigner t = true → i = 0 ∧ t = .signer := by
    intro i t ht hm
    have ho := hc i t ht
    have hb := hr t (List.mem_of_getElem? ht)
    have hf := find_of_mentions t hm hb
    cases t with
    | signer => exact ⟨by have := ho.1 rfl; omega, rfl⟩
    | vector u =>
      have := ho.2 u rfl
      rw [show findSignatureType (.vector u) = findSignatureType u from rfl, this] at hf
      cases hf
    | _ => cases hf
  refine ⟨h1, ?_⟩
  have nz : ∀ t, mentionsSigner t = false → unpackedValues t = 1 := by
    intro t ht
    unfold unpackedValues
    split <;> simp_all [mentionsSigner]
  have all : ∀ us : List Sig.Ty, (∀ t ∈ us, mentionsSigner t = false) → (us.map unpackedValues).sum = us.length := by
    intro us
    induction us with
    | nil => intro _; rfl
    | cons u us ih =>
      intro hu
      rw [List.map_cons, List.sum_cons, ih (fun t ht => hu t (List.mem_cons_of_mem _ ht)), nz u (hu u List.mem_cons_self),
        List.length_cons]
      omega
  cases ts with
  | nil => rfl
  | cons t ts =>
    have htl : ∀ u ∈ ts, mentionsSigner u = false := by
      intro u hu
      obtain ⟨i, hi⟩ := List.mem_iff_getElem?.mp hu
      by_contra hm
      have := (h1 (i + 1) u (by simpa using hi) (by simpa using hm)).1
      omega
    unfold pushedValues
    rw [List.map_cons, List.sum_cons, all ts htl, List.length_cons]
    by_cases hm : mentionsSigner t = true
    · have := (h1 0 t rfl hm).2
      subst this
      show 1 + (0 + ts.length) = _
      omega
    · have hm : mentionsSigner t = false := by simpa using hm
      rw [nz t hm]
      have : injectsSigner (t :: ts) = false := by
        unfold injectsSigner
        split <;> simp_all [mentionsSigner]
      rw [this]
      simp
      omega

/-- Exactly these signatures are accepted. -/
theorem C47_accepted {ts : List Sig.Ty} : checkSignature ts = .ok () ↔
    ∀ i t, ts[i]? = some t → (t = .signer → i = 0) ∧ ∀ u, t = .vector u → findSignatureType u = false := by
  have := checkFrom_iff ts 0
  simp only [Nat.zero_add] at this
  exact this

example : checkSignature [.signer, .vector .u8, .ref (.struct "S" true)] = .ok () ∧
    ∀ t ∈ [Sig.Ty.signer, .vector .u8, .ref (.struct "S" true)], signerBehindRef t = false := ⟨rfl, by decide⟩

example : checkSignature [.u8, .signer] ≠ .ok () := by
  intro h
  have := (C47_accepted.mp h 1 .signer rfl).1 rfl
  omega

example : checkSignature [.vector (.vector .signer)] ≠ .ok () := by
  intro h
  have := (C47_accepted.mp h 0 _ rfl).2 _ rfl
  cases this

/-! ### C46: the kind of an object argument -/

section
variable {structs : List (String × Bool)} {ps : List Param} {ms : List Modifier} {s : ModState}

/-- For a function whose modifiers are accepted, argument `i` has the kind under which a modifier of the
function lists its name. -/
theorem C46_kind (h : process structs ps ms = some s) (i : Nat) (k : Kind) :
    argumentKind s ps i = some k ↔ ∃ p, ps[i]? = some p ∧ ∃ m ∈ ms, m.kind = k ∧ p.name ∈ m.ids :=
  argumentKind_iff h i k

/-- A name is listed under one kind only, and is that of a parameter. -/
theorem C46_unambiguous (h : process structs ps ms = some s) {m m' : Modifier} (hm : m ∈ ms) (hm' : m' ∈ ms) {id : String}
    (hi : id ∈ m.ids) (hi' : id ∈ m'.ids) : m.kind = m'.kind :=
  (process_spec h).2.1 m hm m' hm' id hi hi'

/-- Whatever the lists, owned wins over shared and shared over frozen. -/
theorem C46_priority {i : Nat} {p : Param} (hp : ps[i]? = some p) :
    (p.name ∈ s.owned → argumentKind s ps i = some .owned) ∧
    (p.name ∉ s.owned → p.name ∈ s.shared → argumentKind s ps i = some .shared) ∧
    (p.name ∉ s.owned → p.name ∉ s.shared → p.name ∈ s.frozen → argumentKind s ps i = some .frozen) ∧
    (p.name ∉ s.owned → p.name ∉ s.shared → p.name ∉ s.frozen → argumentKind s ps i = none) := by
  have ne : ∀ {l : List String}, p.name ∈ l → l ≠ [] := by rintro l h rfl; cases h
  unfold argumentKind
  simp only [hp]
  refine ⟨fun h => ?_, fun h1 h => ?_, fun h1 h2 h => ?_, fun h1 h2 h3 => ?_⟩
  · rw [if_neg (fun e => ne h e.1), if_pos h]
  · rw [if_neg (fun e => ne h e.2.1), if_neg h1, if_pos h]
  · rw [if_neg (fun e => ne h e.2.2), if_neg h1, if_neg h2, if_pos h]
  · rw [if_neg h1, if_neg h2, if_neg h3, ite_self]

/-- The call that finds the object whose id is at `u`, for a compiled lookup (runtime/unpacking/structs.rs
294-364). -/
def lookupCall (E : ErrPtrs) (u : Nat) : Lookup → Fn × List Nat
  | .owned => (locateOwned E, [u])
  | .shared => (locateShared E, [u])
  | .frozen => (locateFrozen E, [u])
  | .search f => (locateData E, [u, if f then 1 else 0])

/-- The owners under which a lookup may find an object, for the sender `me`. -/
def Lookup.owners (me : Nat) : Lookup → List Nat
  | .owned => [me]
  | .shared => [1]
  | .frozen => [2]
  | .search f => [me, 1] ++ if f then [2] else []

/-- The object found for an argument was stored under an owner its kind allows, and is found if there is
one. -/
theorem C46_authority {u me id : Nat} (L : Lookup) (hσ : Ready σ) (hz : Statics σ) (hu : u + 32 ≤ σ.size) (hu' : 468 ≤ u)
    (hme : σ.host.origin = me) (hme' : me < 2 ^ 160) (hid : beNat σ.mem u 32 = id) :
    (lookupCall E u L).1.Calls (lookupCall E u L).2 σ (fun r σ' =>
      (∃ o ∈ Lookup.owners me L, Occupied σ o id ∧ FoundAt σ σ' o id r) ∨
      (∀ o ∈ Lookup.owners me L, ¬ Occupied σ o id) ∧ NotFound E σ σ') := by
  cases L with
  | owned =>
    refine (C42_owned hσ hz hu hu' hme hme' hid).mono ?_
    rintro r σ' ⟨h1, h2⟩
    by_cases ho : Occupied σ me id
    · exact .inl ⟨me, by simp [Lookup.owners], ho, h1 ho⟩
    · exact .inr ⟨by simpa [Lookup.owners] using ho, h2 ho⟩
  | shared =>
    refine (C42_shared hσ hz hu hu' hid).mono ?_
    rintro r σ' ⟨h1, h2⟩
    by_cases ho : Occupied σ 1 id
    · exact .inl ⟨1, by simp [Lookup.owners], ho, h1 ho⟩
    · exact .inr ⟨by simpa [Lookup.owners] using ho, h2 ho⟩
  | frozen =>
    refine (C42_frozen hσ hz hu hu' hid).mono ?_
    rintro r σ' ⟨h1, h2⟩
    by_cases ho : Occupied σ 2 id
    · exact .inl ⟨2, by simp [Lookup.owners], ho, h1 ho⟩
    · exact .inr ⟨by simpa [Lookup.owners] using ho, h2 ho⟩
  | search f =>
    refine (C42_search hσ hz hu hu' hme hme' hid).mono ?_
    rintro r σ' ⟨h1, h2, h3, h4⟩
    by_cases ho : Occupied σ me id
    · exact .inl ⟨me, by simp [Lookup.owners], ho, h1 ho⟩
    by_cases hs : Occupied σ 1 id
    · exact .inl ⟨1, by simp [Lookup.owners], hs, h2 ho hs⟩
    cases f with
    | false => exact .inr ⟨by simpa [Lookup.owners] using ⟨ho, hs⟩, h4 ho hs (by simp)⟩
    | true =>
      by_cases hf : Occupied σ 2 id
      · exact .inl ⟨2, by simp [Lookup.owners], hf, h3 ho hs (by simp) hf⟩
      · exact .inr ⟨by simpa [Lookup.owners] using ⟨ho, hs, hf⟩, h4 ho hs (by simp [hf])⟩

/-! ### C56: frozen objects are reached through immutable references only -/

/-- If the lookup compiled for an argument of an accepted function can find frozen objects, the argument is
an immutable reference. -/
theorem C56_frozen_ref (h : process structs ps ms = some s) (hn : (ps.map Param.name).Nodup) {i : Nat} {p : Param}
    (hp : ps[i]? = some p) {L : Lookup} (hl : argLookup (argumentKind s ps i) p.ty = some L) {me : Nat} (hme : me ≠ 2)
    (hs : 2 ∈ Lookup.owners me L) : ∃ t, p.ty = .ref t := by
  have hL : L = .frozen ∨ L = .search true := by
    cases L with
    | owned => simp [Lookup.owners] at hs; exact absurd hs.symm hme
    | shared => simp [Lookup.owners] at hs
    | frozen => exact .inl rfl
    | search f => cases f with
      | true => exact .inr rfl
      | false => simp [Lookup.owners] at hs; exact absurd hs.symm hme
  have frozen : argumentKind s ps i = some .frozen → ∃ t, p.ty = .ref t := by
    intro hk
    obtain ⟨q, hq, m, hm, hk, hid⟩ := (argumentKind_iff h i _).mp hk
    rw [hp] at hq
    cases hq
    have hc := (process_spec h).1 m hm _ hid
    rw [hk] at hc
    obtain ⟨q, hq, ht⟩ := checkParam_frozen hc
    rw [find_of_nodup hn hp] at hq
    cases hq
    exact ht
  have kind : ∀ b, lookup b (argumentKind s ps i) = L → argumentKind s ps i = some .frozen ∨ b = true := by
    intro b hb
    cases hk : argumentKind s ps i with
    | none =>
      rw [hk] at hb
      unfold lookup at hb
      rcases hL with rfl | rfl
      · cases hb
      · cases hb; exact .inr rfl
    | some k =>
      rw [hk] at hb
      cases k with
      | frozen => exact .inl rfl
      | owned => rcases hL with rfl | rfl <;> cases hb
      | shared => rcases hL with rfl | rfl <;> cases hb
  unfold argLookup at hl
  split at hl
  · rcases kind _ (Option.some.inj hl) with h | h
    · have := frozen h; simp_all
    · cases h
  · exact ⟨_, by assumption⟩
  · rcases kind _ (Option.some.inj hl) with h | h
    · have := frozen h; simp_all
    · cases h
  · cases hl

/-- The parameters `a: &T`, `b: &mut T`, `c: &T`, with the modifiers `owned_objects(b)` and
`frozen_objects(c)`. -/
def psEx : List Param := [⟨"a", .ref (.struct "T" true)⟩, ⟨"b", .mutRef (.struct "T" true)⟩, ⟨"c", .ref (.struct "T" true)⟩]
def msEx : List Modifier := [⟨.owned, ["b"]⟩, ⟨.frozen, ["c"]⟩]
def sEx : ModState := ⟨false, ["c", "b"], ["b"], [], ["c"]⟩

theorem process_ex : process [("T", true)] psEx msEx = some sEx := by decide +kernel

example : argumentKind sEx psEx 1 = some .owned :=
  (C46_kind process_ex 1 .owned).mpr ⟨_, rfl, ⟨.owned, ["b"]⟩, by simp [msEx], rfl, by simp⟩

example : ∃ t, (⟨"c", .ref (.struct "T" true)⟩ : Param).ty = .ref t :=
  C56_frozen_ref process_ex (by decide) (i := 2) rfl (L := .frozen) (by decide +kernel) (me := 9) (by omega) (by simp [Lookup.owners])

/-- A mutable reference to a frozen object is rejected, as are names listed twice. -/
example : process [("T", true)] psEx [⟨.frozen, ["b"]⟩] = none := by decide +kernel
example : process [("T", true)] psEx [⟨.owned, ["a"]⟩, ⟨.shared, ["a"]⟩] = none := by decide +kernel

example : (lookupCall E 500 .shared).1.Calls (lookupCall E 500 .shared).2 (storeS hostShared 77 0) (fun r σ' =>
    (∃ o ∈ Lookup.owners 9 .shared, Occupied (storeS hostShared 77 0) o 77 ∧ FoundAt (storeS hostShared 77 0) σ' o 77 r) ∨
      (∀ o ∈ Lookup.owners 9 .shared, ¬ Occupied (storeS hostShared 77 0) o 77) ∧ NotFound E (storeS hostShared 77 0) σ') :=
  C46_authority .shared (storeS_ready _ _ _) (storeS_statics _ _ _) (by show 500 + 32 ≤ 65536; omega) (by omega)
    (me := 9) rfl (by norm_num) (storeS_id _ _ _ (by norm_num))

end

end Props
