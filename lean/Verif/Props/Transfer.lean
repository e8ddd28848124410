import Verif.Proof.Transfer3
import Verif.Props.Delete

/-!
# Moving objects: C61 to C65

Transfer, sharing and freezing, saving at the end of a function, and wrapping objects in objects.  The hash function of the host is
arbitrary.
-/

namespace Props
open Wasm Rt Slots Mv Layout

variable {σ σ' : Store} {E : ErrPtrs} {T : Ty → Nat}

/-- The object is in storage, with fields `was k`, where its owner has it, and can be deleted: it is not frozen, and it is not
in a struct (without `key`) in an object. -/
structure Kept (K : List UInt8 → Nat) (T : Ty → Nat) (S : Nat → Nat) (was : Kid → List Val) (k : Kid) : Prop where
  parent : k.pid ≠ none
  thawed : k.owner ≠ 2
  tidy : tidyFs k.fs = true
  small : SmallFs k.fs (was k)
  fields : HoldsFs K T S k.id k.fs (was k) (k.home K, 8)

/-- All objects that are not where they belong are in storage, in slots of their own. -/
structure Going (K : List UInt8 → Nat) (T : Ty → Nat) (S : Nat → Nat) (was : Kid → List Val) (ks : List Kid) : Prop where
  kept : ∀ k ∈ ks, k.moves = true → Kept K T S was k
  apart : (gone K was ks).Pairwise Apart
  lt : ∀ g ∈ gone K was ks, g.2 < 2 ^ 256

/-- The object is in storage under the owner `no` and in memory as before, with the new owner; the slots `gs` are zero where they are
not slots of the object; all other slots and all other values in memory are as before. -/
structure Arrived (T : Ty → Nat) (R : Nat → Prop) (fs : List Ty) (uid : Val) (vs : List Val) (w no : Nat) (gs : List (Nat × Nat))
    (σ σ' : Store) : Prop where
  heap : Heap σ'
  host : σ'.host = { σ.host with storage := σ'.host.storage }
  stored : Stored σ.host.keccak (tagOf T) σ'.host.storage fs uid vs (objectSlot σ.host.keccak no (idOf uid))
  left : ∀ g ∈ gs, ∀ x, g.1 ≤ x → x ≤ g.2 → Off (area σ.host.keccak fs uid vs (objectSlot σ.host.keccak no (idOf uid))) x →
    σ'.host.storage x = 0
  kept : ∀ x, Off gs x → Off (area σ.host.keccak fs uid vs (objectSlot σ.host.keccak no (idOf uid))) x →
    σ'.host.storage x = σ.host.storage x
  value : Mv.Tree σ'.mem R (.object (uidTy :: fs)) (.object no (uid :: settleFs (some (idOf uid)) fs vs)) w
  memory : ∀ x, 468 ≤ x → x < σ.nextFree → ¬ R x → σ'.mem x = σ.mem x

/-- The machines run. -/
theorem going_run {K : List UInt8 → Nat} {S : Nat → Nat} {fs : List Ty} {uid : Val} {vs : List Val} {no : Nat} {was : Kid → List Val}
    {ks : List Kid} (hfs : StorableFs fs) (hv : SmallFs fs vs) (hgo : Going K (tagOf T) S was ks)
    (hsp : Spread K fs uid vs (objectSlot K no (idOf uid)))
    (hgr : HeadsFs Grows K (cleared (gone K was ks) S) (idOf uid) fs vs (objectSlot K no (idOf uid), 8)) :
    drops K ks S = some (cleared (gone K was ks) S, goneCost was ks) ∧
    ∃ st', encs K (fun t => bswap 8 (T t)) (idOf uid) fs vs
      ⟨cleared (gone K was ks) S, bswap 8 (T (.object (uidTy :: fs))), objectSlot K no (idOf uid), 8⟩ = some st' ∧
      Stored K (tagOf T) st'.view fs uid vs (objectSlot K no (idOf uid)) ∧
      ∀ x, Off (area K fs uid vs (objectSlot K no (idOf uid))) x → st'.view x = cleared (gone K was ks) S x := by
  refine ⟨drops_ok (fun k hk hm => ?_) hgo.apart hgo.lt, ?_⟩
  · have h := hgo.kept k hk hm
    exact ⟨h.parent, h.thawed, h.tidy, LensFs.of_holds k.fs h.fields h.small⟩
  · obtain ⟨st', h1, h2, h3, h4⟩ := save_ok (tagOf_lt T) (tagOf_lt T (.object (uidTy :: fs))) hfs hv hsp hgr
    exact ⟨st', h1, ⟨h2, h3⟩, h4⟩

theorem arrived_of {R : Nat → Prop} {fs : List Ty} {uid : Val} {vs : List Val} {w no n : Nat} {gs : List (Nat × Nat)} {S' : Nat → Nat}
    (hm : Moved R σ σ' S' n)
    (ht : Mv.Tree σ'.mem R (.object (uidTy :: fs)) (.object no (uid :: settleFs (some (idOf uid)) fs vs)) w)
    (hs : Stored σ.host.keccak (tagOf T) S' fs uid vs (objectSlot σ.host.keccak no (idOf uid)))
    (ho : ∀ x, Off (area σ.host.keccak fs uid vs (objectSlot σ.host.keccak no (idOf uid))) x → S' x = cleared gs σ.host.storage x) :
    Arrived T R fs uid vs w no gs σ σ' := by
  refine ⟨hm.later.heap, hm.later.host, by rw [hm.stor]; exact hs, fun g hg x h1 h2 hx => ?_, fun x h1 h2 => ?_, ht,
    fun x h1 h2 h3 => hm.later.mem x h2 fun h => h.elim (fun h => ?_) h3⟩
  · rw [hm.stor, ho x hx, cleared_of hg h1 h2]
  · rw [hm.stor, ho x h2, cleared_off h1]
  · unfold scr sizeTable hashBuf at h; omega

/-! ### C61: transfer -/

/-- Transferring an object that is neither shared nor frozen: afterwards it is in the storage of the recipient, with the values it has
in memory; the slots it had with its previous owner are zero; objects in its fields that were the sender's or somebody else's leave
their storage as well; and nothing else changes.  `was` are the fields in storage, which may differ from those in memory.
Missing: types with vectors in enums and structs that end with an enum (`tidyFs`, see `C43_false_enum`), objects in
structs that have another owner (`Kept.parent`, see `C64_false_struct`), frozen objects in its fields, vectors that are shorter than the
vector stored at the destination before, addresses of more than 20 bytes (`SmallFs`). -/
theorem C61_partial {R : Nat → Prop} {fs : List Ty} {uid : Val} {vs : List Val} {w ow kp : Nat} {was : Kid → List Val}
    (hσ : Heap σ) (hst : Statics σ) (hfs : StorableFs fs) (hv : SmallFs fs vs) (hsR : Safe σ R 128)
    (htr : Mv.Tree σ.mem R (.object (uidTy :: fs)) (.object ow (uid :: vs)) w) (h1 : ow ≠ 1)
    (hk : kp + 32 ≤ σ.nextFree) (hkR : ∀ x, kp ≤ x → x < kp + 32 → 468 ≤ x ∧ ¬ R x)
    (hgo : Going σ.host.keccak (tagOf T) σ.host.storage was (movers ow (idOf uid) fs vs))
    (hsp : Spread σ.host.keccak fs uid vs (objectSlot σ.host.keccak (beNat σ.mem kp 32) (idOf uid)))
    (hgr : HeadsFs Grows σ.host.keccak (cleared (gone σ.host.keccak was (movers ow (idOf uid) fs vs)) σ.host.storage) (idOf uid) fs vs
      (objectSlot σ.host.keccak (beNat σ.mem kp 32) (idOf uid), 8))
    (hroom : Room σ (goneCost was (movers ow (idOf uid) fs vs) + (32 + ecostFs fs vs))) :
    (transferObject E T uidTy fs).Calls [w, kp] σ (fun r σ' => r = [] ∧
      Arrived T R fs uid vs w (beNat σ.mem kp 32) (gone σ.host.keccak was (movers ow (idOf uid) fs vs)) σ σ') := by
  obtain ⟨hd, st', he, hs, ho⟩ := going_run hfs hv hgo hsp hgr
  refine (transfer_spec hfs hσ hst hsR htr h1 ⟨hk, rfl, fun x g1 g2 => ⟨fun h => ?_, (hkR x g1 g2).2⟩⟩ hd he hroom).mono ?_
  · have := (hkR x g1 g2).1
    unfold scr sizeTable hashBuf at h
    omega
  · rintro r σ' ⟨rfl, hm, ht⟩
    exact ⟨rfl, arrived_of hm ht hs ho⟩

/-- Transferring a shared object is refused, and nothing but the error word changes. -/
theorem C61_shared {R : Nat → Prop} {fs : List Ty} {uid : Val} {vs : List Val} {w kp : Nat} (hE : E.Valid) (hσ : Heap σ) (hst : Statics σ)
    (hsR : Safe σ R 128) (hrep : Mv.Rep σ.mem R (.object (uidTy :: fs)) (.object 1 (uid :: vs)) w) :
    (transferObject E T uidTy fs).Calls [w, kp] σ (fun r σ' => r = [] ∧ errWord σ' = E .sharedCannotBeTransferred ∧ errWord σ' ≠ 0 ∧
      σ'.host = σ.host ∧ ∀ x, x < 256 ∨ 260 ≤ x → σ'.mem x = σ.mem x) := by
  refine (transfer_refused (T := T) (kp := kp) hσ hst hsR hrep).mono ?_
  rintro r σ' ⟨rfl, rfl⟩
  rw [errWord_ptr hE]
  exact ⟨rfl, rfl, by have := hE .sharedCannotBeTransferred; omega, rfl, fun x hx => putLe_out (by unfold abortPtr; omega)⟩

/-! ### C62 and C63: sharing and freezing -/

/-- Sharing an object that is not frozen.  What is missing is as for `C61_partial`. -/
theorem C62_partial {R : Nat → Prop} {fs : List Ty} {uid : Val} {vs : List Val} {w ow : Nat} {was : Kid → List Val}
    (hσ : Heap σ) (hst : Statics σ) (hfs : StorableFs fs) (hv : SmallFs fs vs) (hsR : Safe σ R 128)
    (htr : Mv.Tree σ.mem R (.object (uidTy :: fs)) (.object ow (uid :: vs)) w) (h1 : ow ≠ 1) (h2 : ow ≠ 2)
    (hgo : Going σ.host.keccak (tagOf T) σ.host.storage was (movers ow (idOf uid) fs vs))
    (hsp : Spread σ.host.keccak fs uid vs (objectSlot σ.host.keccak 1 (idOf uid)))
    (hgr : HeadsFs Grows σ.host.keccak (cleared (gone σ.host.keccak was (movers ow (idOf uid) fs vs)) σ.host.storage) (idOf uid) fs vs
      (objectSlot σ.host.keccak 1 (idOf uid), 8))
    (hroom : Room σ (goneCost was (movers ow (idOf uid) fs vs) + (32 + ecostFs fs vs))) :
    (shareObject E T uidTy fs).Calls [w] σ (fun r σ' => r = [] ∧
      Arrived T R fs uid vs w 1 (gone σ.host.keccak was (movers ow (idOf uid) fs vs)) σ σ') := by
  obtain ⟨hd, st', he, hs, ho⟩ := going_run hfs hv hgo hsp hgr
  refine (publish_spec hfs hσ hst hsR htr (.inl rfl) (.inr rfl) hst.shared hst.frozen h1 h2 hd he hroom).mono ?_
  rintro r σ' ⟨rfl, hm, ht⟩
  exact ⟨rfl, arrived_of hm ht hs ho⟩

/-- Sharing a shared object does nothing. -/
theorem C62_again {R : Nat → Prop} {fs : List Ty} {uid : Val} {vs : List Val} {w : Nat} (hσ : Heap σ) (hst : Statics σ) (hsR : Safe σ R 128)
    (hrep : Mv.Rep σ.mem R (.object (uidTy :: fs)) (.object 1 (uid :: vs)) w) :
    (shareObject E T uidTy fs).Calls [w] σ (fun r σ' => r = [] ∧ σ' = σ) := publish_again hσ hsR hrep (.inl rfl) hst.shared

theorem refused_of {f : Fn} {args : List Nat} {e : RtErr} (hE : E.Valid) (h : f.Calls args σ (fun r σ' => r = [] ∧ σ' = errStore σ (E e))) :
    f.Calls args σ (fun r σ' => r = [] ∧ errWord σ' = E e ∧ errWord σ' ≠ 0 ∧ σ'.host = σ.host ∧
      ∀ x, x < 256 ∨ 260 ≤ x → σ'.mem x = σ.mem x) := by
  refine h.mono ?_
  rintro r σ' ⟨rfl, rfl⟩
  rw [errWord_ptr hE]
  exact ⟨rfl, rfl, by have := hE e; omega, rfl, fun x hx => putLe_out (by unfold abortPtr; omega)⟩

/-- Sharing a frozen object is refused, and nothing but the error word changes. -/
theorem C62_frozen {R : Nat → Prop} {fs : List Ty} {uid : Val} {vs : List Val} {w : Nat} (hE : E.Valid) (hσ : Heap σ) (hst : Statics σ)
    (hsR : Safe σ R 128) (hrep : Mv.Rep σ.mem R (.object (uidTy :: fs)) (.object 2 (uid :: vs)) w) :
    (shareObject E T uidTy fs).Calls [w] σ (fun r σ' => r = [] ∧ errWord σ' = E .frozenCannotBeShared ∧ errWord σ' ≠ 0 ∧
      σ'.host = σ.host ∧ ∀ x, x < 256 ∨ 260 ≤ x → σ'.mem x = σ.mem x) :=
  refused_of hE (publish_refused hσ hsR hrep (.inl rfl) (.inr rfl) hst.shared hst.frozen (by omega))

/-- Freezing an object that is not shared.  What is missing is as for `C61_partial`. -/
theorem C63_partial {R : Nat → Prop} {fs : List Ty} {uid : Val} {vs : List Val} {w ow : Nat} {was : Kid → List Val}
    (hσ : Heap σ) (hst : Statics σ) (hfs : StorableFs fs) (hv : SmallFs fs vs) (hsR : Safe σ R 128)
    (htr : Mv.Tree σ.mem R (.object (uidTy :: fs)) (.object ow (uid :: vs)) w) (h1 : ow ≠ 1) (h2 : ow ≠ 2)
    (hgo : Going σ.host.keccak (tagOf T) σ.host.storage was (movers ow (idOf uid) fs vs))
    (hsp : Spread σ.host.keccak fs uid vs (objectSlot σ.host.keccak 2 (idOf uid)))
    (hgr : HeadsFs Grows σ.host.keccak (cleared (gone σ.host.keccak was (movers ow (idOf uid) fs vs)) σ.host.storage) (idOf uid) fs vs
      (objectSlot σ.host.keccak 2 (idOf uid), 8))
    (hroom : Room σ (goneCost was (movers ow (idOf uid) fs vs) + (32 + ecostFs fs vs))) :
    (freezeObject E T uidTy fs).Calls [w] σ (fun r σ' => r = [] ∧
      Arrived T R fs uid vs w 2 (gone σ.host.keccak was (movers ow (idOf uid) fs vs)) σ σ') := by
  obtain ⟨hd, st', he, hs, ho⟩ := going_run hfs hv hgo hsp hgr
  refine (publish_spec hfs hσ hst hsR htr (.inr rfl) (.inl rfl) hst.frozen hst.shared h2 h1 hd he hroom).mono ?_
  rintro r σ' ⟨rfl, hm, ht⟩
  exact ⟨rfl, arrived_of hm ht hs ho⟩

/-- Freezing a frozen object does nothing. -/
theorem C63_again {R : Nat → Prop} {fs : List Ty} {uid : Val} {vs : List Val} {w : Nat} (hσ : Heap σ) (hst : Statics σ) (hsR : Safe σ R 128)
    (hrep : Mv.Rep σ.mem R (.object (uidTy :: fs)) (.object 2 (uid :: vs)) w) :
    (freezeObject E T uidTy fs).Calls [w] σ (fun r σ' => r = [] ∧ σ' = σ) := publish_again hσ hsR hrep (.inr rfl) hst.frozen

/-- Freezing a shared object is refused, and nothing but the error word changes. -/
theorem C63_shared {R : Nat → Prop} {fs : List Ty} {uid : Val} {vs : List Val} {w : Nat} (hE : E.Valid) (hσ : Heap σ) (hst : Statics σ)
    (hsR : Safe σ R 128) (hrep : Mv.Rep σ.mem R (.object (uidTy :: fs)) (.object 1 (uid :: vs)) w) :
    (freezeObject E T uidTy fs).Calls [w] σ (fun r σ' => r = [] ∧ errWord σ' = E .sharedCannotBeFrozen ∧ errWord σ' ≠ 0 ∧
      σ'.host = σ.host ∧ ∀ x, x < 256 ∨ 260 ≤ x → σ'.mem x = σ.mem x) :=
  refused_of hE (publish_refused hσ hsR hrep (.inr rfl) (.inl rfl) hst.frozen hst.shared (by omega))

/-! ### C65: saving at the end of a function -/

/-- When a function returns, an object passed to it is saved where its owner has it, with the values it has in memory then.
What is missing is as for `C61_partial`. -/
theorem C65_partial {R : Nat → Prop} {fs : List Ty} {uid : Val} {vs : List Val} {w p ow : Nat} {was : Kid → List Val}
    (hσ : Heap σ) (hst : Statics σ) (hfs : StorableFs fs) (hv : SmallFs fs vs) (hsR : Safe σ R 128) (hp : p + 4 ≤ σ.size)
    (hpw : leNat σ.mem p 4 = w) (htr : Mv.Tree σ.mem R (.object (uidTy :: fs)) (.object ow (uid :: vs)) w) (h0 : ow ≠ 0)
    (hgo : Going σ.host.keccak (tagOf T) σ.host.storage was (kidsFs (some (idOf uid)) fs vs))
    (hsp : Spread σ.host.keccak fs uid vs (objectSlot σ.host.keccak ow (idOf uid)))
    (hgr : HeadsFs Grows σ.host.keccak (cleared (gone σ.host.keccak was (kidsFs (some (idOf uid)) fs vs)) σ.host.storage) (idOf uid) fs vs
      (objectSlot σ.host.keccak ow (idOf uid), 8))
    (hroom : Room σ (32 + goneCost was (kidsFs (some (idOf uid)) fs vs) + ecostFs fs vs)) :
    (cacheChanges E T uidTy fs).Calls [p] σ (fun r σ' => r = [] ∧
      Arrived T R fs uid vs w ow (gone σ.host.keccak was (kidsFs (some (idOf uid)) fs vs)) σ σ') := by
  obtain ⟨hd, st', he, hs, ho⟩ := going_run hfs hv hgo hsp hgr
  refine (cache_spec hfs hσ hst hsR hp hpw htr h0 hd he hroom).mono ?_
  rintro r σ' ⟨rfl, hm, ht⟩
  exact ⟨rfl, arrived_of hm ht hs ho⟩

/-- An object that has been deleted, or wrapped in another object, or that has never been given to an owner, has the owner zero;
it is not saved. -/
theorem C65_deleted {R : Nat → Prop} {fs : List Ty} {uid : Val} {vs : List Val} {w p : Nat} (hσ : Heap σ) (hst : Statics σ)
    (hsR : Safe σ R 128) (hp : p + 4 ≤ σ.size) (hpw : leNat σ.mem p 4 = w)
    (hrep : Mv.Rep σ.mem R (.object (uidTy :: fs)) (.object 0 (uid :: vs)) w) :
    (cacheChanges E T uidTy fs).Calls [p] σ (fun r σ' => r = [] ∧ σ'.host = σ.host ∧ ∀ x, 468 ≤ x → σ'.mem x = σ.mem x) := by
  refine (cache_deleted hσ hst hsR hp hpw hrep).mono ?_
  rintro r σ' ⟨rfl, ht⟩
  exact ⟨rfl, by rw [ht.host], fun x hx => ht.mem x (by unfold hashBuf; omega)⟩

/-! ### C64: wrapping -/

theorem holdsFs_get {K : List UInt8 → Nat} {T : Ty → Nat} {S : Nat → Nat} {o : Nat} {fs : List Ty} {vs : List Val} {p : Pos} {i : Nat} {t : Ty} {v : Val}
    (h : HoldsFs K T S o fs vs p) (ht : fs[i]? = some t) (hv : vs[i]? = some v) : ∃ q, Layout.Holds K T S o t v q := by
  induction fs generalizing vs p i with
  | nil => simp at ht
  | cons u fs ih =>
    cases vs with
    | nil => simp at hv
    | cons x vs =>
      simp only [HoldsFs] at h
      cases i with
      | zero => simp only [List.getElem?_cons_zero, Option.some.injEq] at ht hv; subst ht hv; exact ⟨p, h.1⟩
      | succ i => exact ih h.2 (by simpa using ht) (by simpa using hv)

theorem holds_object {K : List UInt8 → Nat} {T : Ty → Nat} {S : Nat → Nat} {o ow : Nat} {gs : List Ty} {u : Val} {xs : List Val} {q : Pos}
    (h : Layout.Holds K T S o (.object (uidTy :: gs)) (.object ow (u :: xs)) q) : Stored K T S gs u xs (objectSlot K o (idOf u)) := by
  simp only [Layout.Holds] at h
  exact ⟨h.2.1, h.2.2⟩

/-- An object in a field of an object, or in a vector in a field. -/
def Inside (fs : List Ty) (vs : List Val) (gs : List Ty) (ow : Nat) (u : Val) (xs : List Val) : Prop :=
  ∃ i : Nat, fs[i]? = some (.object (uidTy :: gs)) ∧ vs[i]? = some (.object ow (u :: xs)) ∨
    fs[i]? = some (.vec (.object (uidTy :: gs))) ∧ ∃ es, vs[i]? = some (.vec es) ∧ .object ow (u :: xs) ∈ es

/-- The objects in an object that has arrived are stored with it, and in memory have no owner but this object. -/
theorem Arrived.inside {R : Nat → Prop} {fs gs : List Ty} {uid u : Val} {vs xs : List Val} {w no ow : Nat} {hs : List (Nat × Nat)}
    (h : Arrived T R fs uid vs w no hs σ σ') (hi : Inside fs vs gs ow u xs) :
    Stored σ.host.keccak (tagOf T) σ'.host.storage gs u xs (objectSlot σ.host.keccak (idOf uid) (idOf u)) := by
  obtain ⟨i, ⟨h1, h2⟩ | ⟨h1, es, h2, h3⟩⟩ := hi
  · obtain ⟨q, hq⟩ := holdsFs_get h.stored.fields h1 h2
    exact holds_object hq
  · obtain ⟨q, hq⟩ := holdsFs_get h.stored.fields h1 h2
    simp only [Layout.Holds] at hq
    obtain ⟨j, hj, hje⟩ := List.getElem_of_mem h3
    have := hq.2 _ (walk_get (f := next (.object (uidTy :: gs))) (p := (elems σ.host.keccak (place q 32).1, 0)) hj)
    rw [hje] at this
    exact holds_object this

theorem inside_kid {pid : Option Nat} {fs gs : List Ty} {vs xs : List Val} {u : Val} {ow : Nat} (hi : Inside fs vs gs ow u xs) :
    (⟨pid, ow, idOf u, gs⟩ : Kid) ∈ kidsFs pid fs vs := by
  obtain ⟨i, hi⟩ := hi
  induction fs generalizing vs i with
  | nil => rcases hi with ⟨h, -⟩ | ⟨h, -⟩ <;> simp at h
  | cons t fs ih =>
    cases vs with
    | nil => rcases hi with ⟨-, h⟩ | ⟨-, es, h, -⟩ <;> simp at h
    | cons v vs =>
      cases i with
      | zero =>
        simp only [List.getElem?_cons_zero, Option.some.injEq] at hi
        simp only [kidsFs, List.mem_append]
        left
        rcases hi with ⟨rfl, rfl⟩ | ⟨rfl, es, rfl, he⟩
        · simp [kids]
        · simp only [kids, Ty.fielded, if_true, List.mem_flatMap]
          exact ⟨_, he, by simp [kids]⟩
      | succ i =>
        simp only [List.getElem?_cons_succ] at hi
        simp only [kidsFs, List.mem_append]
        exact .inr (ih i hi)

/-- Wrapping: when a function returns that was passed an object, every object in a field of it, or in a vector in a field, is stored
as part of it, and no longer stored under the owner `o` it had, in slots `owned …` (except where these are slots
of the outer object).  Missing: objects in enums and in vectors of vectors, for which this is false
(`C64_false_enum`, `C64_false_nested`), objects in structs (`C64_false_struct`), and what is missing in `C61_partial`. -/
theorem C64_partial {R : Nat → Prop} {fs : List Ty} {uid : Val} {vs : List Val} {w p ow : Nat} {was : Kid → List Val}
    (hσ : Heap σ) (hst : Statics σ) (hfs : StorableFs fs) (hv : SmallFs fs vs) (hsR : Safe σ R 128) (hp : p + 4 ≤ σ.size)
    (hpw : leNat σ.mem p 4 = w) (htr : Mv.Tree σ.mem R (.object (uidTy :: fs)) (.object ow (uid :: vs)) w) (h0 : ow ≠ 0)
    (hgo : Going σ.host.keccak (tagOf T) σ.host.storage was (kidsFs (some (idOf uid)) fs vs))
    (hsp : Spread σ.host.keccak fs uid vs (objectSlot σ.host.keccak ow (idOf uid)))
    (hgr : HeadsFs Grows σ.host.keccak (cleared (gone σ.host.keccak was (kidsFs (some (idOf uid)) fs vs)) σ.host.storage) (idOf uid) fs vs
      (objectSlot σ.host.keccak ow (idOf uid), 8))
    (hroom : Room σ (32 + goneCost was (kidsFs (some (idOf uid)) fs vs) + ecostFs fs vs)) :
    (cacheChanges E T uidTy fs).Calls [p] σ (fun r σ' => r = [] ∧ ∀ gs o u xs, Inside fs vs gs o u xs →
      Stored σ.host.keccak (tagOf T) σ'.host.storage gs u xs (objectSlot σ.host.keccak (idOf uid) (idOf u)) ∧
      (o ≠ 0 → o ≠ idOf uid → ∀ g ∈ owned σ.host.keccak gs (was ⟨some (idOf uid), o, idOf u, gs⟩) (objectSlot σ.host.keccak o (idOf u)),
        ∀ x, g.1 ≤ x → x ≤ g.2 → Off (area σ.host.keccak fs uid vs (objectSlot σ.host.keccak ow (idOf uid))) x →
          σ'.host.storage x = 0)) := by
  refine (C65_partial (E := E) hσ hst hfs hv hsR hp hpw htr h0 hgo hsp hgr hroom).mono ?_
  rintro r σ' ⟨rfl, ha⟩
  refine ⟨rfl, fun gs o u xs hi => ⟨ha.inside hi, fun ho hne g hg x h1 h2 hx => ha.left g ?_ x h1 h2 hx⟩⟩
  refine List.mem_flatMap.mpr ⟨_, List.mem_filter.mpr ⟨inside_kid hi, ?_⟩, hg⟩
  simp only [Kid.moves, Bool.and_eq_true, decide_eq_true_eq]
  exact ⟨ho, fun h => hne (by simpa using h.symm)⟩

/-! ### Examples -/

/-- A hash function for examples. -/
def hashT (l : List UInt8) : Nat := 1000 * (l.map UInt8.toNat).sum + l.length

def storeT (ws : List (Nat × Nat)) (S : Nat → Nat) : Store := { storeO ws S with host := { hostO S with keccak := hashT } }

theorem storeT_heap {ws : List (Nat × Nat)} (S : Nat → Nat) (h : ∀ a ∈ ws, 468 ≤ a.1 ∧ a.1 + 4 ≤ 1000) : Heap (storeT ws S) :=
  have h := storeO_heap S h
  ⟨⟨h.ready.size, h.ready.size_lt, h.ready.noErr⟩,
   ⟨h.alloc.sum, h.alloc.page, h.alloc.first, h.alloc.limit, h.alloc.max, h.alloc.small⟩, h.base, h.fresh⟩

theorem storeT_statics {ws : List (Nat × Nat)} (S : Nat → Nat) (h : ∀ a ∈ ws, 468 ≤ a.1) : Statics (storeT ws S) :=
  have h := storeO_statics S h
  ⟨h.zero, h.one, h.objects, h.shared, h.frozen⟩

theorem storeT_room {ws : List (Nat × Nat)} {S : Nat → Nat} {n : Nat} (hn : n ≤ 1000000) : Room (storeT ws S) n := by
  refine ⟨by omega, ?_⟩
  show 1000 + n + 65536 ≤ 128 * 65536
  omega

/-- An object at 600 with id 9 and field `5: u8`; an object at 800 with owner 10, id 8 and field `7: u8`; the address 20 at 940;
the pointer to the first object at 980. -/
def wsT : List (Nat × Nat) := [(600, 640), (640, 644), (644, 660), (688, 9 * 2 ^ 24), (604, 700), (700, 5), (608, 800),
  (796, 10 * 2 ^ 24), (800, 840), (840, 844), (844, 860), (888, 8 * 2 ^ 24), (804, 900), (900, 7), (968, 20 * 2 ^ 24), (980, 600)]

/-- The same, with owner 10. -/
def wsT' : List (Nat × Nat) := wsT ++ [(596, 10 * 2 ^ 24)]

theorem treeUid {f : Bytes} {p n : Nat} (h1 : leNat f p 4 = p + 4) (h2 : leNat f (p + 4) 4 = p + 20) (h3 : beNat f (p + 20) 32 = n) :
    Mv.Tree f (Span p (p + 52)) uidTy (.struct [.struct [.num n]]) p := by
  simp only [uidTy, Mv.Tree, Mv.TreeFs, Mv.Rep, Ty.scalar, Bool.false_eq_true, if_false, h1, h2, h3]
  refine ⟨_, rfl, _, _, Span (p + 4) (p + 52), fun _ => False, rfl, fun x a b => ⟨by omega, by omega⟩, fun h => h.elim,
    ⟨_, rfl, _, _, Span (p + 20) (p + 52), fun _ => False, rfl, fun x a b => ⟨by omega, by omega⟩, fun h => h.elim,
      ⟨rfl, fun x a b => ⟨by omega, by omega⟩⟩, rfl, fun x h => ⟨by have := h.1; omega, h.2⟩, fun x h => h.elim, fun x _ h => h,
      fun x h h' => by have := h.1; have := h'.2; omega, fun x h => h.elim⟩, rfl,
    fun x h => ⟨by have := h.1; omega, h.2⟩, fun x h => h.elim, fun x _ h => h,
    fun x h h' => by have := h.1; have := h'.2; omega, fun x h => h.elim⟩

/-- Fields `UID`, `u8` at `w` and following fields. -/
theorem treeHead {f : Bytes} {B : Nat → Prop} {ts : List Ty} {xs : List Val} {w e n v : Nat} (h0 : leNat f w 4 = w + 40)
    (h1 : leNat f (w + 40) 4 = w + 44) (h2 : leNat f (w + 44) 4 = w + 60) (h3 : beNat f (w + 60) 32 = n)
    (h4 : leNat f (w + 4) 4 = w + 100) (h5 : leNat f (w + 100) 1 = v) (hv : v < 256) (he : w + 104 ≤ e)
    (hB : ∀ x, B x → w + 8 ≤ x ∧ x < w + 12 ∨ w + 104 ≤ x ∧ x < e) (h : TreeFs f B ts xs (w + 8)) :
    TreeFs f (Span w e) (uidTy :: .u8 :: ts) (.struct [.struct [.num n]] :: .num v :: xs) w := by
  rw [TreeFs]
  refine ⟨_, _, Span (w + 40) (w + 92), fun x => Span (w + 4) (w + 40) x ∨ Span (w + 92) e x, rfl, fun x a b => ⟨a, by omega⟩,
    fun h => absurd h (by simp [uidTy, Ty.scalar]), ?_, ?_, fun x hx => ⟨by have := hx.1; omega, by have := hx.2; omega⟩,
    fun x hx => by rcases hx with hx | hx <;> exact ⟨by have := hx.1; omega, by have := hx.2; omega⟩,
    fun x hx hx' => by have := hx.1; have := hx.2; rcases hx' with hx' | hx' <;> (have := hx'.1; have := hx'.2; omega),
    fun x hx hx' => by have := hx.1; have := hx'.2; omega,
    fun x hx hx' => by have := hx'.1; have := hx'.2; rcases hx with hx | hx <;> (have := hx.1; omega)⟩
  · rw [if_neg (by simp [uidTy, Ty.scalar]), h0]
    exact treeUid h1 h2 h3
  · rw [TreeFs]
    refine ⟨_, _, Span (w + 100) (w + 104), B, rfl, fun x a b => .inl ⟨a, by omega⟩, fun _ x a b => ?_, ?_, h,
      fun x hx => .inr ⟨by have := hx.1; omega, by have := hx.2; omega⟩, fun x hx => ?_,
      fun x hx hx' => by have := hx.1; have := hx.2; have := hB x hx'; omega, fun x hx hx' => by have := hx.1; have := hx'.2; omega,
      fun x hx hx' => by have := hx'.2; have := hB x hx; omega⟩
    · rw [h4] at a b
      exact ⟨a, by simp only [Ty.size] at b; omega⟩
    · simp only [Ty.scalar, if_true, h4, Ty.size, h5, Mv.Tree, Mv.Rep]
      exact ⟨trivial, by simpa using hv⟩
    · rcases hB x hx with h | h
      · exact .inl ⟨by omega, by omega⟩
      · exact .inr ⟨by omega, by omega⟩

theorem treeObj {f : Bytes} {R : Nat → Prop} {ts : List Ty} {xs : List Val} {w e ow : Nat} (hw : 32 ≤ w) (h0 : beNat f (w - 32) 32 = ow)
    (hR : ∀ x, w - 32 ≤ x → x < e → R x) (he : w ≤ e) (h : TreeFs f (Span w e) ts xs w) : Mv.Tree f R (.object ts) (.object ow xs) w := by
  rw [Mv.Tree]
  exact ⟨_, Span w e, hw, by rw [h0], fun x a b => hR x a (by omega), fun x hx => hR x (by have := hx.1; omega) hx.2,
    fun x hx hx' => by have := hx.1; have := hx'.2; omega, h⟩

def fsC : List Ty := [.u8, .object (uidTy :: [.u8])]
def uidC : Val := .struct [.struct [.num 8]]
def vsC (ow : Nat) : List Val := [.num 5, .object ow (uidC :: [.num 7])]

theorem treeC {f : Bytes} {ow : Nat} (h0 : beNat f (600 - 32) 32 = ow) (h : (leNat f 600 4, leNat f (600 + 40) 4, leNat f (600 + 44) 4, beNat f (600 + 60) 32,
      leNat f (600 + 4) 4, leNat f (600 + 100) 1, leNat f (600 + 8) 4) = (640, 644, 660, 9, 700, 5, 800))
    (h' : (beNat f (800 - 32) 32, leNat f 800 4, leNat f (800 + 40) 4, leNat f (800 + 44) 4, beNat f (800 + 60) 32,
      leNat f (800 + 4) 4, leNat f (800 + 100) 1) = (10, 840, 844, 860, 8, 900, 7)) :
    Mv.Tree f (Between 500 910) (.object (uidTy :: fsC)) (.object ow (uidO :: vsC 10)) 600 := by
  simp only [Prod.mk.injEq] at h h'
  obtain ⟨h1, h2, h3, h4, h5, h6, h7⟩ := h
  obtain ⟨g0, g1, g2, g3, g4, g5, g6⟩ := h'
  refine treeObj (e := 910) (by omega) h0 (fun x a b => ⟨by omega, by omega⟩) (by omega) ?_
  refine treeHead (B := fun x => Span 608 612 x ∨ Span 768 910 x) h1 h2 h3 h4 h5 h6 (by omega) (by omega) (fun x hx => ?_) ?_
  · rcases hx with hx | hx
    · exact .inl hx
    · exact .inr ⟨by have := hx.1; omega, hx.2⟩
  rw [TreeFs]
  refine ⟨_, _, Span 768 910, fun _ => False, rfl, fun x a b => .inl ⟨a, b⟩, fun h => absurd h (by simp [Ty.scalar]), ?_, rfl,
    fun x hx => .inr hx, fun x h => h.elim, fun x _ h => h, fun x hx hx' => by have := hx.1; have := hx'.2; omega, fun x h => h.elim⟩
  rw [if_neg (by simp [Ty.scalar]), h7]
  refine treeObj (e := 910) (by omega) g0 (fun x a b => ⟨by omega, by omega⟩) (by omega) ?_
  exact treeHead (B := fun _ => False) g1 g2 g3 g4 g5 g6 (by omega) (by omega) (fun x h => h.elim) rfl

theorem safeT {ws : List (Nat × Nat)} {S : Nat → Nat} : Safe (storeT ws S) (Between 500 910) 128 := fun x hx => by
  have h1 := hx.1; have h2 := hx.2
  exact ⟨by omega, by show x < 1000; omega, by omega⟩

theorem storableC : StorableFs fsC := by simp [fsC, StorableFs, Storable]
theorem smallC : SmallFs fsC (vsC 10) := by simp [fsC, vsC, uidC, SmallFs, Small, width, atom, idOf]

/-- Storage with the second object, and something else in slot 12. -/
def storT (x : Nat) : Nat := if x = 127064 then 5 * 72057594037927936 + 7 * 18446744073709551616 else if x = 12 then 1 else 0

def wasT (_ : Kid) : List Val := [.num 7]

theorem goingC : Going hashT (tagOf fun _ => 5) storT wasT (kidsFs (some 9) fsC (vsC 10)) := by
  have e : kidsFs (some 9) fsC (vsC 10) = [⟨some 9, 10, 8, [.u8]⟩] := by
    simp [fsC, vsC, uidC, kidsFs, kids, uidTy, idOf]
  have e1 : gone hashT wasT [⟨some 9, 10, 8, [.u8]⟩] = [(127064, 127064)] := by decide +kernel
  rw [e]
  refine ⟨?_, by rw [e1]; simp, by rw [e1]; simp⟩
  simp only [List.mem_singleton]
  rintro k rfl -
  refine ⟨by simp, by simp, by decide +kernel, by simp [wasT, SmallFs, Small, width, atom], ?_⟩
  rw [show Kid.home hashT ⟨some 9, 10, 8, [.u8]⟩ = 127064 by decide +kernel]
  simp [wasT, HoldsFs, Layout.Holds, place]
  decide +kernel

/-- An object without owner is not removed. -/
theorem going_self {K : List UInt8 → Nat} {T : Ty → Nat} {S : Nat → Nat} {was : Kid → List Val} {ks : List Kid} {k : Kid} (hk : k.moves = false)
    (h : Going K T S was ks) : Going K T S was (k :: ks) ∧ gone K was (k :: ks) = gone K was ks := by
  have e : gone K was (k :: ks) = gone K was ks := by unfold gone; rw [List.filter_cons_of_neg (by simp [hk])]
  refine ⟨⟨fun k' hk' hm => ?_, by rw [e]; exact h.apart, by rw [e]; exact h.lt⟩, e⟩
  rcases List.mem_cons.mp hk' with rfl | hk'
  · rw [hk] at hm; exact absurd hm (by simp)
  · exact h.kept k' hk' hm

theorem goneC : gone hashT wasT (kidsFs (some 9) fsC (vsC 10)) = [(127064, 127064)] := by decide +kernel

theorem areaC {c : Nat} : area hashT fsC uidO (vsC 10) c = [(c, c + 1), (147064, 147064)] := by
  unfold area
  rw [show (nexts fsC (c, 8)).1 = c + 1 by simp [fsC, nexts, next, place, width]]
  congr 1

theorem spreadC {c : Nat} (hc : c + 1 < 147064 ∨ 147064 < c) (hc' : c < 1000000) : Spread hashT fsC uidO (vsC 10) c := by
  constructor <;> rw [areaC]
  · simp [Layout.Apart]; omega
  · simp; omega

theorem slotsT : (objectSlot hashT 20 (idOf uidO), objectSlot hashT 1 (idOf uidO), objectSlot hashT 2 (idOf uidO), objectSlot hashT 10 (idOf uidO)) =
    (183064, 53064, 33064, 128064) := by decide +kernel

theorem offC {c x : Nat} (h : x < c ∨ c + 1 < x) (h' : x ≠ 147064) : Off (area hashT fsC uidO (vsC 10) c) x := by
  rw [areaC]
  intro g hg
  simp only [List.mem_cons, List.not_mem_nil, or_false] at hg
  rcases hg with rfl | rfl <;> simp only <;> omega

/-- What the examples show: the second object has left the storage of 10, and is in the first object; the first object is with `no`;
slot 12 is as before. -/
theorem arrivedC {R : Nat → Prop} {w no c : Nat} {ws : List (Nat × Nat)} (hc : objectSlot hashT no (idOf uidO) = c)
    (h : Arrived (fun _ => 5) R fsC uidO (vsC 10) w no [(127064, 127064)] (storeT ws storT) σ') (h1 : 127064 < c ∨ c + 1 < 127064) (h2 : 12 < c) :
    Stored hashT (tagOf fun _ => 5) σ'.host.storage fsC uidO (vsC 10) c ∧
    Stored hashT (tagOf fun _ => 5) σ'.host.storage [.u8] uidC [.num 7] 147064 ∧ σ'.host.storage 127064 = 0 ∧ σ'.host.storage 12 = 1 := by
  have e : ∀ x, Off (area hashT fsC uidO (vsC 10) c) x → Off (area (storeT ws storT).host.keccak fsC uidO (vsC 10)
      (objectSlot (storeT ws storT).host.keccak no (idOf uidO))) x := fun x hx => by
    rw [show (storeT ws storT).host.keccak = hashT from rfl, hc]; exact hx
  have e2 : objectSlot hashT (idOf uidO) (idOf uidC) = 147064 := by decide +kernel
  refine ⟨?_, ?_, h.left (127064, 127064) (by simp) _ (by simp) (by simp) (e _ (offC (by omega) (by omega))),
    (h.kept 12 (by simp [Off]) (e _ (offC (by omega) (by omega)))).trans rfl⟩
  · have := h.stored
    rw [show (storeT ws storT).host.keccak = hashT from rfl, hc] at this
    exact this
  · have := h.inside (gs := [.u8]) (ow := 10) (u := uidC) (xs := [.num 7]) ⟨1, .inl ⟨rfl, rfl⟩⟩
    rw [show (storeT ws storT).host.keccak = hashT from rfl, e2] at this
    exact this

theorem treeT {S : Nat → Nat} : Mv.Tree (storeT wsT S).mem (Between 500 910) (.object (uidTy :: fsC)) (.object 0 (uidO :: vsC 10)) 600 :=
  treeC (f := memO wsT) (by decide +kernel) (by decide +kernel) (by decide +kernel)
theorem treeT' {S : Nat → Nat} : Mv.Tree (storeT wsT' S).mem (Between 500 910) (.object (uidTy :: fsC)) (.object 10 (uidO :: vsC 10)) 600 :=
  treeC (f := memO wsT') (by decide +kernel) (by decide +kernel) (by decide +kernel)

theorem recipT : beNat (storeT wsT storT).mem 940 32 = 20 := by show beNat (memO wsT) 940 32 = 20; decide +kernel

/-- A new object with an object of 10 in it is given to 20. -/
example : (transferObject E (fun _ => 5) uidTy fsC).Calls [600, 940] (storeT wsT storT) (fun _ σ' =>
    Stored hashT (tagOf fun _ => 5) σ'.host.storage fsC uidO (vsC 10) 183064 ∧
    Stored hashT (tagOf fun _ => 5) σ'.host.storage [.u8] uidC [.num 7] 147064 ∧ σ'.host.storage 127064 = 0 ∧ σ'.host.storage 12 = 1) := by
  have hs := slotsT
  simp only [Prod.mk.injEq] at hs
  obtain ⟨g1, g2⟩ := going_self (k := ⟨some 1, 0, 9, fsC⟩) rfl goingC
  have hk : (storeT wsT storT).host.keccak = hashT := rfl
  have hid : idOf uidO = 9 := rfl
  refine (C61_partial (E := E) (σ := storeT wsT storT) (T := fun _ => 5) (was := wasT) (storeT_heap _ (by decide)) (storeT_statics _ (by decide)) storableC smallC safeT
    treeT (by omega) (by show 972 ≤ 1000; omega) (fun x h1 h2 => ⟨by omega, fun h => by have := h.2; omega⟩) g1
    (by rw [recipT, hk, hs.1]; exact spreadC (by omega) (by omega)) (headsFs_noVec fsC rfl) (storeT_room (by decide +kernel))).mono fun r σ' h => ?_
  have h := h.2
  rw [hk, recipT] at h
  rw [show gone hashT wasT (movers 0 (idOf uidO) fsC (vsC 10)) = [(127064, 127064)] from g2.trans goneC] at h
  exact arrivedC hs.1 h (by omega) (by omega)

/-- It is shared. -/
example : (shareObject E (fun _ => 5) uidTy fsC).Calls [600] (storeT wsT storT) (fun _ σ' =>
    Stored hashT (tagOf fun _ => 5) σ'.host.storage fsC uidO (vsC 10) 53064 ∧
    Stored hashT (tagOf fun _ => 5) σ'.host.storage [.u8] uidC [.num 7] 147064 ∧ σ'.host.storage 127064 = 0 ∧ σ'.host.storage 12 = 1) := by
  have hs := slotsT
  simp only [Prod.mk.injEq] at hs
  obtain ⟨g1, g2⟩ := going_self (k := ⟨some 1, 0, 9, fsC⟩) rfl goingC
  have hk : (storeT wsT storT).host.keccak = hashT := rfl
  refine (C62_partial (E := E) (σ := storeT wsT storT) (T := fun _ => 5) (was := wasT) (storeT_heap _ (by decide)) (storeT_statics _ (by decide)) storableC smallC safeT
    treeT (by omega) (by omega) g1
    (by rw [hk, hs.2.1]; exact spreadC (by omega) (by omega)) (headsFs_noVec fsC rfl) (storeT_room (by decide +kernel))).mono fun r σ' h => ?_
  have h := h.2
  rw [hk] at h
  rw [show gone hashT wasT (movers 0 (idOf uidO) fsC (vsC 10)) = [(127064, 127064)] from g2.trans goneC] at h
  exact arrivedC hs.2.1 h (by omega) (by omega)

/-- It is frozen. -/
example : (freezeObject E (fun _ => 5) uidTy fsC).Calls [600] (storeT wsT storT) (fun _ σ' =>
    Stored hashT (tagOf fun _ => 5) σ'.host.storage fsC uidO (vsC 10) 33064 ∧
    Stored hashT (tagOf fun _ => 5) σ'.host.storage [.u8] uidC [.num 7] 147064 ∧ σ'.host.storage 127064 = 0 ∧ σ'.host.storage 12 = 1) := by
  have hs := slotsT
  simp only [Prod.mk.injEq] at hs
  obtain ⟨g1, g2⟩ := going_self (k := ⟨some 1, 0, 9, fsC⟩) rfl goingC
  have hk : (storeT wsT storT).host.keccak = hashT := rfl
  refine (C63_partial (E := E) (σ := storeT wsT storT) (T := fun _ => 5) (was := wasT) (storeT_heap _ (by decide)) (storeT_statics _ (by decide)) storableC smallC safeT
    treeT (by omega) (by omega) g1
    (by rw [hk, hs.2.2.1]; exact spreadC (by omega) (by omega)) (headsFs_noVec fsC rfl) (storeT_room (by decide +kernel))).mono fun r σ' h => ?_
  have h := h.2
  rw [hk] at h
  rw [show gone hashT wasT (movers 0 (idOf uidO) fsC (vsC 10)) = [(127064, 127064)] from g2.trans goneC] at h
  exact arrivedC hs.2.2.1 h (by omega) (by omega)

/-- The object of 10 has been put into another object of 10. -/
example : (cacheChanges E (fun _ => 5) uidTy fsC).Calls [980] (storeT wsT' storT) (fun _ σ' =>
    Stored hashT (tagOf fun _ => 5) σ'.host.storage fsC uidO (vsC 10) 128064 ∧
    Stored hashT (tagOf fun _ => 5) σ'.host.storage [.u8] uidC [.num 7] 147064 ∧ σ'.host.storage 127064 = 0 ∧ σ'.host.storage 12 = 1) := by
  have hs := slotsT
  simp only [Prod.mk.injEq] at hs
  have hk : (storeT wsT' storT).host.keccak = hashT := rfl
  refine (C65_partial (E := E) (σ := storeT wsT' storT) (T := fun _ => 5) (was := wasT) (storeT_heap _ (by decide)) (storeT_statics _ (by decide)) storableC smallC safeT
    (by show 984 ≤ 65536; omega) (show leNat (memO wsT') 980 4 = 600 by decide +kernel) treeT' (by omega) goingC
    (by rw [hk, hs.2.2.2]; exact spreadC (by omega) (by omega)) (headsFs_noVec fsC rfl) (storeT_room (by decide +kernel))).mono fun r σ' h => ?_
  have h := h.2
  rw [hk] at h
  rw [show gone hashT wasT (kidsFs (some (idOf uidO)) fsC (vsC 10)) = [(127064, 127064)] from goneC] at h
  exact arrivedC hs.2.2.2 h (by omega) (by omega)

example : (cacheChanges E (fun _ => 5) uidTy fsC).Calls [980] (storeT wsT' storT) (fun _ σ' => σ'.host.storage 127064 = 0) := by
  have hs := slotsT
  simp only [Prod.mk.injEq] at hs
  have hk : (storeT wsT' storT).host.keccak = hashT := rfl
  refine (C64_partial (E := E) (σ := storeT wsT' storT) (T := fun _ => 5) (was := wasT) (storeT_heap _ (by decide)) (storeT_statics _ (by decide)) storableC smallC safeT
    (by show 984 ≤ 65536; omega) (show leNat (memO wsT') 980 4 = 600 by decide +kernel) treeT' (by omega) goingC
    (by rw [hk, hs.2.2.2]; exact spreadC (by omega) (by omega)) (headsFs_noVec fsC rfl) (storeT_room (by decide +kernel))).mono fun r σ' h => ?_
  refine (h.2 [.u8] 10 uidC [.num 7] ⟨1, .inl ⟨rfl, rfl⟩⟩).2 (by omega) (by decide) (127064, 127064) ?_ 127064 (by simp) (by simp) ?_
  · decide +kernel
  · rw [hk, hs.2.2.2]; exact offC (by omega) (by omega)

/-- An object that is not saved. -/
example : (cacheChanges E (fun _ => 5) uidTy fsC).Calls [980] (storeT wsT storT) (fun _ σ' => σ'.host.storage = storT) :=
  (C65_deleted (E := E) (σ := storeT wsT storT) (T := fun _ => 5) (storeT_heap _ (by decide)) (storeT_statics _ (by decide)) safeT (by show 984 ≤ 65536; omega)
    (show leNat (memO wsT) 980 4 = 600 by decide +kernel) treeT.rep).mono fun r σ' h => by rw [h.2.1]; rfl

/-! An object with owner 10 and field `5: u8`. -/

theorem treePlain {ws : List (Nat × Nat)} {S : Nat → Nat} {ow : Nat} (h0 : beNat (memO ws) (600 - 32) 32 = ow)
    (h : (leNat (memO ws) 600 4, leNat (memO ws) (600 + 40) 4, leNat (memO ws) (600 + 44) 4, beNat (memO ws) (600 + 60) 32,
      leNat (memO ws) (600 + 4) 4, leNat (memO ws) (600 + 100) 1) = (640, 644, 660, 9, 700, 5)) :
    Mv.Tree (storeT ws S).mem (Between 500 910) (.object (uidTy :: [.u8])) (.object ow (uidO :: [.num 5])) 600 := by
  simp only [Prod.mk.injEq] at h
  obtain ⟨h1, h2, h3, h4, h5, h6⟩ := h
  refine treeObj (e := 910) (by omega) h0 (fun x a b => ⟨by omega, by omega⟩) (by omega) ?_
  exact treeHead (f := memO ws) (B := fun _ => False) h1 h2 h3 h4 h5 h6 (by omega) (by omega) (fun x h => h.elim) rfl

/-- Storage with this object, with `3: u8`. -/
def storQ (x : Nat) : Nat := if x = 128064 then 5 * 72057594037927936 + 3 * 18446744073709551616 else if x = 12 then 1 else 0

def wasQ (_ : Kid) : List Val := [.num 3]

/-- It goes to 20, with the value in memory. -/
example : (transferObject E (fun _ => 5) uidTy [.u8]).Calls [600, 940] (storeT wsT' storQ) (fun _ σ' =>
    Stored hashT (tagOf fun _ => 5) σ'.host.storage [.u8] uidO [.num 5] 183064 ∧ σ'.host.storage 128064 = 0 ∧ σ'.host.storage 12 = 1) := by
  have hs := slotsT
  simp only [Prod.mk.injEq] at hs
  have hk : (storeT wsT' storQ).host.keccak = hashT := rfl
  have hr : beNat (storeT wsT' storQ).mem 940 32 = 20 := by show beNat (memO wsT') 940 32 = 20; decide +kernel
  have e : movers 10 (idOf uidO) [.u8] [.num 5] = [⟨some 11, 10, 9, [.u8]⟩] := by simp [movers, kidsFs, kids, uidO, idOf]
  have e1 : gone hashT wasQ (movers 10 (idOf uidO) [.u8] [.num 5]) = [(128064, 128064)] := by decide +kernel
  have e2 : area hashT [.u8] uidO [.num 5] 183064 = [(183064, 183064)] := by decide +kernel
  have hg : Going hashT (tagOf fun _ => 5) storQ wasQ (movers 10 (idOf uidO) [.u8] [.num 5]) := by
    refine ⟨?_, by rw [e1]; simp, by rw [e1]; simp⟩
    rw [e]
    simp only [List.mem_singleton]
    rintro k rfl -
    refine ⟨by simp, by simp, by decide +kernel, by simp [wasQ, SmallFs, Small, width, atom], ?_⟩
    rw [show Kid.home hashT ⟨some 11, 10, 9, [.u8]⟩ = 128064 by decide +kernel]
    simp [wasQ, HoldsFs, Layout.Holds, place]
    decide +kernel
  refine (C61_partial (E := E) (σ := storeT wsT' storQ) (T := fun _ => 5) (was := wasQ) (storeT_heap _ (by decide)) (storeT_statics _ (by decide))
    (by simp [StorableFs, Storable]) (by simp [SmallFs, Small, width, atom]) safeT
    (treePlain (by decide +kernel) (by decide +kernel)) (by omega) (by show 972 ≤ 1000; omega) (fun x h1 h2 => ⟨by omega, fun h => by have := h.2; omega⟩) hg
    (by rw [hr, hk, hs.1]; constructor <;> rw [e2] <;> simp) (headsFs_noVec _ rfl) (storeT_room (by decide +kernel))).mono fun r σ' h => ?_
  have h := h.2
  rw [hk, hr, e1] at h
  refine ⟨?_, h.left (128064, 128064) (by simp) _ (by simp) (by simp) ?_, (h.kept 12 (by simp [Off]) ?_).trans rfl⟩
  · have := h.stored
    rw [hk, hs.1] at this
    exact this
  all_goals rw [hk, hs.1, e2]; simp [Off]

/-- A shared and a frozen object. -/
def wsSh : List (Nat × Nat) := wsT ++ [(596, 2 ^ 24)]
def wsFz : List (Nat × Nat) := wsT ++ [(596, 2 ^ 25)]

example : (transferObject E0 T uidTy [.u8]).Calls [600, 940] (storeT wsSh storQ) (fun _ σ' => errWord σ' ≠ 0 ∧ σ'.host.storage = storQ) :=
  (C61_shared (vs := [.num 5]) E0_valid (storeT_heap _ (by decide)) (storeT_statics _ (by decide)) safeT
    (treePlain (by decide +kernel) (by decide +kernel)).rep).mono fun _ _ h => ⟨h.2.2.1, by rw [h.2.2.2.1]; rfl⟩
example : (shareObject E0 T uidTy [.u8]).Calls [600] (storeT wsSh storQ) (fun _ σ' => σ' = storeT wsSh storQ) :=
  (C62_again (vs := [.num 5]) (storeT_heap _ (by decide)) (storeT_statics _ (by decide)) safeT
    (treePlain (by decide +kernel) (by decide +kernel)).rep).mono fun _ _ h => h.2
example : (shareObject E0 T uidTy [.u8]).Calls [600] (storeT wsFz storQ) (fun _ σ' => errWord σ' ≠ 0 ∧ σ'.host.storage = storQ) :=
  (C62_frozen (vs := [.num 5]) E0_valid (storeT_heap _ (by decide)) (storeT_statics _ (by decide)) safeT
    (treePlain (by decide +kernel) (by decide +kernel)).rep).mono fun _ _ h => ⟨h.2.2.1, by rw [h.2.2.2.1]; rfl⟩
example : (freezeObject E0 T uidTy [.u8]).Calls [600] (storeT wsFz storQ) (fun _ σ' => σ' = storeT wsFz storQ) :=
  (C63_again (vs := [.num 5]) (storeT_heap _ (by decide)) (storeT_statics _ (by decide)) safeT
    (treePlain (by decide +kernel) (by decide +kernel)).rep).mono fun _ _ h => h.2
example : (freezeObject E0 T uidTy [.u8]).Calls [600] (storeT wsSh storQ) (fun _ σ' => errWord σ' ≠ 0 ∧ σ'.host.storage = storQ) :=
  (C63_shared (vs := [.num 5]) E0_valid (storeT_heap _ (by decide)) (storeT_statics _ (by decide)) safeT
    (treePlain (by decide +kernel) (by decide +kernel)).rep).mono fun _ _ h => ⟨h.2.2.1, by rw [h.2.2.2.1]; rfl⟩

/-! ### Counterexamples -/

/-- Errors in places of their own. -/
def E1 : ErrPtrs
  | .frozenCannotBeTransferred => 70004
  | _ => 70000

theorem E1_valid : E1.Valid := fun e => by cases e <;> simp [E1]

/-- Transferring a frozen object is not refused as such: the check compares no bytes.  The call goes on, writes the object to the storage
of the recipient, and ends with the error of a failed deletion. -/
theorem C61_false : ∃ (σ : Store) (R : Nat → Prop) (fs : List Ty) (uid : Val) (vs : List Val) (w kp : Nat),
    E1.Valid ∧ Heap σ ∧ Statics σ ∧ Safe σ R 128 ∧ Mv.Rep σ.mem R (.object (uidTy :: fs)) (.object 2 (uid :: vs)) w ∧
    kp + 32 ≤ σ.nextFree ∧ (∀ x, kp ≤ x → x < kp + 32 → 468 ≤ x ∧ ¬ R x) ∧
    (transferObject E1 (fun _ => 5) uidTy fs).Calls [w, kp] σ (fun r σ' => r = [] ∧ errWord σ' ≠ E1 .frozenCannotBeTransferred ∧
      σ'.host.storage (objectSlot σ.host.keccak (beNat σ.mem kp 32) (idOf uid)) ≠ 0) := by
  refine ⟨storeT wsFz storQ, Between 500 910, [.u8], uidO, [.num 5], 600, 940, E1_valid, storeT_heap _ (by decide), storeT_statics _ (by decide), safeT,
    (treePlain (by decide +kernel) (by decide +kernel)).rep, by show 972 ≤ 1000; omega, fun x h1 h2 => ⟨by omega, fun h => by have := h.2; omega⟩, ?_⟩
  have hr : beNat (storeT wsFz storQ).mem 940 32 = 20 := by show beNat (memO wsFz) 940 32 = 20; decide +kernel
  have hs := slotsT
  simp only [Prod.mk.injEq] at hs
  rw [hr, show (storeT wsFz storQ).host.keccak = hashT from rfl, hs.1]
  refine (calls_of_obs 1000 (fun σ' => (errWord σ', σ'.host.storage 183064)) [] (E1 .frozenCannotBeDeleted, 5 * 72057594037927936 + 5 * 18446744073709551616)
    rfl (by decide +kernel)).mono fun r σ' h => ?_
  have h2 := h.2
  simp only [Prod.mk.injEq] at h2
  exact ⟨h.1, by rw [h2.1]; decide, by rw [h2.2]; decide⟩

/-- The object at 800 in the first variant of an enum, and in a vector of vectors. -/
def wsEn : List (Nat × Nat) := [(704, 800), (700, 0)] ++ wsT'
def wsNe : List (Nat × Nat) := [(700, 1), (704, 1), (708, 720), (720, 1), (724, 1), (728, 800)] ++ wsT'
def objC : Ty := .object (uidTy :: [.u8])
def valC : Val := .object 10 (uidC :: [.num 7])

theorem treeC8 {f : Bytes} {R : Nat → Prop} (hR : ∀ x, 768 ≤ x → x < 910 → R x) (h' : (beNat f (800 - 32) 32, leNat f 800 4, leNat f (800 + 40) 4,
      leNat f (800 + 44) 4, beNat f (800 + 60) 32, leNat f (800 + 4) 4, leNat f (800 + 100) 1) = (10, 840, 844, 860, 8, 900, 7)) :
    Mv.Tree f R objC valC 800 := by
  simp only [Prod.mk.injEq] at h'
  obtain ⟨g0, g1, g2, g3, g4, g5, g6⟩ := h'
  exact treeObj (e := 910) (by omega) g0 hR (by omega)
    (treeHead (B := fun _ => False) g1 g2 g3 g4 g5 g6 (by omega) (by omega) (fun x h => h.elim) rfl)

theorem storedC {S : Nat → Nat} {c : Nat} (h : S c = 5 * 72057594037927936 + 7 * 18446744073709551616) :
    Stored hashT (tagOf fun _ => 5) S [.u8] uidC [.num 7] c := by
  constructor
  · rw [h]; decide +kernel
  · simp [HoldsFs, Layout.Holds, place, h]
    decide +kernel

/-- Fields `UID` and one that is not a scalar. -/
theorem treeOne {f : Bytes} {t : Ty} {x : Val} {w e n : Nat} (ht : t.scalar = false) (h0 : leNat f w 4 = w + 40)
    (h1 : leNat f (w + 40) 4 = w + 44) (h2 : leNat f (w + 44) 4 = w + 60) (h3 : beNat f (w + 60) 32 = n) (h4 : leNat f (w + 4) 4 = w + 100)
    (he : w + 100 ≤ e) (h : Mv.Tree f (Span (w + 100) e) t x (w + 100)) :
    TreeFs f (Span w e) [uidTy, t] [.struct [.struct [.num n]], x] w := by
  rw [TreeFs]
  refine ⟨_, _, Span (w + 40) (w + 92), fun x => Span (w + 4) (w + 40) x ∨ Span (w + 92) e x, rfl, fun x a b => ⟨a, by omega⟩,
    fun h => absurd h (by simp [uidTy, Ty.scalar]), ?_, ?_, fun x hx => ⟨by have := hx.1; omega, by have := hx.2; omega⟩,
    fun x hx => by rcases hx with hx | hx <;> exact ⟨by have := hx.1; omega, by have := hx.2; omega⟩,
    fun x hx hx' => by have := hx.1; have := hx.2; rcases hx' with hx' | hx' <;> (have := hx'.1; have := hx'.2; omega),
    fun x hx hx' => by have := hx.1; have := hx'.2; omega,
    fun x hx hx' => by have := hx'.1; have := hx'.2; rcases hx with hx | hx <;> (have := hx.1; omega)⟩
  · rw [if_neg (by simp [uidTy, Ty.scalar]), h0]
    exact treeUid h1 h2 h3
  · rw [TreeFs]
    refine ⟨_, _, Span (w + 100) e, fun _ => False, rfl, fun x a b => .inl ⟨a, by omega⟩, fun h => absurd h (by simp [ht]), ?_, rfl,
      fun x hx => .inr ⟨by have := hx.1; omega, by have := hx.2; omega⟩, fun x hx => hx.elim,
      fun x hx hx' => hx', fun x hx hx' => by have := hx.1; have := hx'.2; omega, fun x hx => hx.elim⟩
    rw [ht, if_neg (by simp), h4]
    exact h

theorem repOne {f : Bytes} {t : Ty} {x : Val} {ow : Nat} (ht : t.scalar = false) (h0 : beNat f (600 - 32) 32 = ow)
    (h : (leNat f 600 4, leNat f (600 + 40) 4, leNat f (600 + 44) 4, beNat f (600 + 60) 32, leNat f (600 + 4) 4) = (640, 644, 660, 9, 700))
    (hx : Mv.Tree f (Span 700 910) t x 700) : Mv.Tree f (Between 500 910) (.object (uidTy :: [t])) (.object ow (uidO :: [x])) 600 := by
  simp only [Prod.mk.injEq] at h
  obtain ⟨h1, h2, h3, h4, h5⟩ := h
  refine treeObj (e := 910) (by omega) h0 (fun x a b => ⟨by omega, by omega⟩) (by omega) ?_
  exact treeOne ht h1 h2 h3 h4 h5 (by omega) hx

/-- What is claimed of wrapping fails for a type: an object `valC` of 10 in a value `v` of this type in an object of 10 is, after
the object is saved, stored both in it and under 10. -/
def Doubled (t : Ty) (v : Val) : Prop := ∃ (σ : Store) (R : Nat → Prop) (w p : Nat),
  Heap σ ∧ Statics σ ∧ Storable t ∧ Small t v ∧ Safe σ R 128 ∧ p + 4 ≤ σ.size ∧ leNat σ.mem p 4 = w ∧
  Mv.Tree σ.mem R (.object (uidTy :: [t])) (.object 10 (uidO :: [v])) w ∧
  Stored σ.host.keccak (tagOf fun _ => 5) σ.host.storage [.u8] uidC [.num 7] (objectSlot σ.host.keccak 10 (idOf uidC)) ∧
  objectSlot σ.host.keccak 10 (idOf uidC) ≠ objectSlot σ.host.keccak (idOf uidO) (idOf uidC) ∧
  (cacheChanges E0 (fun _ => 5) uidTy [t]).Calls [p] σ (fun r σ' => r = [] ∧ errWord σ' = 0 ∧
    Stored σ.host.keccak (tagOf fun _ => 5) σ'.host.storage [.u8] uidC [.num 7] (objectSlot σ.host.keccak (idOf uidO) (idOf uidC)) ∧
    Stored σ.host.keccak (tagOf fun _ => 5) σ'.host.storage [.u8] uidC [.num 7] (objectSlot σ.host.keccak 10 (idOf uidC)))

theorem slotsC : (objectSlot hashT 10 (idOf uidC), objectSlot hashT (idOf uidO) (idOf uidC)) = (127064, 147064) := by decide +kernel

/-- An object in an enum is not taken from the storage of its owner. -/
theorem C64_false_enum : Doubled (.enum [[objC]]) (.variant 0 [valC]) := by
  have hs := slotsC
  simp only [Prod.mk.injEq] at hs
  have hk : (storeT wsEn storT).host.keccak = hashT := rfl
  refine ⟨storeT wsEn storT, Between 500 910, 600, 980, storeT_heap _ (by decide), storeT_statics _ (by decide), ?_, ?_, safeT,
    by show 984 ≤ 65536; omega, show leNat (memO wsEn) 980 4 = 600 by decide +kernel, ?_, by rw [hk, hs.1]; exact storedC (by decide),
    by rw [hk, hs.1, hs.2]; decide, ?_⟩
  · simp only [objC, StorableFs, Storable, StorableVs, true_and, and_true]
    refine ⟨by simp, fun i hi => ?_⟩
    revert i
    decide +kernel
  · simp [objC, valC, uidC, SmallFs, Small, SmallVar, width, atom, idOf]
  · have e2 : leNat (memO wsEn) 700 4 = 0 := by decide +kernel
    have e3 : leNat (memO wsEn) (700 + 4) 4 = 800 := by decide +kernel
    refine repOne (f := memO wsEn) rfl (by decide +kernel) (by decide +kernel) ?_
    simp only [Mv.Tree, Mv.Rep, e2]
    refine ⟨_, rfl, fun x a b => ⟨a, by omega⟩, ?_⟩
    simp only [RepVar, Mv.RepFs, e3]
    refine ⟨_, _, rfl, fun x a b => ⟨by omega, by omega⟩, fun h => absurd h (by simp [objC, Ty.scalar]), ?_, rfl⟩
    exact (treeC8 (f := memO wsEn) (R := Span 700 910) (fun x h1 h2 => ⟨by omega, by omega⟩) (by decide +kernel)).rep
  · rw [hk, hs.1, hs.2]
    refine (calls_of_obs 1000 (fun σ' => (errWord σ', σ'.host.storage 147064, σ'.host.storage 127064)) []
      (0, 5 * 72057594037927936 + 7 * 18446744073709551616, 5 * 72057594037927936 + 7 * 18446744073709551616) rfl (by decide +kernel)).mono fun r σ' h => ?_
    have h2 := h.2
    simp only [Prod.mk.injEq] at h2
    exact ⟨h.1, h2.1, storedC h2.2.1, storedC h2.2.2⟩

/-- Nor is an object in a vector of vectors. -/
theorem C64_false_nested : Doubled (.vec (.vec objC)) (.vec [.vec [valC]]) := by
  have hs := slotsC
  simp only [Prod.mk.injEq] at hs
  have hk : (storeT wsNe storT).host.keccak = hashT := rfl
  refine ⟨storeT wsNe storT, Between 500 910, 600, 980, storeT_heap _ (by decide), storeT_statics _ (by decide), ?_, ?_, safeT,
    by show 984 ≤ 65536; omega, show leNat (memO wsNe) 980 4 = 600 by decide +kernel, ?_, by rw [hk, hs.1]; exact storedC (by decide),
    by rw [hk, hs.1, hs.2]; decide, ?_⟩
  · simp [objC, StorableFs, Storable]
  · simp [objC, valC, uidC, SmallFs, Small, width, atom, idOf]
  · have e1 : leNat (memO wsNe) 700 4 = 1 := by decide +kernel
    have e2 : leNat (memO wsNe) (700 + 4) 4 = 1 := by decide +kernel
    have e3 : leNat (memO wsNe) (700 + 8 + 0 * 4) 4 = 720 := by decide +kernel
    have e4 : leNat (memO wsNe) 720 4 = 1 := by decide +kernel
    have e5 : leNat (memO wsNe) (720 + 4) 4 = 1 := by decide +kernel
    have e6 : leNat (memO wsNe) (720 + 8 + 0 * 4) 4 = 800 := by decide +kernel
    refine repOne (f := memO wsNe) rfl (by decide +kernel) (by decide +kernel) ?_
    simp only [Mv.Tree, e1, e2]
    refine ⟨_, fun _ => Span 720 910, rfl, rfl, by simp, fun x a b => ⟨a, by simp only [Ty.size] at b; omega⟩,
      fun i hi => ⟨fun x hx => ⟨by have := hx.1; omega, hx.2⟩, fun x hx hx' => by have := hx.1; have := hx'.2; simp only [Ty.size] at this; omega⟩,
      fun i j h1 h2 => by simp at h2; omega, fun i hi => ?_⟩
    simp only [List.length_singleton, Nat.lt_one_iff] at hi
    subst hi
    simp only [objC, Ty.size, e3, e4, e5, List.getElem_cons_zero]
    refine ⟨_, fun _ => Span 768 910, rfl, rfl, by simp, fun x a b => ⟨a, by omega⟩,
      fun i hi => ⟨fun x hx => ⟨by have := hx.1; omega, hx.2⟩, fun x hx hx' => by have := hx.1; have := hx'.2; omega⟩,
      fun i j h1 h2 => by simp at h2; omega, fun i hi => ?_⟩
    simp only [List.length_singleton, Nat.lt_one_iff] at hi
    subst hi
    simp only [e6, List.getElem_cons_zero]
    exact treeC8 (f := memO wsNe) (R := Span 768 910) (fun x h1 h2 => ⟨by omega, by omega⟩) (by decide +kernel)
  · rw [hk, hs.1, hs.2]
    refine (calls_of_obs 1000 (fun σ' => (errWord σ', σ'.host.storage 147064, σ'.host.storage 127064)) []
      (0, 5 * 72057594037927936 + 7 * 18446744073709551616, 5 * 72057594037927936 + 7 * 18446744073709551616) rfl (by decide +kernel)).mono fun r σ' h => ?_
    have h2 := h.2
    simp only [Prod.mk.injEq] at h2
    exact ⟨h.1, h2.1, storedC h2.2.1, storedC h2.2.2⟩

/-- The object at 800 in a struct, behind the field `2^32 - 1: u64`. -/
def wsSt : List (Nat × Nat) := [(700, 712), (704, 800), (712, 4294967295)] ++ wsT'

/-- An object of 10 in a struct in an object of 10 that is saved: the code takes the struct for an object, follows its first field as if it were a
pointer, and traps. -/
theorem C64_false_struct : ∃ (σ : Store) (R : Nat → Prop) (w p : Nat),
    Heap σ ∧ Statics σ ∧ Storable (.struct [.u64, objC]) ∧ Small (.struct [.u64, objC]) (.struct [.num 4294967295, valC]) ∧ Safe σ R 128 ∧
    p + 4 ≤ σ.size ∧ leNat σ.mem p 4 = w ∧
    Mv.Tree σ.mem R (.object (uidTy :: [.struct [.u64, objC]])) (.object 10 (uidO :: [.struct [.num 4294967295, valC]])) w ∧
    Stored σ.host.keccak (tagOf fun _ => 5) σ.host.storage [.u8] uidC [.num 7] (objectSlot σ.host.keccak 10 (idOf uidC)) ∧
    (cacheChanges E0 (fun _ => 5) uidTy [.struct [.u64, objC]]).Traps [p] σ := by
  have hs := slotsC
  simp only [Prod.mk.injEq] at hs
  have hk : (storeT wsSt storT).host.keccak = hashT := rfl
  refine ⟨storeT wsSt storT, Between 500 910, 600, 980, storeT_heap _ (by decide), storeT_statics _ (by decide), ?_, ?_, safeT,
    by show 984 ≤ 65536; omega, show leNat (memO wsSt) 980 4 = 600 by decide +kernel, ?_, by rw [hk, hs.1]; exact storedC (by decide), ?_⟩
  · simp [objC, StorableFs, Storable]
  · simp [objC, valC, uidC, SmallFs, Small, width, atom, idOf]
  · have e1 : leNat (memO wsSt) 700 4 = 712 := by decide +kernel
    have e2 : leNat (memO wsSt) (700 + 4) 4 = 800 := by decide +kernel
    have e3 : leNat (memO wsSt) 712 8 = 4294967295 := by decide +kernel
    refine repOne (f := memO wsSt) rfl (by decide +kernel) (by decide +kernel) ?_
    simp only [Mv.Tree]
    refine ⟨_, rfl, ?_⟩
    rw [TreeFs]
    refine ⟨_, _, Span 712 720, fun x => Span 704 708 x ∨ Span 768 910 x, rfl, fun x a b => ⟨a, by omega⟩, fun _ x a b => ?_, ?_, ?_,
      fun x hx => ⟨by have := hx.1; omega, by have := hx.2; omega⟩,
      fun x hx => by rcases hx with hx | hx <;> exact ⟨by have := hx.1; omega, by have := hx.2; omega⟩,
      fun x hx hx' => by have := hx.1; have := hx.2; rcases hx' with hx' | hx' <;> (have := hx'.1; have := hx'.2; omega),
      fun x hx hx' => by have := hx.1; have := hx'.2; omega,
      fun x hx hx' => by have := hx'.1; have := hx'.2; rcases hx with hx | hx <;> (have := hx.1; omega)⟩
    · rw [e1] at a b
      exact ⟨a, by simp only [Ty.size] at b; omega⟩
    · simp only [Ty.scalar, if_true, Ty.size, e1, e3, Mv.Tree, Mv.Rep]
      exact ⟨trivial, by decide⟩
    · rw [TreeFs]
      refine ⟨_, _, Span 768 910, fun _ => False, rfl, fun x a b => .inl ⟨a, by omega⟩, fun h => absurd h (by simp [objC, Ty.scalar]), ?_, rfl,
        fun x hx => .inr hx, fun x hx => hx.elim, fun x _ hx => hx, fun x hx hx' => by have := hx.1; have := hx'.2; omega, fun x hx => hx.elim⟩
      rw [if_neg (by simp [objC, Ty.scalar]), e2]
      exact treeC8 (f := memO wsSt) (R := Span 768 910) (fun x h1 h2 => ⟨by omega, by omega⟩) (by decide +kernel)
  · exact traps_of_run 1000 rfl (by decide +kernel)

end Props
