import Verif.Proof.Objects
import Verif.Props.Delete
import Verif.Props.Dynamic
import Verif.Props.ReadBack

/-!
# Stored objects in function signatures: C98

The hash function of the host is arbitrary.
-/

namespace Props
open Wasm Rt Slots Mv Layout

variable {σ σ' : Store} {E : ErrPtrs} {T : Ty → Nat}

/-! ### C98: the objects passed to a function are the stored ones -/

/-- Memory needed for the object. -/
def loadCost (fs : List Ty) (vs : List Val) : Nat := 48 + 4 * fs.length + dcostFs fs vs

/-- The call has returned the object with the given owner, id and fields: a new value in memory.  Nothing else has changed but the
position in the calldata, which is `p`, and memory below 468 (buffers of the runtime).  The owners of objects in the fields are not part of the comparison (`eraseL`). -/
def Passed (σ σ' : Store) (r : List Nat) (p owner : Nat) (fs : List Ty) (uid : Val) (vs : List Val) : Prop :=
  ∃ w vs', r = [w] ∧ Heap σ' ∧ Statics σ' ∧ σ'.host = σ.host ∧ σ'.reader = p ∧ σ'.maxPages = σ.maxPages ∧ σ.nextFree ≤ σ'.nextFree ∧
    σ'.nextFree ≤ σ.nextFree + (64 + loadCost fs vs) ∧ σ.size ≤ σ'.size ∧
    (∀ x, 468 ≤ x → x < σ.nextFree → σ'.mem x = σ.mem x) ∧ eraseL vs' = eraseL vs ∧
    Mv.Rep σ'.mem (fun x => σ.nextFree ≤ x ∧ x < σ'.nextFree) (.object (uidTy :: fs)) (.object owner (uid :: vs')) w

/-- Reading an object that has been located. -/
theorem read_located {σ1 : Store} {fs : List Ty} {uid : Val} {vs : List Val} {a u k owner : Nat} (hT : Tags T) (hfs : StorableFs fs) (hty : TypedFs fs vs)
    (hσ : Heap σ) (ha : Rt.Cell a) (hau : u + 32 ≤ a ∨ a + 32 ≤ u) (hain : a + 32 ≤ σ1.nextFree) (hu : u + 32 ≤ σ.nextFree) (hu' : 468 ≤ u) (huid : uid = .struct [.struct [.num (beNat σ.mem u 32)]])
    (hf : freshFs fs vs (objectSlot σ.host.keccak owner (idOf uid), 8) true ≠ none)
    (hs : Stored σ.host.keccak (tagOf T) σ.host.storage fs uid vs (objectSlot σ.host.keccak owner (idOf uid)))
    (hseg : ∀ g ∈ area σ.host.keccak fs uid vs (objectSlot σ.host.keccak owner (idOf uid)), g.2 < 2 ^ 256)
    (h : ObjAt σ σ1 a k owner (objectSlot σ.host.keccak owner (idOf uid)))
    (hroom : Room σ1 (loadCost fs vs)) (hedge : narrowFs fs = true → σ1.nextFree + loadCost fs vs + 3 ≤ σ1.size) :
    (readObject E T uidTy fs).Calls [a, u, k] σ1 (fun r σ' => ∃ w, r = [w] ∧ ∃ vs', Later (scr a) σ1 σ' ∧ Statics σ' ∧ σ'.host = σ.host ∧
      eraseL vs' = eraseL vs ∧ Mv.Rep σ'.mem (fun x => Between u (u + 32) x ∨ σ1.nextFree ≤ x ∧ x < σ'.nextFree) (.object (uidTy :: fs))
        (.object owner (uid :: vs')) w ∧ σ'.nextFree ≤ σ1.nextFree + loadCost fs vs) := by
  obtain ⟨b', hf⟩ := Option.ne_none_iff_exists'.mp hf
  have hb := hσ.base
  unfold reserved at hb
  have hn := h.later.nextFree
  have hid : beNat σ1.mem u 32 = beNat σ.mem u 32 := h.later.beNat hu fun x h1 h2 => by unfold fixedMem; omega
  have hk := h.fixed
  refine (readObject_cost (E := E) (n := beNat σ.mem u 32) (d := narrowFs fs) hT hfs h.later.heap h.statics ha hain h.slot
    (fun x hx => ⟨by have := hx.1; omega, by have := hx.2; omega, by have := hx.1; have := hx.2; omega⟩) hid
    (by omega) (by rw [h.host, ← huid]; exact hs) hty hf ⟨hroom, hedge⟩ (fun h => h) (by rw [h.host, ← huid]; exact hseg)).mono ?_
  rintro r σ' ⟨w, vs', c', rfl, hl, hh, hr, he, hcost⟩
  refine ⟨w, rfl, vs', hl, hl.statics (by omega) h.statics fun x hx => scr_static ha hx, hh.trans h.host, he, ?_, hcost⟩
  rw [h.owner, ← huid] at hr
  refine Rep.change (fun _ _ => rfl) (fun x hx => ?_) _ hr
  rcases hx with hx | hx
  · exact .inl hx
  · exact .inr ⟨hx.1, hx.2.1⟩

/-- The id of the object is in new memory. -/
structure Ided (σ σ1 : Store) (n : Nat) : Prop where
  heap : Heap σ1
  statics : Statics σ1
  id : beNat σ1.mem σ.nextFree 32 = n
  nextFree : σ1.nextFree = σ.nextFree + 32
  mem : ∀ x, x < σ.nextFree → σ1.mem x = σ.mem x
  size : σ.size ≤ σ1.size
  maxPages : σ1.maxPages = σ.maxPages
  host : σ1.host = σ.host

theorem statics_of_mem (hσ : Heap σ) (hst : Statics σ) (h : ∀ x, x < σ.nextFree → σ'.mem x = σ.mem x) : Statics σ' := by
  have hb := hσ.base
  unfold reserved at hb
  exact ⟨(leNat_congr fun x h1 h2 => h x (by omega)).trans hst.zero, (leNat_congr fun x h1 h2 => h x (by omega)).trans hst.one,
    (beNat_congr fun x h1 h2 => h x (by omega)).trans hst.objects, (beNat_congr fun x h1 h2 => h x (by omega)).trans hst.shared,
    (beNat_congr fun x h1 h2 => h x (by omega)).trans hst.frozen⟩

theorem unpackId {p m : Nat} (hσ : Heap σ) (hst : Statics σ) (hp : p + 32 ≤ σ.nextFree) (hroom : Room σ m) (hm : 32 ≤ m) :
    unpackAddress.Calls [p] σ (fun r σ1 => r = [σ.nextFree] ∧ Ided σ σ1 (beNat σ.mem p 32) ∧ σ1.reader = p + 32) := by
  refine (unpackAddress_spec hσ hp (hroom.canAlloc hσ.alloc hm)).mono ?_
  rintro r σ1 ⟨rfl, hg, hr, hn, hmem⟩
  refine ⟨rfl, ⟨hg.heap hσ, statics_of_mem hσ hst hg.mem, ?_, hn, hg.mem, hg.size, hg.maxPages, hg.host⟩, hr⟩
  rw [hmem]
  refine beNat_ext fun i hi => ?_
  rw [copyBytes_in (by omega) (by omega), Nat.add_sub_cancel_left]

theorem wp_load {σ0 : Store} {kind : Option Sig.Kind} {imm : Bool} {fs : List Ty} {uid : Val} {vs : List Val} {n me owner : Nat} {s l is Q}
    (hσ : Heap σ0) (h : Ided σ0 σ n) (hme : σ0.host.origin = me) (hme' : me < 2 ^ 160) (hT : Tags T) (hfs : StorableFs fs) (hty : TypedFs fs vs)
    (huid : uid = .struct [.struct [.num n]]) (hh : Holder σ0 me n kind imm owner)
    (hf : freshFs fs vs (objectSlot σ0.host.keccak owner n, 8) true ≠ none)
    (hs : Stored σ0.host.keccak (tagOf T) σ0.host.storage fs uid vs (objectSlot σ0.host.keccak owner n))
    (hseg : ∀ g ∈ area σ0.host.keccak fs uid vs (objectSlot σ0.host.keccak owner n), g.2 < 2 ^ 256)
    (hroom : Room σ0 (64 + loadCost fs vs)) (hedge : narrowFs fs = true → σ0.nextFree + (64 + loadCost fs vs) + 3 ≤ σ0.size)
    (hQ : ∀ w σ', Passed σ0 σ' [w] σ.reader owner fs uid vs → wp is (w :: s) l σ' Q) :
    wp (loadObject E T kind imm uidTy fs ++ is) (σ0.nextFree :: s) l σ Q := by
  have hb := hσ.base
  unfold reserved at hb
  have hn := h.nextFree
  have hid : idOf uid = n := by rw [huid]; rfl
  subst hid
  refine wp_loadObject (n := loadCost fs vs) (P := fun w σ' => Passed σ0 σ' [w] σ.reader owner fs uid vs) h.heap h.statics (by omega) (by omega)
    (Room.after (k := 32) (hroom.mono (by omega)) (by omega) h.maxPages) (by rw [h.host, hme]; exact Nat.mod_eq_of_lt hme') h.id (hh.of_host h.host)
    (fun σ1 k h1 h2 h3 => ?_) fun w σ' hP => ?_
  · have hmono := h1.later.size
    have hsz := h.size
    refine (read_located (E := E) (u := σ0.nextFree) (owner := owner) hT hfs hty h.heap (.inr (by omega)) (.inl (by omega)) (by omega) (by omega) (by omega) (by rw [h.id]; exact huid)
      (by rw [h.host]; exact hf) (by rw [h.host]; exact hs) (by rw [h.host]; exact hseg) h1 h3 fun hd => by have := hedge hd; omega).mono ?_
    rintro r σ' ⟨w, rfl, vs', hl, hst, hho, he, hr, hco⟩
    have g1 := hl.nextFree
    refine ⟨w, rfl, w, vs', rfl, hl.heap, hst, hho.trans h.host, hl.reader.trans h1.later.reader, hl.maxPages.trans (h1.later.maxPages.trans h.maxPages), by omega,
      by omega, by have := hl.size; omega,
      fun x g2 g3 => ?_, he, Rep.change (fun _ _ => rfl) (fun x hx => ?_) _ hr⟩
    · rw [hl.mem x (by omega) (by unfold scr sizeTable hashBuf; omega), h1.later.mem x (by omega) (by unfold fixedMem; omega), h.mem x (by omega)]
    · rcases hx with hx | hx
      · exact ⟨hx.1, by have := hx.2; omega⟩
      · exact ⟨by omega, hx.2⟩
  · have ⟨_, _, _, g, _⟩ := hP
    exact ⟨g, hQ w σ' hP⟩

/-- The argument is the id of an object.  The function gets the object with this id that storage holds: that of the sender, else
a shared one, else, if the parameter is an immutable reference, a frozen one; with a modifier (`#[owned_objects]` and so on), only one of
this kind (`Holder`).

Missing: layouts for which C39 fails (`freshFs`), and objects whose slots wrap around (`area`). -/
theorem C98_partial {kind : Option Sig.Kind} {imm : Bool} {fs : List Ty} {uid : Val} {vs : List Val} {p n me owner : Nat}
    (hσ : Heap σ) (hst : Statics σ) (hp : p + 32 ≤ σ.nextFree) (hn : beNat σ.mem p 32 = n) (hme : σ.host.origin = me) (hme' : me < 2 ^ 160)
    (hT : Tags T) (hfs : StorableFs fs) (hty : TypedFs fs vs) (huid : uid = .struct [.struct [.num n]])
    (hh : Holder σ me n kind imm owner)
    (hf : freshFs fs vs (objectSlot σ.host.keccak owner n, 8) true ≠ none)
    (hs : Stored σ.host.keccak (tagOf T) σ.host.storage fs uid vs (objectSlot σ.host.keccak owner n))
    (hseg : ∀ g ∈ area σ.host.keccak fs uid vs (objectSlot σ.host.keccak owner n), g.2 < 2 ^ 256)
    (hroom : Room σ (64 + loadCost fs vs)) (hedge : narrowFs fs = true → σ.nextFree + (64 + loadCost fs vs) + 3 ≤ σ.size) :
    (loadArg E T kind imm uidTy fs).Calls [p] σ (fun r σ' => Passed σ σ' r (p + 32) owner fs uid vs) := by
  have hb := hσ.alloc.nextFree_le
  have hb' := hσ.alloc.size_lt
  refine ⟨rfl, ?_⟩
  unfold loadArg
  simp only [List.cons_append, List.nil_append]
  wstep
  refine wp_call1 (unpackId hσ hst hp hroom (by omega)) ?_
  rintro r σ1 ⟨rfl, hi, hr⟩
  simp only [List.cons_append, List.nil_append]
  rw [hn] at hi
  refine wp_load hσ hi hme hme' hT hfs hty huid hh hf hs hseg hroom hedge fun w σ' h => ?_
  rw [hr] at h
  wstep
  exact h

/-- If there is no such object the function is not called, and the transaction fails with `objectNotFound`. -/
theorem C98_absent {kind : Option Sig.Kind} {imm : Bool} {fs : List Ty} {p n me : Nat} (hE : E.Valid)
    (hσ : Heap σ) (hst : Statics σ) (hp : p + 32 ≤ σ.nextFree) (hn : beNat σ.mem p 32 = n) (hme : σ.host.origin = me) (hme' : me < 2 ^ 160)
    (hh : ∀ owner, ¬ Holder σ me n kind imm owner) (hroom : Room σ 32) :
    (loadArg E T kind imm uidTy fs).Calls [p] σ (fun _ σ' => Failed E .objectNotFound σ σ') := by
  have hb := hσ.base
  unfold reserved at hb
  refine ⟨rfl, ?_⟩
  unfold loadArg
  simp only [List.cons_append, List.nil_append]
  wstep
  refine wp_call1 (unpackId hσ hst hp hroom (by omega)) ?_
  rintro r σ1 ⟨rfl, hi, hr⟩
  simp only [List.cons_append, List.nil_append]
  rw [hn] at hi
  have hnf := hi.nextFree
  refine wp_loadObject_none hE hi.heap hi.statics (by omega) (by omega) (by rw [hi.host, hme]; exact Nat.mod_eq_of_lt hme') hi.id
    (fun o ho => hh o (ho.of_host hi.host.symm)) fun σ' h => ?_
  obtain ⟨σ2, t, rfl⟩ := h
  simp only [retK, badStk]
  exact failed_err hE (t.host.trans hi.host)

/-- An object of another type is not passed to the function. -/
theorem C98_type {kind : Option Sig.Kind} {imm : Bool} {fs gs : List Ty} {uid : Val} {vs : List Val} {p n me owner : Nat} (hE : E.Valid)
    (hσ : Heap σ) (hst : Statics σ) (hp : p + 32 ≤ σ.nextFree) (hn : beNat σ.mem p 32 = n) (hme : σ.host.origin = me) (hme' : me < 2 ^ 160)
    (hT : Tags T) (hh : Holder σ me n kind imm owner)
    (hs : Stored σ.host.keccak (tagOf T) σ.host.storage fs uid vs (objectSlot σ.host.keccak owner n))
    (hne : T (.object (uidTy :: gs)) ≠ T (.object (uidTy :: fs))) (hroom : Room σ 96) :
    (loadArg E T kind imm uidTy gs).Calls [p] σ (fun _ σ' => Failed E .typeMismatch σ σ') := by
  have hb := hσ.base
  unfold reserved at hb
  refine ⟨rfl, ?_⟩
  unfold loadArg
  simp only [List.cons_append, List.nil_append]
  wstep
  refine wp_call1 (unpackId hσ hst hp hroom (by omega)) ?_
  rintro r σ1 ⟨rfl, hi, hr⟩
  simp only [List.cons_append, List.nil_append]
  rw [hn] at hi
  have hnf := hi.nextFree
  refine wp_loadObject_err (n := 32) (P := fun σ' => Failed E .typeMismatch σ σ') hi.heap hi.statics (by omega) (by omega)
    (Room.after (k := 32) hroom (by omega) hi.maxPages) (by rw [hi.host, hme]; exact Nat.mod_eq_of_lt hme') hi.id (hh.of_host hi.host)
    (fun σ2 k h1 h2 h3 => ?_) fun σ' _ h => ?_
  · have hk := h1.fixed
    refine (readObject_err (E := E) h1.later.heap h1.statics (.inr (by omega)) (by omega) h1.slot (by omega) h3 (hT _).2 ?_).mono ?_
    · rw [h1.host, hi.host, hs.tag]
      intro he
      unfold tagOf at he
      have h1 := congrArg (bswap 8) he
      rw [bswap_bswap, bswap_bswap, Nat.mod_eq_of_lt (Nat.lt_of_lt_of_eq (hT _).2 (by norm_num)),
        Nat.mod_eq_of_lt (Nat.lt_of_lt_of_eq (hT _).2 (by norm_num))] at h1
      exact hne h1.symm
    · rintro r σ' ⟨σ3, x, rfl, hl, hh', rfl⟩
      rw [h1.host, hi.host, headErr, if_neg (stored_pos hT hs)]
      exact ⟨x, rfl, wide_err hE hl.heap rfl (hh'.trans (h1.host.trans hi.host))⟩
  · simp only [retK, badStk]
    exact h

end Props
