import Verif.Props.Objects2

/-!
# Objects from one transaction to the next: C106

What a transaction transfers, shares, freezes or changes, a later one gets: C61-C63 and C65 composed with C98.  The hash function of
the host is arbitrary.
-/

namespace Props
open Wasm Rt Slots Mv Layout

variable {σ σ' τ : Store} {E E' : ErrPtrs} {T : Ty → Nat}

/-- The store `τ` is that of a later transaction of `me`, about to load the parameter at `p` of the calldata: the id `n`.  Storage holds
what `σ'` has left in the slots `gs`; other slots may have changed. -/
structure NextTx (σ' τ : Store) (gs : List (Nat × Nat)) (p n me : Nat) : Prop where
  heap : Heap τ
  statics : Statics τ
  fits : p + 32 ≤ τ.nextFree
  id : beNat τ.mem p 32 = n
  sender : τ.host.origin = me
  small : me < 2 ^ 160
  keccak : τ.host.keccak = σ'.host.keccak
  storage : ∀ x, ¬ Off gs x → τ.host.storage x = σ'.host.storage x

/-- The parameter stands for objects of the owner `o`: with a modifier, those of this kind; without, those of the sender, or shared ones
if the sender has none with this id, or, for an immutable reference, frozen ones if there is no other. -/
def Reaches (τ : Store) (me n : Nat) : Option Sig.Kind → Bool → Nat → Prop
  | some .owned, _, o => o = me
  | some .shared, _, o => o = 1
  | some .frozen, _, o => o = 2
  | none, imm, o => o = me ∨ o = 1 ∧ ¬ Occupied τ me n ∨ o = 2 ∧ ¬ Occupied τ me n ∧ ¬ Occupied τ 1 n ∧ imm = true

theorem Reaches.holder {me n o : Nat} {kind : Option Sig.Kind} {imm : Bool} (h : Reaches τ me n kind imm o) (ho : Occupied τ o n) :
    Holder τ me n kind imm o := by
  unfold Reaches at h
  unfold Holder
  split at h
  · subst h; exact ⟨rfl, ho⟩
  · subst h; exact ⟨rfl, ho⟩
  · subst h; exact ⟨rfl, ho⟩
  · rcases h with rfl | ⟨rfl, h⟩ | ⟨rfl, h1, h2, h3⟩
    · exact .inl ⟨rfl, ho⟩
    · exact .inr (.inl ⟨rfl, h, ho⟩)
    · exact .inr (.inr ⟨rfl, h1, h2, h3, ho⟩)

theorem stored_occupied {K : List UInt8 → Nat} {S : Nat → Nat} {fs : List Ty} {uid : Val} {vs : List Val} {c : Nat} (hT : Tags T)
    (h : Stored K (tagOf T) S fs uid vs c) : S c % 2 ^ 256 ≠ 0 := by
  intro h0
  have ht := h.tag
  have hp : 0 < tagOf T (.object (uidTy :: fs)) := bswap_pos (hT _).1 (Nat.lt_of_lt_of_eq (hT _).2 (by norm_num))
  rw [← ht] at hp
  unfold dig at hp
  have h0' : ∃ k, S c = 2 ^ 256 * k := ⟨S c / 2 ^ 256, by have := Nat.div_add_mod (S c) (2 ^ 256); omega⟩
  obtain ⟨k, hk⟩ := h0'
  rw [hk] at hp
  omega

/-- **C106**, in part: an object that has arrived at an owner — by `transfer`, by `share_object`, by `freeze_object`, or because it was
saved when a function returned (C61, C62, C63, C65) — is what a later transaction gets that may use it and whose parameter reaches it, with the
fields it had.  Missing is what is missing there and in C98. -/
theorem C106_partial {kind : Option Sig.Kind} {imm : Bool} {R : Nat → Prop} {fs : List Ty} {uid : Val} {vs : List Val}
    {w no p n me : Nat} {gs : List (Nat × Nat)} (hT : Tags T) (hfs : StorableFs fs) (hty : TypedFs fs vs)
    (huid : uid = .struct [.struct [.num n]]) (ha : Arrived T R fs uid vs w no gs σ σ')
    (hτ : NextTx σ' τ (area σ.host.keccak fs uid vs (objectSlot σ.host.keccak no n)) p n me)
    (hr : Reaches τ me n kind imm no) (hf : freshFs fs vs (objectSlot σ.host.keccak no n, 8) true ≠ none)
    (hseg : ∀ g ∈ area σ.host.keccak fs uid vs (objectSlot σ.host.keccak no n), g.2 < 2 ^ 256)
    (hroom : Room τ (64 + loadCost fs vs)) (hedge : narrowFs fs = true → τ.nextFree + (64 + loadCost fs vs) + 3 ≤ τ.size) :
    (loadArg E T kind imm uidTy fs).Calls [p] τ (fun r τ' => Passed τ τ' r (p + 32) no fs uid vs) := by
  have hK : τ.host.keccak = σ.host.keccak := by rw [hτ.keccak, ha.host]
  have hid : idOf uid = n := by rw [huid]; rfl
  have hs := ha.stored
  rw [hid] at hs
  have hs := hs.congr hτ.storage
  refine C98_partial hτ.heap hτ.statics hτ.fits hτ.id hτ.sender hτ.small hT hfs hty huid (hr.holder ?_) (by rw [hK]; exact hf)
    (by rw [hK]; exact hs) (by rw [hK]; exact hseg) hroom hedge
  unfold Occupied
  rw [hK]
  exact stored_occupied hT hs

/-- The object is gone from where it was: the transaction of the previous owner `ow`, with a parameter for owned objects, fails, if the
slot of the object there is not one of its new slots. -/
theorem C106_gone {R : Nat → Prop} {imm : Bool} {fs gs : List Ty} {uid : Val} {vs : List Val} {was : Kid → List Val}
    {w no ow p n : Nat} (hE : E.Valid) (huid : uid = .struct [.struct [.num n]]) (h0 : ow ≠ 0)
    (ha : Arrived T R fs uid vs w no (gone σ.host.keccak was (movers ow n fs vs)) σ σ')
    (hoff : Off (area σ.host.keccak fs uid vs (objectSlot σ.host.keccak no n)) (objectSlot σ.host.keccak ow n))
    (hτ : NextTx σ' τ [(objectSlot σ.host.keccak ow n, objectSlot σ.host.keccak ow n)] p n ow) (hroom : Room τ 32) :
    (loadArg E T (some .owned) imm uidTy gs).Calls [p] τ (fun _ τ' => Failed E .objectNotFound τ τ') := by
  have hK : τ.host.keccak = σ.host.keccak := by rw [hτ.keccak, ha.host]
  have hid : idOf uid = n := by rw [huid]; rfl
  have hm : (objectSlot σ.host.keccak ow n, (nexts fs (objectSlot σ.host.keccak ow n, 8)).1) ∈
      gone σ.host.keccak was (movers ow n fs vs) := by
    refine List.mem_flatMap.mpr ⟨⟨some (ow + 1), ow, n, fs⟩, List.mem_filter.mpr ⟨List.mem_cons_self, ?_⟩, List.mem_cons_self⟩
    simp [Kid.moves, h0]
  have hz := ha.left _ hm (objectSlot σ.host.keccak ow n) (Nat.le_refl _) (nexts_Le fs (p := (objectSlot σ.host.keccak ow n, 8)) (by simp)).slot
    (by rw [hid]; exact hoff)
  refine C98_absent hE hτ.heap hτ.statics hτ.fits hτ.id hτ.sender hτ.small (fun o ho => ?_) hroom
  have ho := ho.2
  unfold Occupied at ho
  rw [hK, hτ.storage _ (fun h => h _ (List.mem_singleton.mpr rfl) ⟨Nat.le_refl _, Nat.le_refl _⟩), hz] at ho
  exact ho rfl

/-- What `C61_partial` needs of an object that is given to the address at `kp`, and what reading it needs. -/
structure Giving (T : Ty → Nat) (σ : Store) (R : Nat → Prop) (fs : List Ty) (uid : Val) (vs : List Val) (w ow no n : Nat)
    (was : Kid → List Val) : Prop where
  heap : Heap σ
  statics : Statics σ
  storable : StorableFs fs
  small : SmallFs fs vs
  ty : TypedFs fs vs
  safe : Safe σ R 128
  tree : Mv.Tree σ.mem R (.object (uidTy :: fs)) (.object ow (uid :: vs)) w
  eq : uid = .struct [.struct [.num n]]
  thawed : ow ≠ 1
  going : Going σ.host.keccak (tagOf T) σ.host.storage was (movers ow n fs vs)
  spread : Spread σ.host.keccak fs uid vs (objectSlot σ.host.keccak no n)
  grows : HeadsFs Layout.Grows σ.host.keccak (cleared (gone σ.host.keccak was (movers ow n fs vs)) σ.host.storage) n fs vs
    (objectSlot σ.host.keccak no n, 8)
  room : Room σ (goneCost was (movers ow n fs vs) + (32 + ecostFs fs vs))
  fresh : freshFs fs vs (objectSlot σ.host.keccak no n, 8) true ≠ none

/-- The recipient of a transfer gets the object in a later transaction, as its own, and the previous owner does not get it any more. -/
theorem C106_transfer {R : Nat → Prop} {fs : List Ty} {uid : Val} {vs : List Val} {w ow kp no n : Nat} {was : Kid → List Val} (hT : Tags T)
    (hE : E'.Valid) (hg : Giving T σ R fs uid vs w ow no n was) (hk : kp + 32 ≤ σ.nextFree) (hno : beNat σ.mem kp 32 = no)
    (hkR : ∀ x, kp ≤ x → x < kp + 32 → 468 ≤ x ∧ ¬ R x) :
    (transferObject E T uidTy fs).Calls [w, kp] σ (fun r σ' => r = [] ∧
      (∀ (τ : Store) (p : Nat) (kind : Option Sig.Kind) (imm : Bool), kind = none ∨ kind = some .owned →
        NextTx σ' τ (area σ.host.keccak fs uid vs (objectSlot σ.host.keccak no n)) p n no → Room τ (64 + loadCost fs vs) →
        (narrowFs fs = true → τ.nextFree + (64 + loadCost fs vs) + 3 ≤ τ.size) →
        (loadArg E' T kind imm uidTy fs).Calls [p] τ (fun r τ' => Passed τ τ' r (p + 32) no fs uid vs)) ∧
      ∀ (τ : Store) (p : Nat) (imm : Bool) (gs : List Ty), ow ≠ 0 →
        Off (area σ.host.keccak fs uid vs (objectSlot σ.host.keccak no n)) (objectSlot σ.host.keccak ow n) →
        NextTx σ' τ [(objectSlot σ.host.keccak ow n, objectSlot σ.host.keccak ow n)] p n ow → Room τ 32 →
        (loadArg E' T (some .owned) imm uidTy gs).Calls [p] τ (fun _ τ' => Failed E' .objectNotFound τ τ')) := by
  subst hno
  have hid : idOf uid = n := by rw [hg.eq]; rfl
  refine (C61_partial (E := E) (T := T) (uid := uid) hg.heap hg.statics hg.storable hg.small hg.safe hg.tree hg.thawed hk hkR (by rw [hid]; exact hg.going)
    (by rw [hid]; exact hg.spread) (by rw [hid]; exact hg.grows) (by rw [hid]; exact hg.room)).mono ?_
  rintro r σ' ⟨rfl, ha⟩
  rw [hid] at ha
  refine ⟨rfl, fun τ p kind imm hkind hτ hroom hedge => ?_, fun τ p imm gs h0 hoff hτ hroom => C106_gone hE hg.eq h0 ha hoff hτ hroom⟩
  refine C106_partial hT hg.storable hg.ty hg.eq ha hτ ?_ hg.fresh hg.spread.lt hroom hedge
  rcases hkind with rfl | rfl
  · exact .inl rfl
  · exact rfl

/-- A shared object is what any later transaction gets, with a parameter for shared objects. -/
theorem C106_share {R : Nat → Prop} {fs : List Ty} {uid : Val} {vs : List Val} {w ow n : Nat} {was : Kid → List Val} (hT : Tags T)
    (hg : Giving T σ R fs uid vs w ow 1 n was) (h2 : ow ≠ 2) :
    (shareObject E T uidTy fs).Calls [w] σ (fun r σ' => r = [] ∧
      ∀ (τ : Store) (p me : Nat) (imm : Bool),
        NextTx σ' τ (area σ.host.keccak fs uid vs (objectSlot σ.host.keccak 1 n)) p n me → Room τ (64 + loadCost fs vs) →
        (narrowFs fs = true → τ.nextFree + (64 + loadCost fs vs) + 3 ≤ τ.size) →
        (loadArg E' T (some .shared) imm uidTy fs).Calls [p] τ (fun r τ' => Passed τ τ' r (p + 32) 1 fs uid vs)) := by
  have hid : idOf uid = n := by rw [hg.eq]; rfl
  refine (C62_partial (E := E) (T := T) (uid := uid) hg.heap hg.statics hg.storable hg.small hg.safe hg.tree hg.thawed h2 (by rw [hid]; exact hg.going)
    (by rw [hid]; exact hg.spread) (by rw [hid]; exact hg.grows) (by rw [hid]; exact hg.room)).mono ?_
  rintro r σ' ⟨rfl, ha⟩
  exact ⟨rfl, fun τ p me imm hτ hroom hedge => C106_partial hT hg.storable hg.ty hg.eq ha hτ rfl hg.fresh hg.spread.lt hroom hedge⟩

/-- A frozen object is what any later transaction gets, with a parameter for frozen objects, or with an immutable reference if neither
the sender nor the shared objects have one with this id. -/
theorem C106_freeze {R : Nat → Prop} {fs : List Ty} {uid : Val} {vs : List Val} {w ow n : Nat} {was : Kid → List Val} (hT : Tags T)
    (hg : Giving T σ R fs uid vs w ow 2 n was) (h2 : ow ≠ 2) :
    (freezeObject E T uidTy fs).Calls [w] σ (fun r σ' => r = [] ∧
      ∀ (τ : Store) (p me : Nat) (kind : Option Sig.Kind) (imm : Bool),
        kind = some .frozen ∨ kind = none ∧ imm = true ∧ ¬ Occupied τ me n ∧ ¬ Occupied τ 1 n →
        NextTx σ' τ (area σ.host.keccak fs uid vs (objectSlot σ.host.keccak 2 n)) p n me → Room τ (64 + loadCost fs vs) →
        (narrowFs fs = true → τ.nextFree + (64 + loadCost fs vs) + 3 ≤ τ.size) →
        (loadArg E' T kind imm uidTy fs).Calls [p] τ (fun r τ' => Passed τ τ' r (p + 32) 2 fs uid vs)) := by
  have hid : idOf uid = n := by rw [hg.eq]; rfl
  refine (C63_partial (E := E) (T := T) (uid := uid) hg.heap hg.statics hg.storable hg.small hg.safe hg.tree hg.thawed h2 (by rw [hid]; exact hg.going)
    (by rw [hid]; exact hg.spread) (by rw [hid]; exact hg.grows) (by rw [hid]; exact hg.room)).mono ?_
  rintro r σ' ⟨rfl, ha⟩
  refine ⟨rfl, fun τ p me kind imm hk hτ hroom hedge => C106_partial hT hg.storable hg.ty hg.eq ha hτ ?_ hg.fresh hg.spread.lt hroom hedge⟩
  rcases hk with rfl | ⟨rfl, hi, h1, h3⟩
  · exact rfl
  · exact .inr (.inr ⟨rfl, h1, h3, hi⟩)

/-- A deleted object is not found by any later transaction: a parameter of the kind the object was, with its id, makes the
transaction fail.  What is missing is as for `C43_partial`. -/
theorem C106_deleted {R : Nat → Prop} {fs : List Ty} {uid : Val} {vs vs0 : List Val} {w ow n : Nat} (hE : E'.Valid) (hσ : Heap σ)
    (hst : Statics σ) (hfs : StorableFs fs) (htidy : tidyFs fs = true) (hv : SmallFs fs vs) (hsafe : Safe σ R 128)
    (hrep : Mv.Rep σ.mem R (.object (uidTy :: fs)) (.object ow (uid :: vs0)) w) (how : ow ≠ 2) (hroom : Room σ (xcostFs fs vs))
    (huid : uid = .struct [.struct [.num n]])
    (hs : Stored σ.host.keccak (tagOf T) σ.host.storage fs uid vs (objectSlot σ.host.keccak ow n))
    (hown : Own σ.host.keccak fs vs (objectSlot σ.host.keccak ow n)) :
    (deleteObject E fs).Calls [w] σ (fun r σ' => r = [] ∧
      ∀ (τ : Store) (p me : Nat) (kind : Option Sig.Kind) (imm : Bool) (gs : List Ty),
        kind = some .owned ∧ ow = me ∨ kind = some .shared ∧ ow = 1 →
        NextTx σ' τ [(objectSlot σ.host.keccak ow n, objectSlot σ.host.keccak ow n)] p n me → Room τ 32 →
        (loadArg E' T kind imm uidTy gs).Calls [p] τ (fun _ τ' => Failed E' .objectNotFound τ τ')) := by
  have hid : idOf uid = n := by rw [huid]; rfl
  refine (C43_partial (E := E) (T := T) (uid := uid) hσ hst hfs htidy hv hsafe hrep how hroom (by rw [hid]; exact hs)
    (by rw [hid]; exact hown)).mono ?_
  rintro r σ' ⟨rfl, -, hh, hz, -⟩
  rw [hid] at hz
  refine ⟨rfl, fun τ p me kind imm gs hk hτ hr => ?_⟩
  have hK : τ.host.keccak = σ.host.keccak := by rw [hτ.keccak, hh]
  have hz := hz _ (List.mem_cons_self ..) (objectSlot σ.host.keccak ow n) (Nat.le_refl _)
    (nexts_Le fs (p := (objectSlot σ.host.keccak ow n, 8)) (by simp)).slot
  refine C98_absent hE hτ.heap hτ.statics hτ.fits hτ.id hτ.sender hτ.small (fun o ho => ?_) hr
  have ho' : Occupied τ ow n := by
    rcases hk with ⟨rfl, rfl⟩ | ⟨rfl, rfl⟩
    · exact ho.2
    · exact ho.2
  unfold Occupied at ho'
  rw [hK, hτ.storage _ (fun h => h _ (List.mem_singleton.mpr rfl) ⟨Nat.le_refl _, Nat.le_refl _⟩), hz] at ho'
  exact ho' rfl

/-- What a function has done to an object passed to it (by the sender or shared), a later transaction with the object sees. -/
theorem C106_changes {R : Nat → Prop} {fs : List Ty} {uid : Val} {vs : List Val} {w q ow n : Nat} {was : Kid → List Val} (hT : Tags T)
    (hσ : Heap σ) (hst : Statics σ) (hfs : StorableFs fs) (hv : SmallFs fs vs) (hty : TypedFs fs vs) (hsR : Safe σ R 128) (hq : q + 4 ≤ σ.size)
    (hqw : leNat σ.mem q 4 = w) (htr : Mv.Tree σ.mem R (.object (uidTy :: fs)) (.object ow (uid :: vs)) w) (h0 : ow ≠ 0)
    (huid : uid = .struct [.struct [.num n]])
    (hgo : Going σ.host.keccak (tagOf T) σ.host.storage was (kidsFs (some n) fs vs))
    (hsp : Spread σ.host.keccak fs uid vs (objectSlot σ.host.keccak ow n))
    (hgr : HeadsFs Layout.Grows σ.host.keccak (cleared (gone σ.host.keccak was (kidsFs (some n) fs vs)) σ.host.storage) n fs vs
      (objectSlot σ.host.keccak ow n, 8))
    (hroom : Room σ (32 + goneCost was (kidsFs (some n) fs vs) + ecostFs fs vs))
    (hf : freshFs fs vs (objectSlot σ.host.keccak ow n, 8) true ≠ none) :
    (cacheChanges E T uidTy fs).Calls [q] σ (fun r σ' => r = [] ∧
      ∀ (τ : Store) (p me : Nat) (kind : Option Sig.Kind) (imm : Bool), Reaches τ me n kind imm ow →
        NextTx σ' τ (area σ.host.keccak fs uid vs (objectSlot σ.host.keccak ow n)) p n me → Room τ (64 + loadCost fs vs) →
        (narrowFs fs = true → τ.nextFree + (64 + loadCost fs vs) + 3 ≤ τ.size) →
        (loadArg E' T kind imm uidTy fs).Calls [p] τ (fun r τ' => Passed τ τ' r (p + 32) ow fs uid vs)) := by
  have hid : idOf uid = n := by rw [huid]; rfl
  refine (C65_partial (E := E) (T := T) (uid := uid) hσ hst hfs hv hsR hq hqw htr h0 (by rw [hid]; exact hgo) (by rw [hid]; exact hsp) (by rw [hid]; exact hgr)
    (by rw [hid]; exact hroom)).mono ?_
  rintro r σ' ⟨rfl, ha⟩
  exact ⟨rfl, fun τ p me kind imm hr hτ hroom hedge => C106_partial hT hfs hty huid ha hτ hr hf hsp.lt hroom hedge⟩

/-! ### Examples -/

/-- A store with another sender. -/
def storeFrom (me : Nat) (ws : List (Nat × Nat)) (S : Nat → Nat) : Store :=
  { storeTen ws S with host := { (storeTen ws S).host with origin := me } }

/-- A later transaction of `me`, with the id 9 in the calldata at 700. -/
theorem nextU {me : Nat} {gs : List (Nat × Nat)} (hme : me < 2 ^ 160) (hK : σ'.host.keccak = hashT) :
    NextTx σ' (storeFrom me wsU σ'.host.storage) gs 700 9 me :=
  have h := storeTen_heap (ws := wsU) σ'.host.storage (by decide)
  have g := storeTen_statics (ws := wsU) σ'.host.storage (by decide)
  ⟨⟨⟨h.ready.size, h.ready.size_lt, h.ready.noErr⟩,
    ⟨h.alloc.sum, h.alloc.page, h.alloc.first, h.alloc.limit, h.alloc.max, h.alloc.small⟩, h.base, h.fresh⟩,
   ⟨g.zero, g.one, g.objects, g.shared, g.frozen⟩, by show 732 ≤ 1000; omega, by show beNat (memO wsU) 700 32 = 9; decide +kernel, rfl, hme,
   hK.symm, fun _ _ => rfl⟩

theorem roomFrom {me n : Nat} {ws : List (Nat × Nat)} {S : Nat → Nat} (hn : n ≤ 1000000) : Room (storeFrom me ws S) n :=
  ⟨by omega, by show 1000 + n + 65536 ≤ 128 * 65536; omega⟩

/-- An object of 10 with `5: u8` in memory, `3: u8` in storage, that goes to another owner. -/
theorem givingU {no c : Nat} (hc : objectSlot hashT no 9 = c) (hc' : c < 2 ^ 200) :
    Giving (fun _ => 5) (storeT wsT' storQ) (Between 500 910) [.u8] uidO [.num 5] 600 10 no 9 wasQ := by
  have e : movers 10 9 [.u8] [.num 5] = [⟨some 11, 10, 9, [.u8]⟩] := by simp [movers, kidsFs, kids]
  have e1 : gone hashT wasQ (movers 10 9 [.u8] [.num 5]) = [(128064, 128064)] := by decide +kernel
  have e2 : area hashT [.u8] uidO [.num 5] c = [(c, c)] := by
    simp [area, nexts, segsFs, next, segs, place, width]
  refine ⟨storeT_heap _ (by decide), storeT_statics _ (by decide), by simp [StorableFs, Storable], by simp [SmallFs, Small, width, atom],
    by simp [TypedFs, Typed], safeT, treePlain (by decide +kernel) (by decide +kernel), rfl, by omega, ?_, ?_, headsFs_noVec _ rfl, storeT_room (by decide +kernel), ?_⟩
  · refine ⟨?_, ?_, ?_⟩
    · rw [e]
      simp only [List.mem_singleton]
      rintro k rfl -
      refine ⟨by simp, by simp, by decide +kernel, by simp [wasQ, SmallFs, Small, width, atom], ?_⟩
      show HoldsFs hashT _ storQ _ _ _ (Kid.home hashT _, _)
      rw [show Kid.home hashT ⟨some 11, 10, 9, [.u8]⟩ = 128064 by decide +kernel]
      simp [wasQ, HoldsFs, Layout.Holds, place]
      decide +kernel
    · show (gone hashT _ _).Pairwise _; rw [e1]; simp
    · show ∀ g ∈ gone hashT _ _, _; rw [e1]; simp
  · show Spread hashT _ _ _ (objectSlot hashT no 9)
    rw [hc]
    constructor <;> rw [e2] <;> simp
    omega
  · show freshFs _ _ (objectSlot hashT no 9, 8) true ≠ none
    rw [hc]
    simp [freshFs, fresh]

/-- The object goes to 20; in a later transaction 20 has it, and 10 has not. -/
example : (transferObject E (fun _ => 5) uidTy [.u8]).Calls [600, 940] (storeT wsT' storQ) (fun _ σ' =>
    (loadArg E0 (fun _ => 5) none false uidTy [.u8]).Calls [700] (storeFrom 20 wsU σ'.host.storage) (fun r τ' =>
      Passed (storeFrom 20 wsU σ'.host.storage) τ' r 732 20 [.u8] uidO [.num 5]) ∧
    (loadArg E0 (fun _ => 5) (some .owned) false uidTy [.u8]).Calls [700] (storeFrom 10 wsU σ'.host.storage) (fun _ τ' =>
      Failed E0 .objectNotFound (storeFrom 10 wsU σ'.host.storage) τ')) := by
  have hr : beNat (storeT wsT' storQ).mem 940 32 = 20 := by show beNat (memO wsT') 940 32 = 20; decide +kernel
  have hs : objectSlot hashT 20 9 = 183064 := by decide +kernel
  have hK : (storeT wsT' storQ).host.keccak = hashT := rfl
  have hg := givingU (no := 20) hs (by norm_num)
  have ht := C106_transfer (E := E) tags5 E0_valid hg (kp := 940) (by show 972 ≤ 1000; omega) hr
    (fun x h1 h2 => ⟨by omega, fun h => by have := h.2; omega⟩)
  have h61 := C61_partial (E := E) (σ := storeT wsT' storQ) (T := fun _ => 5) (was := wasQ) hg.heap hg.statics hg.storable hg.small hg.safe hg.tree hg.thawed (kp := 940)
    (by show 972 ≤ 1000; omega) (fun x h1 h2 => ⟨by omega, fun h => by have := h.2; omega⟩) hg.going (by rw [hr]; exact hg.spread) (by rw [hr]; exact hg.grows) hg.room
  refine (ht.and h61).mono ?_
  rintro r σ' ⟨⟨-, h1, h2⟩, -, ha⟩
  have hK' : σ'.host.keccak = hashT := by rw [ha.host]; rfl
  exact ⟨h1 _ 700 none false (.inl rfl) (nextU (by norm_num) hK') (roomFrom (by decide +kernel)) (fun _ => by
      show 1000 + _ + 3 ≤ 65536; decide +kernel),
    h2 _ 700 false [.u8] (by omega) (by
      rw [hK, hs, slotU]
      rw [show area hashT [.u8] uidO [.num 5] 183064 = [(183064, 183064)] by decide +kernel]
      simp [Off]) (nextU (by norm_num) hK') (roomFrom (by decide +kernel))⟩

/-- The object is shared; in a later transaction 33 gets it. -/
example : (shareObject E (fun _ => 5) uidTy [.u8]).Calls [600] (storeT wsT' storQ) (fun _ σ' =>
    (loadArg E0 (fun _ => 5) (some .shared) false uidTy [.u8]).Calls [700] (storeFrom 33 wsU σ'.host.storage) (fun r τ' =>
      Passed (storeFrom 33 wsU σ'.host.storage) τ' r 732 1 [.u8] uidO [.num 5])) := by
  have hs : objectSlot hashT 1 9 = 53064 := by decide +kernel
  have hg := givingU (no := 1) hs (by norm_num)
  have h62 := C62_partial (E := E) (σ := storeT wsT' storQ) (T := fun _ => 5) (was := wasQ) hg.heap hg.statics hg.storable hg.small hg.safe hg.tree hg.thawed (by omega)
    hg.going hg.spread hg.grows hg.room
  refine ((C106_share (E := E) (E' := E0) tags5 hg (by omega)).and h62).mono ?_
  rintro r σ' ⟨⟨-, h1⟩, -, ha⟩
  have hK' : σ'.host.keccak = hashT := by rw [ha.host]; rfl
  exact h1 _ 700 33 false (nextU (by norm_num) hK') (roomFrom (by decide +kernel)) (fun _ => by show 1000 + _ + 3 ≤ 65536; decide +kernel)

/-- The object is frozen; in a later transaction 33 gets it. -/
example : (freezeObject E (fun _ => 5) uidTy [.u8]).Calls [600] (storeT wsT' storQ) (fun _ σ' =>
    (loadArg E0 (fun _ => 5) (some .frozen) true uidTy [.u8]).Calls [700] (storeFrom 33 wsU σ'.host.storage) (fun r τ' =>
      Passed (storeFrom 33 wsU σ'.host.storage) τ' r 732 2 [.u8] uidO [.num 5])) := by
  have hs : objectSlot hashT 2 9 = 33064 := by decide +kernel
  have hg := givingU (no := 2) hs (by norm_num)
  have h63 := C63_partial (E := E) (σ := storeT wsT' storQ) (T := fun _ => 5) (was := wasQ) hg.heap hg.statics hg.storable hg.small hg.safe hg.tree hg.thawed (by omega)
    hg.going hg.spread hg.grows hg.room
  refine ((C106_freeze (E := E) (E' := E0) tags5 hg (by omega)).and h63).mono ?_
  rintro r σ' ⟨⟨-, h1⟩, -, ha⟩
  have hK' : σ'.host.keccak = hashT := by rw [ha.host]; rfl
  exact h1 _ 700 33 _ true (.inl rfl) (nextU (by norm_num) hK') (roomFrom (by decide +kernel)) (fun _ => by show 1000 + _ + 3 ≤ 65536; decide +kernel)

/-- An object is deleted; a later transaction of its owner fails. -/
example : (deleteObject E fsO).Calls [600] (storeO wsO storD) (fun _ σ' => ∀ (τ : Store) (p : Nat),
    NextTx σ' τ [(64000, 64000)] p 9 0 → Room τ 32 →
    (loadArg E0 (fun _ => 5) (some .owned) true uidTy fsO).Calls [p] τ (fun _ τ' => Failed E0 .objectNotFound τ τ')) := by
  have hK : (storeO wsO storD).host.keccak = hashO := rfl
  have e : objectSlot hashO 0 9 = 64000 := slotD
  refine (C106_deleted (E := E) (E' := E0) (T := fun _ => 5) (n := 9) E0_valid (storeO_heap _ wsO_in) (storeO_statics _ (by decide)) storableO (by decide +kernel) smallO
    safeD repO (by omega) (storeO_room (by decide +kernel)) rfl (by rw [hK, e]; exact storedD rfl) (by rw [hK, e]; exact ownD)).mono ?_
  rintro r σ' ⟨-, h⟩ τ p hτ hr
  rw [hK, e] at h
  exact h τ p 0 _ true fsO (.inl ⟨rfl, rfl⟩) hτ hr

/-- The object of 10 had `3: u8` in storage, a function has set this to 5; a later transaction of 10 sees 5. -/
example : (cacheChanges E (fun _ => 5) uidTy [.u8]).Calls [980] (storeT wsT' storQ) (fun _ σ' =>
    (loadArg E0 (fun _ => 5) none true uidTy [.u8]).Calls [700] (storeFrom 10 wsU σ'.host.storage) (fun r τ' =>
      Passed (storeFrom 10 wsU σ'.host.storage) τ' r 732 10 [.u8] uidO [.num 5])) := by
  have hg := givingU (no := 10) slotU (by norm_num)
  have hgo : Going hashT (tagOf fun _ => 5) storQ wasQ (kidsFs (some 9) [.u8] [.num 5]) := by
    rw [show kidsFs (some 9) [.u8] [.num 5] = [] by simp [kidsFs, kids]]
    exact ⟨by simp, by simp [gone], by simp [gone]⟩
  have hq : leNat (storeT wsT' storQ).mem 980 4 = 600 := by show leNat (memO wsT') 980 4 = 600; decide +kernel
  have h65 := C65_partial (E := E) (σ := storeT wsT' storQ) (T := fun _ => 5) (was := wasQ) (p := 980) hg.heap hg.statics hg.storable hg.small hg.safe
    (by show 984 ≤ 65536; omega) hq hg.tree (by omega) hgo hg.spread (headsFs_noVec _ rfl) (storeT_room (by decide +kernel))
  refine ((C106_changes (E := E) (E' := E0) (q := 980) tags5 hg.heap hg.statics hg.storable hg.small hg.ty hg.safe (by show 984 ≤ 65536; omega) hq hg.tree (by omega)
    hg.eq hgo hg.spread (headsFs_noVec _ rfl) (storeT_room (by decide +kernel)) hg.fresh).and h65).mono ?_
  rintro r σ' ⟨⟨-, h1⟩, -, ha⟩
  have hK' : σ'.host.keccak = hashT := by rw [ha.host]; rfl
  exact h1 _ 700 10 none true (.inl rfl) (nextU (by norm_num) hK') (roomFrom (by decide +kernel)) (fun _ => by show 1000 + _ + 3 ≤ 65536; decide +kernel)

end Props
