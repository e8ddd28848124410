import Verif.Props.Objects
import Verif.Proof.Objects2
import Verif.Props.Transfer

/-!
# Objects of other owners, objects after delegated calls, named ids, and objects passed twice: C99-C102

The hash function of the host is arbitrary in the theorems.
-/

namespace Props
open Wasm Rt Slots Mv Layout

variable {σ σ' : Store} {E : ErrPtrs} {T : Ty → Nat}

theorem repFs_end {f : Bytes} {R : Nat → Prop} {b : Nat} (hR : ∀ x, R x → x < b) : ∀ {ts : List Ty} {vs : List Val} {p : Nat},
    Mv.RepFs f R ts vs p → ts ≠ [] → p + 4 * ts.length ≤ b
  | [], _, _, _, h => absurd rfl h
  | t :: ts, vs, p, h, _ => by
    simp only [Mv.RepFs] at h
    obtain ⟨v, vs', -, h2, -, -, h5⟩ := h
    simp only [List.length_cons]
    rcases ts with _ | ⟨t', ts⟩
    · have := hR _ (h2 (p + 3) (by omega) (by omega))
      simp only [List.length_nil]
      omega
    · have := repFs_end hR h5 (by simp)
      simp only [List.length_cons] at this ⊢
      omega

/-! ### C99: looking at the objects of others -/

/-- `peep` returns a reference to the object with this id that storage holds for the given address; nothing else changes.

Missing: layouts for which C39 fails (`freshFs`), and objects whose slots wrap around (`area`). -/
theorem C99_partial {fs : List Ty} {uid : Val} {vs : List Val} {o q u owner : Nat} (hσ : Heap σ) (hst : Statics σ)
    (hq : RefUid σ q u) (ho : o + 32 ≤ σ.nextFree) (ho' : 468 ≤ o) (how : beNat σ.mem o 32 = owner)
    (hT : Tags T) (hfs : StorableFs fs) (hty : TypedFs fs vs) (huid : uid = .struct [.struct [.num (beNat σ.mem u 32)]])
    (hf : freshFs fs vs (objectSlot σ.host.keccak owner (idOf uid), 8) true ≠ none)
    (hs : Stored σ.host.keccak (tagOf T) σ.host.storage fs uid vs (objectSlot σ.host.keccak owner (idOf uid)))
    (hseg : ∀ g ∈ area σ.host.keccak fs uid vs (objectSlot σ.host.keccak owner (idOf uid)), g.2 < 2 ^ 256)
    (hroom : Room σ (36 + loadCost fs vs)) (hedge : narrowFs fs = true → σ.nextFree + (36 + loadCost fs vs) + 3 ≤ σ.size) :
    (peep E T uidTy fs).Calls [o, q] σ (fun r σ' => ∃ p vs', r = [p] ∧ Heap σ' ∧ Statics σ' ∧ σ'.host = σ.host ∧
      (∀ x, 468 ≤ x → x < σ.nextFree → σ'.mem x = σ.mem x) ∧ eraseL vs' = eraseL vs ∧
      Mv.Rep σ'.mem (fun x => Between u (u + 32) x ∨ σ.nextFree ≤ x ∧ x < σ'.nextFree) (.object (uidTy :: fs))
        (.object owner (uid :: vs')) (leNat σ'.mem p 4)) := by
  obtain ⟨b', hf⟩ := Option.ne_none_iff_exists'.mp hf
  have f1 := hσ.base
  unfold reserved at f1
  have hid : idOf uid = beNat σ.mem u 32 := by rw [huid]; rfl
  have g4 := hq.high; have g5 := hq.low
  have hpos : Occupied σ (beNat σ.mem o 32) (beNat σ.mem u 32) := by
    rw [how, ← hid]; exact stored_pos hT hs
  refine (peep_run (n := loadCost fs vs) (P := fun w σ2 σ' => ∃ vs', Statics σ' ∧ σ'.host = σ.host ∧ eraseL vs' = eraseL vs ∧
      Mv.Rep σ'.mem (fun x => Between u (u + 32) x ∨ σ2.nextFree ≤ x ∧ x < σ'.nextFree) (.object (uidTy :: fs)) (.object owner (uid :: vs')) w)
    hσ hst hq ho (hroom.mono (by omega)) hpos fun σ1 σ2 h1 h2 h3 => ?_).mono ?_
  · have n1 := h1.nextFree
    have n2 := h2.nextFree
    have l1 := h1.later
    have sz := l1.size
    have sz2 := h2.size
    have hh : σ2.host = σ.host := h2.host.trans h1.host
    have hm : ∀ x, 468 ≤ x → x < σ.nextFree → σ2.mem x = σ.mem x := fun x a b => by rw [h2.mem]; exact l1.mem x b (by unfold fixedMem; omega)
    have hst2 : Statics σ2 := ⟨by rw [h2.mem]; exact h1.statics.zero, by rw [h2.mem]; exact h1.statics.one, by rw [h2.mem]; exact h1.statics.objects,
      by rw [h2.mem]; exact h1.statics.shared, by rw [h2.mem]; exact h1.statics.frozen⟩
    rw [how, ← hid] at h1
    refine (readObject_cost (E := E) (n := beNat σ.mem u 32) (d := narrowFs fs) hT hfs h2.heap hst2 (.inr (by omega)) (by omega)
      (by rw [h2.mem]; exact h1.cell) (fun x hx => ⟨by have := hx.1; omega, by have := hx.2; omega, by have := hx.1; have := hx.2; omega⟩)
      (beNat_congr fun x a b => hm x (by omega) (by omega)) (by omega) (by rw [hh, ← huid]; exact hs) hty hf
      ⟨h3, fun hd => ?_⟩ (fun h => h) (by rw [hh, ← huid]; exact hseg)).mono ?_
    · have := hedge hd
      show σ2.nextFree + loadCost fs vs + 3 ≤ σ2.size
      omega
    · rintro r σ' ⟨w, vs', c', rfl, hl, hh', hr, he, -⟩
      have hb := hl.heap.alloc.nextFree_le
      have hb' := hl.heap.alloc.size_lt
      have hr := hr
      rw [show beNat σ2.mem o 32 = owner from (beNat_congr fun x a b => hm x (by omega) (by omega)).trans how, ← huid] at hr
      have hr : Mv.Rep σ'.mem (fun x => Between u (u + 32) x ∨ σ2.nextFree ≤ x ∧ x < σ'.nextFree) (.object (uidTy :: fs)) (.object owner (uid :: vs')) w :=
        Rep.change (fun _ _ => rfl) (fun x hx => hx.imp id fun h => ⟨h.1, h.2.1⟩) _ hr
      have hw : w < 2 ^ 32 := by
        have h := hr
        simp only [Mv.Rep] at h
        obtain ⟨_, _, _, _, h⟩ := h
        have := repFs_end (b := σ'.nextFree) (fun x hx => by have := hl.nextFree; rcases hx with hx | hx; · have := hx.2; omega
                                                             · exact hx.2) h (by simp)
        simp only [List.length_cons] at this
        omega
      exact ⟨w, rfl, hw, hl, vs', hl.statics (by omega) hst2 fun x hx => scr_static (.inr (by omega)) hx, hh'.trans hh, he, hr⟩
  · rintro r σ' ⟨w, σ1, σ2, σ3, rfl, h1, h2, hl, hw, ⟨vs', hst3, hh, he, hr⟩, rfl⟩
    have n1 := h1.nextFree
    have n2 := h2.nextFree
    have n3 := hl.nextFree
    have hm : ∀ x, x < σ.nextFree + 32 ∨ σ.nextFree + 36 ≤ x → putLe σ3.mem (σ.nextFree + 32) 4 w x = σ3.mem x := fun x hx => putLe_out (by omega)
    refine ⟨_, vs', rfl, hl.heap.setMem (leNat_congr fun x a b => hm x (by omega)) fun x hx => hm x (by omega), ?_, hh, fun x a b => ?_, he, ?_⟩
    · exact ⟨(leNat_congr fun x a b => hm x (by omega)).trans hst3.zero, (leNat_congr fun x a b => hm x (by omega)).trans hst3.one,
        (beNat_congr fun x a b => hm x (by omega)).trans hst3.objects, (beNat_congr fun x a b => hm x (by omega)).trans hst3.shared,
        (beNat_congr fun x a b => hm x (by omega)).trans hst3.frozen⟩
    · show putLe σ3.mem (σ.nextFree + 32) 4 w x = σ.mem x
      rw [hm x (by omega), hl.mem x (by omega) (by unfold scr sizeTable hashBuf; omega), h2.mem, h1.later.mem x b (by unfold fixedMem; omega)]
    · show Mv.Rep (putLe σ3.mem (σ.nextFree + 32) 4 w) _ _ _ (leNat (putLe σ3.mem (σ.nextFree + 32) 4 w) (σ.nextFree + 32) 4)
      rw [leNat_putLe_same, Nat.mod_eq_of_lt (by omega)]
      refine Rep.change (fun x hx => ?_) (fun x hx => ?_) _ hr
      · refine hm x ?_
        rcases hx with hx | hx
        · have := hx.2; omega
        · omega
      · rcases hx with hx | hx
        · exact .inl hx
        · exact .inr ⟨by omega, hx.2⟩

/-- If storage holds no object with this id for the given address, the call fails with `objectNotFound`. -/
theorem C99_absent {fs : List Ty} {o q u : Nat} (hE : E.Valid) (hσ : Heap σ) (hst : Statics σ) (hq : RefUid σ q u) (ho : o + 32 ≤ σ.nextFree)
    (hroom : Room σ 32) (hocc : ¬ Occupied σ (beNat σ.mem o 32) (beNat σ.mem u 32)) :
    (peep E T uidTy fs).Calls [o, q] σ (fun _ σ' => Failed E .objectNotFound σ σ') := by
  refine (peep_none hσ hst hq ho hroom hocc).mono ?_
  rintro r σ' ⟨σ1, h, rfl⟩
  exact failed_err hE h

/-! ### C100: objects after a delegated call -/

/-- The object at `x` is passed to a delegated call, which may change it: `σ` is the state after the call.  Then the object at `x` has the values
that storage holds now, and nothing else in memory changes.

Missing: layouts for which C39 fails (`freshFs`), objects whose slots wrap around (`area`), and the second delegated call with the same
object (`C100_false`). -/
theorem C100_partial {fs : List Ty} {uid : Val} {vs : List Val} {c d q x u me owner : Nat} (hσ : Heap σ) (hst : Statics σ) (hd : d ≠ 0)
    (hq : BackRef σ q x u (4 * (fs.length + 1))) (hx : 500 ≤ x) (hux : u + 32 ≤ x ∨ x + 4 * (fs.length + 1) ≤ u)
    (hme : σ.host.origin = me) (hme' : me < 2 ^ 160)
    (hT : Tags T) (hfs : StorableFs fs) (hty : TypedFs fs vs) (huid : uid = .struct [.struct [.num (beNat σ.mem u 32)]])
    (hh : Holder σ me (idOf uid) none false owner)
    (hf : freshFs fs vs (objectSlot σ.host.keccak owner (idOf uid), 8) true ≠ none)
    (hs : Stored σ.host.keccak (tagOf T) σ.host.storage fs uid vs (objectSlot σ.host.keccak owner (idOf uid)))
    (hseg : ∀ g ∈ area σ.host.keccak fs uid vs (objectSlot σ.host.keccak owner (idOf uid)), g.2 < 2 ^ 256)
    (hroom : Room σ (loadCost fs vs)) (hedge : narrowFs fs = true → σ.nextFree + loadCost fs vs + 3 ≤ σ.size) :
    (reload E T uidTy fs).Calls [c, d, q] σ (fun r σ' => ∃ vs', r = [c] ∧ Heap σ' ∧ Statics σ' ∧ σ'.host = σ.host ∧
      (∀ y, 468 ≤ y → y < σ.nextFree → y < x ∨ x + 4 * (fs.length + 1) ≤ y → σ'.mem y = σ.mem y) ∧ eraseL vs' = eraseL vs ∧
      Mv.Rep σ'.mem (fun y => Between u (u + 32) y ∨ Between (x - 32) (x + 4 * (fs.length + 1)) y ∨ σ.nextFree ≤ y ∧ y < σ'.nextFree)
        (.object (uidTy :: fs)) (.object (beNat σ.mem (x - 32) 32) (uid :: vs')) x) := by
  have f1 := hσ.base
  unfold reserved at f1
  have hid : idOf uid = beNat σ.mem u 32 := by rw [huid]; rfl
  have g4 := hq.high; have g5 := hq.low; have g8 := hq.fits
  refine (reload_run (E := E) (n := loadCost fs vs) (P := fun w σ1 σ' => ∃ vs', Later (scr 128) σ1 σ' ∧ Statics σ' ∧ σ'.host = σ.host ∧ eraseL vs' = eraseL vs ∧
      Mv.Rep σ'.mem (fun y => Between u (u + 32) y ∨ σ1.nextFree ≤ y ∧ y < σ'.nextFree) (.object (uidTy :: fs)) (.object owner (uid :: vs')) w)
    hσ hst hd hq (by rw [hme]; exact Nat.mod_eq_of_lt hme') (hid ▸ hh) hroom fun σ1 k h1 h2 h3 h4 => ?_).mono ?_
  · rw [← hid] at h1
    refine (read_located (E := E) hT hfs hty hσ (.inl rfl) (.inr (by omega)) (by omega) g4 g5 huid hf hs hseg h1 h4 fun hn => by have := hedge hn; omega).mono ?_
    rintro r σ' ⟨w, rfl, vs', hl, hst', hh', he, hr, -⟩
    have hn := hl.nextFree
    refine ⟨w, rfl, ?_, hl.heap, by omega, vs', hl, hst', hh', he, hr⟩
    have h := hr
    simp only [Mv.Rep] at h
    obtain ⟨_, _, _, _, h⟩ := h
    have := repFs_end (b := σ'.nextFree) (fun y hy => by rcases hy with hy | hy; · have := hy.2; omega
                                                         · exact hy.2) h (by simp)
    simpa only [List.length_cons] using this
  · rintro r σ' ⟨w, σ1, σ2, rfl, n1, l1, hh2, ⟨vs', hl, hst', hh', he, hr⟩, rfl⟩
    have n2 := hl.nextFree
    obtain ⟨N, hN⟩ : ∃ N, N = 4 * (fs.length + 1) := ⟨_, rfl⟩
    rw [← hN] at g8 hux ⊢
    have hm : ∀ y, y < x ∨ x + N ≤ y → copyBytes σ2.mem x w N y = σ2.mem y := fun y hy => copyBytes_out (by omega)
    have hk : ∀ y, 468 ≤ y → y < σ.nextFree → σ2.mem y = σ.mem y := fun y a b => by
      rw [hl.mem y (by omega) (by unfold scr sizeTable hashBuf; omega), l1.mem y b (by unfold fixedMem; omega)]
    refine ⟨vs', rfl, hh2.setMem (leNat_congr fun y a b => hm y (by omega)) fun y hy => hm y (by omega), ?_, hh', fun y a b h => ?_, he, ?_⟩
    · exact ⟨(leNat_congr fun y a b => hm y (by omega)).trans hst'.zero, (leNat_congr fun y a b => hm y (by omega)).trans hst'.one,
        (beNat_congr fun y a b => hm y (by omega)).trans hst'.objects, (beNat_congr fun y a b => hm y (by omega)).trans hst'.shared,
        (beNat_congr fun y a b => hm y (by omega)).trans hst'.frozen⟩
    · exact (hm y h).trans (hk y a b)
    · simp only [Mv.Rep] at hr ⊢
      obtain ⟨ws, h1, h2, h3, h4⟩ := hr
      simp only [Val.object.injEq] at h2
      obtain ⟨-, rfl⟩ := h2
      have ho : beNat (copyBytes σ2.mem x w N) (x - 32) 32 = beNat σ.mem (x - 32) 32 :=
        beNat_congr fun y a b => (hm y (by omega)).trans (hk y (by omega) (by omega))
      refine ⟨_, by omega, by rw [setMem_mem, ho], fun y a b => .inr (.inl ⟨a, by omega⟩), ?_⟩
      refine repFs_copied (fun y hy => hm y ?_) (fun y hy => ?_) _ (fun i hi => ?_) (fun i hi => ?_) h4
      · rcases hy with hy | hy
        · have := hy.1; have := hy.2; omega
        · omega
      · rcases hy with hy | hy
        · exact .inl hy
        · exact .inr (.inr ⟨by omega, hy.2⟩)
      · simp only [List.length_cons] at hi
        show copyBytes σ2.mem x w N (x + i) = _
        rw [copyBytes_in (by omega) (by omega), Nat.add_sub_cancel_left]
      · simp only [List.length_cons] at hi
        exact .inr (.inl ⟨by omega, by omega⟩)

/-- If the call is not delegated, nothing happens. -/
theorem C100_plain {fs : List Ty} {c q : Nat} : (reload E T uidTy fs).Calls [c, 0, q] σ (fun r σ' => r = [c] ∧ σ' = σ) := reload_plain

/-- If the sender no longer has the object, and it is not shared (a new or a frozen object, or one that the callee has given away), the
transaction fails with `objectNotFound`. -/
theorem C100_absent {fs : List Ty} {c d q x u me : Nat} (hE : E.Valid) (hσ : Heap σ) (hst : Statics σ) (hd : d ≠ 0)
    (hq : BackRef σ q x u (4 * (fs.length + 1))) (hme : σ.host.origin = me) (hme' : me < 2 ^ 160)
    (h1 : ¬ Occupied σ me (beNat σ.mem u 32)) (h2 : ¬ Occupied σ 1 (beNat σ.mem u 32)) :
    (reload E T uidTy fs).Calls [c, d, q] σ (fun _ σ' => Failed E .objectNotFound σ σ') := by
  refine (reload_none (me := me) hE hσ hst hd hq (by rw [hme]; exact Nat.mod_eq_of_lt hme') fun o ho => ?_).mono ?_
  · simp only [Holder] at ho
    rcases ho with ⟨-, h⟩ | ⟨-, -, h⟩ | ⟨-, -, -, h, -⟩
    · exact h1 h
    · exact h2 h
    · exact absurd h (by simp)
  · rintro r σ' ⟨σ1, t, rfl⟩
    exact failed_err hE t.host

/-! ### C101: named ids -/

/-- The id of an object with a `NamedId` is the hash of the name of the struct that it is instantiated with, in each transaction; the
calldata contain nothing for it.  The function gets the object with this id that storage holds.

Missing: structs of the same name of different modules (`C101_false`), layouts for which C39 fails (`freshFs`), and objects whose
slots wrap around (`area`). -/
theorem C101_partial {m : Marker} {kind : Option Sig.Kind} {imm : Bool} {fs : List Ty} {uid : Val} {vs : List Val} {p n me owner : Nat}
    (hσ : Heap σ) (hst : Statics σ) (hn : σ.host.keccak m.ident = n) (hn' : n < 2 ^ 256) (hme : σ.host.origin = me) (hme' : me < 2 ^ 160)
    (hT : Tags T) (hfs : StorableFs fs) (hty : TypedFs fs vs) (huid : uid = .struct [.struct [.num n]])
    (hh : Holder σ me n kind imm owner)
    (hf : freshFs fs vs (objectSlot σ.host.keccak owner n, 8) true ≠ none)
    (hs : Stored σ.host.keccak (tagOf T) σ.host.storage fs uid vs (objectSlot σ.host.keccak owner n))
    (hseg : ∀ g ∈ area σ.host.keccak fs uid vs (objectSlot σ.host.keccak owner n), g.2 < 2 ^ 256)
    (hroom : Room σ (64 + loadCost fs vs)) (hedge : narrowFs fs = true → σ.nextFree + (64 + loadCost fs vs) + 3 ≤ σ.size) :
    (loadNamed E T (namedHash σ.host.keccak m) kind imm uidTy fs).Calls [p] σ (fun r σ' => Passed σ σ' r σ.reader owner fs uid vs) := by
  refine ⟨rfl, ?_⟩
  unfold loadNamed
  simp only [List.cons_append, List.nil_append]
  refine wp_call0 (computeNamedId_spec hσ hroom (by omega)) ?_
  rintro r σ1 ⟨rfl, hx, hnf, hid⟩
  simp only [List.cons_append, List.nil_append]
  have hi : Ided σ σ1 n := ⟨hx.heap hσ, statics_of_mem hσ hst hx.mem, by rw [hid, namedHash, hn]; exact Nat.mod_eq_of_lt hn', hnf, hx.mem, hx.size, hx.maxPages, hx.host⟩
  refine wp_load hσ hi hme hme' hT hfs hty huid hh hf hs hseg hroom hedge fun w σ' h => ?_
  rw [hx.reader] at h
  wstep
  exact h

/-- Structs of different names have different ids, unless their hashes collide. -/
theorem C101_names {K : List UInt8 → Nat} {m m' : Marker} (hK : ∀ a b, K a = K b → a = b) (h : m.ident ≠ m'.ident) :
    namedHash K m ≠ namedHash K m' := fun e => h (hK _ _ e)

/-- **C101 is false**: structs of the same name of different modules have the same id. -/
theorem C101_false (K : List UInt8 → Nat) : ∃ m m' : Marker, m.module ≠ m'.module ∧
    ∀ (E : ErrPtrs) (T : Ty → Nat) (kind : Option Sig.Kind) (imm : Bool) (fs : List Ty),
      loadNamed E T (namedHash K m) kind imm uidTy fs = loadNamed E T (namedHash K m') kind imm uidTy fs :=
  ⟨⟨[97], [75]⟩, ⟨[98], [75]⟩, by decide, fun _ _ _ _ _ => rfl⟩

/-! ### C102: two parameters of a function are two objects -/

/-- The parameters of a function are loaded one after the other (`build_unpack_instructions`, abi_types/unpacking.rs 71-112): the code for each
follows that for the one before, and they share the local that holds the reader.  Simplified: where an argument is refused this returns, the
entry point branches to the end of its block; C102 is about arguments that are not refused. -/
def loadTwo (f g : Fn) : Fn := ⟨1, 2, 0, f.body ++ g.body⟩

/-- C98 for the code of an argument, in the middle of other code: the reader in the local is moved past the argument. -/
theorem wp_loadArg {kind : Option Sig.Kind} {imm : Bool} {fs : List Ty} {uid : Val} {vs : List Val} {p n me owner : Nat} {s l is Q}
    (hσ : Heap σ) (hst : Statics σ) (hp : p + 32 ≤ σ.nextFree) (hn : beNat σ.mem p 32 = n) (hme : σ.host.origin = me) (hme' : me < 2 ^ 160)
    (hT : Tags T) (hfs : StorableFs fs) (hty : TypedFs fs vs) (huid : uid = .struct [.struct [.num n]])
    (hh : Holder σ me n kind imm owner)
    (hf : freshFs fs vs (objectSlot σ.host.keccak owner n, 8) true ≠ none)
    (hs : Stored σ.host.keccak (tagOf T) σ.host.storage fs uid vs (objectSlot σ.host.keccak owner n))
    (hseg : ∀ g ∈ area σ.host.keccak fs uid vs (objectSlot σ.host.keccak owner n), g.2 < 2 ^ 256)
    (hroom : Room σ (64 + loadCost fs vs)) (hedge : narrowFs fs = true → σ.nextFree + (64 + loadCost fs vs) + 3 ≤ σ.size)
    (hQ : ∀ w σ', Passed σ σ' [w] (p + 32) owner fs uid vs → wp is (w :: s) ((p + 32) :: l) σ' Q) :
    wp ((loadArg E T kind imm uidTy fs).body ++ is) s (p :: l) σ Q := by
  have hb := hσ.alloc.nextFree_le
  have hb' := hσ.alloc.size_lt
  unfold loadArg
  simp only [List.cons_append, List.nil_append, List.append_assoc]
  wstep
  refine wp_call1 (unpackId hσ hst hp hroom (by omega)) ?_
  rintro r σ1 ⟨rfl, hi, hr⟩
  simp only [List.cons_append, List.nil_append]
  rw [hn] at hi
  refine wp_load hσ hi hme hme' hT hfs hty huid hh hf hs hseg hroom hedge fun w σ' h => ?_
  rw [hr] at h
  have ⟨_, _, _, _, _, _, hrd, _⟩ := h
  wstep
  rw [hrd]
  exact hQ w σ' h

/-- What C98 needs of an argument: object `uid :: vs` with the given owner is stored. -/
structure Given (σ : Store) (T : Ty → Nat) (kind : Option Sig.Kind) (imm : Bool) (fs : List Ty) (uid : Val) (vs : List Val) (n me owner : Nat) : Prop where
  storable : StorableFs fs
  ty : TypedFs fs vs
  eq : uid = .struct [.struct [.num n]]
  holder : Holder σ me n kind imm owner
  fresh : freshFs fs vs (objectSlot σ.host.keccak owner n, 8) true ≠ none
  stored : Stored σ.host.keccak (tagOf T) σ.host.storage fs uid vs (objectSlot σ.host.keccak owner n)
  seg : ∀ g ∈ area σ.host.keccak fs uid vs (objectSlot σ.host.keccak owner n), g.2 < 2 ^ 256

/-- Two objects in memory, in different places. -/
def Both (σ σ' : Store) (r : List Nat) (fs1 fs2 : List Ty) (v1 v2 : List Val → Val) (vs1 vs2 : List Val) : Prop :=
  ∃ w1 w2 b vs1' vs2', r = [w2, w1] ∧ eraseL vs1' = eraseL vs1 ∧ eraseL vs2' = eraseL vs2 ∧
    Mv.Rep σ'.mem (fun x => σ.nextFree ≤ x ∧ x < b) (.object (uidTy :: fs1)) (v1 vs1') w1 ∧
    Mv.Rep σ'.mem (fun x => b ≤ x ∧ x < σ'.nextFree) (.object (uidTy :: fs2)) (v2 vs2') w2 ∧ σ'.host = σ.host

theorem loadTwo_run {k1 k2 : Option Sig.Kind} {i1 i2 : Bool} {fs1 fs2 : List Ty} {uid1 uid2 : Val} {vs1 vs2 : List Val} {p n1 n2 me o1 o2 : Nat}
    (hσ : Heap σ) (hst : Statics σ) (hp : 468 ≤ p) (hp' : p + 64 ≤ σ.nextFree) (hn1 : beNat σ.mem p 32 = n1) (hn2 : beNat σ.mem (p + 32) 32 = n2)
    (hme : σ.host.origin = me) (hme' : me < 2 ^ 160) (hT : Tags T)
    (h1 : Given σ T k1 i1 fs1 uid1 vs1 n1 me o1) (h2 : Given σ T k2 i2 fs2 uid2 vs2 n2 me o2)
    (hroom : Room σ (64 + loadCost fs1 vs1 + (64 + loadCost fs2 vs2)))
    (hedge : narrowFs fs1 = true ∨ narrowFs fs2 = true → σ.nextFree + (64 + loadCost fs1 vs1 + (64 + loadCost fs2 vs2)) + 3 ≤ σ.size) :
    (loadTwo (loadArg E T k1 i1 uidTy fs1) (loadArg E T k2 i2 uidTy fs2)).Calls [p] σ (fun r σ' =>
      Both σ σ' r fs1 fs2 (fun vs => .object o1 (uid1 :: vs)) (fun vs => .object o2 (uid2 :: vs)) vs1 vs2) := by
  have hb := hσ.alloc.nextFree_le
  have hb' := hσ.alloc.size_lt
  refine ⟨rfl, ?_⟩
  unfold loadTwo
  refine wp_loadArg (E := E) hσ hst (by omega) hn1 hme hme' hT h1.storable h1.ty h1.eq h1.holder h1.fresh h1.stored h1.seg
    (hroom.mono (by omega)) (fun h => by have := hedge (.inl h); omega) ?_
  rintro w σ1 ⟨w1, vs1', hw, hh, hs, hho, hr, hmp, hge, hle, hsz, hm, he, hrep⟩
  obtain rfl : w = w1 := by simpa using hw
  rw [← List.append_nil (loadArg E T k2 i2 uidTy fs2).body]
  refine wp_loadArg (E := E) (n := n2) (owner := o2) (vs := vs2) (uid := uid2) (me := me) hh hs (by omega) ((beNat_congr fun x a b => hm x (by omega) (by omega)).trans hn2) (by rw [hho]; exact hme) hme' hT
    h2.storable h2.ty h2.eq (h2.holder.of_host hho) (by rw [hho]; exact h2.fresh) (by rw [hho]; exact h2.stored) (by rw [hho]; exact h2.seg)
    (hroom.after hle hmp) (fun h => by have := hedge (.inr h); omega) ?_
  rintro w' σ2 ⟨w2, vs2', hw', hh2, hs2, hho2, hr2, hmp2, hge2, hle2, hsz2, hm2, he2, hrep2⟩
  obtain rfl : w' = w2 := by simpa using hw'
  wstep
  have hb := hσ.base
  unfold reserved at hb
  exact ⟨w, w', σ1.nextFree, vs1', vs2', rfl, he, he2, Rep.change (fun x hx => hm2 x (by omega) hx.2) (fun x hx => hx) _ hrep, hrep2, hho2.trans hho⟩

/-- If the ids are different, the function gets two different objects, those in storage.

Missing: that the ids are different (`C102_twice`, `C102_false`), and what is missing from C98. -/
theorem C102_partial {k1 k2 : Option Sig.Kind} {i1 i2 : Bool} {fs1 fs2 : List Ty} {uid1 uid2 : Val} {vs1 vs2 : List Val} {p n1 n2 me o1 o2 : Nat}
    (hσ : Heap σ) (hst : Statics σ) (hp : 468 ≤ p) (hp' : p + 64 ≤ σ.nextFree) (hn1 : beNat σ.mem p 32 = n1) (hn2 : beNat σ.mem (p + 32) 32 = n2)
    (hne : n1 ≠ n2) (hme : σ.host.origin = me) (hme' : me < 2 ^ 160) (hT : Tags T)
    (h1 : Given σ T k1 i1 fs1 uid1 vs1 n1 me o1) (h2 : Given σ T k2 i2 fs2 uid2 vs2 n2 me o2)
    (hroom : Room σ (64 + loadCost fs1 vs1 + (64 + loadCost fs2 vs2)))
    (hedge : narrowFs fs1 = true ∨ narrowFs fs2 = true → σ.nextFree + (64 + loadCost fs1 vs1 + (64 + loadCost fs2 vs2)) + 3 ≤ σ.size) :
    idOf uid1 ≠ idOf uid2 ∧ (loadTwo (loadArg E T k1 i1 uidTy fs1) (loadArg E T k2 i2 uidTy fs2)).Calls [p] σ (fun r σ' =>
      Both σ σ' r fs1 fs2 (fun vs => .object o1 (uid1 :: vs)) (fun vs => .object o2 (uid2 :: vs)) vs1 vs2) :=
  ⟨by rw [h1.eq, h2.eq]; exact hne, loadTwo_run hσ hst hp hp' hn1 hn2 hme hme' hT h1 h2 hroom hedge⟩

/-- If the ids are the same, and the parameters can both be this object, the function gets it twice: two copies in memory, one for each
parameter. -/
theorem C102_twice {k1 k2 : Option Sig.Kind} {i1 i2 : Bool} {fs : List Ty} {uid : Val} {vs : List Val} {p n me owner : Nat}
    (hσ : Heap σ) (hst : Statics σ) (hp : 468 ≤ p) (hp' : p + 64 ≤ σ.nextFree) (hn1 : beNat σ.mem p 32 = n) (hn2 : beNat σ.mem (p + 32) 32 = n)
    (hme : σ.host.origin = me) (hme' : me < 2 ^ 160) (hT : Tags T)
    (h1 : Given σ T k1 i1 fs uid vs n me owner) (h2 : Given σ T k2 i2 fs uid vs n me owner)
    (hroom : Room σ (64 + loadCost fs vs + (64 + loadCost fs vs)))
    (hedge : narrowFs fs = true → σ.nextFree + (64 + loadCost fs vs + (64 + loadCost fs vs)) + 3 ≤ σ.size) :
    (loadTwo (loadArg E T k1 i1 uidTy fs) (loadArg E T k2 i2 uidTy fs)).Calls [p] σ (fun r σ' =>
      Both σ σ' r fs fs (fun vs => .object owner (uid :: vs)) (fun vs => .object owner (uid :: vs)) vs vs) :=
  loadTwo_run hσ hst hp hp' hn1 hn2 hme hme' hT h1 h2 hroom fun h => hedge (h.elim id id)

/-! ### Examples -/

/-- The sender is 10. -/
def storeTen (ws : List (Nat × Nat)) (S : Nat → Nat) : Store := { storeO ws S with host := { hostO S with keccak := hashT, origin := 10 } }

theorem storeTen_heap {ws : List (Nat × Nat)} (S : Nat → Nat) (h : ∀ a ∈ ws, 468 ≤ a.1 ∧ a.1 + 4 ≤ 1000) : Heap (storeTen ws S) :=
  have h := storeO_heap S h
  ⟨⟨h.ready.size, h.ready.size_lt, h.ready.noErr⟩,
   ⟨h.alloc.sum, h.alloc.page, h.alloc.first, h.alloc.limit, h.alloc.max, h.alloc.small⟩, h.base, h.fresh⟩

theorem storeTen_statics {ws : List (Nat × Nat)} (S : Nat → Nat) (h : ∀ a ∈ ws, 468 ≤ a.1) : Statics (storeTen ws S) :=
  have h := storeO_statics S h
  ⟨h.zero, h.one, h.objects, h.shared, h.frozen⟩

theorem storeTen_room {ws : List (Nat × Nat)} {S : Nat → Nat} {n : Nat} (hn : n ≤ 1000000) : Room (storeTen ws S) n := by
  refine ⟨by omega, ?_⟩
  show 1000 + n + 65536 ≤ 128 * 65536
  omega

/-- An object at 600 with owner 10, id 9 and field `5: u8`; the numbers 9, 9, 20, 30, 10 at 700, 732, 764, 796, 828. -/
def wsU : List (Nat × Nat) := [(596, 10 * 2 ^ 24), (600, 640), (604, 696), (636, 600), (640, 644), (644, 648), (676, 9 * 2 ^ 24), (696, 5),
  (728, 9 * 2 ^ 24), (760, 9 * 2 ^ 24), (792, 20 * 2 ^ 24), (824, 30 * 2 ^ 24), (856, 10 * 2 ^ 24)]

theorem slotU : objectSlot hashT 10 9 = 128064 := by decide +kernel

theorem storedU : Stored hashT (tagOf fun _ => 5) storQ [.u8] uidO [.num 3] 128064 := by
  constructor
  · decide +kernel
  · simp [HoldsFs, Layout.Holds, place]
    decide +kernel

theorem occupiedU : Occupied (storeTen wsU storQ) 10 9 := by
  show objectSlot hashT 10 9 |> storQ |> (· % 2 ^ 256) |> (· ≠ 0)
  rw [slotU]; decide +kernel

theorem givenU {imm : Bool} : Given (storeTen wsU storQ) (fun _ => 5) none imm [.u8] uidO [.num 3] 9 10 10 :=
  ⟨by simp [StorableFs, Storable], by simp [TypedFs, Typed], rfl, .inl ⟨rfl, occupiedU⟩, by
    show freshFs _ _ (objectSlot hashT 10 9, 8) true ≠ none
    rw [slotU]; decide +kernel, by
    show Stored hashT _ storQ _ _ _ (objectSlot hashT 10 9)
    rw [slotU]; exact storedU, by
    show ∀ g ∈ area hashT _ _ _ (objectSlot hashT 10 9), _
    rw [slotU]; decide +kernel⟩

/-- An object with tag 5 and a field of type `u8`. -/
theorem storedAt {T : Ty → Nat} {S : Nat → Nat} {n c v : Nat} (h : S c = 5 * 72057594037927936 + v * 18446744073709551616) (hv : v < 256)
    (hT : T (.object (uidTy :: [.u8])) = 5) : Stored hashT (tagOf T) S [.u8] (.struct [.struct [.num n]]) [.num v] c := by
  constructor
  · rw [h]
    show dig _ 0 8 = bswap 8 _
    rw [hT, show bswap 8 5 = 5 * 72057594037927936 by decide +kernel]
    unfold dig
    omega
  · simp [HoldsFs, Layout.Holds, place, dig, h]
    omega

/-- **C98** -/
example : (loadArg E (fun _ => 5) none true uidTy [.u8]).Calls [700] (storeTen wsU storQ) (fun r σ' =>
    Passed (storeTen wsU storQ) σ' r 732 10 [.u8] uidO [.num 3]) :=
  have h := givenU (imm := true)
  C98_partial (n := 9) (storeTen_heap _ (by decide)) (storeTen_statics _ (by decide)) (by show 732 ≤ 1000; omega) (by show beNat (memO wsU) 700 32 = 9; decide +kernel)
    rfl (by show 10 < _; decide) tags5 h.storable h.ty h.eq h.holder h.fresh h.stored h.seg (storeTen_room (by decide +kernel)) fun _ => by decide +kernel

/-- Shared objects with this id do not exist. -/
example : (loadArg E0 (fun _ => 5) (some .shared) true uidTy [.u8]).Calls [700] (storeTen wsU storQ) (fun _ σ' =>
    Failed E0 .objectNotFound (storeTen wsU storQ) σ') :=
  C98_absent (n := 9) (me := 10) E0_valid (storeTen_heap _ (by decide)) (storeTen_statics _ (by decide)) (by show 732 ≤ 1000; omega) (by show beNat (memO wsU) 700 32 = 9; decide +kernel)
    rfl (by decide) (fun o h => by
      obtain ⟨-, h⟩ := h
      refine h ?_
      show storQ (objectSlot hashT 1 9) % 2 ^ 256 = 0
      decide +kernel) (storeTen_room (by decide +kernel))

/-- Objects with a field of type `u16` have tag 6. -/
def tagsU (t : Ty) : Nat := match t with
  | .object [_, .u16] => 6
  | _ => 5

/-- An object of another type. -/
example : (loadArg E0 tagsU none true uidTy [.u16]).Calls [700] (storeTen wsU storQ) (fun _ σ' =>
    Failed E0 .typeMismatch (storeTen wsU storQ) σ') :=
  C98_type (n := 9) (me := 10) (owner := 10) (fs := [.u8]) (uid := uidO) (vs := [.num 3]) E0_valid (storeTen_heap _ (by decide)) (storeTen_statics _ (by decide)) (by show 732 ≤ 1000; omega)
    (by show beNat (memO wsU) 700 32 = 9; decide +kernel) rfl (by decide) (fun t => by unfold tagsU; split <;> decide) givenU.holder
    (by
      show Stored hashT _ storQ _ _ _ (objectSlot hashT 10 9)
      rw [slotU]; exact storedAt (by decide +kernel) (by decide) (by simp [tagsU])) (by simp [tagsU]) (storeTen_room (by decide +kernel))

theorem refU : BackRef (storeTen wsU storQ) 640 600 648 8 := by
  refine ⟨⟨by show 644 ≤ 1000; omega, ?_, ?_, by omega, by show 680 ≤ 1000; omega⟩, by omega, ?_, by show 608 ≤ 1000; omega, by omega⟩
  · show leNat (memO wsU) 640 4 + 4 ≤ 1000; decide +kernel
  · show leNat (memO wsU) (leNat (memO wsU) 640 4) 4 = 648; decide +kernel
  · show leNat (memO wsU) 636 4 = 600; decide +kernel

theorem idU : beNat (storeTen wsU storQ).mem 648 32 = 9 := by show beNat (memO wsU) 648 32 = 9; decide +kernel

/-- **C99** The object of 10. -/
example : (peep E (fun _ => 5) uidTy [.u8]).Calls [828, 640] (storeTen wsU storQ) (fun r σ' => ∃ p, r = [p] ∧
    leNat σ'.mem (leNat σ'.mem (leNat σ'.mem p 4 + 4) 4) 1 = 3) := by
  have h := givenU (imm := true)
  refine (C99_partial (owner := 10) (uid := uidO) (vs := [.num 3]) (storeTen_heap _ (by decide)) (storeTen_statics _ (by decide)) refU.toRefUid (by show 860 ≤ 1000; omega) (by omega)
    (by show beNat (memO wsU) 828 32 = 10; decide +kernel) tags5 h.storable h.ty (by rw [idU]; rfl) h.fresh h.stored h.seg (storeTen_room (by decide +kernel))
    fun _ => by decide +kernel).mono ?_
  rintro r σ' ⟨p, vs', rfl, -, -, -, -, he, hr⟩
  refine ⟨p, rfl, ?_⟩
  simp only [Mv.Rep, Mv.RepFs, Ty.scalar, if_true] at hr
  obtain ⟨_, -, e, -, _, _, rfl, -, -, -, _, _, rfl, -, -, ⟨rfl, -⟩, rfl⟩ := hr
  simp only [Val.object.injEq, List.cons.injEq] at e
  obtain ⟨-, -, rfl⟩ := e
  simp [eraseL, Val.erase, Ty.size] at he
  exact he

/-- 20 has no such object. -/
example : (peep E0 (fun _ => 5) uidTy [.u8]).Calls [764, 640] (storeTen wsU storQ) (fun _ σ' => Failed E0 .objectNotFound (storeTen wsU storQ) σ') :=
  C99_absent E0_valid (storeTen_heap _ (by decide)) (storeTen_statics _ (by decide)) refU.toRefUid (by show 796 ≤ 1000; omega) (storeTen_room (by decide +kernel)) fun h => by
    refine h ?_
    show storQ (objectSlot hashT (beNat (memO wsU) 764 32) (beNat (memO wsU) 648 32)) % 2 ^ 256 = 0
    decide +kernel

/-- **C100** The field was 5; storage has 3. -/
example : (reload E (fun _ => 5) uidTy [.u8]).Calls [1, 1, 640] (storeTen wsU storQ) (fun _ σ' => leNat σ'.mem (leNat σ'.mem (600 + 4) 4) 1 = 3) := by
  have h := givenU (imm := false)
  refine (C100_partial (owner := 10) (me := 10) (uid := uidO) (vs := [.num 3]) (storeTen_heap _ (by decide)) (storeTen_statics _ (by decide)) (by decide) refU (by omega) (.inr (by simp)) rfl (by decide)
    tags5 h.storable h.ty (by rw [idU]; rfl) h.holder h.fresh h.stored h.seg (storeTen_room (by decide +kernel)) fun _ => by decide +kernel).mono ?_
  rintro r σ' ⟨vs', rfl, -, -, -, -, he, hr⟩
  simp only [Mv.Rep, Mv.RepFs, Ty.scalar, if_true] at hr
  obtain ⟨_, -, e, -, _, _, rfl, -, -, -, _, _, rfl, -, -, ⟨rfl, -⟩, rfl⟩ := hr
  simp only [Val.object.injEq, List.cons.injEq] at e
  obtain ⟨-, -, rfl⟩ := e
  simp [eraseL, Val.erase, Ty.size] at he
  exact he

/-- A frozen object, after a delegated call that has done nothing. -/
def storFz (x : Nat) : Nat := if x = 33064 then 5 * 72057594037927936 + 3 * 18446744073709551616 else 0

example : (reload E0 (fun _ => 5) uidTy [.u8]).Calls [1, 1, 640] (storeTen wsU storFz) (fun _ σ' => Failed E0 .objectNotFound (storeTen wsU storFz) σ') :=
  C100_absent (me := 10) E0_valid (storeTen_heap _ (by decide)) (storeTen_statics _ (by decide)) (by decide)
    ⟨⟨refU.ref, refU.inner, refU.bytes, refU.low, refU.high⟩, refU.four, refU.back, refU.fits, refU.above⟩ rfl (by decide)
    (fun h => h (by show storFz (objectSlot hashT 10 (beNat (memO wsU) 648 32)) % 2 ^ 256 = 0; decide +kernel))
    (fun h => h (by show storFz (objectSlot hashT 1 (beNat (memO wsU) 648 32)) % 2 ^ 256 = 0; decide +kernel))

/-- Storage with the same object, with `7: u8`. -/
def storV7 (x : Nat) : Nat := if x = 128064 then 5 * 72057594037927936 + 7 * 18446744073709551616 else 0

/-- Two calls, the second one in a state computed from the one that the first one leaves behind. -/
theorem calls_then {f g : Fn} {as : List Nat} (n : Nat) (bs : Store → List Nat) (k : Store → Store) (obs obs' : Store → List Nat) (res : List Nat) (x y : List Nat)
    (ha : as.length = f.na) (hb : ∀ σ1, (bs σ1).length = g.na)
    (h : (match run n [f.call] as.reverse [] σ with
      | .ok r1 l σ1 => some (r1, l, obs σ1 ++ match run n [g.call] (bs σ1).reverse [] (k σ1) with
        | .ok _ l σ2 => l.length :: obs' σ2
        | _ => [])
      | _ => none) = some (res, [], x ++ 0 :: y)) (hx : ∀ σ1, (obs σ1).length = x.length) :
    f.Calls as σ (fun _ σ1 => obs σ1 = x ∧ g.Calls (bs σ1) (k σ1) (fun _ σ2 => obs' σ2 = y)) := by
  refine (calls_of_obs n _ _ _ ha h).mono fun r σ1 h1 => ?_
  obtain ⟨h2, h3⟩ := List.append_inj h1.2 (hx σ1)
  refine ⟨h2, Fn.Calls.of_run n (hb σ1) ?_⟩
  revert h3
  generalize run n [g.call] (bs σ1).reverse [] (k σ1) = y'
  intro h
  cases y' <;> simp at h
  obtain ⟨rfl, rfl⟩ := h
  rfl

/-- **C100 is false** of the second delegated call with an object: the first one, after which storage has 3, brings the 3 to the object; the
second one, after which storage has 7, does not bring the 7.  The reference to the `UID` is what the first field of the object contains. -/
theorem C100_false : leNat (storeTen wsU storQ).mem 600 4 = 640 ∧ (reload E0 (fun _ => 5) uidTy [.u8]).Calls [1, 1, 640] (storeTen wsU storQ) (fun _ σ1 =>
    leNat σ1.mem (leNat σ1.mem 604 4) 1 = 3 ∧
    (reload E0 (fun _ => 5) uidTy [.u8]).Calls [1, 1, leNat σ1.mem 600 4] { σ1 with host := { σ1.host with storage := storV7 } } (fun _ σ2 =>
      errWord σ2 = 0 ∧ Stored hashT (tagOf fun _ => 5) σ2.host.storage [.u8] uidO [.num 7] (objectSlot hashT 10 9) ∧
      leNat σ2.mem (leNat σ2.mem 604 4) 1 = 3)) := by
  refine ⟨by show leNat (memO wsU) 600 4 = 640; decide +kernel, ?_⟩
  refine (calls_then (g := reload E0 (fun _ => 5) uidTy [.u8]) 1000 (fun σ1 => [1, 1, leNat σ1.mem 600 4]) (fun σ1 => { σ1 with host := { σ1.host with storage := storV7 } })
    (fun σ1 => [leNat σ1.mem (leNat σ1.mem 604 4) 1]) (fun σ2 => [errWord σ2, σ2.host.storage 128064, leNat σ2.mem (leNat σ2.mem 604 4) 1]) [1] [3]
    [0, 5 * 72057594037927936 + 7 * 18446744073709551616, 3] rfl (fun _ => rfl) (by decide +kernel) fun _ => rfl).mono fun r σ1 h => ?_
  refine ⟨(List.cons.inj h.1).1, h.2.mono fun r σ2 h => ?_⟩
  simp only [List.cons.injEq] at h
  exact ⟨h.1, by rw [slotU]; exact storedAt h.2.1 (by decide) rfl, h.2.2.1⟩

/-- Storage with an object of id 9001, which is the hash of the name `[9]`. -/
def storNm (x : Nat) : Nat := if x = 195064 then 5 * 72057594037927936 + 4 * 18446744073709551616 else 0

/-- **C101** -/
example : (loadNamed E (fun _ => 5) (namedHash hashT ⟨[1], [9]⟩) none true uidTy [.u8]).Calls [700] (storeTen wsU storNm) (fun r σ' =>
    Passed (storeTen wsU storNm) σ' r 0 10 [.u8] (.struct [.struct [.num 9001]]) [.num 4]) := by
  have hs : objectSlot hashT 10 9001 = 195064 := by decide +kernel
  refine C101_partial (σ := storeTen wsU storNm) (m := ⟨[1], [9]⟩) (n := 9001) (me := 10) (storeTen_heap _ (by decide)) (storeTen_statics _ (by decide))
    (by show hashT [9] = 9001; decide +kernel) (by decide) rfl (by decide) tags5 (by simp [StorableFs, Storable]) (by simp [TypedFs, Typed]) rfl (.inl ⟨rfl, ?_⟩) ?_ ?_ ?_
    (storeTen_room (by decide +kernel)) fun _ => by decide +kernel
  · show storNm (objectSlot hashT 10 9001) % 2 ^ 256 ≠ 0
    rw [hs]; decide +kernel
  · show freshFs _ _ (objectSlot hashT 10 9001, 8) true ≠ none
    rw [hs]; decide +kernel
  · show Stored hashT _ storNm _ _ _ (objectSlot hashT 10 9001)
    rw [hs]; exact storedAt (by decide +kernel) (by decide) rfl
  · show ∀ g ∈ area hashT _ _ _ (objectSlot hashT 10 9001), _
    rw [hs]; decide +kernel

example : namedHash (fun l => l.foldl (fun a b => 256 * a + b.toNat + 1) 0) ⟨[1], [9]⟩ ≠ namedHash (fun l => l.foldl (fun a b => 256 * a + b.toNat + 1) 0) ⟨[1], [8]⟩ := by decide

/-- A function with two parameters that gives the first object to the address at 764, the second one to the address at 796. -/
def giveBoth (E : ErrPtrs) (T : Ty → Nat) : Fn := ⟨1, 0, 2, [Instr.op (.lget 0), (loadTwo (loadArg E T none false uidTy [.u8]) (loadArg E T none false uidTy [.u8])).call,
  Instr.op (.lset 2), Instr.op (.lset 1),
  Instr.op (.lget 1), Instr.op (.c32 764), (transferObject E T uidTy [.u8]).call,
  Instr.op (.lget 2), Instr.op (.c32 796), (transferObject E T uidTy [.u8]).call]⟩

/-- **C102 is false**: an object passed for both parameters of a function is then two objects with the same id, one of 20 and one of 30. -/
theorem C102_false : Stored hashT (tagOf fun _ => 5) storQ [.u8] uidO [.num 3] (objectSlot hashT 10 9) ∧
    (giveBoth E0 (fun _ => 5)).Calls [700] (storeTen wsU storQ) (fun _ σ' => errWord σ' = 0 ∧ σ'.host.storage (objectSlot hashT 10 9) = 0 ∧
      Stored hashT (tagOf fun _ => 5) σ'.host.storage [.u8] uidO [.num 3] (objectSlot hashT 20 9) ∧
      Stored hashT (tagOf fun _ => 5) σ'.host.storage [.u8] uidO [.num 3] (objectSlot hashT 30 9)) := by
  refine ⟨by rw [slotU]; exact storedU, ?_⟩
  refine (calls_of_obs 1000 (fun σ' => (errWord σ', σ'.host.storage (objectSlot hashT 10 9), σ'.host.storage (objectSlot hashT 20 9), σ'.host.storage (objectSlot hashT 30 9)))
    [] (0, 0, 5 * 72057594037927936 + 3 * 18446744073709551616, 5 * 72057594037927936 + 3 * 18446744073709551616) rfl (by decide +kernel)).mono fun r σ' h => ?_
  simp only [Prod.mk.injEq] at h
  obtain ⟨-, h1, h2, h3, h4⟩ := h
  exact ⟨h1, h2, storedAt h3 (by decide) rfl, storedAt h4 (by decide) rfl⟩

/-- **C102_twice** -/
example : (loadTwo (loadArg E (fun _ => 5) none false uidTy [.u8]) (loadArg E (fun _ => 5) none true uidTy [.u8])).Calls [700] (storeTen wsU storQ) (fun r σ' =>
    Both (storeTen wsU storQ) σ' r [.u8] [.u8] (fun vs => .object 10 (uidO :: vs)) (fun vs => .object 10 (uidO :: vs)) [.num 3] [.num 3]) :=
  C102_twice (n := 9) (me := 10) (storeTen_heap _ (by decide)) (storeTen_statics _ (by decide)) (by omega) (by show 764 ≤ 1000; omega)
    (by show beNat (memO wsU) 700 32 = 9; decide +kernel) (by show beNat (memO wsU) 732 32 = 9; decide +kernel) rfl (by decide) tags5 givenU givenU
    (storeTen_room (by decide +kernel)) fun _ => by decide +kernel

/-- The objects 9 and 8 of 10. -/
def stor98 (x : Nat) : Nat := if x = 127064 then 5 * 72057594037927936 + 4 * 18446744073709551616 else storQ x

/-- **C102_partial** The ids are those of these objects. -/
example : (loadTwo (loadArg E (fun _ => 5) none false uidTy [.u8]) (loadArg E (fun _ => 5) none true uidTy [.u8])).Calls [700]
    (storeTen ((760, 8 * 2 ^ 24) :: wsU) stor98) (fun r σ' => Both (storeTen ((760, 8 * 2 ^ 24) :: wsU) stor98) σ' r [.u8] [.u8]
      (fun vs => .object 10 (uidO :: vs)) (fun vs => .object 10 (uidC :: vs)) [.num 3] [.num 4]) := by
  have hs : objectSlot hashT 10 8 = 127064 := by decide +kernel
  have h1 : Given (storeTen ((760, 8 * 2 ^ 24) :: wsU) stor98) (fun _ => 5) none false [.u8] uidO [.num 3] 9 10 10 :=
    ⟨by simp [StorableFs, Storable], by simp [TypedFs, Typed], rfl, .inl ⟨rfl, by
      show stor98 (objectSlot hashT 10 9) % 2 ^ 256 ≠ 0
      rw [slotU]; decide +kernel⟩, (givenU (imm := true)).fresh, by
      show Stored hashT _ stor98 _ _ _ (objectSlot hashT 10 9)
      rw [slotU]; exact storedAt (by decide +kernel) (by decide) rfl, (givenU (imm := true)).seg⟩
  have h2 : Given (storeTen ((760, 8 * 2 ^ 24) :: wsU) stor98) (fun _ => 5) none true [.u8] uidC [.num 4] 8 10 10 :=
    ⟨by simp [StorableFs, Storable], by simp [TypedFs, Typed], rfl, .inl ⟨rfl, by
      show stor98 (objectSlot hashT 10 8) % 2 ^ 256 ≠ 0
      rw [hs]; decide +kernel⟩, by
      show freshFs _ _ (objectSlot hashT 10 8, 8) true ≠ none
      rw [hs]; decide +kernel, by
      show Stored hashT _ stor98 _ _ _ (objectSlot hashT 10 8)
      rw [hs]; exact storedAt (by decide +kernel) (by decide) rfl, by
      show ∀ g ∈ area hashT _ _ _ (objectSlot hashT 10 8), _
      rw [hs]; decide +kernel⟩
  exact (C102_partial (E := E) (storeTen_heap _ (by decide)) (storeTen_statics _ (by decide)) (by omega) (by show 764 ≤ 1000; omega)
    (by show beNat (memO ((760, 8 * 2 ^ 24) :: wsU)) 700 32 = 9; decide +kernel) (by show beNat (memO ((760, 8 * 2 ^ 24) :: wsU)) 732 32 = 8; decide +kernel)
    (by decide) rfl (by decide) tags5 h1 h2 (storeTen_room (by decide +kernel)) fun _ => by decide +kernel).2

end Props
