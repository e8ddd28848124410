import Verif.Proof.StorageDec5
import Verif.Proof.StorageDec6
import Verif.Proof.StorageDec7
import Verif.Proof.StorageEnc8

/-! The emitted decoder reads what storage holds: all types, and `readObject`. -/

namespace Rt
open Wasm Slots Mv Layout

variable {σ σ' σ'' : Store} {E : ErrPtrs} {T : Ty → Nat}

mutual
theorem dec_run (hT : Tags T) (t : Ty) (h : Storable t) : DecRun E T t := by
  match t with
  | .bool | .u8 | .u16 | .u32 | .u64 => exact decScalar_run rfl
  | .u128 => exact decLong_run (.inl rfl)
  | .u256 => exact decLong_run (.inr rfl)
  | .address => exact decAddress_run
  | .struct fs => rw [Storable] at h; exact decStruct_run (decs_run hT fs h.2)
  | .enum vss => rw [Storable] at h; exact decEnum_run (sizeOk h.2.1) (decss_run hT vss h.2.2)
  | .vec t => rw [Storable] at h; exact decVec_run (dec_run hT t h)
  | .object [] => rw [Storable] at h; exact h.elim
  | .object (u :: fs) => rw [Storable] at h; rw [h.1]; exact decObject_run (decs_run hT fs h.2) hT
theorem decs_run (hT : Tags T) (ts : List Ty) (h : StorableFs ts) : DecsRun E T ts := by
  match ts with
  | [] => exact decFs_nil
  | t :: ts => rw [StorableFs] at h; exact decFs_cons (dec_run hT t h.1) (decs_run hT ts h.2)
theorem decss_run (hT : Tags T) (vss : List (List Ty)) (h : StorableVs vss) : ∀ fs ∈ vss, DecsRun E T fs := by
  match vss with
  | [] => simp
  | fs :: vss =>
    rw [StorableVs] at h
    intro gs hgs
    rcases List.mem_cons.mp hgs with e | hgs
    · rw [e]; exact decs_run hT fs h.1
    · exact decss_run hT vss h.2 gs hgs
end

/-- `readObject` reads the object in storage. -/
theorem readObject_cost {fs : List Ty} {vs : List Val} {a id ow n slot : Nat} {b' d : Bool}
    (hT : Tags T) (hfs : StorableFs fs) (hσ : Heap σ) (hst : Statics σ) (ha : Cell a) (hin : a + 32 ≤ σ.nextFree)
    (hslot : beNat σ.mem a 32 = slot) (hsafe : Safe σ (Between id (id + 32)) a) (hid : beNat σ.mem id 32 = n)
    (how : ow + 32 ≤ σ.nextFree)
    (hs : Stored σ.host.keccak (fun t => bswap 8 (T t)) σ.host.storage fs (.struct [.struct [.num n]]) vs slot) (hty : TypedFs fs vs)
    (hf : Layout.freshFs fs vs (slot, 8) true = some b') (hfit : Fit σ d (48 + 4 * fs.length + dcostFs fs vs))
    (hnar : Layout.narrowFs fs = true → d = true)
    (hseg : ∀ g ∈ area σ.host.keccak fs (.struct [.struct [.num n]]) vs slot, g.2 < 2 ^ 256) :
    (readObject E T uidTy fs).Calls [a, id, ow] σ (fun r σ' => ∃ w vs' c', r = [w] ∧ Later (scr a) σ σ' ∧ σ'.host = σ.host ∧
      Mv.Rep σ'.mem (fun x => Between id (id + 32) x ∨ Got σ σ' c' x) (.object (uidTy :: fs))
        (.object (beNat σ.mem ow 32) (.struct [.struct [.num n]] :: vs')) w ∧ eraseL vs' = eraseL vs ∧
      σ'.nextFree ≤ σ.nextFree + (48 + 4 * fs.length + dcostFs fs vs)) := by
  refine ⟨rfl, ?_⟩
  unfold readObject
  simp only [List.append_assoc]
  wstep
  have hlen : (List.replicate (7 + nlDecFs fs) 0 : List Nat).length = 7 + nlDecFs fs := List.length_replicate
  generalize (List.replicate (7 + nlDecFs fs) 0 : List Nat) = l0 at hlen
  have h0 : DSim σ a (slot, 8) false := ⟨hσ, hst, ha, hin, hslot, by simp, by simp⟩
  obtain ⟨L, hL⟩ : ∃ L, L = a :: id :: ow :: lset l0 0 0 := ⟨_, rfl⟩
  rw [← hL]
  have d0 : lget L 0 = a := by rw [hL]; rfl
  have d1 : lget L 1 = id := by rw [hL]; rfl
  have d2 : lget L 2 = ow := by rw [hL]; rfl
  have dl : L.length = 10 + nlDecFs fs := by
    rw [hL]; simp only [List.length_cons, lset_length, hlen]; omega
  refine wp_object (decs_run hT fs hfs) hT (m := 8) (n := n) rfl h0 hsafe rfl hs.tag
    (by rw [d1]; exact fun x h1 h2 => ⟨h1, h2⟩) (by rw [d1, hid]) (by rw [d2]; exact how) d0 hs.fields hty hf hfit hnar
    (hseg _ (List.mem_cons_self ..)) (fun g hg => hseg g (List.mem_cons_of_mem _ hg))
    ⟨by omega, by omega, by omega, by omega, by omega, by omega, by omega, by omega, by omega, by omega, by omega, by omega, by omega, by omega,
      by omega, by omega, by omega, by omega, by omega, by omega, by omega⟩ (by simp) (by omega) ?_
  intro σ1 l1 c' vs' e1 r1 er hl1 hk1 _
  rw [d2] at r1
  wstep
  exact ⟨_, vs', c', by rw [hk1], e1.later, e1.host, r1, er, e1.cost⟩

theorem readObject_spec {fs : List Ty} {vs : List Val} {a id ow n slot : Nat} {b' d : Bool}
    (hT : Tags T) (hfs : StorableFs fs) (hσ : Heap σ) (hst : Statics σ) (ha : Cell a) (hin : a + 32 ≤ σ.nextFree)
    (hslot : beNat σ.mem a 32 = slot) (hsafe : Safe σ (Between id (id + 32)) a) (hid : beNat σ.mem id 32 = n)
    (how : ow + 32 ≤ σ.nextFree)
    (hs : Stored σ.host.keccak (fun t => bswap 8 (T t)) σ.host.storage fs (.struct [.struct [.num n]]) vs slot) (hty : TypedFs fs vs)
    (hf : Layout.freshFs fs vs (slot, 8) true = some b') (hfit : Fit σ d (48 + 4 * fs.length + dcostFs fs vs))
    (hnar : Layout.narrowFs fs = true → d = true)
    (hseg : ∀ g ∈ area σ.host.keccak fs (.struct [.struct [.num n]]) vs slot, g.2 < 2 ^ 256) :
    (readObject E T uidTy fs).Calls [a, id, ow] σ (fun r σ' => ∃ w vs' c', r = [w] ∧ Later (scr a) σ σ' ∧ σ'.host = σ.host ∧
      Mv.Rep σ'.mem (fun x => Between id (id + 32) x ∨ Got σ σ' c' x) (.object (uidTy :: fs))
        (.object (beNat σ.mem ow 32) (.struct [.struct [.num n]] :: vs')) w ∧ eraseL vs' = eraseL vs) := by
  refine (readObject_cost (E := E) hT hfs hσ hst ha hin hslot hsafe hid how hs hty hf hfit hnar hseg).mono ?_
  rintro r σ' ⟨w, vs', c', h1, h2, h3, h4, h5, -⟩
  exact ⟨w, vs', c', h1, h2, h3, h4, h5⟩

end Rt
