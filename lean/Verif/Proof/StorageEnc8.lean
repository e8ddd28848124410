import Verif.Proof.StorageEnc6
import Verif.Proof.StorageEnc7

/-! The emitted encoder computes `enc`: all types, and `saveObject`. -/

namespace Rt
open Wasm Slots Mv Layout

variable {σ σ' σ'' : Store} {E : ErrPtrs} {T : Ty → Nat}

theorem sizeOk {vss : List (List Ty)} (h : ∀ i, i ≤ 32 → lin (next (.enum vss) (0, i)) < 2 ^ 31) : SizeOk vss := by
  intro i hi
  have h1 := h i (by omega)
  have h2 := enumSize_eq vss (p := (0, i)) (by simp only; omega)
  rw [h2, lin_split] at h1
  simp only [Nat.mod_eq_of_lt hi] at h1
  omega

mutual
theorem enc_run (t : Ty) (h : Storable t) : EncRun E T t := by
  match t with
  | .bool | .u8 | .u16 | .u32 | .u64 => exact encScalar_run rfl
  | .u128 => exact encLong_run (.inl rfl)
  | .u256 => exact encLong_run (.inr rfl)
  | .address => exact encAddress_run
  | .struct fs => rw [Storable] at h; exact encStruct_run (encs_run fs h.2)
  | .enum vss => rw [Storable] at h; exact encEnum_run (sizeOk h.2.1) (encss_run vss h.2.2)
  | .vec t => rw [Storable] at h; exact encVec_run (enc_run t h)
  | .object [] => rw [Storable] at h; exact h.elim
  | .object (u :: fs) => rw [Storable] at h; rw [h.1]; exact encObject_run (encs_run fs h.2)
theorem encs_run (ts : List Ty) (h : StorableFs ts) : EncsRun E T ts := by
  match ts with
  | [] => exact encFs_nil
  | t :: ts => rw [StorableFs] at h; exact encFs_cons (enc_run t h.1) (encs_run ts h.2)
theorem encss_run (vss : List (List Ty)) (h : StorableVs vss) : ∀ fs ∈ vss, EncsRun E T fs := by
  match vss with
  | [] => simp
  | fs :: vss =>
    rw [StorableVs] at h
    intro gs hgs
    rcases List.mem_cons.mp hgs with e | hgs
    · rw [e]; exact encs_run fs h.1
    · exact encss_run vss h.2 gs hgs
end

/-- `saveObject` computes `encs`. -/
theorem saveObject_spec {R : Nat → Prop} {fs : List Ty} {uid : Val} {vs : List Val} {w a ow slot : Nat} {st' : St}
    (hfs : StorableFs fs) (hσ : Heap σ) (hst : Statics σ) (ha : Cell a) (hin : a + 32 ≤ σ.nextFree)
    (hslot : beNat σ.mem a 32 = slot) (hsafe : Safe σ R a)
    (hrep : Mv.Rep σ.mem R (.object (uidTy :: fs)) (.object ow (uid :: vs)) w) (hroom : Room σ (ecostFs fs vs))
    (hrun : encs σ.host.keccak (fun t => bswap 8 (T t)) (idOf uid) fs vs
      ⟨σ.host.storage, bswap 8 (T (.object (uidTy :: fs))), slot, 8⟩ = some st') :
    (saveObject E T uidTy fs).Calls [w, a] σ (fun r σ' => r = [] ∧ Later (scr a) σ σ' ∧
      σ'.host = { σ.host with storage := st'.view } ∧ σ'.nextFree ≤ σ.nextFree + ecostFs fs vs ∧
      beNat σ'.mem a 32 = st'.slot) := by
  have f1 := hσ.alloc.nextFree_le
  have f2 := hσ.base
  have hsim : Sim σ a ⟨σ.host.storage, beNat σ.mem 64 32, slot, 8⟩ := ⟨hσ, hst, ha, hin, hslot, by simp, rfl, rfl⟩
  simp only [Mv.Rep] at hrep
  obtain ⟨vs0, h32, hv, hwo, hr⟩ := hrep
  obtain ⟨uid', vs', p1, p2, p, rfl, hu, hr⟩ := uid_rep hr
  simp only [Val.object.injEq, List.cons.injEq] at hv
  obtain ⟨-, e1, e2⟩ := hv
  rw [e1, e2] at hrun
  rw [e2] at hroom ⊢
  clear e1 e2
  refine ⟨rfl, ?_⟩
  unfold saveObject
  wstep
  refine wp_header hsim fun σ1 e1 => ?_
  have hm : ∀ x, R x → σ1.mem x = σ.mem x := fun x hx => e1.later.safe hsafe hx
  have hs1 := hsafe.later e1.later
  have hu1 := hu.change hm fun _ h => h
  wstep
  refine wp_call1 (hu1.ptr hs1 e1.sim.heap) ?_
  rintro r σ4 ⟨rfl, rfl⟩
  wstep
  have hlen : (List.replicate (2 + nlEncFs fs) 0 : List Nat).length = 2 + nlEncFs fs := List.length_replicate
  generalize (List.replicate (2 + nlEncFs fs) 0 : List Nat) = l0 at hlen
  obtain ⟨L, hL⟩ : ∃ L, L = w :: a :: lset (lset (lset l0 0 0) 0 8) 1 p := ⟨_, rfl⟩
  rw [← hL]
  have d0 : lget L 0 = w := by rw [hL]; rfl
  have d1 : lget L 1 = a := by rw [hL]; rfl
  have d2 : lget L 2 = 8 := by
    rw [hL]; show lget (lset (lset (lset l0 0 0) 0 8) 1 p) 0 = 8; lsimp
  have d3 : lget L 3 = p := by
    rw [hL]; show lget (lset (lset (lset l0 0 0) 0 8) 1 p) 1 = p; lsimp
  have dl : L.length = 4 + nlEncFs fs := by
    rw [hL]; simp only [List.length_cons, lset_length, hlen]; omega
  refine encs_run fs hfs σ4 R _ (idOf uid') vs' w a _ st' 0 1 2 3 4 4 _ _ _ _ e1.sim hs1 rfl
    (RepFs.change hm (fun _ h => h) fs hr) (by rw [e1.later.keccak]; exact hrun)
    ((hroom.mono (by omega)).after (k := 0) (by have := e1.cost; omega) e1.later.maxPages)
    ⟨d1, d2, ⟨by rw [d3]; exact hu1.within, by rw [d3, hu1.idOf]⟩, by omega, by omega, by omega, by omega, by omega, by omega⟩
    (by omega) (by omega) d0 ?_
  intro σ5 l5 h5 hl5 _ hp5
  have en := e1.trans h5
  have g1 := en.sim.nf
  have g2 := en.sim.base
  have g3 := en.sim.inside
  wstep
  rw [hp5 1 (by omega) (by omega), d1, wp_storageCache (by omega) (by omega)]
  have en2 := en.trans en.sim.flush
  wstep
  refine ⟨en2.later, ?_, by have := en2.cost; omega, en2.sim.slot⟩
  rw [en2.later.host, en2.sim.stor]
  rfl

end Rt
