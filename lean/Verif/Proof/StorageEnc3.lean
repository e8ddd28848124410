import Verif.Proof.StorageEnc2

/-! The emitted encoder computes `enc`: fields, structs, objects. -/

namespace Rt
open Wasm Slots Mv Layout

variable {σ σ' σ'' : Store} {E : ErrPtrs} {T : Ty → Nat}

theorem Locs.step {R : Nat → Prop} {o a b off off' sp so ow k k' n n' : Nat} {l l' : List Nat}
    (h : Locs σ R o l a off sp so ow k n) (hs : Safe σ R b) (hl : Later (scr b) σ σ') (h1 : l'.length = l.length)
    (h2 : lget l' so = off') (h3 : ∀ j, j < k → j ≠ so → lget l' j = lget l j) (hk : k ≤ k') (hn : k' + n' ≤ k + n) :
    Locs σ' R o l' a off' sp so ow k' n' := by
  have e := h3 ow h.owk h.owo
  refine ⟨by rw [h3 sp h.spk h.spo, h.spv], h2, ⟨by rw [e]; exact h.owner.1, ?_⟩, by have := h.spk; omega,
    by have := h.sok; omega, by have := h.owk; omega, h.spo, h.owo, by have := h.len; omega⟩
  rw [e, h.owner.1.beNat fun x hx => hl.safe hs hx, h.owner.2]

/-- The code of consecutive fields computes `encs`. -/
def EncsRun (E : ErrPtrs) (T : Ty → Nat) (ts : List Ty) : Prop :=
  ∀ (σ : Store) (R : Nat → Prop) (K : List UInt8 → Nat) (o : Nat) (vs : List Mv.Val) (w a : Nat) (st st' : St)
    (p sp so ow k off : Nat) (s l : List Nat) (is : List Instr) (Q : Res → Prop),
    Sim σ a st → Safe σ R a → σ.host.keccak = K → Mv.RepFs σ.mem R ts vs (w + off) →
    encs K (fun t => bswap 8 (T t)) o ts vs st = some st' → Room σ (ecostFs ts vs) →
    Locs σ R o l a st.off sp so ow k (nlEncFs ts) → p < k → p ≠ so → lget l p = w →
    (∀ σ' l', Enced a σ σ' (ecostFs ts vs) st' → l'.length = l.length → lget l' so = st'.off →
      (∀ j, j < k → j ≠ so → lget l' j = lget l j) → wp is s l' σ' Q) →
    wp (encFs E T p sp so ow ts k off ++ is) s l σ Q

theorem acc_width {st s1 : St} {n : Nat} (h : st.acc n = some s1) : n ≤ s1.off := by
  unfold St.acc at h
  split at h
  · injection h with h; subst h; exact Nat.le_add_left ..
  · split at h
    · injection h with h; subst h; exact Nat.le_refl _
    · exact absurd h (by simp)

theorem encFs_nil : EncsRun E T [] := by
  intro σ R K o vs w a st st' p sp so ow k off s l is Q hsim hsafe hK hrep hrun hroom hl hp hpso hlp hk
  simp only [Mv.RepFs] at hrep
  subst hrep
  simp only [encs] at hrun
  injection hrun with hrun
  subst hrun
  exact hk _ _ (hsim.refl.mono (Nat.zero_le _)) rfl hl.sov fun _ _ _ => rfl

theorem encFs_cons {t : Ty} {ts : List Ty} (ht : EncRun E T t) (hts : EncsRun E T ts) : EncsRun E T (t :: ts) := by
  intro σ R K o vs w a st st' p sp so ow k off s l is Q hsim hsafe hK hrep hrun hroom hl hp hpso hlp hk
  simp only [Mv.RepFs] at hrep
  obtain ⟨v, vs, rfl, hw, hsc, hrep, hreps⟩ := hrep
  simp only [encs, Option.bind_eq_some_iff] at hrun
  obtain ⟨s1, hacc, s2, henc, hrun⟩ := hrun
  have hb := Within.bounds hw hsafe (by omega)
  have hsok := hl.sok
  have hlen := hl.len
  simp only [ecostFs] at hroom hk
  simp only [nlEncFs] at hlen
  simp only [encFs, fsize_eq, List.append_assoc]
  refine wp_accField (is := code[Op.lget p, Op.load 4 off] ++ _) hsim (width_le t) hacc hl.spv hl.sov fun σ1 h1 hw1 => ?_
  have f1 := h1.sim.nf
  have f2 := h1.sim.lt
  have f3 := h1.later.nextFree
  have e1 : ∀ j, j ≠ so → lget (lset l so s1.off) j = lget l j := fun j hj => lget_lset_ne hj
  have hl1 : Locs σ1 R o (lset l so s1.off) a s1.off sp so ow k (nlEncFs (t :: ts)) :=
    hl.step hsafe h1.later lset_length (lget_lset_same (by omega)) (fun j _ hj => e1 j hj) (Nat.le_refl _) (Nat.le_refl _)
  have hs1 := hsafe.later h1.later
  have hm1 : ∀ x, R x → σ1.mem x = σ.mem x := fun x hx => h1.later.safe hsafe hx
  have ep : leNat σ1.mem (w + off) 4 = leNat σ.mem (w + off) 4 := hw.leNat hm1
  wstep
  rw [hlp, ep]
  have hc1 := h1.cost
  refine ht σ1 R K o true v _ a s1 s2 sp so ow k s _ _ Q
    ⟨h1.sim, hs1, h1.later.keccak.trans hK, ?_, henc, (hroom.mono (by omega)).after (k := 0) (by omega) h1.later.maxPages, hw1⟩
    (hl1.step hs1 (Later.refl _ h1.sim.heap) rfl hl1.sov (fun _ _ _ => rfl) (Nat.le_refl _) (by simp only [nlEncFs]; omega)) ?_
  · unfold Arg
    cases hc : t.scalar with
    | true =>
      rw [hc, if_pos rfl] at hrep
      rw [Bool.and_self, if_pos rfl, (hsc hc).leNat hm1]
      exact ⟨hsc hc, Rep.change hm1 (fun _ h => h) t hrep⟩
    | false =>
      rw [hc, if_neg (by simp)] at hrep
      rw [Bool.and_false, if_neg (by simp)]
      exact Rep.change hm1 (fun _ h => h) t hrep
  · intro σ2 l2 h2 hl2 hso2 hpres2
    have hl2' := hl1.step (k' := k + nlEnc t) (n' := nlEncFs ts) hs1 h2.later hl2 hso2 hpres2 (by omega) (by simp only [nlEncFs]; omega)
    have hm2 : ∀ x, R x → σ2.mem x = σ.mem x := fun x hx => (h2.later.safe hs1 hx).trans (hm1 x hx)
    have hc2 := h2.cost
    refine hts σ2 R K o vs w a s2 st' p sp so ow (k + nlEnc t) (off + 4) s l2 is Q h2.sim (hs1.later h2.later)
      (h2.later.keccak.trans (h1.later.keccak.trans hK)) (Mv.RepFs.change hm2 (fun _ h => h) ts hreps) hrun
      (hroom.after (by omega) (h2.later.maxPages.trans h1.later.maxPages)) hl2' (by omega) hpso
      (by rw [hpres2 p hp hpso, e1 p hpso, hlp]) ?_
    intro σ3 l3 h3 hl3 hso3 hpres3
    refine hk σ3 l3 (((h1.trans h2).trans h3).mono (by omega)) (by rw [hl3, hl2, lset_length]) hso3 fun j hj hjs => ?_
    rw [hpres3 j (by omega) hjs, hpres2 j hj hjs, e1 j hjs]

theorem encStruct_run {fs : List Ty} (hfs : EncsRun E T fs) : EncRun E T (.struct fs) := by
  intro σ R K o fld v w a st st' sp so ow k s l is Q hp hl hk
  have hr := hp.arg.ptr rfl
  simp only [Mv.Rep] at hr
  obtain ⟨vs, rfl, hr⟩ := hr
  have hrun := hp.run
  simp only [enc, Option.map_eq_some_iff] at hrun
  obtain ⟨s1, hrun, rfl⟩ := hrun
  have hsok := hl.sok
  have hspk := hl.spk
  have howk := hl.owk
  have hlen := hl.len
  have hroom := hp.room
  simp only [ecost] at hroom hk
  simp only [nlEnc] at hlen
  simp only [encT, List.append_assoc]
  wstep
  have eq : ∀ j, j < k → lget (lset (lset l (k + 2) w) (k + 3) (lget l ow)) j = lget l j := fun j hj => by
    rw [lget_lset_ne (by omega), lget_lset_ne (by omega)]
  refine hfs σ R K o vs w a st s1 (k + 2) sp so (k + 3) (k + 4) 0 s _ _ Q hp.sim hp.safe hp.keccak hr hrun hroom
    ⟨by rw [eq _ hspk, hl.spv], by rw [eq _ hsok, hl.sov], ?_, by omega, by omega, by omega, hl.spo, by omega, ?_⟩
    (by omega) (by omega) ?_ ?_
  · rw [lget_lset_same (by rw [lset_length]; omega)]; exact hl.owner
  · simp only [lset_length]; omega
  · rw [lget_lset_ne (by omega), lget_lset_same (by omega)]
  intro σ1 l1 h1 hl1 hso1 hpres1
  simp only [lset_length] at hl1
  have f1 := h1.sim.nf
  have f2 := h1.sim.inside
  have f3 := h1.sim.base
  have e2 : lget l1 sp = a := by rw [hpres1 sp (by omega) hl.spo, eq _ hspk, hl.spv]
  wstep
  rw [e2, wp_storageCache (by omega) (by omega)]
  refine hk _ _ ((h1.trans h1.sim.flush).mono (by omega)) hl1 hso1 fun j hj hjs => ?_
  rw [hpres1 j (by omega) hjs, eq j hj]

end Rt
