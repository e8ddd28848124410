import Verif.Proof.StorageEnc5

/-! The emitted encoder computes `enc`: enums, vectors. -/

namespace Rt
open Wasm Slots Mv Layout

variable {σ σ' σ'' : Store} {E : ErrPtrs} {T : Ty → Nat}

theorem wp_accOne {a sp so : Nat} {st s1 : St} {is s l Q} (h : Sim σ a st) (hacc : st.acc 1 = some s1)
    (hsp : lget l sp = a) (hso : lget l so = st.off)
    (hk : ∀ σ1, Enced a σ σ1 0 s1 → 1 ≤ s1.off → wp is s (lset l so s1.off) σ1 Q) :
    wp ((accW E).call :: .op (.lset so) :: is) (1 :: lget l so :: lget l sp :: s) l σ Q := by
  have := wp_accField (E := E) (is := is) (s := s) h (by omega) hacc hsp hso hk
  simpa only [List.cons_append, List.nil_append, wp_lget, wp_c32] using this

theorem encArms_run {vss : List (List Ty)} (hts : ∀ fs ∈ vss, EncsRun E T fs)
    {R : Nat → Prop} {K : List UInt8 → Nat} {o : Nat} {vs : List Val} {fs : List Ty} {st s1 s2 st' : St} {q : Pos}
    {p sp so ow tl vi k k0 i i0 w a b : Nat} {s l : List Nat} {Q : Res → Prop}
    (hi : vss[i]? = some fs) (hi0 : i0 + i < 256) (hvar : lget l vi = i0 + i)
    (hsim : Sim σ a st) (hsafe : Safe σ R a) (hK : σ.host.keccak = K) (hr : Mv.RepFs σ.mem R fs vs (w + 4))
    (hacc : st.acc 1 = some s1) (hrun : encs K (fun t => bswap 8 (T t)) o fs vs (s1.put 1 (i0 + i)) = some s2)
    (hfill : s2.fill q = some st') (hq : q.1 < 2 ^ 256) (hq2 : q.2 ≤ 32)
    (hroom : Room σ (ecostFs fs vs)) (hl : Locs σ R o l a st.off sp so ow k (nlEncVs vss))
    (hp : p < k0) (hpo : p ≠ so) (hlp : lget l p = w) (ht : tl < k0) (hto : tl ≠ so) (hlt : lget l tl = b)
    (hv : vi < k0) (hvo : vi ≠ so) (hk0 : k0 ≤ k) (hb : Within R b 32) (hbq : beNat σ.mem b 32 = q.1)
    (hk : ∀ σ' l', Enced a σ σ' (ecostFs fs vs) st' → l'.length = l.length →
      (∀ j, j < k → j ≠ so → lget l' j = lget l j) → Q (.br 0 [] l' σ')) :
    wp (encArms E T p sp so ow tl vi vss k i0) s l σ Q := by
  induction vss generalizing i i0 k with
  | nil => simp at hi
  | cons fs' vss ih =>
    have hlen := hl.len
    have hsok := hl.sok
    have hspk := hl.spk
    simp only [nlEncVs] at hlen
    unfold encArms
    simp only [List.append_assoc]
    wstep
    rw [hvar]
    refine .intro (fun hne => ?_) (fun he => ?_)
    · cases i with
      | zero => exact absurd rfl hne
      | succ i =>
        have e : i0 + (i + 1) = i0 + 1 + i := by omega
        rw [e] at hrun hi0 hvar
        refine ih (fun fs hfs => hts fs (List.mem_cons_of_mem _ hfs)) (by simpa using hi) hi0 hvar hrun
          ⟨hl.spv, hl.sov, hl.owner, by omega, by omega, by have := hl.owk; omega, hl.spo, hl.owo, by omega⟩ (by omega) ?_
        intro σ' l' h1 h2 h3
        exact hk σ' l' h1 h2 fun j hj hjs => h3 j (by omega) hjs
    · obtain rfl : i = 0 := by omega
      simp at hi
      subst hi
      refine wp_accOne hsim hacc hl.spv hl.sov fun σ1 h1 hw1 => ?_
      have e1 : ∀ j, j ≠ so → lget (lset l so s1.off) j = lget l j := fun j hj => lget_lset_ne hj
      have e2 : lget (lset l so s1.off) so = s1.off := lget_lset_same (by omega)
      have ho := h1.sim.off
      have f1 := h1.sim.nf
      have f2 := h1.sim.base
      refine wp_slotPtr (by omega) (by omega) ?_
      rw [e2]
      wstep
      rw [hvar, ← bswap1 hi0, putLe_bswap]
      have h2 := h1.trans (h1.sim.putBe (n := 1) (x := i0 + 0) hw1)
      generalize σ1.setMem (putBe σ1.mem (96 - s1.off) 1 (i0 + 0)) = σ2 at h2
      have hc2 := h2.cost
      have hm2 : ∀ x, R x → σ2.mem x = σ.mem x := fun x hx => h2.later.safe hsafe hx
      have hs2 := hsafe.later h2.later
      refine hts fs' (List.mem_cons_self ..) σ2 R K o vs w a _ s2 p sp so ow k 4 _ _ _ _ h2.sim hs2
        (h2.later.keccak.trans hK) (RepFs.change hm2 (fun _ h => h) _ hr) hrun
        (Room.after (k := 0) (hroom.mono (by omega)) (by omega) h2.later.maxPages)
        (hl.step hsafe h2.later lset_length e2 (fun j _ hj => e1 j hj) (Nat.le_refl _) (by simp only [nlEncVs]; omega))
        (by omega) hpo (by rw [e1 p hpo, hlp]) ?_
      intro σ3 l3 h3 hl3 hso3 hpres3
      rw [lset_length] at hl3
      have h4 := h2.trans h3
      have hbb := Within.bounds hb (hs2.later h3.later) (by omega)
      have hba : b + 32 ≤ a ∨ a + 32 ≤ b := by
        by_contra hcon
        have x1 := hsafe b (hb b (by omega) (by omega))
        have x2 := hsafe (b + 31) (hb _ (by omega) (by omega))
        omega
      refine wp_fill (is := [.br 1]) h3.sim hfill hq hq2 (b := b) ?_ ?_ hbb.1 hbb.2 hba ?_ (by omega) ?_
      · rw [hpres3 sp hspk hl.spo, e1 sp hl.spo, hl.spv]
      · rw [hpres3 tl (by omega) hto, e1 tl hto, hlt]
      · rw [hb.beNat fun x hx => h4.later.safe hsafe hx, hbq]
      · intro σ4 h5
        wstep
        refine hk σ4 l3 ((h4.trans h5).mono (by omega)) hl3 fun j hj hjs => ?_
        rw [hpres3 j hj hjs, e1 j hjs]

/-- The sizes of the enums in the type are below `2 ^ 31`, and every object has an id. -/
def SizeOk (vss : List (List Ty)) : Prop := ∀ i, i < 32 → enumSize vss i < 2 ^ 31

theorem fill_off {st st' : St} {q : Pos} (h : st.fill q = some st') : st'.off = q.2 := by
  unfold St.fill at h
  split at h
  · rw [← Option.some.inj h]
  · split at h
    · rw [← Option.some.inj h]
    · exact absurd h (by simp)

theorem ecostVar_get {vss : List (List Ty)} {i : Nat} {vs : List Val} {fs : List Ty} (h : vss[i]? = some fs) :
    ecostVar vss i vs = ecostFs fs vs := by
  induction vss generalizing i with
  | nil => simp at h
  | cons fs' vss ih =>
    cases i with
    | zero => simp at h; subst h; simp only [ecostVar]
    | succ i => simp only [ecostVar]; exact ih (by simpa using h)

theorem encEnum_run {vss : List (List Ty)} (hsz : SizeOk vss) (hts : ∀ fs ∈ vss, EncsRun E T fs) :
    EncRun E T (.enum vss) := by
  intro σ R K o fld v w a st st' sp so ow k s l is Q hp hl hk
  have hr := hp.arg.ptr rfl
  simp only [Mv.Rep] at hr
  obtain ⟨vs, rfl, hw, hr⟩ := hr
  obtain ⟨fs, hfs, hrf⟩ := RepVar.get hr
  clear hr
  have hrun := hp.run
  simp only [enc] at hrun
  split at hrun
  case isFalse => exact absurd hrun (by simp)
  rename_i hq
  simp only [Option.bind_eq_some_iff] at hrun
  obtain ⟨s1, hacc, s2, hrun, hfill⟩ := hrun
  obtain ⟨fs', hfs', hrun⟩ := encVar_get hrun
  rw [hfs] at hfs'
  injection hfs' with hfs'
  subst hfs'
  have hsim := hp.sim
  have hroom := hp.room
  simp only [ecost, ecostVar_get hfs] at hroom hk
  have hlen := hl.len
  have hsok := hl.sok
  have hspk := hl.spk
  have howk := hl.owk
  have hspo := hl.spo
  have howo := hl.owo
  simp only [nlEnc] at hlen
  have f1 := hsim.nf
  have f2 := hsim.base
  have f3 := hsim.lt
  have ho := hsim.off
  have hbw := Within.bounds hw hp.safe (by omega)
  simp only [encT, List.append_assoc]
  wstep
  rw [hl.spv, hl.sov]
  refine wp_call2 (tailPos_spec hsim.heap hsim.statics (hroom.mono (by omega)) hsim.inside hsim.cell ho
    (hsz _ (Nat.mod_lt _ (by omega))) (by rw [hsim.slot]; exact hq.1)) ?_
  rintro r σ1 ⟨rfl, l1, hh1, n1, n2, q1, q2⟩
  rw [hsim.slot] at q1 q2
  have h1 : Enced a σ σ1 68 st := by
    have l2 : Later (scr a) σ σ1 := l1.mono fun x _ hx => Or.inr (Or.inl hx)
    refine ⟨l2, ⟨l2.heap, l1.statics f2 hsim.statics fun x hx => by unfold sizeTable; omega, hsim.cell,
      hsim.inside.trans l2.nextFree, ?_, ho, by rw [hh1, hsim.stor], ?_⟩, n2⟩
    · have hc := hsim.cell
      rw [l1.beNat hsim.inside fun x h1 h2 => by unfold sizeTable; unfold Cell at hc; omega, hsim.slot]
    · rw [l1.beNat (by omega) fun x h1 h2 => by unfold sizeTable; omega, hsim.buf]
  have g1 := h1.sim.nf
  have g2 := h1.sim.lt
  have hin := hsim.inside
  have hm1 : ∀ x, R x → σ1.mem x = σ.mem x := fun x hx => h1.later.safe hp.safe hx
  have hs1 : Safe σ1 (fun x => R x ∨ Between σ.nextFree (σ.nextFree + 36) x) a := by
    rintro x (hx | hx)
    · have := hp.safe x hx; omega
    · unfold Between at hx; omega
  generalize hidx : leNat σ.mem w 4 = idx at hq hrun hfs hk hfill hp hroom
  wstep
  rw [hw.leNat hm1, hidx]
  obtain ⟨L, hL⟩ : ∃ L, L = lset (lset (lset l k w) (k + 2) σ.nextFree) (k + 3) idx := ⟨_, rfl⟩
  rw [← hL]
  have eq : ∀ j, j < k → lget L j = lget l j := fun j hj => by subst hL; lsimp
  have eL : L.length = l.length := by subst hL; lsimp
  have e0 : lget L k = w := by subst hL; lsimp
  have e2 : lget L (k + 2) = σ.nextFree := by subst hL; lsimp
  have e3 : lget L (k + 3) = idx := by subst hL; lsimp
  have hq2 : (next (.enum vss) st.pos).2 < 32 := by simp only [next]; omega
  refine encArms_run hts (R := fun x => R x ∨ Between σ.nextFree (σ.nextFree + 36) x) (K := K) (o := o) (i0 := 0)
    (b := σ.nextFree) (k0 := k + 4) (st := st) (s1 := s1) (s2 := s2) (st' := st') (w := w) (q := next (.enum vss) st.pos)
    hfs (by omega) (by rw [e3]; omega) h1.sim hs1 (h1.later.keccak.trans hp.keccak)
    (RepFs.change hm1 (fun _ h => Or.inl h) _ hrf) hacc (by rw [Nat.zero_add]; exact hrun) hfill hq.1 (by omega)
    (hroom.after n2 h1.later.maxPages)
    ⟨by rw [eq _ hspk, hl.spv], by rw [eq _ hsok, hl.sov], ?_, by omega, by omega, by omega, hspo, howo, by omega⟩
    (by omega) (by omega) e0 (by omega) (by omega) e2 (by omega) (by omega) (Nat.le_refl _)
    (fun x hx1 hx2 => Or.inr ⟨hx1, by omega⟩) q1 ?_
  · rw [eq _ howk]
    exact ⟨hl.owner.1.mono fun _ h => Or.inl h, by rw [hl.owner.1.beNat hm1, hl.owner.2]⟩
  intro σ2 l2 h2 hl2 hpres2
  have h3 := h1.trans h2
  have k1 := h3.sim.nf
  have k2 := h2.later.nextFree
  have k3 := h3.sim.lt
  wstep
  rw [hpres2 (k + 2) (by omega) (by omega), e2]
  wstep
  have hoff : leNat σ2.mem (σ.nextFree + 32) 4 = (next (.enum vss) st.pos).2 := by
    rw [h2.later.leNat (by omega) fun x hx1 hx2 => by
      refine hs1.not_scr (Or.inr ⟨by omega, by omega⟩), q2]; rfl
  rw [hoff]
  have hst' := fill_off hfill
  refine hk σ2 _ (h3.mono (by omega)) (by rw [lset_length, hl2, eL]) ?_ fun j hj hjs => ?_
  · rw [lget_lset_same (by omega), hst']
  · rw [lget_lset_ne hjs, hpres2 j (by omega) hjs, eq j hj]

end Rt
