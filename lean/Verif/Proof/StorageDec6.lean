import Verif.Proof.StorageDec5

/-! The emitted decoder: enums. -/

namespace Rt
open Wasm Slots Mv Layout

variable {σ σ' σ'' : Store} {E : ErrPtrs} {T : Ty → Nat}

theorem wp_accReadOne {a sp so : Nat} {p : Pos} {b : Bool} {is s l Q} (h : DSim σ a p b) (hv : (place p 1).1 < 2 ^ 256)
    (hsp : lget l sp = a) (hso : lget l so = p.2)
    (hk : ∀ σ1, Deced (scr a) a a σ σ1 0 (place p 1) (b || decide ((place p 1).1 ≠ p.1)) → wp is s (lset l so (place p 1).2) σ1 Q) :
    wp ((accR E).call :: .op (.lset so) :: is) (1 :: lget l so :: lget l sp :: s) l σ Q := by
  have := wp_accRead (E := E) (is := is) (s := s) h (by omega) hv hsp hso hk
  simpa only [List.cons_append, List.nil_append, wp_lget, wp_c32] using this

theorem decArms_run {vss : List (List Ty)} (hts : ∀ fs ∈ vss, DecsRun E T fs)
    {R : Nat → Prop} {K : List UInt8 → Nat} {o : Nat} {vs : List Val} {fs : List Ty} {q : Pos} {bm d : Bool}
    {p fp sp so ow vi k i i0 w a : Nat} {s l : List Nat} {Q : Res → Prop}
    (hi : vss[i]? = some fs) (hi0 : i0 + i < 256) (hvar : lget l vi = i0 + i)
    (hp : DecsPre σ R K T o fs vs (w + 4) a q true bm d) (hl : DLocs σ R o l a q.2 fp sp so ow k (nlDecVs vss))
    (hpk : p < k) (hpo : p ≠ so) (hps : p ≠ sp) (hpf : p ≠ fp) (hlp : lget l p = w)
    (hk : ∀ σ' l' a' vs', Deced (fscr a (w + 4) fs.length) a a' σ σ' (dcostFs fs vs) (nexts fs q) bm →
      Reads σ σ' a' (w + 4) fs vs vs' → l'.length = l.length →
      (∀ j, j < k → j ≠ so → j ≠ sp → j ≠ fp → lget l' j = lget l j) → Q (.br 0 [] l' σ')) :
    wp (decArms E T p fp sp so ow vi vss k i0) s l σ Q := by
  induction vss generalizing i i0 k with
  | nil => simp at hi
  | cons fs' vss ih =>
    have hlen := hl.len
    have hsok := hl.sok
    have hspk := hl.spk
    have hdpk := hl.dpk
    have howk := hl.owk
    simp only [nlDecVs] at hlen
    unfold decArms
    simp only [List.append_assoc]
    wstep
    rw [hvar]
    refine .intro (fun hne => ?_) (fun he => ?_)
    · cases i with
      | zero => exact absurd rfl hne
      | succ i =>
        have e : i0 + (i + 1) = i0 + 1 + i := by omega
        rw [e] at hi0 hvar
        refine ih (fun fs hfs => hts fs (List.mem_cons_of_mem _ hfs)) (by simpa using hi) hi0 hvar
          ⟨hl.spv, hl.sov, hl.owner, by omega, by omega, by omega, by omega, hl.spo, hl.owo, hl.ows, hl.dpo, hl.dps, hl.owd, by omega⟩ (by omega) ?_
        intro σ' l' a' vs' h1 h2 h3 h4
        exact hk σ' l' a' vs' h1 h2 h3 fun j hj hjs => h4 j (by omega) hjs
    · obtain rfl : i = 0 := by omega
      simp at hi
      subst hi
      refine hts fs' (List.mem_cons_self ..) σ R K o vs w a q true bm d p fp sp so ow k 4 _ l _ _ hp
        ⟨hl.spv, hl.sov, hl.owner, hdpk, hspk, hsok, howk, hl.spo, hl.owo, hl.ows, hl.dpo, hl.dps, hl.owd, by omega⟩ hpk hpo hps hpf hlp ?_
      intro σ3 l3 a3 vs' h3 hr hl3 _ _ hpres3
      wstep
      exact hk σ3 l3 a3 vs' h3 hr hl3 hpres3

theorem HoldsVar.get {K : List UInt8 → Nat} {T : Ty → Nat} {S : Nat → Nat} {o i : Nat} {vss : List (List Ty)} {vs : List Val} {p : Pos}
    (h : HoldsVar K T S o vss i vs p) : ∃ fs, vss[i]? = some fs ∧ HoldsFs K T S o fs vs p := by
  induction vss generalizing i with
  | nil => simp only [HoldsVar] at h
  | cons fs' vss ih =>
    cases i with
    | zero => simp only [HoldsVar] at h; exact ⟨fs', rfl, h⟩
    | succ i => simp only [HoldsVar] at h; simpa using ih h

theorem typedVar_get {vss : List (List Ty)} {i : Nat} {vs : List Val} {fs : List Ty} (h : vss[i]? = some fs) :
    TypedVar vss i vs ↔ TypedFs fs vs := by
  induction vss generalizing i with
  | nil => simp at h
  | cons fs' vss ih =>
    cases i with
    | zero => simp at h; subst h; simp only [TypedVar]
    | succ i => simp only [TypedVar]; exact ih (by simpa using h)

theorem freshVar_get {vss : List (List Ty)} {i e : Nat} {vs : List Val} {fs : List Ty} {q : Pos} (h : vss[i]? = some fs) :
    freshVar vss i vs q e = (freshFs fs vs q true).map fun b => b && decide ((nexts fs q).1 = e) := by
  induction vss generalizing i with
  | nil => simp at h
  | cons fs' vss ih =>
    cases i with
    | zero => simp at h; subst h; simp only [freshVar]
    | succ i => simp only [freshVar]; exact ih (by simpa using h)

theorem dcostVar_get {vss : List (List Ty)} {i : Nat} {vs : List Val} {fs : List Ty} (h : vss[i]? = some fs) :
    dcostVar vss i vs = dcostFs fs vs := by
  induction vss generalizing i with
  | nil => simp at h
  | cons fs' vss ih =>
    cases i with
    | zero => simp at h; subst h; simp only [dcostVar]
    | succ i => simp only [dcostVar]; exact ih (by simpa using h)

theorem narrowVs_get {vss : List (List Ty)} {i : Nat} {fs : List Ty} (h : vss[i]? = some fs) (hn : narrowFs fs = true) :
    narrowVs vss = true := by
  induction vss generalizing i with
  | nil => simp at h
  | cons fs' vss ih =>
    rw [narrowVs, Bool.or_eq_true]
    cases i with
    | zero => simp at h; subst h; exact .inl hn
    | succ i => exact .inr (ih (by simpa using h))

theorem decEnum_run {vss : List (List Ty)} (hsz : SizeOk vss) (hts : ∀ fs ∈ vss, DecsRun E T fs) :
    DecRun E T (.enum vss) := by
  intro σ R K o v a p b b' d dp sp so ow k s l is Q hp hl hk
  have hh := hp.holds
  cases v <;> simp only [Layout.Holds] at hh
  rename_i i vs
  obtain ⟨hh1, hh2⟩ := hh
  obtain ⟨fs, hfs, hh2⟩ := HoldsVar.get hh2
  have ho := hp.off
  have ep : place p (width (.enum vss)) = p := place_zero ho
  have hsim := hp.sim
  rw [ep] at hsim
  simp only [ne_eq, not_true, decide_false, Bool.or_false] at hsim
  have hf := hp.fresh
  simp only [Layout.fresh] at hf
  split at hf
  case isFalse => exact absurd hf (by simp)
  rename_i hbt
  rw [freshVar_get hfs, Option.map_eq_some_iff] at hf
  obtain ⟨bm, hf, hb'⟩ := hf
  have hty := hp.typed
  simp only [Layout.Typed, typedVar_get hfs] at hty
  have hfit := hp.fit
  simp only [dcost, dcostVar_get hfs] at hfit hk
  have hnar := hp.narrow
  simp only [Layout.narrow] at hnar
  have hseg := hp.segs
  simp only [Layout.segs, segsVar_get hfs] at hseg
  have hbnd := hp.bound
  have hge := enumHeap_ge hfs
  have hq1 := (tag_Le vss ho).slot
  have hq2 := (variant_Le hfs p).slot
  have hq3 : (next (.enum vss) p).2 < 32 := by rw [next_enum]; exact Nat.mod_lt _ (by omega)
  have hlen := hl.len
  simp only [nlDec] at hlen
  have hsov := hl.sov
  rw [ep] at hsov
  have hsok := hl.sok
  have hspk := hl.spk
  have hdpk := hl.dpk
  have howk := hl.owk
  have hspo := hl.spo
  have hdps := hl.dps
  have hdpo := hl.dpo
  have hb := hsim.base
  have hin := hsim.inside
  have hi : i < 256 := by rw [← hh1]; exact dig_lt ..
  have hco := hsim.cell
  have h32 := hfit.1.1
  simp only [decT, List.append_assoc]
  wstep
  rw [hl.spv, hsov]
  refine wp_call2 (tailPos_spec hsim.heap hsim.statics (hfit.1.mono (by omega)) hin hsim.cell ho
    (hsz _ (Nat.mod_lt _ (by omega))) (by rw [hsim.slot]; exact hbnd)) ?_
  rintro r σ1 ⟨rfl, l1, hh1', n1, n2, q1, q2⟩
  rw [hsim.slot] at q1 q2
  have h1 : Deced (scr a) a a σ σ1 68 p b := by
    have l2 : Later (scr a) σ σ1 := l1.mono fun x _ hx => Or.inr (Or.inl hx)
    refine ⟨l2, hh1', ⟨l2.heap, l1.statics hb hsim.statics fun x hx => by unfold sizeTable; omega, hsim.cell,
      hsim.inside.trans l2.nextFree, ?_, ho, fun h => ?_⟩, n2, .inl rfl⟩
    · rw [l1.beNat hsim.inside fun x h1 h2 => by unfold sizeTable; unfold Cell at hco; omega, hsim.slot]
    · rw [l1.beNat (by omega) fun x h1 h2 => by unfold sizeTable; omega, hsim.buf h, hh1']
  have f1 := hfit.deced h1 (n := enumHeap vss + dcostFs fs vs) (by omega)
  wstep
  refine wp_allocR h1.sim.heap f1.1 (by omega) fun σ2 a2 => ?_
  have m2 := a2.nextFree
  have h2 := h1.sim.alloc a2
  wstep
  obtain ⟨w, hw⟩ : ∃ w, w = σ1.nextFree := ⟨_, rfl⟩
  rw [← hw]
  obtain ⟨L, hL⟩ : ∃ L, L = lset (lset l k σ.nextFree) (k + 1) w := ⟨_, rfl⟩
  rw [← hL]
  have eL : ∀ j, j < k → lget L j = lget l j := fun j hj => by subst hL; lsimp
  have eLl : L.length = l.length := by subst hL; lsimp
  have eL0 : lget L k = σ.nextFree := by subst hL; lsimp
  have eL1 : lget L (k + 1) = w := by subst hL; lsimp
  rw [← eL so hsok, ← eL sp hspk]
  refine wp_accReadOne h2.sim (by omega) (by rw [eL _ hspk, hl.spv]) (by rw [eL _ hsok, hsov]) fun σ3 h3 => ?_
  rw [hbt] at h3
  have e3 := h3.same
  have hq0 := @place_snd p 1
  have hqo := h3.sim.off
  obtain ⟨q, hq⟩ : ∃ q, q = place p 1 := ⟨_, rfl⟩
  rw [← hq] at h3 hq0 hqo hq1 hq2 hf hh1 hh2 hb' hseg ⊢
  have g1 := h3.sim.nf
  have g2 := h3.sim.lt
  have g3 := h2.later.nextFree
  refine wp_slotPtr (by rw [lget_lset_same (by omega)]; omega) (by rw [lget_lset_same (by omega)]; omega) ?_
  rw [lget_lset_same (by omega)]
  wstep
  have h123 := (h1.then h2).then h3
  have htag : leNat σ3.mem (96 - q.2) 1 = i := by
    rw [← bswap_beNat, bswap1 (beNat_lt ..), buf_read hq0 hqo, h3.sim.buf rfl, dig_word (by omega), h123.host, hh1]
  rw [htag]
  rw [eL1]
  have hA : Safe σ3 (Between w (w + 4)) a := fun x hx => by obtain ⟨c1, c2⟩ := hx; omega
  have h4 := h3.sim.poke (f := putLe σ3.mem w 4 i) hA fun x hx => putLe_out (by unfold Between at hx; omega)
  have h1234 := h123.trans h4 (fun x hx hs => by have := hs.1; omega)
  obtain ⟨σ4, hσ4⟩ : ∃ σ4, σ4 = σ3.setMem (putLe σ3.mem w 4 i) := ⟨_, rfl⟩
  rw [← hσ4] at h4 h1234
  have n4 : σ4.nextFree = σ2.nextFree := by rw [hσ4]; exact e3
  obtain ⟨M, hM⟩ : ∃ M, M = lset (lset L so q.2) (k + 3) i := ⟨_, rfl⟩
  have eM : ∀ j, j < k + 2 → j ≠ so → lget M j = lget L j := fun j hj hjs => by subst hM; lsimp
  have eMl : M.length = l.length := by rw [hM, lset_length, lset_length, eLl]
  have eM3 : lget M (k + 3) = i := by subst hM; lsimp
  have eMs : lget M so = q.2 := by subst hM; lsimp
  rw [← hσ4, ← hM]
  have s4 : Safe σ4 (fun x => R x ∨ Between σ.nextFree (σ.nextFree + 36) x) a := by
    rintro x (hx | ⟨c1, c2⟩)
    · exact h1234.safe hp.safe x hx
    · omega
  have P4 : Safe σ4 (Between (w + 4) (w + 4 + 4 * fs.length)) a := fun x ⟨c1, c2⟩ => by omega
  refine decArms_run hts (R := fun x => R x ∨ Between σ.nextFree (σ.nextFree + 36) x) (K := K) (o := o) (i0 := 0) (i := i) (q := q)
    (bm := bm) (d := d) (w := w) (a := a) (vs := vs) hfs (by omega) (by rw [eM3]; omega)
    ⟨h1234.sim, s4, P4, fun x hx hr => ?_, h1234.later.keccak.trans hp.keccak, by rw [h1234.host]; exact hh2, hty, hf, hfit.deced h1234 (by omega),
      fun h => hnar (narrowVs_get hfs h), by omega, hseg⟩
    ⟨by rw [eM _ (by omega) hspo, eL _ hspk, hl.spv], eMs, ?_, by omega, by omega, by omega, by omega, hspo, hl.owo, hl.ows, by omega, by omega, by omega, by omega⟩
    (by omega) (by omega) (by omega) (by omega) (by rw [eM _ (by omega) (by omega), eL1]) ?_
  · obtain ⟨c1, c2⟩ := hx
    rcases hr with hr | ⟨c3, c4⟩
    · have := (hp.safe x hr).2.1; omega
    · omega
  · rw [eM _ (by omega) hl.owo, eL _ howk]
    exact ⟨hl.owner.1.mono fun _ h => Or.inl h, by rw [hl.owner.1.beNat fun x hx => h1234.later.safe hp.safe hx, hl.owner.2]⟩
  intro σ5 l5 a5 vs' h5 hr hl5 hpres5
  have k5 : lget l5 k = σ.nextFree := by rw [hpres5 k (by omega) (by omega) (by omega) (by omega), eM _ (by omega) (by omega), eL0]
  have k6 : lget l5 (k + 1) = w := by rw [hpres5 _ (by omega) (by omega) (by omega) (by omega), eM _ (by omega) (by omega), eL1]
  have c5 := h5.later.nextFree
  have c6 := h5.sim.nf
  have c7 := h5.sim.lt
  have hm5 : ∀ x, 468 ≤ x → x < σ4.nextFree → (x < a ∨ a + 32 ≤ x) → (x < w + 4) → σ5.mem x = σ4.mem x := fun x d1 d2 d3 d4 =>
    h5.later.mem x d2 fun hs => by
      rcases hs with hs | ⟨d5, d6⟩
      · unfold scr sizeTable hashBuf at hs; omega
      · omega
  have hm14 : ∀ x, σ.nextFree ≤ x → x < σ1.nextFree → σ4.mem x = σ1.mem x := fun x d1 d2 => by
    rw [hσ4, setMem_mem, putLe_out (by omega), h3.later.mem x (by omega) (by unfold scr sizeTable hashBuf; omega),
      a2.mem]
  wstep
  rw [k5, k6]
  have hoff : leNat σ5.mem (σ.nextFree + 32) 4 = (next (.enum vss) p).2 := by
    rw [leNat_congr fun x d1 d2 => (hm5 x (by omega) (by omega) (by omega) (by omega)).trans (hm14 x (by omega) (by omega)), q2]
  have hslot : beNat σ5.mem σ.nextFree 32 = (next (.enum vss) p).1 := by
    rw [beNat_congr fun x d1 d2 => (hm5 x (by omega) (by omega) (by omega) (by omega)).trans (hm14 x (by omega) (by omega)), q1]
  rw [hoff]
  have h15 := h1234.trans h5 fun x hx hs => by
    rcases hs with hs | hs
    · exact hs
    · have := hs.1; omega
  have h6 : Deced (scr a) a σ.nextFree σ σ5 (68 + enumHeap vss + 0 + 0 + dcostFs fs vs) (next (.enum vss) p) b' := by
    refine ⟨h15.later, h15.host, ⟨h15.sim.heap, h15.sim.statics, .inr hb, by omega, hslot, by omega, fun hbt' => ?_⟩, h15.cost, .inr (Nat.le_refl _)⟩
    rw [← hb', Bool.and_eq_true, decide_eq_true_eq] at hbt'
    rw [← hbt'.2]
    exact h15.sim.buf hbt'.1
  have htw : leNat σ5.mem w 4 = i := by
    rw [leNat_congr fun x d1 d2 => hm5 x (by omega) (by omega) (by omega) (by omega), hσ4, setMem_mem, leNat_putLe_same, Nat.mod_eq_of_lt (by omega)]
  refine hk σ5 _ σ.nextFree (.variant i vs') w (h6.mono (by omega)) ⟨?_, by rw [Val.erase, Val.erase, hr.erase], by omega, fun h => by simp [Ty.scalar] at h⟩
    (by rw [lset_length, lset_length, lset_length, hl5, eMl]) ?_ ?_ ?_ fun j hj j1 j2 j3 => ?_
  · unfold Arg
    rw [show (true && (Ty.enum vss).scalar) = false from rfl, if_neg (by simp)]
    simp only [Mv.Rep]
    refine ⟨vs', by rw [htw], fun x d1 d2 => ⟨by omega, by omega, by omega⟩, ?_⟩
    rw [htw]
    refine repVar_of hfs (Mv.RepFs.change (fun _ _ => rfl) (fun x hx => ?_) fs hr.rep)
    rcases hx with ⟨d1, d2⟩ | ⟨d1, d2, d3⟩
    · exact ⟨by omega, by omega, by omega⟩
    · exact ⟨by omega, by omega, by omega⟩
  · rw [lget_lset_ne (by omega), lget_lset_same (by rw [lset_length]; omega)]
  · rw [lget_lset_ne (by omega), lget_lset_ne (by omega), lget_lset_same (by omega)]
  · rw [lget_lset_same (by rw [lset_length, lset_length]; omega)]
  · rw [lget_lset_ne j3, lget_lset_ne j2, lget_lset_ne j1, hpres5 j (by omega) j1 j2 (by omega), eM _ (by omega) j1, eL j hj]

end Rt
