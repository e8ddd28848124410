import Verif.Proof.StorageDec2

/-! The emitted decoder: fields, structs. -/

namespace Rt
open Wasm Slots Mv Layout

variable {σ σ' σ'' : Store} {E : ErrPtrs} {T : Ty → Nat}

theorem DLocs.step {R S : Nat → Prop} {o a a' off off' dp sp so ow k k' n n' : Nat} {l l' : List Nat}
    (h : DLocs σ R o l a off dp sp so ow k n) (hl : Later S σ σ') (hs : ∀ x, R x → x < σ.nextFree ∧ ¬ S x)
    (h1 : l'.length = l.length) (h2 : lget l' sp = a') (h3 : lget l' so = off')
    (h4 : ∀ j, j < k → j ≠ so → j ≠ sp → j ≠ dp → lget l' j = lget l j) (hk : k ≤ k') (hn : k' + n' ≤ k + n) :
    DLocs σ' R o l' a' off' dp sp so ow k' n' := by
  have e := h4 ow h.owk h.owo h.ows h.owd
  refine ⟨h2, h3, ⟨by rw [e]; exact h.owner.1, ?_⟩, by have := h.dpk; omega, by have := h.spk; omega,
    by have := h.sok; omega, by have := h.owk; omega, h.spo, h.owo, h.ows, h.dpo, h.dps, h.owd, by have := h.len; omega⟩
  rw [e, h.owner.1.beNat fun x hx => hl.mem x (hs x hx).1 (hs x hx).2, h.owner.2]

theorem Deced.safe {R S : Nat → Prop} {a a' n : Nat} {p : Pos} {b : Bool} (h : Deced S a a' σ σ' n p b) (hs : Safe σ R a) :
    Safe σ' R a' := fun x hx => by
  have h1 := hs x hx
  have h2 := h.later.nextFree
  rcases h.cell with e | e <;> omega

/-- Writing allocated memory away from the cell. -/
theorem DSim.poke {A : Nat → Prop} {a : Nat} {p : Pos} {b : Bool} {f : Bytes} (h : DSim σ a p b) (hA : Safe σ A a)
    (hf : ∀ x, ¬ A x → f x = σ.mem x) : Deced A a a σ (σ.setMem f) 0 p b := by
  have hc := h.cell
  have hb := h.base
  have h0 : ∀ x, x < 468 → f x = σ.mem x := fun x hx => hf x fun hA' => by have := hA x hA'; omega
  have l : Later A σ (σ.setMem f) := by
    refine (Later.refl _ h.heap).write (fun x _ h2 => h0 x (by omega)) (fun x _ hx => hf x hx) fun x hx => hf x fun hA' => ?_
    have := hA x hA'; omega
  refine ⟨l, rfl, ⟨l.heap, l.statics hb h.statics fun x hx hA' => ?_, hc, h.inside, ?_, h.off, fun hbt => ?_⟩, Nat.le_refl _, .inl rfl⟩
  · have := hA x hA'; omega
  · rw [setMem_mem, beNat_congr fun x h1 h2 => hf x fun hA' => ?_]
    · exact h.slot
    · have := hA x hA'; omega
  · rw [setMem_mem, beNat_congr fun x h1 h2 => h0 x (by omega)]
    exact h.buf hbt

/-- What the code that reads consecutive fields relies on; the pointers go to `w` and the following addresses. -/
structure DecsPre (σ : Store) (R : Nat → Prop) (K : List UInt8 → Nat) (T : Ty → Nat) (o : Nat) (ts : List Ty)
    (vs : List Mv.Val) (w a : Nat) (p : Pos) (b b' d : Bool) : Prop where
  sim : DSim σ a p b
  safe : Safe σ R a
  ptrs : Safe σ (Between w (w + 4 * ts.length)) a
  apart : ∀ x, Between w (w + 4 * ts.length) x → ¬ R x
  keccak : σ.host.keccak = K
  holds : Layout.HoldsFs K (fun t => bswap 8 (T t)) σ.host.storage o ts vs p
  typed : TypedFs ts vs
  fresh : Layout.freshFs ts vs p b = some b'
  fit : Fit σ d (dcostFs ts vs)
  narrow : Layout.narrowFs ts = true → d = true
  bound : (nexts ts p).1 < 2 ^ 256
  segs : ∀ g ∈ Layout.segsFs K o ts vs p, g.2 < 2 ^ 256

/-- Memory written while fields are read. -/
def fscr (a w n : Nat) (x : Nat) : Prop := scr a x ∨ Between w (w + 4 * n) x

/-- Fields have been read. -/
structure Reads (σ σ' : Store) (a' w : Nat) (ts : List Ty) (vs vs' : List Mv.Val) : Prop where
  rep : Mv.RepFs σ'.mem (fun x => Between w (w + 4 * ts.length) x ∨ Got σ σ' a' x) ts vs' w
  erase : eraseL vs' = eraseL vs

/-- The code that reads consecutive fields. -/
def DecsRun (E : ErrPtrs) (T : Ty → Nat) (ts : List Ty) : Prop :=
  ∀ (σ : Store) (R : Nat → Prop) (K : List UInt8 → Nat) (o : Nat) (vs : List Mv.Val) (w a : Nat) (p : Pos) (b b' d : Bool)
    (pl fp sp so ow k off : Nat) (s l : List Nat) (is : List Instr) (Q : Res → Prop),
    DecsPre σ R K T o ts vs (w + off) a p b b' d → DLocs σ R o l a p.2 fp sp so ow k (nlDecFs ts) →
    pl < k → pl ≠ so → pl ≠ sp → pl ≠ fp → lget l pl = w →
    (∀ σ' l' a' vs', Deced (fscr a (w + off) ts.length) a a' σ σ' (dcostFs ts vs) (nexts ts p) b' →
      Reads σ σ' a' (w + off) ts vs vs' → l'.length = l.length → lget l' sp = a' → lget l' so = (nexts ts p).2 →
      (∀ j, j < k → j ≠ so → j ≠ sp → j ≠ fp → lget l' j = lget l j) → wp is s l' σ' Q) →
    wp (decFs E T pl fp sp so ow ts k off ++ is) s l σ Q

theorem decFs_nil : DecsRun E T [] := by
  intro σ R K o vs w a p b b' d pl fp sp so ow k off s l is Q hp hl h1 h2 h3 h4 h5 hk
  have hh := hp.holds
  cases vs with
  | cons v vs => simp only [Layout.HoldsFs] at hh
  | nil =>
    have hf := hp.fresh
    simp only [Layout.freshFs] at hf
    have hf := Option.some.inj hf
    refine hk σ l a [] ?_ ⟨?_, rfl⟩ rfl hl.spv hl.sov fun _ _ _ _ _ => rfl
    · rw [nexts, ← hf]; exact hp.sim.refl.mono (Nat.zero_le _)
    · simp only [Mv.RepFs]

theorem Got.step {a a' x n : Nat} {S : Nat → Prop} {p : Pos} {b : Bool} {σ0 : Store} (hg : Got σ0 σ a x) (h : Deced S a a' σ σ' n p b) :
    Got σ0 σ' a' x := by
  obtain ⟨h1, h2, h3⟩ := hg
  have h4 := h.later.nextFree
  rcases h.cell with e | e <;> exact ⟨h1, by omega, by omega⟩

theorem Got.from {a x : Nat} {S : Nat → Prop} {σ0 : Store} (hg : Got σ σ' a x) (h : Later S σ0 σ) : Got σ0 σ' a x :=
  ⟨h.nextFree.trans hg.1, hg.2⟩

theorem Got.not_scr {a x : Nat} {σ0 : Store} (hg : Got σ0 σ a x) (hb : 468 ≤ σ0.nextFree) : ¬ scr a x := by
  have := hg.1; have := hg.2.2
  unfold scr sizeTable hashBuf; omega

theorem Arg.change {f g : Bytes} {R S : Nat → Prop} {fld : Bool} {t : Ty} {v : Mv.Val} {w : Nat} (h : ∀ x, R x → g x = f x)
    (hRS : ∀ x, R x → S x) (ha : Arg f R fld t v w) : Arg g S fld t v w := by
  unfold Arg at ha ⊢
  split at ha
  · rename_i hc
    rw [if_pos hc, ha.1.leNat h]
    exact ⟨fun x h1 h2 => hRS x (ha.1 x h1 h2), Rep.change h hRS t ha.2⟩
  · rename_i hc
    rw [if_neg hc]
    exact Rep.change h hRS t ha

theorem Deced.same {R : Nat → Prop} {a a' : Nat} {p : Pos} {b : Bool} (h : Deced R a a' σ σ' 0 p b) : σ'.nextFree = σ.nextFree := by
  have := h.cost; have := h.later.nextFree; omega

theorem Fit.deced {R : Nat → Prop} {a a' n m k : Nat} {p : Pos} {b d : Bool} (h : Fit σ d m) (hd : Deced R a a' σ σ' k p b) (hm : k + n ≤ m) :
    Fit σ' d n :=
  ⟨(h.1.mono hm).after hd.cost hd.later.maxPages, fun hc => by have := h.2 hc; have := hd.cost; have := hd.later.size; omega⟩

theorem decFs_cons {t : Ty} {ts : List Ty} (ht : DecRun E T t) (hts : DecsRun E T ts) : DecsRun E T (t :: ts) := by
  intro σ R K o vs w a p b b' d pl fp sp so ow k off s l is Q hp hl hpl1 hpl2 hpl3 hpl4 hpl hk
  have hh := hp.holds
  cases vs with
  | nil => simp only [Layout.HoldsFs] at hh
  | cons v vs =>
  simp only [Layout.HoldsFs] at hh
  obtain ⟨hh1, hh2⟩ := hh
  have hf := hp.fresh
  simp only [Layout.freshFs, Option.bind_eq_some_iff] at hf
  obtain ⟨bm, hf1, hf2⟩ := hf
  have hty := hp.typed
  simp only [Layout.TypedFs] at hty
  have hfit := hp.fit
  simp only [dcostFs] at hfit hk
  have hnar := hp.narrow
  simp only [Layout.narrowFs, Bool.or_eq_true] at hnar
  have hseg := hp.segs
  simp only [Layout.segsFs, List.mem_append] at hseg
  have hbnd := hp.bound
  simp only [nexts] at hbnd hk
  have hlen := hl.len
  simp only [nlDecFs] at hlen
  have hsok := hl.sok
  have hspk := hl.spk
  have hspo := hl.spo
  have hP := hp.ptrs
  have hlast := hP (w + off) ⟨Nat.le_refl _, by simp⟩
  have hlast3 := hP (w + off + 3) ⟨by omega, by simp; omega⟩
  have ho := hp.sim.off
  have hn1 := next_Le t ho
  have hn2 := nexts_Le ts hn1.off
  have hpn : (place p (width t)).1 ≤ (next t p).1 := by
    by_cases h0 : 0 < width t
    · rw [next_placed h0]
    · rw [show width t = 0 by omega, place_zero ho]; exact hn1.slot
  have hsl := hn1.slot
  have hsl2 := hn2.slot
  simp only [decFs, fsize_eq, List.append_assoc]
  refine wp_accRead hp.sim (width_le t) (by omega) hl.spv hl.sov fun σ1 h1 => ?_
  have e1 := h1.same
  have l1 : DLocs σ1 R o (lset l so (place p (width t)).2) a (place p (width t)).2 fp sp so ow k (nlDecFs (t :: ts)) :=
    hl.step h1.later (fun x hx => ⟨(hp.safe x hx).2.1, hp.safe.not_scr hx⟩) lset_length
      (by rw [lget_lset_ne hspo]; exact hl.spv) (lget_lset_same (by omega)) (fun j _ h2 _ _ => lget_lset_ne h2) (Nat.le_refl _) (Nat.le_refl _)
  have s1 := h1.safe hp.safe
  refine ht σ1 R K o v a p b bm d fp sp so ow k s _ _ Q
    ⟨h1.sim, ho, s1, h1.later.keccak.trans hp.keccak, by rw [h1.host]; exact hh1, hty.1, hf1, hfit.deced h1 (by omega),
      fun h => hnar (.inl h), by omega, fun g hg => hseg g (.inl hg)⟩
    (l1.step (Later.refl (fun _ => False) h1.sim.heap) (fun x hx => ⟨(s1 x hx).2.1, id⟩) rfl l1.spv l1.sov (fun _ _ _ _ _ => rfl) (Nat.le_refl _)
      (by simp only [nlDecFs]; omega)) ?_
  intro σ2 l2 a2 v' w2 h2 hr hl2 hsp2 hso2 hdp2 hpres2
  have h12 := h1.then h2
  have s2 := h12.safe hp.safe
  have P2 := h12.safe hP
  have hw2 := hr.le
  have hnf2 := h2.sim.nf
  have hlt2 := h2.sim.lt
  have hnfle := h12.later.nextFree
  have epl : lget l2 pl = w := by rw [hpres2 pl hpl1 hpl2 hpl3 hpl4, lget_lset_ne hpl2, hpl]
  wstep
  rw [epl, hdp2]
  have hA : Safe σ2 (Between (w + off) (w + off + 4)) a2 := fun x hx => P2 x ⟨hx.1, by have := hx.2; simp; omega⟩
  have h3 := h2.sim.poke (f := putLe σ2.mem (w + off) 4 w2) hA fun x hx => putLe_out (by unfold Between at hx; omega)
  have P3 := h3.safe P2
  have s3 := h3.safe s2
  have l2' := l1.step (k' := k + nlDec t) (n' := nlDecFs ts) h2.later (fun x hx => ⟨(s1 x hx).2.1, s1.not_scr hx⟩) hl2 hsp2 hso2 hpres2
    (by omega) (by simp only [nlDecFs]; omega)
  have hRP : ∀ x, Between (w + off) (w + off + 4) x → ¬ R x := fun x hx => hp.apart x ⟨hx.1, by have := hx.2; simp; omega⟩
  have l3 := l2'.step (σ' := σ2.setMem (putLe σ2.mem (w + off) 4 w2)) (l' := l2) h3.later (fun x hx => ⟨(s2 x hx).2.1, fun hb => hRP x hb hx⟩)
    rfl hsp2 hso2 (fun _ _ _ _ _ => rfl) (Nat.le_refl _) (Nat.le_refl _)
  have h123 := (h12.widen (S := fscr a (w + off) (t :: ts).length) fun x _ hx => .inl hx).trans h3
    fun x _ hx => .inr ⟨hx.1, by have := hx.2; simp; omega⟩
  have ea : w + (off + 4) = w + off + 4 := by omega
  refine hts _ R K o vs w a2 (next t p) bm b' d pl fp sp so ow (k + nlDec t) (off + 4) s l2 is Q
    ⟨h3.sim, s3, fun x hx => P3 x ⟨by have := hx.1; omega, by have := hx.2; simp; omega⟩,
      fun x hx => hp.apart x ⟨by have := hx.1; omega, by have := hx.2; simp; omega⟩,
      h123.later.keccak.trans hp.keccak, by rw [h123.host]; exact hh2, hty.2, hf2, hfit.deced h123 (by omega),
      fun h => hnar (.inr h), hbnd, fun g hg => hseg g (.inr hg)⟩ l3 (by omega) hpl2 hpl3 hpl4 epl ?_
  intro σ4 l4 a4 vs' h4 hrs hl4 hsp4 hso4 hpres4
  have h14 := h123.trans h4 (fun x hx hs => ?_)
  · refine hk σ4 l4 a4 (v' :: vs') (h14.mono (by omega)) ⟨?_, by rw [eraseL, eraseL, hr.erase, hrs.erase]⟩
      (by rw [hl4, hl2, lset_length]) hsp4 hso4 fun j hj j1 j2 j3 => ?_
    · have hnf3 : (σ2.setMem (putLe σ2.mem (w + off) 4 w2)).nextFree = σ2.nextFree := rfl
      have hm4 : ∀ x, x < σ2.nextFree → 468 ≤ x → (x < a2 ∨ a2 + 32 ≤ x) → (x < w + off + 4 ∨ σ.nextFree ≤ x) → σ4.mem x = putLe σ2.mem (w + off) 4 w2 x := by
        intro x g1 g2 g3 g4
        refine h4.later.mem x g1 fun hs => ?_
        rcases hs with hs | hs
        · unfold scr sizeTable hashBuf at hs; omega
        · obtain ⟨c1, c2⟩ := hs
          have := hP x ⟨by omega, by simp; omega⟩
          omega
      have hptr : leNat σ4.mem (w + off) 4 = w2 := by
        rw [leNat_congr fun x c1 c2 => hm4 x ?_ ?_ ?_ (.inl (by omega)), leNat_putLe_same, Nat.mod_eq_of_lt (by norm_num; omega)]
        all_goals have := P2 x ⟨c1, by simp; omega⟩; omega
      have hb := hp.sim.base
      have hgm : ∀ x, Got σ1 σ2 a2 x → σ4.mem x = σ2.mem x := fun x hx => by
        obtain ⟨c1, c2, c3⟩ := hx
        rw [hm4 x c2 (by omega) c3 (by omega), putLe_out (by have := hP (w + off + 3) ⟨by omega, by simp; omega⟩; omega)]
      have hgs : ∀ x, Got σ1 σ2 a2 x → Between (w + off) (w + off + 4 * (t :: ts).length) x ∨ Got σ σ4 a4 x := fun x hx =>
        .inr ((Got.step (hx.step h3) h4).from h1.later)
      have harg := hr.arg.change hgm hgs
      simp only [Mv.RepFs]
      rw [hptr]
      refine ⟨v', vs', rfl, fun x c1 c2 => .inl ⟨c1, by simp; omega⟩, fun hc => ?_, ?_, ?_⟩
      · unfold Arg at harg
        rw [hc, Bool.and_self, if_pos rfl] at harg
        exact harg.1
      · unfold Arg at harg
        cases hc : t.scalar <;> rw [hc] at harg
        · exact harg
        · exact harg.2
      · rw [← ea]
        refine Mv.RepFs.change (fun _ _ => rfl) (fun x hx => ?_) ts hrs.rep
        rcases hx with ⟨c1, c2⟩ | hx
        · exact .inl ⟨by omega, by simp; omega⟩
        · exact .inr (hx.from h123.later)
    · rw [hpres4 j (by omega) j1 j2 j3, hpres2 j hj j1 j2 j3, lget_lset_ne j1]
  · rcases hs with hs | ⟨c1, c2⟩
    · exact .inl (scr_sub (by rcases h12.cell with e | e <;> omega) hs)
    · exact .inr ⟨by omega, by simp; omega⟩

theorem DSim.alloc {a n : Nat} {p : Pos} {b : Bool} (h : DSim σ a p b) (h1 : Alloced n σ σ') : Deced (scr a) a a σ σ' n p b :=
  h.block (f := σ'.mem) h1.extends h1.nextFree (fun _ _ => rfl) fun _ _ => rfl

/-- Fields read into a new block. -/
theorem Reads.got {σ0 : Store} {a a' w n : Nat} {ts : List Ty} {vs vs' : List Mv.Val} {S : Nat → Prop} {p : Pos} {b : Bool}
    (h : Reads σ σ' a' w ts vs vs') (hd : Deced S a a' σ σ' n p b) (hs : Safe σ (Between w (w + 4 * ts.length)) a)
    (h0 : σ0.nextFree ≤ w) (hl : Later (scr a) σ0 σ) : Mv.RepFs σ'.mem (Got σ0 σ' a') ts vs' w := by
  refine Mv.RepFs.change (fun _ _ => rfl) (fun x hx => ?_) ts h.rep
  rcases hx with hx | hx
  · have := hd.safe hs x hx
    exact ⟨by have := hx.1; omega, by omega, by omega⟩
  · exact hx.from hl

theorem decStruct_run {fs : List Ty} (hfs : DecsRun E T fs) : DecRun E T (.struct fs) := by
  intro σ R K o v a p b b' d dp sp so ow k s l is Q hp hl hk
  have hh := hp.holds
  cases v <;> simp only [Layout.Holds] at hh
  rename_i vs
  have ho := hp.off
  have ep : place p (width (.struct fs)) = p := place_zero ho
  have hsim := hp.sim
  rw [ep] at hsim
  simp only [ne_eq, not_true, decide_false, Bool.or_false] at hsim
  have hf := hp.fresh
  simp only [Layout.fresh] at hf
  have hty := hp.typed
  simp only [Layout.Typed] at hty
  have hfit := hp.fit
  simp only [dcost] at hfit hk
  have hnar := hp.narrow
  simp only [Layout.narrow] at hnar
  have hseg := hp.segs
  simp only [Layout.segs] at hseg
  have hbnd := hp.bound
  simp only [next] at hbnd hk
  have hlen := hl.len
  simp only [nlDec] at hlen
  have hsov := hl.sov
  rw [ep] at hsov
  have hsok := hl.sok
  have hspk := hl.spk
  have hdpk := hl.dpk
  have howk := hl.owk
  have hspo := hl.spo
  have hdps := hl.dps
  have hdpo := hl.dpo
  have hb := hsim.base
  have hin := hsim.inside
  simp only [decT, List.append_assoc]
  wstep
  rw [Nat.mod_eq_of_lt (show 4 * fs.length < 4294967296 by have := hfit.1.1; omega)]
  refine wp_allocR hsim.heap hfit.1 (by omega) fun σ1 a1 => ?_
  have hn := a1.nextFree
  have h1 := hsim.alloc a1
  have s1 := h1.safe hp.safe
  wstep
  obtain ⟨L, hL⟩ : ∃ L, L = lset (lset l (k + 2) (lget l ow)) k σ.nextFree := ⟨_, rfl⟩
  rw [← hL]
  have eL : ∀ j, j < k → lget L j = lget l j := fun j hj => by
    rw [hL, lget_lset_ne (by omega), lget_lset_ne (by omega)]
  have eLk : lget L k = σ.nextFree := by rw [hL, lget_lset_same (by rw [lset_length]; omega)]
  have eLo : lget L (k + 2) = lget l ow := by rw [hL, lget_lset_ne (by omega), lget_lset_same (by omega)]
  have eLl : L.length = l.length := by rw [hL, lset_length, lset_length]
  have hP : Safe σ1 (Between (σ.nextFree + 0) (σ.nextFree + 0 + 4 * fs.length)) a := fun x hx => by
    obtain ⟨c1, c2⟩ := hx; omega
  refine hfs σ1 R K o vs σ.nextFree a p b b' d k (k + 1) sp so (k + 2) (k + 3) 0 s L _ Q
    ⟨h1.sim, s1, hP, fun x hx hr => ?_, h1.later.keccak.trans hp.keccak, by rw [h1.host]; exact hh, hty, hf, hfit.deced h1 (by omega), hnar, hbnd, hseg⟩
    ⟨by rw [eL _ hspk, hl.spv], by rw [eL _ hsok, hsov], ?_, by omega, by omega, by omega, by omega, hspo, by omega, by omega, by omega,
      by omega, by omega, by omega⟩ (by omega) (by omega) (by omega) (by omega) eLk ?_
  · have := (hp.safe x hr).2.1; have := hx.1; omega
  · rw [eLo]
    refine ⟨hl.owner.1, ?_⟩
    rw [hl.owner.1.beNat fun x hx => h1.later.safe hp.safe hx, hl.owner.2]
  intro σ2 l2 a2 vs' h2 hr hl2 hsp2 hso2 hpres2
  wstep
  have h12 := h1.trans h2 fun x hx hs => by
    rcases hs with hs | hs
    · exact hs
    · have := hs.1; omega
  refine hk σ2 _ a2 (.struct vs') σ.nextFree h12 ⟨?_, by rw [Val.erase, Val.erase, hr.erase], h12.later.nextFree, fun h => by simp [Ty.scalar] at h⟩
    (by rw [lset_length, hl2, eLl]) (by rw [lget_lset_ne (by omega), hsp2]) (by rw [lget_lset_ne (by omega), hso2])
    (by rw [lget_lset_same (by omega), hpres2 k (by omega) (by omega) (by omega) (by omega), eLk]) fun j hj j1 j2 j3 => ?_
  · unfold Arg
    rw [show (true && (Ty.struct fs).scalar) = false from rfl, if_neg (by simp)]
    simp only [Mv.Rep]
    exact ⟨vs', rfl, hr.got h2 hP (by omega) h1.later⟩
  · rw [lget_lset_ne j3, hpres2 j (by omega) j1 j2 (by omega), eL j hj]

end Rt
