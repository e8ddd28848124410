import Verif.Proof.StorageDec6

/-! The emitted decoder: vectors. -/

namespace Rt
open Wasm Slots Mv Layout

variable {σ σ' σ'' σ1 σ2 σ4 : Store} {E : ErrPtrs} {T : Ty → Nat}

theorem walk_get {f : Pos → Pos} {vs : List Val} {p : Pos} {i : Nat} (h : i < vs.length) : (vs[i], iter f i p) ∈ walk f vs p := by
  induction vs generalizing i p with
  | nil => simp at h
  | cons v vs ih =>
    rw [walk]
    cases i with
    | zero => exact List.mem_cons_self ..
    | succ i => exact List.mem_cons_of_mem _ (ih (by simpa using h))

theorem iter_succ {f : Pos → Pos} {p : Pos} (i : Nat) : iter f (i + 1) p = f (iter f i p) := by
  induction i generalizing p with
  | zero => rfl
  | succ i ih => exact ih

theorem shift_freshEls (t : Ty) (vs : List Val) (p : Pos) (e : Nat) (b : Bool) :
    freshEls (fun v p b => fresh t v p b) (next t) vs (shift p e) b = freshEls (fun v p b => fresh t v p b) (next t) vs p b := by
  induction vs generalizing p b with
  | nil => rfl
  | cons v vs ih =>
    rw [freshEls, freshEls, shift_fresh, shift_next]
    congr 1; funext b'
    exact ih ..

theorem rep_scalar {t : Ty} (ht : t.scalar = true) {f g : Bytes} {R S : Nat → Prop} {v : Val} {w : Nat} (h : Mv.Rep f R t v w) : Mv.Rep g S t v w := by
  cases t <;> simp only [Ty.scalar, Bool.false_eq_true] at ht <;> simp only [Mv.Rep] at h ⊢ <;> exact h

theorem rep_scalar_lt {t : Ty} (ht : t.scalar = true) {f : Bytes} {R : Nat → Prop} {v : Val} {w : Nat} (h : Mv.Rep f R t v w) : w < 256 ^ t.size := by
  cases t <;> simp only [Ty.scalar, Bool.false_eq_true] at ht <;> simp only [Mv.Rep] at h <;> simp only [Ty.size] <;> omega

theorem dcost_scalar {t : Ty} (ht : t.scalar = true) (v : Val) : dcost t v = t.size := by
  cases t <;> simp only [Ty.scalar, Bool.false_eq_true] at ht <;> cases v <;> simp only [dcost]

theorem eraseL_append (vs ws : List Val) : eraseL (vs ++ ws) = eraseL vs ++ eraseL ws := by
  induction vs with
  | nil => simp [eraseL]
  | cons v vs ih => simp [eraseL, ih]

/-- The first `i` elements of a vector have been read. -/
structure Els (σ σ4 σ' : Store) (V b c : Nat) (t : Ty) (vs vs' : List Val) (i n : Nat) (q : Pos) (fl : Bool) : Prop where
  d : Deced (scr b) b c σ σ' n q fl
  ge : σ4.nextFree ≤ σ'.nextFree
  cell : c = b ∨ σ4.nextFree ≤ c
  scal : t.scalar = true → c = b
  len : leNat σ'.mem V 4 = vs.length
  cap : leNat σ'.mem (V + 4) 4 = vs.length
  cnt : vs'.length = i
  rep : ∀ j (h : j < vs'.length), Mv.Rep σ'.mem (Got σ4 σ' c) t vs'[j] (leNat σ'.mem (V + 8 + j * t.size) t.size)
  erase : eraseL vs' = eraseL (vs.take i)

/-- What is stored into the vector. -/
def elWord (f : Bytes) (t : Ty) (w : Nat) : Nat := if t.scalar then leNat f w (copyStore t) else w

theorem elWord_spec {a : Nat} {t : Ty} {v v' : Val} {w : Nat} (h : Read σ1 σ2 a t v v' w) (hs : Heap σ2) (hlt : σ2.size < 2 ^ 32) :
    Mv.Rep σ2.mem (Got σ1 σ2 a) t v' (elWord σ2.mem t w) ∧ elWord σ2.mem t w < 256 ^ t.size := by
  have ha := h.arg
  have hle := h.le
  have hnf := hs.alloc.nextFree_le
  unfold Arg at ha
  unfold elWord
  cases hc : t.scalar <;> rw [hc] at ha
  · rw [if_neg (by simp)]
    rw [if_neg (by simp)] at ha
    refine ⟨ha, ?_⟩
    rw [Ty.size_ptr hc]
    omega
  · rw [if_pos rfl]
    rw [Bool.and_self, if_pos rfl] at ha
    have hl := h.last hc
    have e : leNat σ2.mem w (copyStore t) = leNat σ2.mem w t.size := by
      obtain ⟨m, hm⟩ := Nat.exists_eq_add_of_le (copyStore_le t)
      rw [hm, leNat_add, leNat_zero_of (f := σ2.mem) (a := w + t.size) fun y h1 h2 => hs.fresh y (by omega), Nat.mul_zero, Nat.add_zero]
    rw [e]
    exact ⟨ha.2, rep_scalar_lt hc ha.2⟩

theorem Els.step {V b c n m i a2 w2 : Nat} {t : Ty} {vs vs' : List Val} {v' : Val} {q q1 q2 : Pos} {fl fl1 fl2 : Bool}
    (h : Els σ σ4 σ' V b c t vs vs' i n q fl) (hi : i < vs.length) (hb : b = σ.nextFree) (hV : V = b + 32) (hbase : 468 ≤ σ.nextFree)
    (h4 : σ4.nextFree = V + 8 + vs.length * t.size)
    (h1 : Deced (scr c) c c σ' σ1 0 q1 fl1) (h2 : Deced (scr c) c a2 σ1 σ2 m q2 fl2) (hm : t.scalar = true → m = t.size)
    (hr : Read σ1 σ2 a2 t vs[i] v' w2) :
    Els σ σ4 (σ2.setMem (putLe σ2.mem (V + 8 + i * t.size) (copyStore t) (elWord σ2.mem t w2))) V b a2 t vs (vs' ++ [v']) (i + 1) (n + m) q2 fl2 := by
  have hlt := h2.sim.lt
  obtain ⟨x1, x2⟩ := elWord_spec hr h2.sim.heap hlt
  generalize elWord σ2.mem t w2 = x at x1 x2
  have hi1 : (i + 1) * t.size ≤ vs.length * t.size := Nat.mul_le_mul_right _ (by omega)
  have hi2 : (i + 1) * t.size = i * t.size + t.size := Nat.succ_mul _ _
  have hge := h.ge
  have e1 := h1.same
  have e2 := h2.later.nextFree
  have h12 := h1.then h2
  have hcell := h.cell
  have hcell2 := h12.cell
  have hin := h2.sim.inside
  have hcost := h2.cost
  have htp := t.size_pos
  have hts := copyStore_le t
  have hnf := h2.sim.heap.fresh
  have hsc : t.scalar = true → a2 = b := fun hc => by
    have hs := h.scal hc
    have hm := hm hc
    have hs8 : t.size ≤ 8 := by cases t <;> simp [Ty.size]
    rcases hcell2 with e | e <;> omega
  have hns : t.scalar = false → copyStore t = t.size := fun hc => by
    rw [Ty.size_ptr hc]; cases t <;> simp [Ty.scalar] at hc <;> rfl
  obtain ⟨P, hP⟩ : ∃ P, P = V + 8 + i * t.size := ⟨_, rfl⟩
  rw [← hP]
  have hin' := h.d.sim.inside
  have hA : Safe σ2 (fun y => Between P (P + copyStore t) y ∧ y < σ2.nextFree) a2 := by
    rintro y ⟨⟨c1, c2⟩, c3⟩
    by_cases c4 : y < σ4.nextFree
    · rcases hcell2 with e | e <;> rcases hcell with e' | e' <;> omega
    · have : t.scalar = true := by
        cases hc : t.scalar with
        | true => rfl
        | false => have := hns hc; omega
      have := hsc this
      omega
  have hf : ∀ y, ¬ (Between P (P + copyStore t) y ∧ y < σ2.nextFree) → putLe σ2.mem P (copyStore t) x y = σ2.mem y := fun y hy => by
    by_cases c1 : y < σ2.nextFree
    · exact putLe_out (by unfold Between at hy; omega)
    · by_cases c2 : y < P + copyStore t
      · rw [putLe_in (by omega) c2, hnf y (by omega), Nat.div_eq_of_lt]
        · rfl
        · exact Nat.lt_of_lt_of_le x2 (Nat.pow_le_pow_right (by omega) (by omega))
      · exact putLe_out (by omega)
  have h3 := h2.sim.poke (f := putLe σ2.mem P (copyStore t) x) hA hf
  have hd := (h.d.then h12).trans h3 fun y hy hs => by have := hs.1.1; omega
  have hm2 : ∀ y, V ≤ y → y < σ4.nextFree → σ2.mem y = σ'.mem y := fun y c1 c2 =>
    h12.later.mem y (by omega) (by unfold scr sizeTable hashBuf; omega)
  have hm3 : ∀ y, V ≤ y → y < P → putLe σ2.mem P (copyStore t) x y = σ'.mem y := fun y c1 c2 => by
    rw [putLe_out (by omega)]; exact hm2 y c1 (by omega)
  refine ⟨hd.mono (by omega), ?_, by omega, hsc, ?_, ?_, ?_, fun j hj => ?_, ?_⟩
  · show σ4.nextFree ≤ σ2.nextFree
    omega
  · rw [setMem_mem, leNat_congr fun y c1 c2 => hm3 y (by omega) (by omega), h.len]
  · rw [setMem_mem, leNat_congr fun y c1 c2 => hm3 y (by omega) (by omega), h.cap]
  · simp [h.cnt]
  · rw [setMem_mem]
    have hj' : j < i + 1 := by simpa [h.cnt] using hj
    by_cases hji : j < i
    · have hj1 : (j + 1) * t.size ≤ i * t.size := Nat.mul_le_mul_right _ (by omega)
      have hj2 : (j + 1) * t.size = j * t.size + t.size := Nat.succ_mul _ _
      rw [List.getElem_append_left (by rw [h.cnt]; omega), leNat_congr fun y c1 c2 => hm3 y (by omega) (by omega)]
      have hrep := h.rep j (by rw [h.cnt]; omega)
      cases hc : t.scalar
      · refine Mv.Rep.change (fun y hy => ?_) (fun y hy => (hy.step h12).step h3) t hrep
        obtain ⟨c1, c2, c3⟩ := hy
        have := hns hc
        rw [putLe_out (by omega)]
        exact h12.later.mem y c2 (by unfold scr sizeTable hashBuf; omega)
      · exact rep_scalar hc hrep
    · obtain rfl : j = i := by omega
      rw [List.getElem_append_right (by rw [h.cnt]), ← hP, leNat_box x2 hts]
      simp only [h.cnt, Nat.sub_self, List.getElem_cons_zero]
      cases hc : t.scalar
      · refine Mv.Rep.change (fun y hy => ?_) (fun y hy => ?_) t x1
        · obtain ⟨c1, c2, c3⟩ := hy
          have := hns hc
          rw [putLe_out (by omega)]
        · obtain ⟨c1, c2, c3⟩ := hy
          exact ⟨by omega, c2, c3⟩
      · exact rep_scalar hc x1
  · rw [eraseL_append, h.erase, List.take_succ_eq_append_getElem hi, eraseL_append]
    simp only [eraseL, hr.erase]

/-- The code that stores an element. -/
theorem wp_elStore {dp ip ep V i w : Nat} {t : Ty} {is s l Q} (hdp : lget l dp = V) (hip : lget l ip = i) (hep : lget l ep = w)
    (hw : t.scalar = true → w + copyStore t ≤ σ.size) (hv : V + 8 + i * t.size + copyStore t ≤ σ.size) (hlt : σ.size < 2 ^ 32)
    (hk : wp is s l (σ.setMem (putLe σ.mem (V + 8 + i * t.size) (copyStore t) (elWord σ.mem t w))) Q) :
    wp (vecElemPtr dp ip t.size ++ (.op (.lget ep) :: ((if t.scalar then code[Op.load (copyStore t) 0] else []) ++
      (.op (.store (copyStore t) 0) :: is)))) s l σ Q := by
  have ht8 : t.size ≤ 8 := by cases t <;> simp [Ty.size]
  have htp := t.size_pos
  have hc4 : copyStore t = 4 ∨ copyStore t = 8 := by cases t <;> simp [copyStore]
  have hil : i ≤ i * t.size := Nat.le_mul_of_pos_right _ (by omega)
  unfold vecElemPtr skipVecHeader
  wstep
  rw [hdp, hip, hep]
  unfold elWord at hk
  cases hc : t.scalar
  · rw [hc, if_neg (by simp)] at hk
    rw [if_neg (by simp)]
    wstep
    exact hk
  · rw [hc, if_pos rfl] at hk
    have := hw hc
    rw [if_pos rfl]
    wstep
    exact hk

theorem decVec_run {t : Ty} (ht : DecRun E T t) : DecRun E T (.vec t) := by
  intro σ R K o v a p b b' d dp sp so ow k s l is Q hp hl hk
  have hh := hp.holds
  cases v <;> simp only [Layout.Holds] at hh
  rename_i vs
  obtain ⟨hh1, hh2⟩ := hh
  have hf := hp.fresh
  simp only [Layout.fresh, Option.map_eq_some_iff] at hf
  obtain ⟨bm, hf, hb'⟩ := hf
  have hty := hp.typed
  simp only [Layout.Typed] at hty
  have hfit := hp.fit
  simp only [dcost] at hfit hk
  have hnar := hp.narrow
  simp only [Layout.narrow] at hnar
  have hseg := hp.segs
  simp only [Layout.segs] at hseg
  have hsim := hp.sim
  have hsov := hl.sov
  have ewid : width (.vec t) = 32 := rfl
  rw [ewid] at hsim hsov
  rw [next_placed (show Placed (.vec t) from by show 0 < 32; omega), ewid] at hk
  have eq2 : (place p 32).2 = 32 := by unfold place; split <;> simp; omega
  obtain ⟨q, hq⟩ : ∃ q, q = place p 32 := ⟨_, rfl⟩
  rw [← hq] at hsim hsov hk hh1 hh2 hseg eq2
  clear hq
  have hlen := hl.len
  simp only [nlDec] at hlen
  have hsok := hl.sok
  have hspk := hl.spk
  have hdpk := hl.dpk
  have howk := hl.owk
  have hspo := hl.spo
  have hdps := hl.dps
  have hdpo := hl.dpo
  have howd := hl.owd
  have hb := hsim.base
  have hin := hsim.inside
  have hca := hsim.cell
  have htp := t.size_pos
  have ht8 : t.size ≤ 8 := by cases t <;> simp [Ty.size]
  have hvl : vs.length ≤ vs.length * t.size := Nat.le_mul_of_pos_right _ (by omega)
  have h31 := hfit.1.1
  -- the cell, the length, the vector
  simp only [decT, List.append_assoc]
  wstep
  refine wp_allocR hsim.heap hfit.1 (by omega) fun σ1 a1 => ?_
  have n1 := a1.nextFree
  obtain ⟨c, hc⟩ : ∃ c, c = σ.nextFree := ⟨_, rfl⟩
  have hcc : Cell c := .inr (by omega)
  have l1 : Later (scr c) σ σ1 := a1.extends.later hsim.heap
  have d1 : Deced (scr c) c c σ σ1 32 (beNat σ1.mem c 32, 0) false :=
    ⟨l1, a1.host, ⟨l1.heap, l1.statics hb hsim.statics fun x hx => scr_static hcc hx, hcc, by omega, rfl, by simp, fun h => by simp at h⟩,
      by omega, .inl rfl⟩
  have y1 := d1.sim.nf
  wstep
  rw [← hc]
  have d2 := d1.then (d1.sim.write (f := fillBytes σ1.mem 64 0 32) (p' := (beNat σ1.mem c 32, 0)) (b' := false)
    (fun x hx => fillBytes_out (by unfold scr at hx; omega))
    (beNat_congr fun y h1 h2 => fillBytes_out (by unfold Cell at hcc; omega)) (by simp) fun h => by simp at h)
  have v2 := (hsim.leave d2 (by omega)).sim.slot
  obtain ⟨σ2, hσ2⟩ : ∃ σ2, σ2 = σ1.setMem (fillBytes σ1.mem 64 0 32) := ⟨_, rfl⟩
  rw [← hσ2] at d2 v2 ⊢
  have z2 := d2.sim.lt
  have y2 := d2.sim.nf
  have n2 : σ2.nextFree = σ.nextFree + 32 := by rw [hσ2]; exact n1
  rw [hl.spv, wp_storageLoad (by omega) (by omega), v2, d2.host]
  have d3 := d2.then (d2.sim.write (f := putBe σ2.mem 64 32 (σ.host.storage q.1)) (p' := (beNat σ1.mem c 32, 0)) (b' := false)
    (fun x hx => putBe_out (by unfold scr at hx; omega))
    ((beNat_congr fun y h1 h2 => putBe_out (by unfold Cell at hcc; omega)).trans d2.sim.slot) (by simp) fun h => by simp at h)
  have hbuf : beNat (putBe σ2.mem 64 32 (σ.host.storage q.1)) 64 32 = σ.host.storage q.1 % 2 ^ 256 := by
    rw [beNat_putBe_same, show (256 : Nat) ^ 32 = 2 ^ 256 by norm_num]
  obtain ⟨σ3, hσ3⟩ : ∃ σ3, σ3 = σ2.setMem (putBe σ2.mem 64 32 (σ.host.storage q.1)) := ⟨_, rfl⟩
  rw [← hσ3] at d3 ⊢
  have z3 := d3.sim.lt
  have y3 := d3.sim.nf
  have n3 : σ3.nextFree = σ.nextFree + 32 := by rw [hσ3]; exact n2
  have hrd := len_read (f := σ3.mem) (x := σ.host.storage q.1) (by rw [hσ3]; exact hbuf)
  have hlv : σ.host.storage q.1 % 2 ^ 32 = vs.length := by
    unfold dig at hh1
    simp only [Nat.pow_zero, Nat.div_one] at hh1
    rw [show (256 : Nat) ^ 32 = 2 ^ 256 by norm_num] at hh1
    have : σ.host.storage q.1 % 2 ^ 256 % 2 ^ 32 = σ.host.storage q.1 % 2 ^ 32 := Nat.mod_mod_of_dvd _ (Nat.pow_dvd_pow 2 (by omega))
    rw [← this, hh1, Nat.mod_eq_of_lt (by omega)]
  wstep
  refine wp_call1 swap32_spec ?_
  rintro r σ3' ⟨rfl, rfl⟩
  rw [hrd, hlv]
  wstep
  have f3 : Fit σ3' d (8 + vs.length * t.size + (vs.map fun v => dcost t v).sum) := hfit.deced d3 (by omega)
  refine wp_call3 (allocVec_spec d3.sim.heap (Nat.le_refl _) (f3.1.mono (by omega))) ?_
  rintro r σ4 ⟨rfl, x4, n4, m4⟩
  have d4 := d3.then (d3.sim.block (f := σ4.mem) x4 n4 (fun _ _ => rfl) fun _ _ => rfl)
  have d4 : Deced (scr c) c c σ σ4 (40 + vs.length * t.size) (beNat σ1.mem c 32, 0) false := d4.mono (by omega)
  obtain ⟨V, hV⟩ : ∃ V, V = σ3'.nextFree := ⟨_, rfl⟩
  rw [← hV] at m4 ⊢
  have len4 : leNat σ4.mem V 4 = vs.length := by
    rw [m4, leNat_congr fun y c1 c2 => putLe_out (by omega), leNat_putLe_same, Nat.mod_eq_of_lt (by omega)]
  have cap4 : leNat σ4.mem (V + 4) 4 = vs.length := by
    rw [m4, leNat_putLe_same, Nat.mod_eq_of_lt (by omega)]
  have z4 := d4.sim.lt
  have y4 := d4.sim.nf
  wstep
  obtain ⟨L, hL⟩ : ∃ L, L = lset (lset (lset l (k + 1) c) k vs.length) dp V := ⟨_, rfl⟩
  rw [← hL]
  have eL : ∀ j, j < k → j ≠ dp → lget L j = lget l j := fun j hj hjd => by subst hL; lsimp
  have eLl : L.length = l.length := by subst hL; lsimp
  have eL0 : lget L k = vs.length := by subst hL; lsimp
  have eL1 : lget L (k + 1) = c := by subst hL; lsimp
  have eLd : lget L dp = V := by subst hL; lsimp
  -- all elements have been read
  have fin : ∀ σ' l' cc vs' n qq fl, Els σ σ4 σ' V c cc t vs vs' vs.length n qq fl → n ≤ 40 + vs.length * t.size + (vs.map fun v => dcost t v).sum →
      l'.length = L.length → (∀ j, j < k → lget l' j = lget L j) → wp is s l' σ' Q := by
    intro σ' l' cc vs' n qq fl h1 hn hl' hpres
    have h2 := hsim.leave h1.d (by omega)
    have h3 := h1.ge
    refine hk σ' l' a (.vec vs') V ?_ ⟨?_, ?_, by omega, fun h => by simp [Ty.scalar] at h⟩ (by omega) ?_ ?_ ?_ fun j hj j1 j2 j3 => ?_
    · rw [← hb']; exact h2.mono hn
    · unfold Arg
      rw [show (true && (Ty.vec t).scalar) = false from rfl, if_neg (by simp)]
      simp only [Mv.Rep]
      refine ⟨vs', rfl, by rw [h1.len, h1.cnt], by rw [h1.cap, h1.cnt], fun x c1 c2 => ?_, fun i hi => ?_⟩
      · rw [h1.cap] at c2
        exact ⟨by omega, by omega, by omega⟩
      · refine Mv.Rep.change (fun _ _ => rfl) (fun x hx => ?_) t (h1.rep i hi)
        obtain ⟨c1, c2, c3⟩ := hx
        exact ⟨by omega, c2, by omega⟩
    · have := h1.erase
      rw [List.take_length] at this
      rw [Val.erase, Val.erase, this]
    · rw [hpres sp hspk, eL sp hspk (by omega), hl.spv]
    · rw [hpres so hsok, eL so hsok (by omega), hsov]
    · rw [hpres dp hdpk, eLd]
    · rw [hpres j hj, eL j hj j3]
  refine .intro (fun h0 => ?_) (fun h0 => ?_)
  · have : vs = [] := List.length_eq_zero_iff.mp h0
    subst this
    refine fin σ4 L c [] _ _ _ ⟨d4, Nat.le_refl _, .inl rfl, fun _ => rfl, len4, cap4, rfl, fun j hj => by simp at hj, rfl⟩ (by simp) rfl fun _ _ => rfl
  have hne : vs.isEmpty = false := by
    cases vs with
    | nil => exact absurd rfl h0
    | cons => rfl
  rw [hne, if_neg (by simp)] at hseg
  -- the first slot of the elements
  have v4 := (hsim.leave d4 (by omega)).sim.slot
  rw [hl.spv, wp_keccak (by omega) (by omega), rdBytes_word v4, d4.later.keccak, hp.keccak]
  have d5 := d4.then (d4.sim.write (f := putBe σ4.mem c 32 (K (Abi.word q.1))) (p' := (elems K q.1, 0)) (b' := false)
    (fun x hx => putBe_out (by unfold scr at hx; omega)) (beNat_putBe_same ..) (by simp) fun h => by simp at h)
  have m5 : ∀ x, V ≤ x → putBe σ4.mem c 32 (K (Abi.word q.1)) x = σ4.mem x := fun x hx => putBe_out (by omega)
  obtain ⟨σ5, hσ5⟩ : ∃ σ5, σ5 = σ4.setMem (putBe σ4.mem c 32 (K (Abi.word q.1))) := ⟨_, rfl⟩
  rw [← hσ5] at d5 ⊢
  have z5 := d5.sim.lt
  have y5 := d5.sim.nf
  have n5 : σ5.nextFree = σ4.nextFree := by rw [hσ5]; rfl
  wstep
  rw [eL1, wp_storageLoad (by omega) (by omega), d5.sim.slot, d5.host]
  have d6 := d5.then (d5.sim.write (f := putBe σ5.mem 64 32 (σ.host.storage (elems K q.1))) (p' := (elems K q.1, 0)) (b' := true)
    (fun x hx => putBe_out (by unfold scr at hx; omega))
    ((beNat_congr fun y h1 h2 => putBe_out (by unfold Cell at hcc; omega)).trans d5.sim.slot) (by simp) fun _ => by
      rw [beNat_putBe_same, show (256 : Nat) ^ 32 = 2 ^ 256 by norm_num, d5.host])
  have m6 : ∀ x, V ≤ x → putBe σ5.mem 64 32 (σ.host.storage (elems K q.1)) x = σ4.mem x := fun x hx => by
    rw [putBe_out (by omega), hσ5]; exact m5 x hx
  obtain ⟨σ6, hσ6⟩ : ∃ σ6, σ6 = σ5.setMem (putBe σ5.mem 64 32 (σ.host.storage (elems K q.1))) := ⟨_, rfl⟩
  rw [← hσ6] at d6 ⊢
  have n6 : σ6.nextFree = σ4.nextFree := by rw [hσ6]; exact n5
  obtain ⟨B, hB⟩ : ∃ B, B = elems K q.1 := ⟨_, rfl⟩
  rw [← hB] at d6 hseg hh2
  have hf6 : freshEls (fun v p b => fresh t v p b) (next t) vs (B, 0) true = some bm := by
    rw [← hf, ← shift_freshEls t vs (0, 0) B true]; unfold shift; simp
  have i6 : Els σ σ4 σ6 V c c t vs [] 0 (40 + vs.length * t.size) (B, 0) true := by
    refine ⟨d6.mono (by omega), by omega, .inl rfl, fun _ => rfl, ?_, ?_, rfl, fun j hj => by simp at hj, rfl⟩
    · rw [hσ6, setMem_mem, leNat_congr fun x c1 _ => m6 x c1, len4]
    · rw [hσ6, setMem_mem, leNat_congr fun x c1 _ => m6 x (by omega), cap4]
  clear d1 d2 d3 d5 d6 hσ2 hσ3 hσ5 hσ6 m5 m6 hbuf v2 hrd hlv hh1 len4 cap4 m4 l1 v4
  wstep
  refine wp_loop (fun m l' σ' => ∃ i cc vs' n fl, m + i = vs.length ∧ i < vs.length ∧ l'.length = L.length ∧
    (∀ j, j < k + 1 → lget l' j = lget L j) ∧ lget l' (k + 1) = cc ∧ lget l' (k + 3) = i ∧ lget l' (k + 4) = (iter (next t) i (B, 0)).2 ∧
    Els σ σ4 σ' V c cc t vs vs' i n (iter (next t) i (B, 0)) fl ∧
    n + ((vs.drop i).map fun v => dcost t v).sum = 40 + vs.length * t.size + (vs.map fun v => dcost t v).sum ∧
    freshEls (fun v p b => fresh t v p b) (next t) (vs.drop i) (iter (next t) i (B, 0)) fl = some bm) vs.length
    ⟨0, c, [], _, true, by omega, by omega, by simp only [lset_length], fun j hj => ?_, ?_, ?_, ?_, i6, rfl, hf6⟩ ?_
  · rw [lget_lset_ne (by omega), lget_lset_ne (by omega)]
  · rw [lget_lset_ne (by omega), lget_lset_ne (by omega), eL1]
  · rw [lget_lset_ne (by omega), lget_lset_same (by omega)]
  · rw [lget_lset_same (by rw [lset_length]; omega)]; rfl
  clear i6 d4
  rintro m l' σ' ⟨i, cc, vs', n, fl, hm, hi, hl', hpres, hl1, hl3, hl4, he, hcost, hfr⟩
  rw [List.drop_eq_getElem_cons hi] at hfr
  simp only [freshEls, Option.bind_eq_some_iff] at hfr
  obtain ⟨b1, hfr1, hfr2⟩ := hfr
  rw [sum_drop _ _ _ hi] at hcost
  have hmem := walk_get (f := next t) (p := (B, 0)) hi
  have hpos := (walk_pos (fun p hp => next_Le t hp) (by simp) hmem).2.slot
  have hlastslot := hseg _ (List.mem_cons_self ..)
  have hhi := hh2 _ hmem
  have hgi : ∀ g ∈ segs K o t vs[i] (iter (next t) i (B, 0)), g.2 < 2 ^ 256 := fun g hg =>
    hseg g (List.mem_cons_of_mem _ (List.mem_flatMap.mpr ⟨_, hmem, hg⟩))
  have hit := iter_succ (f := next t) (p := (B, 0)) i
  dsimp only at hpos hlastslot hhi
  have ho := he.d.sim.off
  obtain ⟨pos, hposd⟩ : ∃ pos, pos = iter (next t) i (B, 0) := ⟨_, rfl⟩
  rw [← hposd] at hl4 he hfr1 hfr2 hpos hhi hgi hit ho
  clear hmem hposd
  have hn1 := next_Le t ho
  have hpn : (place pos (width t)).1 ≤ (next t pos).1 := by
    by_cases h0 : 0 < width t
    · rw [next_placed h0]
    · rw [show width t = 0 by omega, place_zero ho]; exact hn1.slot
  simp only [fsize_eq]
  refine wp_accRead (sp := k + 1) (so := k + 4) (is := _) he.d.sim (width_le t) (by omega) hl1 hl4 fun σ7 h7 => ?_
  have d7 := he.d.then h7
  have s7 : Safe σ7 R cc := d7.safe (fun x hx => by have := hp.safe x hx; omega)
  have hsl : ∀ x, R x → x < σ.nextFree ∧ ¬ scr c x := fun x hx => by
    have := hp.safe x hx
    refine ⟨this.2.1, ?_⟩
    unfold scr sizeTable hashBuf; omega
  obtain ⟨M, hM⟩ : ∃ M, M = lset l' (k + 4) (place pos (width t)).2 := ⟨_, rfl⟩
  rw [← hM]
  have eM : ∀ j, j ≠ k + 4 → lget M j = lget l' j := fun j hj => by rw [hM, lget_lset_ne hj]
  have eM4 : lget M (k + 4) = (place pos (width t)).2 := by rw [hM, lget_lset_same (by omega)]
  have eMl : M.length = l'.length := by rw [hM, lset_length]
  have f7 : Fit σ7 d (dcost t vs[i] + ((vs.drop (i + 1)).map fun v => dcost t v).sum) := hfit.deced d7 (by omega)
  have c7 := h7.same
  simp only [List.append_eq, List.cons_append, List.nil_append, List.append_assoc]
  refine ht σ7 R K o vs[i] cc pos fl b1 d (k + 2) (k + 1) (k + 4) ow (k + 5) _ M _ _
    ⟨h7.sim, ho, s7, d7.later.keccak.trans hp.keccak, by rw [d7.host]; exact hhi, hty _ (List.getElem_mem hi), hfr1, f7.mono (Nat.le_add_right _ _) id, hnar,
      by omega, hgi⟩
    ⟨by rw [eM _ (by omega), hl1], eM4, ?_, by omega, by omega, by omega, by omega, by omega, by omega, by omega, by omega, by omega, by omega, by omega⟩ ?_
  · rw [eM ow (by omega), hpres ow (by omega), eL ow howk howd]
    exact ⟨hl.owner.1, by rw [hl.owner.1.beNat fun x hx => d7.later.mem x (hsl x hx).1 (hsl x hx).2, hl.owner.2]⟩
  intro σ8 l8 a8 v' w8 d8 hr hl8 hsp8 hso8 hdp8 hpres8
  have hsub : W.w32.sub vs.length 1 = vs.length - 1 := by
    have := hfit.1.1
    have : vs.length * 1 ≤ vs.length * t.size := Nat.mul_le_mul_left _ (by omega)
    simp only [W.sub, W.mod]
    omega
  have hstep := he.step hi hc (by omega) hb (by omega) h7 d8 (fun h => dcost_scalar h _) hr
  have z8 := d8.sim.lt
  have y8 := d8.sim.nf
  have f8 := f7.deced d8 (n := 0) (by omega)
  have hge := he.ge
  have n8 := d8.later.nextFree
  have hi1 : (i + 1) * t.size ≤ vs.length * t.size := Nat.mul_le_mul_right _ (by omega)
  have hi2 : (i + 1) * t.size = i * t.size + t.size := Nat.succ_mul _ _
  have hsp : copyStore t = t.size ∨ d = true ∧ copyStore t ≤ t.size + 3 := by
    cases t <;> simp only [Layout.narrow] at hnar <;> simp [copyStore, Ty.size] <;> exact hnar trivial
  have hthree : d = true → σ8.nextFree + 0 + 3 ≤ σ8.size := f8.2
  have q3 : lget l8 (k + 3) = i := by rw [hpres8 _ (by omega) (by omega) (by omega) (by omega), eM _ (by omega), hl3]
  have qk : ∀ j, j < k + 1 → lget l8 j = lget L j := fun j hj => by
    rw [hpres8 _ (by omega) (by omega) (by omega) (by omega), eM _ (by omega), hpres j hj]
  refine wp_elStore (V := V) (i := i) (w := w8) (by rw [qk dp (by omega), eLd]) q3 hdp8 (fun h => ?_) ?_ z8 ?_
  · have := hr.last h
    rcases hsp with e | ⟨e, e'⟩
    · omega
    · have := hthree e; omega
  · rcases hsp with e | ⟨e, e'⟩
    · omega
    · have := hthree e; omega
  generalize σ8.setMem (putLe σ8.mem (V + 8 + i * t.size) (copyStore t) (elWord σ8.mem t w8)) = σ9 at hstep
  wstep
  rw [q3, qk k (by omega), eL0, hsub]
  refine .intro (fun hlast => ?_) (fun hlast => ?_)
  · have hii : i + 1 = vs.length := by omega
    rw [hii] at hstep
    rw [hii, List.drop_length] at hcost
    refine fin σ9 l8 _ _ _ _ _ hstep ?_ (by omega) fun j hj => qk j (by omega)
    simp only [List.map_nil, List.sum_nil] at hcost
    omega
  · refine ⟨m - 1, by omega, i + 1, a8, vs' ++ [v'], n + dcost t vs[i], b1, by omega, by omega, ?_, fun j hj => ?_, ?_, ?_, ?_, ?_, by omega, ?_⟩
    · rw [lset_length]; omega
    · rw [lget_lset_ne (by omega), qk j hj]
    · exact hsp8
    · rfl
    · rw [hit]; exact hso8
    · rw [hit]; exact hstep
    · rw [hit]; exact hfr2

end Rt
