import Verif.Proof.StorageEnc6

/-! The emitted encoder computes `enc`: vectors. -/

namespace Rt
open Wasm Slots Mv Layout

variable {σ σ' σ'' : Store} {E : ErrPtrs} {T : Ty → Nat}

theorem Sim.fillBuf {a : Nat} {st : St} (h : Sim σ a st) :
    Enced a σ (σ.setMem (fillBytes σ.mem 64 0 32)) 0 { st with buf := 0 } := by
  have hc := h.cell
  refine h.write (fun x hx => fillBytes_out ?_) ?_ h.off rfl (fill_word _)
  · unfold scr at hx; omega
  · rw [beNat_congr fun y h1 h2 => fillBytes_out (by unfold Cell at hc; omega)]; exact h.slot

theorem Sim.loadBuf {a x : Nat} {st : St} (h : Sim σ a st) :
    Enced a σ (σ.setMem (Wasm.putBe σ.mem 64 32 x)) 0 { st with buf := x % 2 ^ 256 } := by
  have hc := h.cell
  refine h.write (fun x hx => putBe_out ?_) ?_ h.off rfl ?_
  · unfold scr at hx; omega
  · rw [beNat_congr fun y h1 h2 => putBe_out (by unfold Cell at hc; omega)]; exact h.slot
  · rw [beNat_putBe_same, show (256 : Nat) ^ 32 = 2 ^ 256 by norm_num]

theorem len_word {n : Nat} (h : n < 2 ^ 32) : setDig 0 0 4 n = n := by
  unfold setDig low
  rw [Nat.mod_eq_of_lt (show n < 256 ^ 4 by omega)]; simp

/-- The length in the header of a vector. -/
theorem len_read {f : Bytes} {x : Nat} (h : beNat f 64 32 = x % 2 ^ 256) : bswap 4 (leNat f 92 4) = x % 2 ^ 32 := by
  have := buf_read (f := f) (off := 4) (n := 4) (by omega) (by omega)
  rw [bswap_leNat, this, h]
  unfold dig
  simp only [Nat.sub_self, Nat.pow_zero, Nat.div_one]
  rw [show (256 : Nat) ^ 4 = 2 ^ 32 by norm_num, Nat.mod_mod_of_dvd _ (Nat.pow_dvd_pow 2 (by omega))]

/-- The end of the code of a vector. -/
theorem wp_putLen {a n : Nat} {st : St} {is s l Q} (h : Sim σ a st) (hn : n < 2 ^ 32)
    (hk : ∀ σ1, Enced a σ σ1 0 ⟨st.stor, n, st.slot, 32⟩ → wp is s l σ1 Q) :
    wp (swap32.call :: .op (.store 4 28) :: is) (n :: 64 :: s) l (σ.setMem (fillBytes σ.mem 64 0 32)) Q := by
  have h1 := h.nf
  have h2 := h.base
  refine wp_call1 swap32_spec ?_
  rintro r σ1 ⟨rfl, rfl⟩
  wstep
  rw [putLe_bswap]
  have e1 := Sim.reoff h.fillBuf (n := 4) (by omega)
  have e2 := Sim.reoff (e1.trans (e1.sim.putBe (n := 4) (x := n) (Nat.le_refl 4))) (n := 32) (by omega)
  refine hk _ ?_
  unfold St.put at e2
  simp only [Nat.sub_self, len_word hn] at e2
  exact e2

theorem sum_drop {α : Type} (f : α → Nat) (vs : List α) (i : Nat) (h : i < vs.length) :
    ((vs.drop i).map f).sum = f vs[i] + ((vs.drop (i + 1)).map f).sum := by
  rw [List.drop_eq_getElem_cons h, List.map_cons, List.sum_cons]

theorem encVec_run {t : Ty} (ht : EncRun E T t) : EncRun E T (.vec t) := by
  intro σ R K o fld v w a st st' sp so ow k s l is Q hp hl hk
  have hr := hp.arg.ptr rfl
  simp only [Mv.Rep] at hr
  obtain ⟨vs, rfl, hlen', hcap, hw, hrep⟩ := hr
  have hrun := hp.run
  simp only [enc] at hrun
  split at hrun
  case isFalse => exact absurd hrun (by simp)
  rename_i hle
  have hsim := hp.sim
  have hroom := hp.room
  simp only [ecost] at hroom hk
  have hlen := hl.len
  have hsok := hl.sok
  have hspk := hl.spk
  have howk := hl.owk
  have hspo := hl.spo
  have howo := hl.owo
  simp only [nlEnc] at hlen
  have f1 := hsim.nf
  have f2 := hsim.base
  have f3 := hsim.lt
  have ho := hsim.off
  have hin := hsim.inside
  have hbw := Within.bounds hw hp.safe (by omega)
  have hnl := leNat_lt σ.mem w 4
  rw [hlen'] at hnl
  simp only [encT, List.append_assoc]
  wstep
  have e1 := hsim.fillBuf
  generalize σ.setMem (fillBytes σ.mem 64 0 32) = σ1 at e1
  have c1 := e1.cost
  have r1 : Room σ1 (32 + (vs.map fun v => ecost t v).sum) :=
    Room.after (k := 0) (hroom.mono (by omega)) (by omega) e1.later.maxPages
  have n1 := e1.later.nextFree
  refine wp_allocR e1.sim.heap r1 (n := 32) (Nat.le_add_right ..) fun σ2 a2 => ?_
  have en2 := e1.sim.enter a2
  generalize hb : σ1.nextFree = b at en2
  have hbn : b = σ.nextFree := by omega
  have g1 := en2.sim.nf
  have g2 := en2.sim.lt
  have g3 := a2.nextFree
  have hm2 : ∀ x, R x → σ2.mem x = σ.mem x := fun x hx => by rw [a2.mem]; exact e1.later.safe hp.safe hx
  have hcell := e1.sim.cell_inner (by omega) en2.later
  wstep
  rw [(hw.sub (Nat.le_refl _) (by omega)).leNat hm2, hlen', hl.spv, wp_storageLoad (by omega) (by omega), hcell, en2.sim.stor]
  have en3 := en2.trans (en2.sim.loadBuf (x := st.stor st.slot))
  have hrd := len_read en3.sim.buf
  simp only at en3
  generalize σ2.setMem (putBe σ2.mem 64 32 (st.stor st.slot)) = σ3 at en3 hrd
  have k1 := en3.sim.nf
  have k2 := en3.sim.lt
  have k3 := en3.sim.base
  have k4 := en3.later.nextFree
  wstep
  refine wp_call1 swap32_spec ?_
  rintro r σ4 ⟨rfl, rfl⟩
  rw [hrd]
  wstep
  obtain ⟨L, hL⟩ : ∃ L, L = (lset
        (lset (lset (lset (lset (lset l k w) (k + 2) b) (k + 3) vs.length) (k + 4) (st.stor st.slot % 4294967296))
          (k + 5) 0) (k + 6) 0) := ⟨_, rfl⟩
  rw [← hL]
  have eq : ∀ j, j < k → lget L j = lget l j := fun j hj => by subst hL; lsimp
  have eL : L.length = l.length := by subst hL; lsimp
  have d0 : lget L k = w := by subst hL; lsimp
  have d2 : lget L (k + 2) = b := by subst hL; lsimp
  have d3 : lget L (k + 3) = vs.length := by subst hL; lsimp
  have d5 : lget L (k + 5) = 0 := by subst hL; lsimp
  have d6 : lget L (k + 6) = 0 := by subst hL; lsimp
  -- the length is written and the slot left
  have fin : ∀ σ' l' n stx, Enced b σ1 σ' n stx → n ≤ 32 + (vs.map fun v => ecost t v).sum →
      st' = ⟨stx.stor, vs.length, st.slot, 32⟩ → l'.length = L.length → (∀ j, j < k → lget l' j = lget L j) →
      wp (swap32.call :: .op (.store 4 28) :: .op (.c32 32) :: .op (.lset so) :: is) (vs.length :: 64 :: s) l'
        (σ'.setMem (fillBytes σ'.mem 64 0 32)) Q := by
    intro σ' l' n stx h1 hn hst hl' hpres
    have h2 := e1.trans (e1.sim.leave (by omega) h1 32 (Nat.le_refl _))
    refine wp_putLen h2.sim hnl fun σ5 h5 => ?_
    wstep
    refine hk σ5 _ ?_ ?_ ?_ fun j hj hjs => ?_
    · rw [hst]; exact (h2.trans h5).mono (by omega)
    · rw [lset_length, hl', eL]
    · rw [lget_lset_same (by omega), hst]
    · rw [lget_lset_ne hjs, hpres j hj, eq j hj]
  refine .intro (fun h0 => ?_) (fun h0 => ?_)
  · have : vs = [] := List.length_eq_zero_iff.mp h0
    subst this
    rw [if_pos List.isEmpty_nil] at hrun
    exact fin σ4 L _ _ en3 (by omega) (Option.some.inj hrun).symm rfl fun _ _ => rfl
  have hne : vs.isEmpty = false := by
    cases vs with
    | nil => exact absurd rfl h0
    | cons => rfl
  rw [hne, if_neg (by simp)] at hrun
  obtain ⟨s1, hels, rfl⟩ := Option.map_eq_some_iff.mp hrun
  -- the first slot of the elements
  have m1 := en3.sim.inside
  have hcell3 := e1.sim.cell_inner (by omega) en3.later
  rw [hl.spv, wp_keccak (by omega) (by omega), rdBytes_word hcell3, en3.later.keccak, e1.later.keccak, hp.keccak]
  have en4 := Sim.reoff (en3.trans (en3.sim.move (σ' := σ4.setMem (putBe σ4.mem b 32 (K (Abi.word st.slot))))
    (v := elems K st.slot) (Touches.set fun x hx => putBe_out (by omega)) ?_)) (n := 0) (by omega)
  swap
  · rw [setMem_mem, beNat_putBe_same]; rfl
  simp only at en4
  generalize σ4.setMem (putBe σ4.mem b 32 (K (Abi.word st.slot))) = σ5 at en4
  have hsafe1 : Safe σ1 R b := fun x hx => by have := hp.safe x hx; omega
  have hm1 : ∀ x, R x → σ1.mem x = σ.mem x := fun x hx => e1.later.safe hp.safe hx
  wstep
  refine wp_loop (fun m l' σ' => ∃ i c stc, m + i = vs.length ∧ i < vs.length ∧ l'.length = L.length ∧
    (∀ j, j < k + 5 → lget l' j = lget L j) ∧ lget l' (k + 5) = i ∧ lget l' (k + 6) = stc.off ∧
    Enced b σ1 σ' c stc ∧ c + ((vs.drop i).map fun v => ecost t v).sum = 32 + (vs.map fun v => ecost t v).sum ∧
    encEls (width t) (fun v s => enc K (fun t => bswap 8 (T t)) o t v s) (vs.drop i) stc = some s1) vs.length
    ⟨0, 32, _, by omega, by omega, rfl, fun _ _ => rfl, d5, d6, en4, by simp, hels⟩ ?_
  rintro m l' σ6 ⟨i, c, stc, hm, hi, hl', hpres, hi5, hi6, en, hcost, hrun⟩
  rw [List.drop_eq_getElem_cons hi] at hrun
  simp only [encEls, Option.bind_eq_some_iff] at hrun
  obtain ⟨sa, hacc, sb, henc, hrun⟩ := hrun
  rw [sum_drop _ _ _ hi] at hcost
  have hi1 : (i + 1) * t.size ≤ leNat σ.mem (w + 4) 4 * t.size := Nat.mul_le_mul_right _ (by omega)
  have hi2 : (i + 1) * t.size = i * t.size + t.size := Nat.succ_mul _ _
  simp only [fsize_eq]
  refine wp_accField (sp := k + 2) (so := k + 6) (is := _) en.sim (width_le t) hacc ?_ hi6 fun σ7 h7 hw7 => ?_
  · rw [hpres (k + 2) (by omega), d2]
  have h8 := en.trans h7
  have j1 := h8.sim.nf
  have j2 := h8.sim.lt
  have j3 := h8.later.nextFree
  have hs7 := hsafe1.later h8.later
  have hm7 : ∀ x, R x → σ7.mem x = σ.mem x := fun x hx => (h8.later.safe hsafe1 hx).trans (hm1 x hx)
  obtain ⟨L', hL'⟩ : ∃ L', L' = lset l' (k + 6) sa.off := ⟨_, rfl⟩
  rw [← hL']
  have q5 : lget L' (k + 5) = i := by subst hL'; lsimp; exact hi5
  have q6 : lget L' (k + 6) = sa.off := by subst hL'; lsimp
  have qq : ∀ j, j < k + 5 → lget L' j = lget L j := fun j hj => by subst hL'; lsimp; exact hpres j hj
  have qL : L'.length = L.length := by subst hL'; lsimp; exact hl'
  have hwel : Within R (w + 8 + i * t.size) t.size := hw.sub (by omega) (by omega)
  simp only [List.append_eq, List.cons_append, List.nil_append]
  wstep
  rw [qq k (by omega), d0, q5]
  wstep
  rw [hwel.leNat hm7]
  have hc7 := h8.cost
  refine ht σ7 R K o false vs[i] _ b sa sb (k + 2) (k + 6) ow (k + 8 + nlDel t) _ L' _ _
    ⟨h8.sim, hs7, h8.later.keccak.trans (e1.later.keccak.trans hp.keccak), ?_, henc,
      r1.mono (by omega) |>.after (k := c) (by omega) h8.later.maxPages, hw7⟩
    ⟨by rw [qq _ (by omega), d2], q6, ?_, by omega, by omega, by omega, by omega, by omega, by omega⟩ ?_
  · unfold Arg
    rw [Bool.false_and, if_neg (by simp)]
    exact Rep.change hm7 (fun _ h => h) t (hrep i hi)
  · rw [qq ow (by omega), eq ow howk]
    exact ⟨hl.owner.1, by rw [hl.owner.1.beNat hm7, hl.owner.2]⟩
  intro σ8 l8 h9 hl8 hso8 hpres8
  have hA := h8.trans h9
  have u1 := hA.sim.nf
  have u2 := hA.sim.lt
  have u3 := hA.sim.inside
  have u4 := hA.sim.base
  have p2 : lget l8 (k + 2) = b := by rw [hpres8 _ (by omega) (by omega), qq _ (by omega), d2]
  have p3 : lget l8 (k + 3) = vs.length := by rw [hpres8 _ (by omega) (by omega), qq _ (by omega), d3]
  have p5 : lget l8 (k + 5) = i := by rw [hpres8 _ (by omega) (by omega), q5]
  wstep
  rw [p3, p5]
  refine .intro (fun hlast => ?_) (fun hlast => ?_)
  · have hii : i + 1 = vs.length := by omega
    rw [hii, List.drop_length] at hrun hcost
    simp only [encEls] at hrun
    obtain rfl := Option.some.inj hrun
    rw [p2, wp_storageCache (by omega) (by omega)]
    have hB := hA.trans hA.sim.flush
    generalize Rt.stored σ8 (beNat σ8.mem b 32) (beNat σ8.mem 64 32) = σ9 at hB
    have v1 := hB.sim.nf
    have v2 := hB.sim.base
    wstep
    rw [p3]
    refine fin σ9 l8 _ _ hB ?_ rfl (by omega) fun j hj => by rw [hpres8 _ (by omega) (by omega), qq _ (by omega)]
    simp only [List.map_nil, List.sum_nil] at hcost
    omega
  · refine ⟨m - 1, by omega, i + 1, _, sb, by omega, by omega, ?_, fun j hj => ?_, ?_, ?_, hA, by omega, hrun⟩
    · rw [lset_length]; omega
    · rw [lget_lset_ne (by omega), hpres8 _ (by omega) (by omega), qq _ hj]
    · rfl
    · exact hso8

end Rt
