import Verif.Proof.StorageDec

/-! The emitted decoder: numbers. -/

namespace Rt
open Wasm Slots Mv Layout

variable {σ σ' σ'' σ1 : Store} {E : ErrPtrs} {T : Ty → Nat}

theorem dig_word {x i n : Nat} (h : i + n ≤ 32) : dig (x % 2 ^ 256) i n = dig x i n := by
  refine digits_ext n _ _ (dig_lt ..) (dig_lt ..) fun j hj => ?_
  have h1 := digit_dig (x % 2 ^ 256) i n j hj
  have h2 := digit_dig x i n j hj
  rw [show (2 : Nat) ^ 256 = 256 ^ 32 by norm_num] at h1 ⊢
  rw [digit_mod (by omega)] at h1
  exact h1.trans h2.symm

/-- The bytes of a number are in the buffer. -/
theorem DecPre.num {R : Nat → Prop} {K : List UInt8 → Nat} {o a : Nat} {t : Ty} {v : Val} {p : Pos} {b b' d : Bool}
    (h : DecPre σ R K T o t v a p b b' d) (ht : atom t = true) :
    ∃ x, v = .num x ∧ beNat σ.mem (96 - (place p (width t)).2) (width t) = x ∧ b' = true ∧
      DSim σ a (place p (width t)) true := by
  have hp := h.sim
  have hf := h.fresh
  have ho := hp.off
  have hs : width t ≤ (place p (width t)).2 := place_snd
  have key : ∀ x, v = .num x → (b || decide ((place p (width t)).1 ≠ p.1)) = true ∧ b' = true := by
    rintro x rfl
    have : Layout.fresh t (.num x) p b = if b || decide ((place p (width t)).1 ≠ p.1) then some true else none := by
      cases t <;> simp only [atom, Bool.false_eq_true] at ht <;> rw [Layout.fresh]
    rw [this] at hf
    split at hf
    · rename_i h1; exact ⟨h1, (Option.some.inj hf).symm⟩
    · exact absurd hf (by simp)
  have hx : ∃ x, v = .num x ∧ dig (σ.host.storage (place p (width t)).1) ((place p (width t)).2 - width t) (width t) = x := by
    have hh := h.holds
    cases t <;> simp only [atom, Bool.false_eq_true] at ht <;> cases v <;> simp only [Layout.Holds] at hh <;> exact ⟨_, rfl, hh⟩
  obtain ⟨x, rfl, hx⟩ := hx
  obtain ⟨h1, h2⟩ := key x rfl
  rw [h1] at hp
  refine ⟨x, rfl, ?_, h2, hp⟩
  rw [buf_read hs ho, hp.buf rfl, dig_word (by omega), hx]

/-- A new block of memory. -/
theorem DSim.block {a n : Nat} {p : Pos} {b : Bool} {f : Bytes} (h : DSim σ a p b) (he : Extends σ σ1)
    (hn : σ1.nextFree = σ.nextFree + n) (hlo : ∀ y, y < σ.nextFree → f y = σ1.mem y)
    (hhi : ∀ y, σ1.nextFree ≤ y → f y = σ1.mem y) : Deced (scr a) a a σ (σ1.setMem f) n p b := by
  have hb := h.base
  have hc := h.cell
  have hin := h.inside
  have hl : Later (scr a) σ σ1 := ⟨he.heap h.heap, he.nextFree, he.size, fun x hx _ => he.mem x hx, he.maxPages, he.reader, by rw [he.host]⟩
  have l : Later (scr a) σ (σ1.setMem f) := hl.write (fun y _ h2 => hlo y (by omega)) (fun y hy _ => hlo y hy) hhi
  have hm : ∀ y, y < σ.nextFree → f y = σ.mem y := fun y hy => (hlo y hy).trans (he.mem y hy)
  refine ⟨l, he.host, ⟨l.heap, l.statics hb h.statics fun x hx => scr_static hc hx, hc, by simp only [setMem_nextFree]; omega, ?_, h.off, fun hbt => ?_⟩,
    by simp only [setMem_nextFree]; omega, .inl rfl⟩
  · rw [setMem_mem, beNat_congr fun y _ h2 => hm y (by omega), h.slot]
  · rw [setMem_mem, beNat_congr fun y _ h2 => hm y (by omega), setMem_host, he.host, h.buf hbt]

/-- Writing a number that fits into the block, possibly with more bytes, all zero. -/
theorem putLe_beyond {f : Bytes} {a n m x : Nat} (hf : ∀ y, a + n ≤ y → f y = 0) (hx : x < 256 ^ n) :
    ∀ y, a + n ≤ y → putLe f a m x y = f y := by
  intro y hy
  by_cases hm : y < a + m
  · rw [putLe_in (by omega) (by omega), hf y hy, Nat.div_eq_of_lt]
    · rfl
    · exact Nat.lt_of_lt_of_le hx (Nat.pow_le_pow_right (by omega) (by omega))
  · rw [putLe_out (by omega)]

theorem leNat_box {f : Bytes} {a n m x : Nat} (hx : x < 256 ^ n) (hnm : n ≤ m) : leNat (putLe f a m x) a n = x := by
  rw [leNat_putLe_in (Nat.le_refl _) (by omega), Nat.sub_self, Nat.pow_zero, Nat.div_one, Nat.mod_eq_of_lt hx]

/-- The end of the code of a number. -/
theorem dec_end {t : Ty} {R : Nat → Prop} {K : List UInt8 → Nat} {o a x dp sp so ow k n : Nat} {p : Pos} {b b' d : Bool}
    {f : Bytes} {s l : List Nat} {is : List Instr} {Q : Res → Prop} (ht : atom t = true)
    (hp : DecPre σ R K T o t (.num x) a p b b' d) (hl : DLocs σ R o l a (place p (width t)).2 dp sp so ow k (nlDec t))
    (he : Extends σ σ1) (hn : σ1.nextFree = σ.nextFree + n) (hlo : ∀ y, y < σ.nextFree → f y = σ1.mem y)
    (hhi : ∀ y, σ1.nextFree ≤ y → f y = σ1.mem y) (hc : dcost t (.num x) = n) (hs : t.scalar = true → t.size = n)
    (hr : Arg f (fun x => σ.nextFree ≤ x ∧ x < σ.nextFree + n) true t (.num x) σ.nextFree)
    (hk : ∀ σ' l' a' v' w, Deced (scr a) a a' σ σ' (dcost t (.num x)) (next t p) b' → Read σ σ' a' t (.num x) v' w → l'.length = l.length →
      lget l' sp = a' → lget l' so = (next t p).2 → lget l' dp = w →
      (∀ j, j < k → j ≠ so → j ≠ sp → j ≠ dp → lget l' j = lget l j) → wp is s l' σ' Q) :
    wp is s (lset l dp σ.nextFree) (σ1.setMem f) Q := by
  obtain ⟨x', hx', _, hb', hsim⟩ := hp.num ht
  have hin := hsim.inside
  have hlen := hl.len
  have hdpk := hl.dpk
  have hnx : next t p = place p (width t) := by cases t <;> simp only [atom, Bool.false_eq_true] at ht <;> simp only [next]
  have hg : ∀ y, σ.nextFree ≤ y ∧ y < σ.nextFree + n → Got σ (σ1.setMem f) a y := fun y hy =>
    ⟨hy.1, by simp only [setMem_nextFree]; omega, by omega⟩
  refine hk _ _ a (.num x) σ.nextFree ?_ ⟨?_, rfl, ?_, fun h => ?_⟩ lset_length ?_ ?_ ?_ fun j hj _ _ h3 => lget_lset_ne h3
  · rw [hc, hnx, hb']; exact hsim.block he hn hlo hhi
  · unfold Arg at hr ⊢
    rw [setMem_mem]
    split
    · rename_i h
      rw [if_pos h] at hr
      exact ⟨fun y h1 h2 => hg y (hr.1 y h1 h2), Rep.change (fun _ _ => rfl) hg t hr.2⟩
    · rename_i h
      rw [if_neg h] at hr
      exact Rep.change (fun _ _ => rfl) hg t hr
  · simp only [setMem_nextFree]; omega
  · simp only [setMem_nextFree, hn, hs h]
  · rw [lget_lset_ne (by have := hl.dps; omega), hl.spv]
  · rw [lget_lset_ne (by have := hl.dpo; omega), hl.sov, hnx]
  · exact lget_lset_same (by omega)

theorem Fit.three {n : Nat} (h : Fit σ true n) : σ.nextFree + n + 3 ≤ σ.size := h.2 rfl

theorem scalar_arg {t : Ty} {f : Bytes} {x a n m : Nat} (ht : t.scalar = true) (hn : t.size = n) (hnm : n ≤ m)
    (hx : x < 256 ^ n) (hty : Typed t (.num x)) :
    Arg (putLe f a m x) (fun y => a ≤ y ∧ y < a + n) true t (.num x) a := by
  unfold Arg
  rw [ht, Bool.and_self, if_pos rfl]
  subst hn
  rw [leNat_box hx hnm]
  refine ⟨fun y h1 h2 => ⟨h1, h2⟩, ?_⟩
  cases t <;> simp only [Ty.scalar, Bool.false_eq_true] at ht <;> simp only [Mv.Rep, true_and] <;>
    simp only [Typed] at hty <;> simp only [Ty.size] at hx <;> omega

theorem decScalar_run {t : Ty} (ht : t.scalar = true) : DecRun E T t := by
  intro σ R K o v a p b b' d dp sp so ow k s l is Q hp hl hk
  have ha : atom t = true := by cases t <;> simp_all [Ty.scalar, atom]
  obtain ⟨x, rfl, hx, _, hsim⟩ := hp.num ha
  have hso := hl.sov
  have hlen := hl.len
  have hsok := hl.sok
  have hdpk := hl.dpk
  have hdpo := hl.dpo
  have ho := hp.sim.off
  have hnar := hp.narrow
  have hfit := hp.fit
  have hb := hp.sim.base
  have hty := hp.typed
  have hw : width t ≤ (place p (width t)).2 := place_snd
  have e : ∀ y, lget (lset l dp y) so = (place p (width t)).2 := fun y => by rw [lget_lset_ne (by omega)]; exact hso
  have hxl := beNat_lt σ.mem (96 - (place p (width t)).2) (width t)
  rw [hx] at hxl
  obtain ⟨q, hq⟩ : ∃ q, q = (place p (width t)).2 := ⟨_, rfl⟩
  rw [← hq] at e hx hw ho
  cases t <;> simp only [Ty.scalar, Bool.false_eq_true] at ht <;> simp only [Layout.narrow, dcost, Ty.size] at hnar hfit <;>
    simp only [Typed] at hty <;> simp only [width] at hx hw hxl <;>
    simp only [decT, List.append_assoc] <;> wstep <;> refine wp_allocR hp.sim.heap hfit.1 (Nat.le_refl _) fun σ1 a1 => ?_ <;> wstep
  all_goals
    have hn := a1.nextFree
    have hsz := a1.size
    have hins := a1.inside
    have hlt := a1.heap.alloc.size_lt
    have fr : ∀ y, σ.nextFree + _ ≤ y → σ1.mem y = 0 := fun y hy => a1.heap.fresh y (hn ▸ hy)
    refine wp_slotPtr (by rw [e]; omega) (by rw [e]; omega) ?_
    rw [e]
    wstep
    rw [← bswap_beNat, show beNat σ1.mem (96 - q) _ = x by rw [a1.mem]; exact hx]
  · have h3 := hfit.2 (hnar trivial)
    refine wp_call1 swap32_spec ?_
    rintro r σ2 ⟨rfl, rfl⟩
    wstep
    rw [bswap1 hxl, show bswap 4 x / 16777216 = x from bswap4_byte hxl]
    exact dec_end ha hp hl a1.extends hn (fun y hy => putLe_out (by omega)) (fun y hy => putLe_beyond fr hxl y (by omega)) rfl
      (fun _ => rfl) (scalar_arg rfl rfl (by omega) hxl hty) hk
  · have h3 := hfit.2 (hnar trivial)
    refine wp_call1 swap32_spec ?_
    rintro r σ2 ⟨rfl, rfl⟩
    wstep
    rw [bswap1 hxl, show bswap 4 x / 16777216 = x from bswap4_byte hxl]
    exact dec_end ha hp hl a1.extends hn (fun y hy => putLe_out (by omega)) (fun y hy => putLe_beyond fr hxl y (by omega)) rfl
      (fun _ => rfl) (scalar_arg rfl rfl (by omega) hxl hp.typed) hk
  · have h3 := hfit.2 (hnar trivial)
    refine wp_call1 swap32_spec ?_
    rintro r σ2 ⟨rfl, rfl⟩
    wstep
    rw [show bswap 4 (bswap 2 x) / 65536 = x by rw [show (65536 : Nat) = 2 ^ 16 by norm_num, bswap4_half (bswap_lt 2 x), bswap_bswap, Nat.mod_eq_of_lt hxl]]
    exact dec_end ha hp hl a1.extends hn (fun y hy => putLe_out (by omega)) (fun y hy => putLe_beyond fr hxl y (by omega)) rfl
      (fun _ => rfl) (scalar_arg rfl rfl (by omega) hxl hp.typed) hk
  · refine wp_call1 swap32_spec ?_
    rintro r σ2 ⟨rfl, rfl⟩
    wstep
    rw [bswap_bswap, Nat.mod_eq_of_lt hxl]
    exact dec_end ha hp hl a1.extends hn (fun y hy => putLe_out (by omega)) (fun y hy => putLe_beyond fr hxl y (by omega)) rfl
      (fun _ => rfl) (scalar_arg rfl rfl (by omega) hxl hp.typed) hk
  · refine wp_call1 (swap64_spec (bswap_lt 8 x)) ?_
    rintro r σ2 ⟨rfl, rfl⟩
    wstep
    rw [bswap_bswap, Nat.mod_eq_of_lt hxl]
    exact dec_end ha hp hl a1.extends hn (fun y hy => putLe_out (by omega)) (fun y hy => putLe_beyond fr hxl y (by omega)) rfl
      (fun _ => rfl) (scalar_arg rfl rfl (by omega) hxl hp.typed) hk

theorem decLong_run {t : Ty} (ht : t = .u128 ∨ t = .u256) : DecRun E T t := by
  intro σ R K o v a p b b' d dp sp so ow k s l is Q hp hl hk
  have ha : atom t = true := by rcases ht with rfl | rfl <;> rfl
  obtain ⟨x, rfl, hx, _, hsim⟩ := hp.num ha
  have hso := hl.sov
  have hlen := hl.len
  have hdpk := hl.dpk
  have ho := hp.sim.off
  have hfit := hp.fit
  have hb := hp.sim.base
  have hw : width t ≤ (place p (width t)).2 := place_snd
  have hxl := beNat_lt σ.mem (96 - (place p (width t)).2) (width t)
  rw [hx] at hxl
  obtain ⟨q, hq⟩ : ∃ q, q = (place p (width t)).2 := ⟨_, rfl⟩
  rw [← hq] at hso hx hw ho
  have hlen : dp < l.length := by omega
  rcases ht with rfl | rfl
  · simp only [width] at hx hw hxl
    simp only [dcost] at hfit
    simp only [decT, List.append_assoc, List.cons_append, List.nil_append]
    refine wp_slotPtr (by omega) (by omega) ?_
    rw [hso]
    refine wp_call1 (copyHeap_copied hp.sim.heap hfit.1 (by omega)) ?_
    rintro r σ1 ⟨rfl, h1⟩
    have hn := h1.nextFree
    have hins := h1.ext.alloc.nextFree_le
    have hr : beNat σ1.mem σ.nextFree 16 = x := (beNat_ext h1.bytes).trans hx
    wstep
    refine wp_call2 (swapBytes2_spec (σ := σ1) (p := σ.nextFree) (q := σ.nextFree) (by omega) (by omega)) ?_
    rintro r σ2 ⟨rfl, rfl⟩
    rw [hr]
    refine dec_end ha hp hl h1.ext hn (fun y hy => putLe_out (by omega)) (fun y hy => putLe_out (by omega)) rfl
      (fun h => by simp [Ty.scalar] at h) ?_ hk
    unfold Arg
    simp only [Ty.scalar, Bool.and_false, Bool.false_eq_true, if_false, Mv.Rep]
    exact ⟨by rw [leNat_box hxl (Nat.le_refl _)], fun y h1 h2 => ⟨h1, h2⟩⟩
  · simp only [width] at hx hw hxl
    simp only [dcost] at hfit
    simp only [decT, List.append_assoc, List.cons_append, List.nil_append]
    refine wp_slotPtr (by omega) (by omega) ?_
    rw [hso]
    refine wp_call1 (copyHeap_copied hp.sim.heap hfit.1 (by omega)) ?_
    rintro r σ1 ⟨rfl, h1⟩
    have hn := h1.nextFree
    have hins := h1.ext.alloc.nextFree_le
    have hr : beNat σ1.mem σ.nextFree 32 = x := (beNat_ext h1.bytes).trans hx
    wstep
    refine wp_call2 (swapBytes4_spec (σ := σ1) (p := σ.nextFree) (q := σ.nextFree) (by omega) (by omega)) ?_
    rintro r σ2 ⟨rfl, rfl⟩
    rw [hr]
    refine dec_end ha hp hl h1.ext hn (fun y hy => putLe_out (by omega)) (fun y hy => putLe_out (by omega)) rfl
      (fun h => by simp [Ty.scalar] at h) ?_ hk
    unfold Arg
    simp only [Ty.scalar, Bool.and_false, Bool.false_eq_true, if_false, Mv.Rep]
    exact ⟨by rw [leNat_box hxl (Nat.le_refl _)], fun y h1 h2 => ⟨h1, h2⟩⟩

theorem beNat_pad {f g : Bytes} {a p : Nat} (hz : ∀ y, a ≤ y → y < a + 12 → g y = 0)
    (hc : ∀ i, i < 20 → g (a + 12 + i) = f (p + i)) : beNat g a 32 = beNat f p 20 := by
  have h := beNat_add g a 12 20
  rw [beNat_zero_of hz, Nat.zero_mul, Nat.zero_add, beNat_ext hc] at h
  exact h

theorem decAddress_run : DecRun E T .address := by
  intro σ R K o v a p b b' d dp sp so ow k s l is Q hp hl hk
  obtain ⟨x, rfl, hx, _, hsim⟩ := hp.num (t := .address) rfl
  have hso := hl.sov
  have hlen := hl.len
  have hdpk := hl.dpk
  have hdpo := hl.dpo
  have ho := hp.sim.off
  have hfit := hp.fit
  have hb := hp.sim.base
  have hw : width .address ≤ (place p (width .address)).2 := place_snd
  obtain ⟨q, hq⟩ : ∃ q, q = (place p (width .address)).2 := ⟨_, rfl⟩
  have e : ∀ y, lget (lset l dp y) so = q := fun y => by rw [lget_lset_ne (by omega), hso, hq]
  rw [← hq] at hx hw ho
  simp only [width] at hx hw
  simp only [dcost] at hfit
  simp only [decT, List.append_assoc]
  wstep
  refine wp_allocR hp.sim.heap hfit.1 (Nat.le_refl _) fun σ1 a1 => ?_
  have hn := a1.nextFree
  have hins := a1.inside
  have hlt := a1.heap.alloc.size_lt
  wstep
  refine wp_slotPtr (by rw [e]; omega) (by rw [e]; omega) ?_
  rw [e]
  wstep
  refine dec_end (t := .address) rfl hp hl a1.extends hn (fun y hy => copyBytes_out (by omega)) (fun y hy => copyBytes_out (by omega)) rfl
    (fun h => by simp [Ty.scalar] at h) ?_ hk
  unfold Arg
  simp only [Ty.scalar, Bool.and_false, Bool.false_eq_true, if_false, Mv.Rep]
  refine ⟨?_, fun y h1 h2 => ⟨h1, h2⟩⟩
  rw [show beNat (copyBytes σ1.mem (σ.nextFree + 12) (96 - q) 20) σ.nextFree 32 = x from ?_]
  rw [← hx]
  refine beNat_pad (fun y h1 h2 => ?_) fun i hi => ?_
  · rw [copyBytes_out (by omega), a1.mem]
    exact hp.sim.heap.fresh y h1
  · rw [copyBytes_in (by omega) (by omega), a1.mem]
    exact congrArg σ.mem (by omega)

end Rt
