import Verif.Proof.StorageEnc

/-! The emitted encoder computes `enc`: numbers, fields, structs. -/

namespace Rt
open Wasm Abi Slots Mv Layout

variable {σ σ' σ'' : Store} {E : ErrPtrs} {T : Ty → Nat}

theorem bswap4_byte {n : Nat} (h : n < 256) : bswap 4 n / 2 ^ 24 = n := by
  simp only [bswap]; omega

theorem bswap4_half {n : Nat} (h : n < 65536) : bswap 4 n / 2 ^ 16 = bswap 2 n := by
  simp only [bswap]; omega

theorem bswap1 {n : Nat} (h : n < 256) : bswap 1 n = n := by
  simp only [bswap]; omega

/-- The end of the code of a number. -/
theorem wp_putNum {a so k j n x y c : Nat} {st : St} {is s l Q} (h : Sim σ a st) (hn : n ≤ st.off) (hn' : 0 < n)
    (hso : lget l so = st.off) (hsok : so < k) (hj : k ≤ j) (hjl : j < l.length) (hy : y = bswap n x)
    (hk : ∀ σ' l', Enced a σ σ' c (st.put n x) → l'.length = l.length → lget l' so = (st.put n x).off →
      (∀ j, j < k → j ≠ so → lget l' j = lget l j) → wp is s l' σ' Q) :
    wp (slotPtr so ++ code[Op.lget j, Op.store n 0] ++ is) s (lset l j y) σ Q := by
  have ho := h.off
  have h1 := h.nf
  have h2 := h.base
  have e : lget (lset l j y) so = st.off := by rw [lget_lset_ne (by omega), hso]
  rw [List.append_assoc]
  refine wp_slotPtr (by omega) (by omega) ?_
  rw [e]
  wstep
  rw [hy, putLe_bswap]
  exact hk _ _ ((h.putBe hn).mono (by omega)) (lset_length ..) (by rw [← hy, e]; rfl) fun i hi _ => lget_lset_ne (by omega)

theorem encScalar_run {t : Ty} (ht : t.scalar = true) : EncRun E T t := by
  intro σ R K o fld v w a st st' sp so ow k s l is Q hp hl hk
  have ha : atom t = true := by cases t <;> simp_all [Ty.scalar, atom]
  obtain ⟨x, rfl, rfl⟩ := enc_atom ha hp.run
  have hso := hl.sov
  have hlen := hl.len
  have hsok := hl.sok
  cases t <;> simp only [Ty.scalar, Bool.false_eq_true] at ht <;> simp only [encT, List.append_assoc] <;>
    refine wp_unbox rfl hp.safe hp.sim.heap hp.arg ?_ <;> rintro n ⟨⟩ hn <;>
    simp only [Ty.size] at hn <;> simp only [nlEnc] at hlen <;> have hw := hp.placed <;> simp only [width] at hw hk <;>
    wstep
  · refine wp_call1 swap32_spec ?_
    rintro r σ1 ⟨rfl, rfl⟩
    wstep
    exact wp_putNum hp.sim hw (by omega) hso hsok (Nat.le_refl _) (by omega) ((bswap4_byte hn).trans (bswap1 hn).symm) hk
  · refine wp_call1 swap32_spec ?_
    rintro r σ1 ⟨rfl, rfl⟩
    wstep
    exact wp_putNum hp.sim hw (by omega) hso hsok (Nat.le_refl _) (by omega) ((bswap4_byte hn).trans (bswap1 hn).symm) hk
  · refine wp_call1 swap32_spec ?_
    rintro r σ1 ⟨rfl, rfl⟩
    wstep
    exact wp_putNum hp.sim hw (by omega) hso hsok (Nat.le_refl _) (by omega) (bswap4_half hn) hk
  · refine wp_call1 swap32_spec ?_
    rintro r σ1 ⟨rfl, rfl⟩
    wstep
    exact wp_putNum hp.sim hw (by omega) hso hsok (Nat.le_refl _) (by omega) rfl hk
  · refine wp_call1 (swap64_spec (by omega)) ?_
    rintro r σ1 ⟨rfl, rfl⟩
    wstep
    exact wp_putNum hp.sim hw (by omega) hso hsok (by omega) (by omega) rfl hk

/-- An operand that is a pointer. -/
theorem Arg.ptr {f : Bytes} {R : Nat → Prop} {fld : Bool} {t : Ty} {v : Mv.Val} {w : Nat} (h : Arg f R fld t v w)
    (ht : t.scalar = false) : Mv.Rep f R t v w := by
  unfold Arg at h
  rwa [ht, Bool.and_false, if_neg (by simp)] at h

theorem encLong_run {t : Ty} (ht : t = .u128 ∨ t = .u256) : EncRun E T t := by
  intro σ R K o fld v w a st st' sp so ow k s l is Q hp hl hk
  have ha : atom t = true := by rcases ht with rfl | rfl <;> rfl
  have hr := hp.arg.ptr (by rcases ht with rfl | rfl <;> rfl)
  have hso := hl.sov
  have ho := hp.sim.off
  have hw := hp.placed
  have h1 := hp.sim.nf
  have h2 := hp.sim.base
  obtain ⟨x, rfl, rfl⟩ := enc_atom ha hp.run
  rcases ht with rfl | rfl
  · simp only [Mv.Rep] at hr
    simp only [width] at hw hk
    obtain ⟨hx, hw'⟩ := hr
    injection hx with hx
    have hb := Within.bounds hw' hp.safe (by omega)
    simp only [encT]
    rw [List.append_assoc]
    refine wp_slotPtr (by omega) (by omega) ?_
    rw [hso]
    refine wp_call2 (swapBytes2_spec (by omega) (by omega)) ?_
    rintro r σ1 ⟨rfl, rfl⟩
    refine hk _ _ ?_ rfl hso fun _ _ _ => rfl
    rw [← bswap_leNat, ← hx, putLe_bswap]
    exact (hp.sim.putBe hw).mono (Nat.zero_le _)
  · simp only [Mv.Rep] at hr
    simp only [width] at hw hk
    obtain ⟨hx, hw'⟩ := hr
    injection hx with hx
    have hb := Within.bounds hw' hp.safe (by omega)
    simp only [encT]
    rw [List.append_assoc]
    refine wp_slotPtr (by omega) (by omega) ?_
    rw [hso]
    refine wp_call2 (swapBytes4_spec (by omega) (by omega)) ?_
    rintro r σ1 ⟨rfl, rfl⟩
    refine hk _ _ ?_ rfl hso fun _ _ _ => rfl
    rw [← bswap_leNat, ← hx, putLe_bswap]
    exact (hp.sim.putBe hw).mono (Nat.zero_le _)

theorem encAddress_run : EncRun E T .address := by
  intro σ R K o fld v w a st st' sp so ow k s l is Q hp hl hk
  have hr := hp.arg.ptr rfl
  have hso := hl.sov
  have hlen := hl.len
  have hsok := hl.sok
  have ho := hp.sim.off
  have hw := hp.placed
  have h1 := hp.sim.nf
  have h2 := hp.sim.base
  have h3 := hp.sim.lt
  obtain ⟨x, rfl, rfl⟩ := enc_atom (t := .address) rfl hp.run
  simp only [Mv.Rep] at hr
  simp only [width] at hw hk
  simp only [nlEnc] at hlen
  obtain ⟨hx, hw'⟩ := hr
  injection hx with hx
  have hb := Within.bounds hw' hp.safe (by omega)
  simp only [encT, List.append_assoc]
  wstep
  have e : lget (lset l k w) so = st.off := by rw [lget_lset_ne (by omega), hso]
  refine wp_slotPtr (by omega) (by omega) ?_
  rw [e]
  wstep
  refine hk _ _ (Enced.mono (hp.sim.put hw ?_ ?_) (Nat.zero_le _)) lset_length e fun i hi _ => lget_lset_ne (by omega)
  · intro i hi
    rw [copyBytes_in (by omega) (by omega), hx, digit_beNat σ.mem w 32 _ (by omega)]
    congr 2; omega
  · intro y hy
    exact copyBytes_out (by omega)

end Rt
