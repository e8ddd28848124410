import Verif.Proof.Unpack

/-! ABI unpacking of strings, vectors and structs. -/

namespace Rt
open Wasm Abi

variable {σ σ' σ'' : Store} {E : ErrPtrs}

/-! ### Strings -/

theorem SafeEnd.fits {e : Nat} (h : SafeEnd σ.size e) (ha : AllocOk σ') (hs : σ.size ≤ σ'.size)
    (he : e ≤ σ'.size) : e + 4 ≤ σ'.size := by
  have := ha.page
  unfold SafeEnd at h
  omega

theorem allocated_mem_of {n : Nat} (h : ∀ x, σ.size ≤ x → σ.mem x = 0) : (allocated σ n).mem = σ.mem := by
  funext x
  by_cases hx : x < σ.size
  · exact allocated_mem_lt hx
  · unfold allocated
    split_ifs
    · rfl
    · dsimp only; rw [if_neg hx, h x (by omega)]

/-- Storing a byte as a 32-bit number where only zeros follow. -/
theorem put_byte {f : Bytes} {a x : Nat} (h : ∀ y, a < y → f y = 0) :
    putLe f a 4 (f x).toNat = wrBytes f a [f x] := by
  funext y
  by_cases h1 : y = a
  · subst h1
    rw [putLe_in (by omega) (by omega)]
    have := wrBytes_in (f := f) (a := y) (l := [f x]) (i := 0) (by simp)
    rw [Nat.add_zero] at this
    rw [this]
    simp
  · rw [wrBytes_out (by simp; omega)]
    by_cases h2 : a ≤ y ∧ y < a + 4
    · rw [putLe_in h2.1 h2.2, h y (by omega), Nat.div_eq_of_lt]
      · rfl
      · have := (f x).toNat_lt
        calc (f x).toNat < 256 ^ 1 := by omega
          _ ≤ 256 ^ (y - a) := Nat.pow_le_pow_right (by omega) (by omega)
    · rw [putLe_out (by omega)]

set_option maxHeartbeats 2000000 in
theorem unpackString_spec {bs : List UInt8} {lim b p : Nat} (hE : E.Valid) (hσ : Heap σ)
    (hd : Dec σ.mem lim .string (.bytes bs) b p) (hlim : lim ≤ σ.nextFree)
    (hroom : Room σ (need .string (.bytes bs))) (hfit : Fits σ.size .string (.bytes bs) σ.nextFree) :
    (unpackString E).Calls [p, b] σ (fun r σ' => ∃ w, r = [w] ∧
      Unpacked σ σ' .string (.bytes bs) w (p + 32)) := by
  rw [Dec] at hd
  obtain ⟨q, ⟨hp, hq⟩, hq1, hq2, hq3⟩ := hd
  rw [need] at hroom
  rw [Fits] at hfit
  have hr1 := hroom.1
  have hσr := hσ.setReader (r := p + 32)
  refine ⟨rfl, ?_⟩
  unfold unpackString skipVecHeader
  simp only [List.append_assoc, List.cons_append, List.nil_append, List.replicate]
  refine wp_findData hE hσ (by omega) hq (by omega) hq2 (by omega) ?_
  have hroom' : Room { σ with reader := p + 32 } (8 + bs.length * 1) := hroom.mono (by omega)
  wstep
  refine wp_call3 (allocVec_spec hσr (Nat.le_refl _) hroom') ?_
  rintro r σ1 ⟨rfl, hx1, hn1, hm1⟩
  rw [Nat.mul_one] at hn1
  have ha1 := hx1.alloc
  have hs1 := ha1.nextFree_le
  have hl1 := ha1.size_lt
  have hsz : σ.size ≤ σ1.size := hx1.size
  replace hn1 : σ1.nextFree = σ.nextFree + (8 + bs.length) := hn1
  replace hm1 : σ1.mem = putLe (putLe σ.mem σ.nextFree 4 bs.length) (σ.nextFree + 4) 4 bs.length := hm1
  have hsafe := hfit.fits ha1 hsz (by omega)
  have hz1 : ∀ x, σ.nextFree + 8 ≤ x → σ1.mem x = 0 := by
    intro x hx
    rw [hm1, putLe_out (by omega), putLe_out (by omega)]; exact hσ.fresh x (by omega)
  have hlow : ∀ x, x < σ.nextFree → σ1.mem x = σ.mem x := fun x hx => hx1.mem x hx
  have hlen1 : leNat σ1.mem σ.nextFree 4 = bs.length := by
    rw [hm1, leNat_putLe_disj (by omega), leNat_putLe_same, Nat.mod_eq_of_lt (by omega)]
  have hrd1 : σ1.reader = p + 32 := hx1.reader
  -- the end: the struct around the vector
  have fin : ∀ (M : Bytes) (l : List Nat), lget l 4 = σ.nextFree → 7 < l.length →
      (∀ x, x < σ.nextFree + 8 → M x = σ1.mem x) →
      (∀ x, σ.nextFree + 12 + bs.length ≤ x → M x = 0) →
      rdBytes M (σ.nextFree + 8) bs.length = bs →
      wp code[alloc.call, Op.ltee 7, Op.lget 4, Op.store 4 0, Op.lget 7] [4] l (σ1.setMem M)
        (retK 1 (fun r σ' => ∃ w, r = [w] ∧ Unpacked σ σ' .string (.bytes bs) w (p + 32))) := by
    intro M l hl4 hl7 h1 h2 h3
    have hc : CanAlloc (σ1.setMem M) 4 := by
      refine (Room.after (k := 8 + bs.length) (n := 4) (hroom.mono (by omega)) ?_ ?_).canAlloc ha1.setMem (Nat.le_refl _)
      · rw [setMem_nextFree, hn1]
      · exact hx1.maxPages
    have hm2 : (allocated (σ1.setMem M) 4).mem = M := by
      rw [allocated_mem_of]; · rfl
      · intro x hx
        rw [setMem_size] at hx
        exact h2 x (by omega)
    have hain := allocated_inside ha1.setMem hc
    have hok := allocated_ok ha1.setMem hc
    have hsl := hok.size_lt
    have hnf : (allocated (σ1.setMem M) 4).nextFree = σ1.nextFree + 4 := allocated_nextFree
    have hss : σ1.size ≤ (allocated (σ1.setMem M) 4).size := allocated_size_le (σ := σ1.setMem M)
    have hmx : (allocated (σ1.setMem M) 4).maxPages = σ1.maxPages := allocated_maxPages
    have hrd : (allocated (σ1.setMem M) 4).reader = σ1.reader := allocated_reader
    have hh : (allocated (σ1.setMem M) 4).host = σ1.host := allocated_host
    rw [setMem_nextFree] at hain
    refine wp_call1 (alloc_calls ha1.setMem hc) ?_
    rintro r σ' ⟨rfl, h'⟩
    rw [h']
    generalize allocated (σ1.setMem M) 4 = σ2 at *
    wstep
    refine ⟨_, rfl, ?_⟩
    rw [hl4, hm2]
    refine ⟨⟨?_, ?_, ?_, ?_, hok.setMem, hmx.trans hx1.maxPages, rfl, hh.trans hx1.host⟩, ?_, ?_, ?_,
      fun h => absurd h (by simp [MTy.plain]), fun h => absurd h (by simp [MTy.plain])⟩
    · show σ.nextFree ≤ σ2.nextFree; omega
    · show σ.size ≤ σ2.size; omega
    · intro x hx
      replace hx : x < σ.nextFree := hx
      show putLe M _ 4 _ x = σ.mem x
      rw [putLe_out (by omega), h1 x (by omega), hlow x hx]
    · intro x hx
      replace hx : σ2.nextFree ≤ x := hx
      show putLe M _ 4 _ x = 0
      rw [putLe_out (by omega), h2 x (by omega)]
    · exact hrd.trans hrd1
    · show σ2.nextFree = _; rw [need]; omega
    · intro g hg
      replace hg : ∀ x, σ.nextFree ≤ x → x < σ2.nextFree → g x = putLe M σ1.nextFree 4 σ.nextFree x := hg
      show Rep g σ2.nextFree .string (.bytes bs) σ1.nextFree
      have e1 : leNat g σ1.nextFree 4 = σ.nextFree := by
        rw [leNat_congr (g := putLe M σ1.nextFree 4 σ.nextFree) (fun x hx1 hx2 => hg x (by omega) (by omega)),
          leNat_putLe_same, Nat.mod_eq_of_lt (by omega)]
      have e2 : leNat g σ.nextFree 4 = bs.length := by
        rw [← hlen1]
        refine leNat_congr fun x hx1 hx2 => ?_
        rw [hg x (by omega) (by omega), putLe_out (by omega), h1 x (by omega)]
      rw [Rep, e1]
      refine ⟨by omega, by omega, e2, ?_⟩
      refine Eq.trans (rdBytes_congr fun x hx1 hx2 => ?_) h3
      rw [hg x (by omega) (by omega), putLe_out (by omega)]
  wstep
  by_cases h0 : bs.length = 0
  · -- one useless iteration, whose write is overwritten
    refine wp_loop (fun m l σ' => m = 0 ∧ l = [p, b, q + 32, bs.length, σ.nextFree, σ.nextFree + 8, 0, 0] ∧
      σ' = σ1) 0 ⟨rfl, rfl, rfl⟩ ?_
    rintro m l σ' ⟨rfl, rfl, h'⟩
    rw [h']
    wstep
    have hnil : bs = [] := List.length_eq_zero_iff.mp h0
    refine fin _ _ (by rfl) (by simp) ?_ ?_ ?_
    · intro x hx; exact putLe_out (by omega)
    · intro x hx; rw [putLe_out (by omega)]; exact hz1 x (by omega)
    · rw [hnil]; rfl
  · refine wp_loop (fun m l σ' => ∃ i, m + i + 1 = bs.length ∧
      l = [p, b, q + 32 + i, bs.length, σ.nextFree, σ.nextFree + 8 + i, i, 0] ∧
      σ' = σ1.setMem (wrBytes σ1.mem (σ.nextFree + 8) (bs.take i))) (bs.length - 1)
      ⟨0, by omega, by simp, by rw [List.take_zero, wrBytes_nil, setMem_self]⟩ ?_
    rintro m l σ' ⟨i, hi, rfl, rfl⟩
    have hti : (bs.take i).length = i := by rw [List.length_take]; omega
    have hbyte : wrBytes σ1.mem (σ.nextFree + 8) (bs.take i) (q + 32 + i) = bs[i] := by
      rw [wrBytes_out (by omega), hlow _ (by omega), ← rdBytes_getElem σ.mem (q + 32) bs.length i (by rw [rdBytes_length]; omega)]
      congr 1
    have hput : putLe (wrBytes σ1.mem (σ.nextFree + 8) (bs.take i)) (σ.nextFree + 8 + i) 4
        (leNat (wrBytes σ1.mem (σ.nextFree + 8) (bs.take i)) (q + 32 + i) 1) =
        wrBytes σ1.mem (σ.nextFree + 8) (bs.take (i + 1)) := by
      rw [leNat_one, put_byte, hbyte, List.take_succ_eq_append_getElem (by omega), wrBytes_append, hti]
      intro y hy
      rw [wrBytes_out (by omega), hz1 y (by omega)]
    wstep
    rw [hput]
    refine .intro (fun hlt => ?_) (fun hlt => ?_)
    · exact ⟨m - 1, by omega, i + 1, by omega, by locs, rfl⟩
    · have : i + 1 = bs.length := by omega
      rw [this, List.take_length]
      refine fin _ _ (by rfl) (by simp) ?_ ?_ ?_
      · intro x hx; exact wrBytes_out (by omega)
      · intro x hx; rw [wrBytes_out (by omega)]; exact hz1 x (by omega)
      · apply rdBytes_eq
        intro j hj
        exact wrBytes_in hj

end Rt
