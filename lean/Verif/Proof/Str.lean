import Verif.Proof.Utf8

/-! The natives of `std::string`. -/

namespace Rt
open Wasm

variable {σ : Store}

theorem and_bytes {x y m n : Nat} (hy : y < 256) (hn : n < 256) :
    (x * 256 + y) &&& (m * 256 + n) = (x &&& m) * 256 + (y &&& n) := by
  have h : ∀ a b : Nat, b < 256 → a * 256 + b = (a <<< 8) ||| b := fun a b hb => by
    rw [Nat.shiftLeft_eq, Nat.mul_comm a]
    exact Nat.two_pow_add_eq_or_of_lt (i := 8) hb a
  have hyn : y &&& n < 256 := Nat.lt_of_le_of_lt Nat.and_le_left hy
  rw [h _ _ hy, h _ _ hn, h _ _ hyn]
  apply Nat.eq_of_testBit_eq
  intro j
  simp only [Nat.testBit_and, Nat.testBit_or, Nat.testBit_shiftLeft]
  by_cases hj : 8 ≤ j
  · have h1 : ∀ v < 256, v.testBit j = false := fun v hv =>
      Nat.testBit_lt_two_pow (Nat.lt_of_lt_of_le hv (Nat.pow_le_pow_right (n := 2) (by omega) hj))
    simp [hj, h1 y hy, h1 n hn]
  · simp [hj]

theorem byte_cont : ∀ b < 256, (b &&& 0xC0 = 0x80 ↔ 0x80 ≤ b ∧ b ≤ 0xBF) := by decide +kernel
theorem byte_two : ∀ b < 256, (b &&& 0xE0 = 0xC0 ↔ 0xC0 ≤ b ∧ b ≤ 0xDF) := by decide +kernel
theorem byte_three : ∀ b < 256, (b &&& 0xF0 = 0xE0 ↔ 0xE0 ≤ b ∧ b ≤ 0xEF) := by decide +kernel
theorem byte_four : ∀ b < 256, (b &&& 0xF8 = 0xF0 ↔ 0xF0 ≤ b ∧ b ≤ 0xF7) := by decide +kernel

theorem test_two {a b : Nat} (ha : a < 256) (hb : b < 256) :
    (0xC280 ≤ a * 256 + b ∧ a * 256 + b ≤ 0xDFBF) ∧ (a * 256 + b) &&& 0xE0C0 = 0xC080 ↔
      0xC2 ≤ a ∧ a ≤ 0xDF ∧ 0x80 ≤ b ∧ b ≤ 0xBF := by
  have h := and_bytes (x := a) (y := b) (m := 0xE0) (n := 0xC0) hb (by omega)
  have h1 := byte_two a ha
  have h2 := byte_cont b hb
  have h3 : a &&& 0xE0 < 256 := Nat.lt_of_le_of_lt Nat.and_le_left ha
  have h4 : b &&& 0xC0 < 256 := Nat.lt_of_le_of_lt Nat.and_le_left hb
  simp only [Nat.reduceMul, Nat.reduceAdd] at h
  rw [h]
  omega

theorem test_three {a b c : Nat} (ha : a < 256) (hb : b < 256) (hc : c < 256) :
    (0xE0A080 ≤ (a * 256 + b) * 256 + c ∧ (a * 256 + b) * 256 + c ≤ 0xEFBFBF) ∧ ((a * 256 + b) * 256 + c) &&& 0xF0C0C0 = 0xE08080 ↔
      0xE0 ≤ a ∧ a ≤ 0xEF ∧ 0x80 ≤ b ∧ b ≤ 0xBF ∧ 0x80 ≤ c ∧ c ≤ 0xBF ∧ (a = 0xE0 → 0xA0 ≤ b) := by
  have h := and_bytes (x := a * 256 + b) (y := c) (m := 0xF0C0) (n := 0xC0) hc (by omega)
  have h' := and_bytes (x := a) (y := b) (m := 0xF0) (n := 0xC0) hb (by omega)
  have h1 := byte_three a ha
  have h2 := byte_cont b hb
  have h5 := byte_cont c hc
  have h3 : a &&& 0xF0 < 256 := Nat.lt_of_le_of_lt Nat.and_le_left ha
  have h4 : b &&& 0xC0 < 256 := Nat.lt_of_le_of_lt Nat.and_le_left hb
  have h6 : c &&& 0xC0 < 256 := Nat.lt_of_le_of_lt Nat.and_le_left hc
  simp only [Nat.reduceMul, Nat.reduceAdd] at h h'
  rw [h, h']
  omega

theorem test_four {a b c d : Nat} (ha : a < 256) (hb : b < 256) (hc : c < 256) (hd : d < 256) :
    (0xF0908080 ≤ ((a * 256 + b) * 256 + c) * 256 + d ∧ ((a * 256 + b) * 256 + c) * 256 + d ≤ 0xF48FBFBF) ∧
      (((a * 256 + b) * 256 + c) * 256 + d) &&& 0xF8C0C0C0 = 0xF0808080 ↔
      0xF0 ≤ a ∧ a ≤ 0xF4 ∧ 0x80 ≤ b ∧ b ≤ 0xBF ∧ 0x80 ≤ c ∧ c ≤ 0xBF ∧ 0x80 ≤ d ∧ d ≤ 0xBF ∧ (a = 0xF0 → 0x90 ≤ b) ∧
        (a = 0xF4 → b ≤ 0x8F) := by
  have h := and_bytes (x := (a * 256 + b) * 256 + c) (y := d) (m := 0xF8C0C0) (n := 0xC0) hd (by omega)
  have h' := and_bytes (x := a * 256 + b) (y := c) (m := 0xF8C0) (n := 0xC0) hc (by omega)
  have h'' := and_bytes (x := a) (y := b) (m := 0xF8) (n := 0xC0) hb (by omega)
  have h1 := byte_four a ha
  have h2 := byte_cont b hb
  have h5 := byte_cont c hc
  have h7 := byte_cont d hd
  have h3 : a &&& 0xF8 < 256 := Nat.lt_of_le_of_lt Nat.and_le_left ha
  have h4 : b &&& 0xC0 < 256 := Nat.lt_of_le_of_lt Nat.and_le_left hb
  have h6 : c &&& 0xC0 < 256 := Nat.lt_of_le_of_lt Nat.and_le_left hc
  have h8 : d &&& 0xC0 < 256 := Nat.lt_of_le_of_lt Nat.and_le_left hd
  simp only [Nat.reduceMul, Nat.reduceAdd] at h h' h''
  rw [h, h', h'']
  omega

theorem be_two (m : Bytes) (p : Nat) : beNat m p 2 = (m p).toNat * 256 + (m (p + 1)).toNat := by
  simp only [beNat, Nat.reducePow]; omega

theorem be_four (m : Bytes) (p : Nat) : beNat m p 4 =
    (((m p).toNat * 256 + (m (p + 1)).toNat) * 256 + (m (p + 2)).toNat) * 256 + (m (p + 3)).toNat := by
  simp only [beNat, Nat.reducePow, Nat.add_assoc, Nat.reduceAdd]; omega

theorem swap_two (m : Bytes) (p : Nat) : bswap 4 (leNat m p 2) / 65536 = beNat m p 2 := by
  rw [← bswap_leNat]
  have hl := leNat_lt m p 2
  simp only [bswap, Nat.reducePow, Nat.mul_one, Nat.add_zero] at hl ⊢
  omega

set_option maxHeartbeats 1000000 in
theorem checkUtf8_spec {q n : Nat} (hn : leNat σ.mem q 4 = n) (hq : q + 8 + n + 3 ≤ σ.size) (hs : σ.size < 2 ^ 32) :
    checkUtf8.Calls [q] σ (fun r σ' => σ' = σ ∧
      ((r = [1] ∧ ∃ i, n ≤ i ∧ Scan σ.mem (q + 8) n i) ∨
       (r = [0] ∧ ∃ i, i < n ∧ Scan σ.mem (q + 8) n i ∧ stepAt σ.mem (q + 8) i = 0))) := by
  refine ⟨rfl, ?_⟩
  unfold checkUtf8 skipVecHeader
  wstep
  rw [hn]
  refine wp_loop (fun m l τ => τ = σ ∧ ∃ i c, l = [q + 8, n, i, c] ∧ m = n - i ∧ i ≤ n + 4 ∧ Scan σ.mem (q + 8) n i)
    n ⟨rfl, 0, 0, rfl, rfl, by omega, .zero⟩ ?_
  rintro m l τ ⟨rfl, i, c, rfl, rfl, hi, hsc⟩
  wstep
  refine .intro (fun h1 => ?_) (fun h1 => ?_)
  · exact .inl ⟨i, h1, hsc⟩
  · have hA := (τ.mem (q + 8 + i)).toNat_lt
    have hB := (τ.mem (q + 8 + i + 1)).toNat_lt
    have hC := (τ.mem (q + 8 + i + 2)).toNat_lt
    have hD := (τ.mem (q + 8 + i + 3)).toNat_lt
    have key : ∀ k c, stepAt τ.mem (q + 8) i = k → 0 < k → ∃ m' < n - i, ∃ i_1 c_1,
        [q + 8, n, i + k, c] = [q + 8, n, i_1, c_1] ∧ m' = n - i_1 ∧ i_1 ≤ n + 4 ∧ Scan τ.mem (q + 8) n i_1 := by
      intro k c hk h0
      have hle : stepAt τ.mem (q + 8) i ≤ 4 := utfStep_le _ _ _ _
      have := Scan.step hsc (by omega) (by omega)
      rw [hk] at this
      exact ⟨n - (i + k), by omega, i + k, c, rfl, rfl, by omega, this⟩
    have e1 := leNat_one τ.mem (q + 8 + i)
    have e2 := be_two τ.mem (q + 8 + i)
    have e4 := be_four τ.mem (q + 8 + i)
    have hst : stepAt τ.mem (q + 8) i = utfStep (τ.mem (q + 8 + i)).toNat (τ.mem (q + 8 + i + 1)).toNat
        (τ.mem (q + 8 + i + 2)).toNat (τ.mem (q + 8 + i + 3)).toNat := rfl
    have w2 := swap_two τ.mem (q + 8 + i)
    have w4 := bswap_leNat τ.mem (q + 8 + i) 4
    generalize (τ.mem (q + 8 + i)).toNat = a at *
    generalize (τ.mem (q + 8 + i + 1)).toNat = b at *
    generalize (τ.mem (q + 8 + i + 2)).toNat = c' at *
    generalize (τ.mem (q + 8 + i + 3)).toNat = d at *
    have t2 := test_two hA hB
    have t3 := test_three hA hB hC
    have t4 := test_four hA hB hC hD
    obtain ⟨y2, v2, u2⟩ : ∃ y, bswap 4 (leNat τ.mem (q + 8 + i) 2) = y ∧ y / 65536 = a * 256 + b := ⟨_, rfl, w2.trans e2⟩
    obtain ⟨y4, v4, u4⟩ : ∃ y, bswap 4 (leNat τ.mem (q + 8 + i) 4) = y ∧ y = ((a * 256 + b) * 256 + c') * 256 + d :=
      ⟨_, rfl, w4.trans e4⟩
    clear e2 e4 w2 w4
    unfold utfNext utfTest
    wstep
    refine .intro (fun h2 => ?_) (fun h2 => ?_)
    · refine key 1 _ ?_ (by omega)
      rw [hst, utfStep, if_pos (by omega)]
    refine wp_call1 swap32_spec ?_
    rintro r σ' ⟨rfl, rfl⟩
    rw [v2]
    wstep
    rw [u2]
    rw [e1] at h2
    refine .intro (fun h3 => ?_) (fun h3 => ?_)
    · refine key 2 _ ?_ (by omega)
      rw [hst, utfStep, if_neg h2, if_pos (by omega)]
    refine .intro (fun h4 => ?_) (fun h4 => ?_)
    · refine key 2 _ ?_ (by omega)
      rw [hst, utfStep, if_neg h2, if_neg (by omega), if_pos (t2.mp h4)]
    rw [t2] at h4
    refine wp_call1 swap32_spec ?_
    rintro r σ'' ⟨rfl, rfl⟩
    rw [v4]
    wstep
    have w3 : y4 / 256 = (a * 256 + b) * 256 + c' := by omega
    rw [w3]
    refine .intro (fun h5 => ?_) (fun h5 => ?_)
    · refine .inr ⟨i, by omega, hsc, ?_⟩
      rw [hst, utfStep, if_neg h2, if_neg (by omega), if_neg h4, if_neg (by omega), if_neg (by omega)]
    refine .intro (fun h6 => ?_) (fun h6 => ?_)
    · refine key 3 _ ?_ (by omega)
      rw [t3] at h6
      rw [hst, utfStep, if_neg h2, if_neg (by omega), if_neg h4, if_pos (by omega)]
    rw [t3] at h6
    refine wp_call1 swap32_spec ?_
    rintro r σ3 ⟨rfl, rfl⟩
    rw [v4]
    wstep
    rw [u4]
    refine .intro (fun h7 => ?_) (fun h7 => ?_)
    · refine key 4 _ ?_ (by omega)
      rw [t4] at h7
      rw [hst, utfStep, if_neg h2, if_neg (by omega), if_neg h4, if_neg (by omega), if_pos (by omega)]
    · rw [t4] at h7
      refine .inr ⟨i, by omega, hsc, ?_⟩
      rw [hst, utfStep, if_neg h2, if_neg (by omega), if_neg h4, if_neg (by omega), if_neg (by omega)]

end Rt
