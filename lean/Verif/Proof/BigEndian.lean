import Verif.Proof.Equality

/-! Big-endian numbers in memory. -/

namespace Rt
open Wasm

theorem bswap_digit (n a i : Nat) (hi : i < n) :
    bswap n a / 256 ^ i % 256 = a / 256 ^ (n - 1 - i) % 256 := by
  induction n generalizing a i with
  | zero => omega
  | succ n ih =>
    show ((a % 256) * 256 ^ n + bswap n (a / 256)) / 256 ^ i % 256 = _
    have hb := bswap_lt n (a / 256)
    rcases Nat.lt_or_ge i n with h | h
    · obtain ⟨k, rfl⟩ : ∃ k, n = i + 1 + k := ⟨n - i - 1, by omega⟩
      rw [show a % 256 * 256 ^ (i + 1 + k) + bswap (i + 1 + k) (a / 256) =
          bswap (i + 1 + k) (a / 256) + 256 ^ i * (256 * (a % 256 * 256 ^ k)) by
            rw [Nat.pow_add, Nat.pow_add]; ring,
        Nat.add_mul_div_left _ _ (by positivity), Nat.add_mul_mod_self_left, ih _ _ h,
        Nat.div_div_eq_div_mul, ← Nat.pow_succ']
      congr 2; congr 1; omega
    · have : i = n := by omega
      subst this
      rw [Nat.mul_comm, Nat.add_comm, Nat.add_mul_div_left _ _ (by positivity), Nat.div_eq_of_lt hb]
      simp

theorem beNat_digit (f : Bytes) (p n i : Nat) (hi : i < n) :
    UInt8.ofNat (beNat f p n / 256 ^ i) = f (p + (n - 1 - i)) := by
  have h := beNat_add f p (n - 1 - i + 1) i
  rw [show n - 1 - i + 1 + i = n by omega, beNat_add f p (n - 1 - i) 1, beNat_one, Nat.pow_one] at h
  have hlt := beNat_lt f (p + (n - 1 - i + 1)) i
  rw [h, Nat.mul_comm, Nat.add_comm, Nat.add_mul_div_left _ _ (by positivity), Nat.div_eq_of_lt hlt,
    Nat.zero_add]
  apply UInt8.toNat_inj.mp
  rw [UInt8.toNat_ofNat']
  have := (f (p + (n - 1 - i))).toNat_lt
  omega

/-- Masking a field of `w` bits at position `k`. -/
theorem and_field (x k w : Nat) : x &&& ((2 ^ w - 1) * 2 ^ k) = x / 2 ^ k % 2 ^ w * 2 ^ k := by
  rw [← Nat.and_two_pow_sub_one_eq_mod, ← Nat.shiftRight_eq_div_pow,
    ← Nat.shiftLeft_eq, ← Nat.shiftLeft_eq]
  apply Nat.eq_of_testBit_eq
  intro j
  simp only [Nat.testBit_and, Nat.testBit_shiftLeft, Nat.testBit_shiftRight]
  by_cases h : k ≤ j
  · simp [h, show k + (j - k) = j by omega]
  · simp [h]

theorem putBe_in {f : Bytes} {a n v x : Nat} (h1 : a ≤ x) (h2 : x < a + n) :
    putBe f a n v x = UInt8.ofNat (v / 256 ^ (a + n - 1 - x)) := by
  unfold putBe; rw [if_pos ⟨h1, h2⟩]

theorem ofNat_congr {a b : Nat} (h : a % 256 = b % 256) : UInt8.ofNat a = UInt8.ofNat b := by
  apply UInt8.toNat_inj.mp
  rw [UInt8.toNat_ofNat', UInt8.toNat_ofNat']; exact h

/-- Storing the byte-swapped number little-endian is storing the number big-endian. -/
theorem putLe_bswap (f : Bytes) (p n v : Nat) : putLe f p n (bswap n v) = putBe f p n v := by
  funext x
  by_cases h : p ≤ x ∧ x < p + n
  · rw [putLe_in h.1 h.2, putBe_in h.1 h.2]
    apply ofNat_congr
    rw [bswap_digit n v (x - p) (by omega), show n - 1 - (x - p) = p + n - 1 - x by omega]
  · rw [putLe_out (by omega), putBe_out (by omega)]

theorem leNat_putBe_same (f : Bytes) (a n v : Nat) : leNat (putBe f a n v) a n = bswap n v := by
  rw [← putLe_bswap, leNat_putLe_same, Nat.mod_eq_of_lt (bswap_lt n v)]

theorem digits_ext : ∀ n x y, x < 256 ^ n → y < 256 ^ n →
    (∀ i, i < n → x / 256 ^ i % 256 = y / 256 ^ i % 256) → x = y := by
  intro n
  induction n with
  | zero => intro x y hx hy _; simp at hx hy; omega
  | succ n ih =>
    intro x y hx hy h
    rw [Nat.pow_succ] at hx hy
    have h0 := h 0 (by omega)
    have := ih (x / 256) (y / 256) (by omega) (by omega) (by
      intro i hi
      have := h (i + 1) (by omega)
      rwa [Nat.pow_succ', ← Nat.div_div_eq_div_mul, ← Nat.div_div_eq_div_mul] at this)
    simp only [Nat.pow_zero, Nat.div_one] at h0
    omega

theorem bswap_bswap (n v : Nat) : bswap n (bswap n v) = v % 256 ^ n := by
  apply digits_ext n _ _ (bswap_lt _ _) (Nat.mod_lt _ (by positivity))
  intro i hi
  rw [bswap_digit n _ i hi, bswap_digit n _ _ (by omega), show n - 1 - (n - 1 - i) = i by omega]
  obtain ⟨k, rfl⟩ : ∃ k, n = i + 1 + k := ⟨n - i - 1, by omega⟩
  rw [Nat.pow_add, Nat.pow_add, Nat.pow_one, Nat.mul_assoc, Nat.mod_mul_right_div_self,
    Nat.mod_mul_right_mod]

theorem bswap_beNat (f : Bytes) (p n : Nat) : bswap n (beNat f p n) = leNat f p n := by
  rw [← bswap_leNat, bswap_bswap, Nat.mod_eq_of_lt (leNat_lt _ _ _)]

/-- Reading back a big-endian number. -/
theorem beNat_putBe_same (f : Bytes) (a n v : Nat) : beNat (putBe f a n v) a n = v % 256 ^ n := by
  rw [← bswap_leNat, leNat_putBe_same, bswap_bswap]

theorem leNat_putBe_disj {f : Bytes} {a n v b m : Nat} (h : b + m ≤ a ∨ a + n ≤ b) :
    leNat (putBe f a n v) b m = leNat f b m :=
  leNat_congr fun _ _ _ => putBe_out (by omega)

theorem beNat_putBe_disj {f : Bytes} {a n v b m : Nat} (h : b + m ≤ a ∨ a + n ≤ b) :
    beNat (putBe f a n v) b m = beNat f b m :=
  beNat_congr fun _ _ _ => putBe_out (by omega)

/-- A big-endian number preceded by zero bytes. -/
theorem beNat_zeros {f : Bytes} {a m n : Nat} (h : ∀ x, a ≤ x → x < a + m → f x = 0) :
    beNat f a (m + n) = beNat f (a + m) n := by
  rw [beNat_add, beNat_zero_of h, Nat.zero_mul, Nat.zero_add]

theorem beNat_inj {f g : Bytes} {a b n : Nat} (h : beNat f a n = beNat g b n) :
    ∀ i, i < n → f (a + i) = g (b + i) := by
  apply leNat_inj
  rw [← bswap_beNat, ← bswap_beNat, h]

/-- Writing a number big-endian into zeroed memory: leading zero bytes need not be written. -/
theorem putBe_zero_ext {f : Bytes} {p m n v : Nat} (hv : v < 256 ^ n)
    (hz : ∀ x, p ≤ x → x < p + m → f x = 0) : putBe f (p + m) n v = putBe f p (m + n) v := by
  funext x
  by_cases h1 : p ≤ x ∧ x < p + m
  · rw [putBe_out (by omega), putBe_in h1.1 (by omega), hz x h1.1 h1.2]
    rw [Nat.div_eq_of_lt]; · rfl
    · exact Nat.lt_of_lt_of_le hv (Nat.pow_le_pow_right (by omega) (by omega))
  · by_cases h2 : p + m ≤ x ∧ x < p + m + n
    · rw [putBe_in h2.1 h2.2, putBe_in (by omega) (by omega)]
      congr 3; omega
    · rw [putBe_out (by omega), putBe_out (by omega)]

end Rt
