/-!
# Linear memory

Bytes of a WebAssembly linear memory, little-endian and big-endian readings of ranges, and
the update operations used by stores, `memory.copy` and `memory.fill`.

This file is part of the *description of WebAssembly* (trusted base), together with basic
lemmas about it.  It has no counterpart in `/repo`.
-/

namespace Wasm

/-- Contents of the linear memory: a byte for every address. -/
abbrev Bytes := Nat → UInt8

/-- The number whose little-endian representation is the `n` bytes starting at `a`. -/
def leNat (f : Bytes) (a : Nat) : Nat → Nat
  | 0 => 0
  | n + 1 => (f a).toNat + 256 * leNat f (a + 1) n

/-- The number whose big-endian representation is the `n` bytes starting at `a`. -/
def beNat (f : Bytes) (a : Nat) : Nat → Nat
  | 0 => 0
  | n + 1 => (f a).toNat * 256 ^ n + beNat f (a + 1) n

/-- Write the `n` low bytes of `v`, little-endian, at address `a`. -/
def putLe (f : Bytes) (a n v : Nat) : Bytes :=
  fun x => if a ≤ x ∧ x < a + n then UInt8.ofNat (v / 256 ^ (x - a)) else f x

/-- Write the `n` low bytes of `v`, big-endian, at address `a`. -/
def putBe (f : Bytes) (a n v : Nat) : Bytes :=
  fun x => if a ≤ x ∧ x < a + n then UInt8.ofNat (v / 256 ^ (a + n - 1 - x)) else f x

/-- `memory.copy`: the `n` bytes at `s` are copied to `d` (overlap allowed). -/
def copyBytes (f : Bytes) (d s n : Nat) : Bytes :=
  fun x => if d ≤ x ∧ x < d + n then f (s + (x - d)) else f x

/-- `memory.fill`. -/
def fillBytes (f : Bytes) (d v n : Nat) : Bytes :=
  fun x => if d ≤ x ∧ x < d + n then UInt8.ofNat v else f x

/-! ## Lemmas -/

theorem leNat_lt (f : Bytes) (a n : Nat) : leNat f a n < 256 ^ n := by
  induction n generalizing a with
  | zero => simp [leNat]
  | succ n ih =>
    have := ih (a + 1)
    have hb := (f a).toNat_lt
    simp only [leNat, Nat.pow_succ]
    omega

theorem beNat_lt (f : Bytes) (a n : Nat) : beNat f a n < 256 ^ n := by
  induction n generalizing a with
  | zero => simp [beNat]
  | succ n ih =>
    have := ih (a + 1)
    have hb : (f a).toNat ≤ 255 := by have := (f a).toNat_lt; omega
    simp only [beNat, Nat.pow_succ]
    have := Nat.mul_le_mul_right (256 ^ n) hb
    omega

theorem leNat_congr {f g : Bytes} {a n : Nat} (h : ∀ x, a ≤ x → x < a + n → f x = g x) :
    leNat f a n = leNat g a n := by
  induction n generalizing a with
  | zero => rfl
  | succ n ih =>
    simp only [leNat]
    rw [h a (by omega) (by omega), ih (fun x h1 h2 => h x (by omega) (by omega))]

theorem beNat_congr {f g : Bytes} {a n : Nat} (h : ∀ x, a ≤ x → x < a + n → f x = g x) :
    beNat f a n = beNat g a n := by
  induction n generalizing a with
  | zero => rfl
  | succ n ih =>
    simp only [beNat]
    rw [h a (by omega) (by omega), ih (fun x h1 h2 => h x (by omega) (by omega))]

theorem leNat_add (f : Bytes) (a m n : Nat) :
    leNat f a (m + n) = leNat f a m + 256 ^ m * leNat f (a + m) n := by
  induction m generalizing a with
  | zero => simp [leNat]
  | succ m ih =>
    rw [Nat.succ_add]
    simp only [leNat]
    rw [ih (a + 1), Nat.pow_succ, show a + (m + 1) = a + 1 + m by omega]
    generalize leNat f (a + 1) m = x
    generalize leNat f (a + 1 + m) n = y
    rw [Nat.mul_add, ← Nat.mul_assoc, Nat.mul_comm 256 (256 ^ m), Nat.add_assoc]

theorem beNat_add (f : Bytes) (a m n : Nat) :
    beNat f a (m + n) = beNat f a m * 256 ^ n + beNat f (a + m) n := by
  induction m generalizing a with
  | zero => simp [beNat]
  | succ m ih =>
    rw [Nat.succ_add]
    simp only [beNat]
    rw [ih (a + 1), show a + (m + 1) = a + 1 + m by omega, Nat.pow_add, Nat.add_mul,
      Nat.mul_assoc, ← Nat.add_assoc]

theorem leNat_one (f : Bytes) (a : Nat) : leNat f a 1 = (f a).toNat := by simp [leNat]
theorem beNat_one (f : Bytes) (a : Nat) : beNat f a 1 = (f a).toNat := by simp [beNat]

/-- Two ranges hold the same number iff they hold the same bytes. -/
theorem leNat_inj {f g : Bytes} {a b n : Nat} (h : leNat f a n = leNat g b n) :
    ∀ i, i < n → f (a + i) = g (b + i) := by
  induction n generalizing a b with
  | zero => intro i hi; omega
  | succ n ih =>
    simp only [leNat] at h
    have h1 := (f a).toNat_lt
    have h2 := (g b).toNat_lt
    have e1 : (f a).toNat = (g b).toNat := by omega
    have e2 : leNat f (a + 1) n = leNat g (b + 1) n := by omega
    intro i hi
    cases i with
    | zero => simpa using UInt8.toNat_inj.mp e1
    | succ i =>
      have := ih e2 i (by omega)
      rw [show a + 1 + i = a + (i + 1) by omega, show b + 1 + i = b + (i + 1) by omega] at this
      exact this

theorem leNat_ext {f g : Bytes} {a b n : Nat} (h : ∀ i, i < n → f (a + i) = g (b + i)) :
    leNat f a n = leNat g b n := by
  induction n generalizing a b with
  | zero => rfl
  | succ n ih =>
    simp only [leNat]
    have h0 := h 0 (by omega)
    simp only [Nat.add_zero] at h0
    rw [h0, ih (a := a + 1) (b := b + 1)]
    intro i hi
    have := h (i + 1) (by omega)
    rw [show a + 1 + i = a + (i + 1) by omega, show b + 1 + i = b + (i + 1) by omega]
    exact this

theorem beNat_ext {f g : Bytes} {a b n : Nat} (h : ∀ i, i < n → f (a + i) = g (b + i)) :
    beNat f a n = beNat g b n := by
  induction n generalizing a b with
  | zero => rfl
  | succ n ih =>
    simp only [beNat]
    have h0 := h 0 (by omega)
    simp only [Nat.add_zero] at h0
    rw [h0, ih (a := a + 1) (b := b + 1)]
    intro i hi
    have := h (i + 1) (by omega)
    rw [show a + 1 + i = a + (i + 1) by omega, show b + 1 + i = b + (i + 1) by omega]
    exact this

theorem putLe_in {f : Bytes} {a n v x : Nat} (h1 : a ≤ x) (h2 : x < a + n) :
    putLe f a n v x = UInt8.ofNat (v / 256 ^ (x - a)) := by simp [putLe, h1, h2]

theorem putLe_out {f : Bytes} {a n v x : Nat} (h : x < a ∨ a + n ≤ x) :
    putLe f a n v x = f x := by
  unfold putLe; rw [if_neg]; omega

theorem putBe_out {f : Bytes} {a n v x : Nat} (h : x < a ∨ a + n ≤ x) :
    putBe f a n v x = f x := by
  unfold putBe; rw [if_neg]; omega

theorem copyBytes_out {f : Bytes} {d s n x : Nat} (h : x < d ∨ d + n ≤ x) :
    copyBytes f d s n x = f x := by
  unfold copyBytes; rw [if_neg]; omega

theorem copyBytes_in {f : Bytes} {d s n x : Nat} (h1 : d ≤ x) (h2 : x < d + n) :
    copyBytes f d s n x = f (s + (x - d)) := by
  unfold copyBytes; rw [if_pos ⟨h1, h2⟩]

theorem fillBytes_out {f : Bytes} {d v n x : Nat} (h : x < d ∨ d + n ≤ x) :
    fillBytes f d v n x = f x := by
  unfold fillBytes; rw [if_neg]; omega

theorem fillBytes_in {f : Bytes} {d v n x : Nat} (h1 : d ≤ x) (h2 : x < d + n) :
    fillBytes f d v n x = UInt8.ofNat v := by
  unfold fillBytes; rw [if_pos ⟨h1, h2⟩]

theorem leNat_putLe_disj {f : Bytes} {a n v b m : Nat} (h : b + m ≤ a ∨ a + n ≤ b) :
    leNat (putLe f a n v) b m = leNat f b m :=
  leNat_congr fun _ _ _ => putLe_out (by omega)

theorem beNat_putLe_disj {f : Bytes} {a n v b m : Nat} (h : b + m ≤ a ∨ a + n ≤ b) :
    beNat (putLe f a n v) b m = beNat f b m :=
  beNat_congr fun _ _ _ => putLe_out (by omega)

theorem leNat_putLe_aux (f : Bytes) (v : Nat) (n : Nat) :
    ∀ a b, leNat (fun x => if b ≤ x ∧ x < b + (a + n) then
        UInt8.ofNat (v / 256 ^ (x - b)) else f x) (b + a) n = v / 256 ^ a % 256 ^ n := by
  induction n with
  | zero => intro a b; simp [leNat, Nat.mod_one]
  | succ n ih =>
    intro a b
    simp only [leNat]
    rw [if_pos (by omega), show b + a - b = a by omega]
    have := ih (a + 1) b
    rw [show a + 1 + n = a + (n + 1) by omega, show b + (a + 1) = b + a + 1 by omega] at this
    rw [this, Nat.pow_succ 256 a, Nat.pow_succ 256 n, ← Nat.div_div_eq_div_mul, UInt8.toNat_ofNat']
    generalize v / 256 ^ a = w
    rw [Nat.mul_comm (256 ^ n) 256, Nat.mod_mul]

/-- Reading back what was written. -/
theorem leNat_putLe_same (f : Bytes) (a n v : Nat) :
    leNat (putLe f a n v) a n = v % 256 ^ n := by
  have := leNat_putLe_aux f v n 0 a
  simp only [Nat.zero_add, Nat.add_zero, Nat.pow_zero, Nat.div_one] at this
  exact this

theorem leNat_copyBytes_disj {f : Bytes} {d s n b m : Nat} (h : b + m ≤ d ∨ d + n ≤ b) :
    leNat (copyBytes f d s n) b m = leNat f b m :=
  leNat_congr fun _ _ _ => copyBytes_out (by omega)

theorem leNat_copyBytes_same (f : Bytes) (d s n : Nat) :
    leNat (copyBytes f d s n) d n = leNat f s n :=
  leNat_ext fun i hi => by
    rw [copyBytes_in (by omega) (by omega)]; congr 1; omega

theorem leNat_copyBytes_in {f : Bytes} {d s n b m : Nat} (h1 : d ≤ b) (h2 : b + m ≤ d + n) :
    leNat (copyBytes f d s n) b m = leNat f (s + (b - d)) m :=
  leNat_ext fun i hi => by
    rw [copyBytes_in (by omega) (by omega)]; congr 1; omega

theorem leNat_fillBytes_disj {f : Bytes} {d v n b m : Nat} (h : b + m ≤ d ∨ d + n ≤ b) :
    leNat (fillBytes f d v n) b m = leNat f b m :=
  leNat_congr fun _ _ _ => fillBytes_out (by omega)

theorem leNat_zero_of {f : Bytes} {a n : Nat} (h : ∀ x, a ≤ x → x < a + n → f x = 0) :
    leNat f a n = 0 := by
  induction n generalizing a with
  | zero => rfl
  | succ n ih =>
    simp only [leNat]
    rw [h a (by omega) (by omega), ih (fun x h1 h2 => h x (by omega) (by omega))]
    rfl

theorem beNat_zero_of {f : Bytes} {a n : Nat} (h : ∀ x, a ≤ x → x < a + n → f x = 0) :
    beNat f a n = 0 := by
  induction n generalizing a with
  | zero => rfl
  | succ n ih =>
    simp only [beNat]
    rw [h a (by omega) (by omega), ih (fun x h1 h2 => h x (by omega) (by omega))]
    simp

theorem zero_of_leNat_zero {f : Bytes} {a n : Nat} (h : leNat f a n = 0) :
    ∀ x, a ≤ x → x < a + n → f x = 0 := by
  induction n generalizing a with
  | zero => intro x h1 h2; omega
  | succ n ih =>
    simp only [leNat] at h
    intro x h1 h2
    by_cases hx : x = a
    · subst hx
      have : (f x).toNat = 0 := by omega
      exact UInt8.toNat_inj.mp (by simpa using this)
    · exact ih (a := a + 1) (by omega) x (by omega) (by omega)

/-- Writing in two pieces. -/
theorem putLe_add (f : Bytes) (a m n v : Nat) :
    putLe f a (m + n) v = putLe (putLe f a m v) (a + m) n (v / 256 ^ m) := by
  funext x
  by_cases h1 : a ≤ x ∧ x < a + m
  · rw [putLe_in h1.1 (by omega), putLe_out (by omega), putLe_in h1.1 h1.2]
  · by_cases h2 : a + m ≤ x ∧ x < a + m + n
    · rw [putLe_in (by omega) (by omega), putLe_in h2.1 h2.2, Nat.div_div_eq_div_mul, ← Nat.pow_add]
      congr 3; omega
    · rw [putLe_out (by omega), putLe_out (by omega), putLe_out (by omega)]

theorem putLe_zero (f : Bytes) (a v : Nat) : putLe f a 0 v = f := by
  funext x; exact putLe_out (by omega)

/-- Only the low bytes of the written number matter. -/
theorem putLe_congr {f : Bytes} {a n v w : Nat} (h : v % 256 ^ n = w % 256 ^ n) :
    putLe f a n v = putLe f a n w := by
  funext x
  by_cases h1 : a ≤ x ∧ x < a + n
  · rw [putLe_in h1.1 h1.2, putLe_in h1.1 h1.2]
    apply UInt8.toNat_inj.mp
    rw [UInt8.toNat_ofNat', UInt8.toNat_ofNat']
    obtain ⟨k, hk⟩ : ∃ k, n = (x - a) + 1 + k := ⟨n - (x - a) - 1, by omega⟩
    have key : ∀ u : Nat, u / 256 ^ (x - a) % 256 = u % 256 ^ n / 256 ^ (x - a) % 256 := by
      intro u
      rw [hk, Nat.pow_add, Nat.pow_add, Nat.pow_one, Nat.mul_assoc, Nat.mod_mul_right_div_self,
        Nat.mod_mul_right_mod]
    have h2 : (2 : Nat) ^ 8 = 256 := rfl
    rw [h2, key v, key w, h]
  · rw [putLe_out (by omega), putLe_out (by omega)]

/-- A write that leaves the range unchanged. -/
theorem putLe_self (f : Bytes) (a n : Nat) : putLe f a n (leNat f a n) = f := by
  have h := leNat_inj (f := putLe f a n (leNat f a n)) (g := f) (a := a) (b := a) (n := n)
    (by rw [leNat_putLe_same, Nat.mod_eq_of_lt (leNat_lt _ _ _)])
  funext x
  by_cases h1 : a ≤ x ∧ x < a + n
  · have := h (x - a) (by omega)
    rwa [show a + (x - a) = x by omega] at this
  · exact putLe_out (by omega)

theorem leNat_split (f : Bytes) (a n m : Nat) (h : m ≤ n) :
    leNat f a n = leNat f a m + 256 ^ m * leNat f (a + m) (n - m) := by
  have := leNat_add f a m (n - m)
  rwa [show m + (n - m) = n by omega] at this

/-- Reading inside a written range. -/
theorem leNat_putLe_in {f : Bytes} {a n v b m : Nat} (h1 : a ≤ b) (h2 : b + m ≤ a + n) :
    leNat (putLe f a n v) b m = v / 256 ^ (b - a) % 256 ^ m := by
  rw [← leNat_putLe_aux f v m (b - a) a, show a + (b - a) = b by omega]
  apply leNat_congr
  intro x hx1 hx2
  rw [putLe_in (by omega) (by omega), if_pos (by omega)]

/-- Memories that agree outside a range and hold the same number there are equal. -/
theorem bytes_ext {f g : Bytes} {a n : Nat} (h : ∀ x, x < a ∨ a + n ≤ x → f x = g x)
    (h' : leNat f a n = leNat g a n) : f = g := by
  funext x
  by_cases hx : a ≤ x ∧ x < a + n
  · have := leNat_inj h' (x - a) (by omega)
    rwa [show a + (x - a) = x by omega] at this
  · exact h x (by omega)

/-- Overwriting a few bytes inside a written range. -/
theorem putLe_update {f : Bytes} {p n t m v w : Nat} (h : t + m ≤ n) :
    putLe (putLe f p n v) (p + t) m w =
      putLe f p n (v % 256 ^ t + 256 ^ t * (w % 256 ^ m + 256 ^ m * (v / 256 ^ (t + m)))) := by
  apply bytes_ext (a := p) (n := n)
  · intro x hx
    rw [putLe_out (by omega), putLe_out (by omega), putLe_out (by omega)]
  · have e : n = t + (m + (n - t - m)) := by omega
    have hpt : 0 < 256 ^ t := Nat.pow_pos (by decide)
    have hpm : 0 < 256 ^ m := Nat.pow_pos (by decide)
    have hl : ∀ g : Bytes, leNat g p n = leNat g p t + 256 ^ t * (leNat g (p + t) m +
        256 ^ m * leNat g (p + t + m) (n - t - m)) := by
      intro g
      have := leNat_add g p t (m + (n - t - m))
      rwa [← e, leNat_add] at this
    have hvm : v % 256 ^ t % 256 ^ t = v % 256 ^ t := Nat.mod_mod _ _
    have hvlt : v % 256 ^ t < 256 ^ t := Nat.mod_lt _ hpt
    have r0 : ∀ u, leNat (putLe f p n u) p t = u % 256 ^ t := by
      intro u; rw [leNat_putLe_in (by omega) (by omega), show p - p = 0 by omega]
      simp only [Nat.pow_zero, Nat.div_one]
    have r1 : ∀ u, leNat (putLe f p n u) (p + t) m = u / 256 ^ t % 256 ^ m := by
      intro u; rw [leNat_putLe_in (by omega) (by omega), show p + t - p = t by omega]
    have r2 : ∀ u, leNat (putLe f p n u) (p + t + m) (n - t - m) =
        u / 256 ^ (t + m) % 256 ^ (n - t - m) := by
      intro u; rw [leNat_putLe_in (by omega) (by omega), show p + t + m - p = t + m by omega]
    rw [hl, hl (putLe f p n _), r0, r1, r2,
      leNat_putLe_disj (a := p + t) (b := p) (.inl (by omega)),
      leNat_putLe_disj (a := p + t) (b := p + t + m) (.inr (by omega)), leNat_putLe_same, r0, r2]
    have hq : (v % 256 ^ t + 256 ^ t * (w % 256 ^ m + 256 ^ m * (v / 256 ^ (t + m)))) /
        256 ^ t = w % 256 ^ m + 256 ^ m * (v / 256 ^ (t + m)) := by
      rw [Nat.add_mul_div_left _ _ hpt, Nat.div_eq_of_lt hvlt, Nat.zero_add]
    have hq2 : (v % 256 ^ t + 256 ^ t * (w % 256 ^ m + 256 ^ m * (v / 256 ^ (t + m)))) /
        256 ^ (t + m) = v / 256 ^ (t + m) := by
      rw [Nat.pow_add 256 t m, ← Nat.div_div_eq_div_mul, ← Nat.pow_add, hq,
        Nat.add_mul_div_left _ _ hpm, Nat.div_eq_of_lt (Nat.mod_lt w hpm), Nat.zero_add]
    rw [hq, hq2, Nat.add_mul_mod_self_left, hvm, Nat.add_mul_mod_self_left, Nat.mod_mod]

end Wasm
