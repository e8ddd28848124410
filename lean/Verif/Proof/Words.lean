import Verif.Tac

/-! Numbers of two and four 8-byte words. -/

namespace Rt
open Wasm

theorem putWords2 (f : Bytes) (p w v0 v1 : Nat) (h0 : v0 % 256 ^ 8 = w % 256 ^ 8)
    (h1 : v1 % 256 ^ 8 = w / 256 ^ 8 % 256 ^ 8) :
    putLe (putLe f p 8 v0) (p + 8) 8 v1 = putLe f p 16 w := by
  rw [show (16 : Nat) = 8 + 8 from rfl, putLe_add, putLe_congr h0, putLe_congr h1]

theorem putWords4 (f : Bytes) (p w v0 v1 v2 v3 : Nat) (h0 : v0 % 256 ^ 8 = w % 256 ^ 8)
    (h1 : v1 % 256 ^ 8 = w / 256 ^ 8 % 256 ^ 8) (h2 : v2 % 256 ^ 8 = w / 256 ^ 16 % 256 ^ 8)
    (h3 : v3 % 256 ^ 8 = w / 256 ^ 24 % 256 ^ 8) :
    putLe (putLe (putLe (putLe f p 8 v0) (p + 8) 8 v1) (p + 16) 8 v2) (p + 24) 8 v3 =
      putLe f p 32 w := by
  rw [putWords2 f p w v0 v1 h0 h1, show (32 : Nat) = 16 + 8 + 8 from rfl, putLe_add, putLe_add,
    putLe_congr h2, putLe_congr h3]

theorem leNat_two (f : Bytes) (p : Nat) :
    leNat f p 16 = leNat f p 8 + 256 ^ 8 * leNat f (p + 8) 8 := leNat_add f p 8 8

theorem leNat_four (f : Bytes) (p : Nat) :
    leNat f p 32 = leNat f p 8 + 256 ^ 8 * (leNat f (p + 8) 8 + 256 ^ 8 * (leNat f (p + 16) 8 +
      256 ^ 8 * leNat f (p + 24) 8)) := by
  rw [show (32 : Nat) = 8 + (8 + (8 + 8)) from rfl, leNat_add, leNat_add, leNat_add]

theorem word2 {x y : Nat} (hx : x < 256 ^ 8) :
    x % 256 ^ 8 = (x + 256 ^ 8 * y) % 256 ^ 8 ∧
      y % 256 ^ 8 = (x + 256 ^ 8 * y) / 256 ^ 8 % 256 ^ 8 := by
  norm_num at *
  omega

theorem word4 {x y z u : Nat} (hx : x < 256 ^ 8) (hy : y < 256 ^ 8) (hz : z < 256 ^ 8) :
    x % 256 ^ 8 = (x + 256 ^ 8 * (y + 256 ^ 8 * (z + 256 ^ 8 * u))) % 256 ^ 8 ∧
    y % 256 ^ 8 = (x + 256 ^ 8 * (y + 256 ^ 8 * (z + 256 ^ 8 * u))) / 256 ^ 8 % 256 ^ 8 ∧
    z % 256 ^ 8 = (x + 256 ^ 8 * (y + 256 ^ 8 * (z + 256 ^ 8 * u))) / 256 ^ 16 % 256 ^ 8 ∧
    u % 256 ^ 8 = (x + 256 ^ 8 * (y + 256 ^ 8 * (z + 256 ^ 8 * u))) / 256 ^ 24 % 256 ^ 8 := by
  norm_num at *
  omega

theorem beNat_two (f : Bytes) (p : Nat) :
    beNat f p 16 = beNat f (p + 8) 8 + 256 ^ 8 * beNat f p 8 := by
  rw [show (16 : Nat) = 8 + 8 from rfl, beNat_add, Nat.mul_comm, Nat.add_comm]

theorem beNat_four (f : Bytes) (p : Nat) :
    beNat f p 32 = beNat f (p + 24) 8 + 256 ^ 8 * (beNat f (p + 16) 8 + 256 ^ 8 * (beNat f (p + 8) 8 +
      256 ^ 8 * beNat f p 8)) := by
  rw [show (32 : Nat) = 8 + (8 + (8 + 8)) from rfl, beNat_add, beNat_add, beNat_add]
  rw [Nat.pow_add 256 8 (8 + 8), Nat.pow_add 256 8 8]
  rw [show p + 8 + 8 = p + 16 from rfl, show p + 16 + 8 = p + 24 from rfl]
  generalize beNat f (p + 24) 8 = x
  generalize beNat f (p + 16) 8 = y
  generalize beNat f (p + 8) 8 = z
  generalize beNat f p 8 = u
  ring

end Rt
