import Verif.Proof.Layout
import Verif.Proof.BigEndian

/-!
# What the storage code computes

The encoder as a function on storage words: the code keeps one slot in a buffer and writes it back
when it moves on.  `none` stands for runs outside the scope of the model (slots past `2^256`, stored
vectors that get shorter).
-/

namespace Layout
open Mv Rt

/-! ### Digits -/

def digit (w j : Nat) : Nat := w / 256 ^ j % 256

/-- `i` digits of `w`, then those of `r`. -/
def low (w i r : Nat) : Nat := w % 256 ^ i + 256 ^ i * r

/-- `n` digits of `w` from digit `i` on replaced by those of `x`. -/
def setDig (w i n x : Nat) : Nat := low w i (low x n (w / 256 ^ (i + n)))

theorem digit_low (w i r j : Nat) : digit (low w i r) j = if j < i then digit w j else digit r (j - i) := by
  unfold digit low
  split
  · rename_i h
    obtain ⟨k, rfl⟩ : ∃ k, i = j + 1 + k := ⟨i - j - 1, by omega⟩
    have e1 : w % 256 ^ (j + 1 + k) + 256 ^ (j + 1 + k) * r =
        w % 256 ^ (j + 1 + k) + 256 ^ j * (256 * (256 ^ k * r)) := by ring
    rw [e1, Nat.add_mul_div_left _ _ (Nat.pow_pos (by omega)), Nat.add_mul_mod_self_left]
    rw [Nat.pow_add, Nat.pow_add, Nat.pow_one, Nat.mul_assoc, Nat.mod_mul_right_div_self, Nat.mod_mul_right_mod]
  · rename_i h
    obtain ⟨k, rfl⟩ : ∃ k, j = i + k := ⟨j - i, by omega⟩
    rw [Nat.pow_add, ← Nat.div_div_eq_div_mul, Nat.add_mul_div_left _ _ (Nat.pow_pos (by omega)),
      Nat.div_eq_of_lt (Nat.mod_lt _ (Nat.pow_pos (by omega))), Nat.zero_add]
    congr 3; omega

theorem digit_div (w i j : Nat) : digit (w / 256 ^ i) j = digit w (i + j) := by
  unfold digit; rw [Nat.div_div_eq_div_mul, ← Nat.pow_add]

theorem digit_setDig (w i n x j : Nat) :
    digit (setDig w i n x) j = if i ≤ j ∧ j < i + n then digit x (j - i) else digit w j := by
  unfold setDig
  rw [digit_low, digit_low, digit_div]
  by_cases h1 : j < i
  · rw [if_pos h1, if_neg (by omega)]
  · rw [if_neg h1]
    by_cases h2 : j - i < n
    · rw [if_pos h2, if_pos (by omega)]
    · rw [if_neg h2, if_neg (by omega)]; congr 1; omega

theorem digit_dig (w i n j : Nat) (h : j < n) : digit (dig w i n) j = digit w (i + j) := by
  unfold digit dig
  obtain ⟨k, rfl⟩ : ∃ k, n = j + (1 + k) := ⟨n - j - 1, by omega⟩
  rw [Nat.pow_add, Nat.mod_mul_right_div_self, Nat.pow_add, Nat.pow_one, Nat.mod_mul_right_mod,
    Nat.div_div_eq_div_mul, ← Nat.pow_add]

theorem dig_lt (w i n : Nat) : dig w i n < 256 ^ n := Nat.mod_lt _ (Nat.pow_pos (by omega))

theorem dig_congr {w w' i n : Nat} (h : ∀ j, i ≤ j → j < i + n → digit w j = digit w' j) :
    dig w i n = dig w' i n := by
  refine digits_ext n _ _ (dig_lt ..) (dig_lt ..) fun j hj => ?_
  have := h (i + j) (by omega) (by omega)
  rw [← digit_dig w i n j hj, ← digit_dig w' i n j hj] at this
  exact this

theorem dig_setDig_same (w i n x : Nat) : dig (setDig w i n x) i n = x % 256 ^ n := by
  have : x % 256 ^ n = dig x 0 n := by simp [dig]
  rw [this]
  refine digits_ext n _ _ (dig_lt ..) (dig_lt ..) fun j hj => ?_
  have h1 := digit_dig (setDig w i n x) i n j hj
  have h2 := digit_dig x 0 n j hj
  unfold digit at h1 h2
  rw [h1, h2]
  have := digit_setDig w i n x (i + j)
  rw [if_pos (by omega)] at this
  unfold digit at this
  rw [this]; congr 3; omega

theorem dig_self {x n : Nat} (h : x < 256 ^ n) : dig x 0 n = x := by
  unfold dig; rw [Nat.pow_zero, Nat.div_one, Nat.mod_eq_of_lt h]

/-! ### The encoder -/

def upd (S : Nat → Nat) (k v : Nat) : Nat → Nat := fun x => if x = k then v else S x

theorem upd_same (S : Nat → Nat) (k v : Nat) : upd S k v k = v := if_pos rfl
theorem upd_ne (S : Nat → Nat) {k x : Nat} (v : Nat) (h : x ≠ k) : upd S k v x = S x := if_neg h

/-- State of the encoder: storage, buffer, current slot, bytes of it in use. -/
structure St where
  stor : Nat → Nat
  buf : Nat
  slot : Nat
  off : Nat

namespace St

def pos (st : St) : Pos := (st.slot, st.off)

/-- Storage with the buffer written back. -/
def view (st : St) : Nat → Nat := upd st.stor st.slot st.buf

def flush (st : St) : St := { st with stor := st.view }

def put (st : St) (n x : Nat) : St := { st with buf := setDig st.buf (st.off - n) n x }

def acc (st : St) (n : Nat) : Option St :=
  if st.off + n ≤ 32 then some { st with off := st.off + n }
  else if st.slot + 1 < 2 ^ 256 then some ⟨st.view, 0, st.slot + 1, n⟩ else none

/-- Moving on to the end of an enum. -/
def fill (st : St) (q : Pos) : Option St :=
  if st.slot = q.1 then some { st with off := q.2 }
  else if st.slot < q.1 then some ⟨fun x => if st.slot < x ∧ x ≤ q.1 then 0 else st.view x, 0, q.1, q.2⟩
  else none

end St

/-- The value is stored as a number. -/
def atom : Ty → Bool
  | .vec _ | .struct _ | .object _ | .enum _ => false
  | _ => true

/-- Consecutive elements of the same type. -/
def encEls (w : Nat) (f : Val → St → Option St) : List Val → St → Option St
  | [], st => some st
  | v :: vs, st => (st.acc w).bind fun s1 => (f v s1).bind fun s2 => encEls w f vs s2

mutual
/-- `encT`, after the slot has been advanced. -/
def enc (K : List UInt8 → Nat) (T : Ty → Nat) : Nat → Ty → Val → St → Option St
  | o, .struct fs, .struct vs, st => (encs K T o fs vs st).map St.flush
  | o, .enum vss, .variant i vs, st =>
      let q := next (.enum vss) st.pos
      if q.1 < 2 ^ 256 ∧ i < 256 then
        (st.acc 1).bind fun s1 => (encVar K T o vss i vs (s1.put 1 i)).bind fun s2 => s2.fill q
      else none
  | o, .vec t, .vec vs, st =>
      if st.stor st.slot % 2 ^ 32 ≤ vs.length then
        if vs.isEmpty then some ⟨st.stor, 0, st.slot, 32⟩ else
        (encEls (width t) (fun v s => enc K T o t v s) vs
          ⟨st.stor, st.stor st.slot % 2 ^ 256, elems K st.slot, 0⟩).map fun s1 =>
          ⟨s1.view, vs.length, st.slot, 32⟩
      else none
  | o, .object (u :: fs), .object _ (uid :: vs), st =>
      (encs K T (idOf uid) fs vs
        ⟨st.stor, T (.object (u :: fs)), Slots.objectSlot K o (idOf uid), 8⟩).map fun s1 =>
        ⟨s1.view, idOf uid, st.slot, 32⟩
  | _, t, .num n, st => if atom t then some (st.put (width t) n) else none
  | _, _, _, _ => none
def encs (K : List UInt8 → Nat) (T : Ty → Nat) : Nat → List Ty → List Val → St → Option St
  | _, [], [], st => some st
  | o, t :: ts, v :: vs, st =>
      (st.acc (width t)).bind fun s1 => (enc K T o t v s1).bind fun s2 => encs K T o ts vs s2
  | _, _, _, _ => none
def encVar (K : List UInt8 → Nat) (T : Ty → Nat) : Nat → List (List Ty) → Nat → List Val → St → Option St
  | o, fs :: _, 0, vs, st => encs K T o fs vs st
  | o, _ :: vss, i + 1, vs, st => encVar K T o vss i vs st
  | _, [], _, _, _ => none
end

/-- A field: the slot is advanced first. -/
def encF (K : List UInt8 → Nat) (T : Ty → Nat) (o : Nat) (t : Ty) (v : Val) (st : St) : Option St :=
  (st.acc (width t)).bind (enc K T o t v)

mutual
/-- Numbers are in range; addresses have 20 bytes. -/
def Small : Ty → Val → Prop
  | .struct fs, .struct vs => SmallFs fs vs
  | .enum vss, .variant i vs => SmallVar vss i vs
  | .vec t, .vec vs => vs.length < 2 ^ 32 ∧ ∀ v ∈ vs, Small t v
  | .object (_ :: fs), .object _ (uid :: vs) => idOf uid < 2 ^ 256 ∧ SmallFs fs vs
  | t, .num n => atom t = true ∧ n < 256 ^ width t
  | _, _ => False
def SmallFs : List Ty → List Val → Prop
  | [], [] => True
  | t :: ts, v :: vs => Small t v ∧ SmallFs ts vs
  | _, _ => False
def SmallVar : List (List Ty) → Nat → List Val → Prop
  | fs :: _, 0, vs => SmallFs fs vs
  | _ :: vss, i + 1, vs => SmallVar vss i vs
  | [], _, _ => False
end

end Layout
