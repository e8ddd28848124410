import Verif.Proof.Dynamic

/-! Which keys of dynamic fields have different bytes. -/

namespace Rt
open Wasm Slots Mv
open Abi (word)

theorem bytesLe_inj' {n a b : Nat} (ha : a < 256 ^ n) (hb : b < 256 ^ n) (h : bytesLe n a = bytesLe n b) : a = b := by
  have e : a % 256 ^ n = b % 256 ^ n := by
    rw [← leNat_putLe_same (fun _ => 0) 0 n a, ← leNat_putLe_same (fun _ => 0) 0 n b]
    refine leNat_congr fun x h1 h2 => ?_
    rw [putLe_in h1 h2, putLe_in h1 h2]
    have h3 : x < (bytesLe n a).length := by rw [bytesLe_length]; omega
    have h4 : x < (bytesLe n b).length := by rw [bytesLe_length]; omega
    have : (bytesLe n a)[x] = (bytesLe n b)[x] := by simp only [h]
    simpa [bytesLe] using this
  rwa [Nat.mod_eq_of_lt ha, Nat.mod_eq_of_lt hb] at e

theorem word_inj {a b : Nat} (ha : a < 256 ^ 32) (hb : b < 256 ^ 32) (h : word a = word b) : a = b := by
  have e1 := beNat_putBe_same (fun _ => 0) 0 32 a
  have e2 := beNat_putBe_same (fun _ => 0) 0 32 b
  rw [Nat.mod_eq_of_lt ha] at e1
  rw [Nat.mod_eq_of_lt hb] at e2
  have h1 := rdBytes_word e1
  have h2 := rdBytes_word e2
  rw [← e1, ← e2]
  refine beNat_congr fun x _ hx => ?_
  have : (rdBytes (putBe (fun _ => 0) 0 32 a) 0 32)[x]'(by rw [rdBytes_length]; omega) =
    (rdBytes (putBe (fun _ => 0) 0 32 b) 0 32)[x]'(by rw [rdBytes_length]; omega) := by simp only [h1, h2, h]
  rw [rdBytes_getElem, rdBytes_getElem] at this
  simpa using this

mutual
/-- The values of a type of keys. -/
def KeyVal : Ty → Val → Prop
  | .bool, v => ∃ n, v = .num n ∧ n < 2
  | .u8, v => ∃ n, v = .num n ∧ n < 2 ^ 8
  | .u16, v => ∃ n, v = .num n ∧ n < 2 ^ 16
  | .u32, v => ∃ n, v = .num n ∧ n < 2 ^ 32
  | .u64, v => ∃ n, v = .num n ∧ n < 2 ^ 64
  | .u128, v => ∃ n, v = .num n ∧ n < 2 ^ 128
  | .u256, v => ∃ n, v = .num n ∧ n < 2 ^ 256
  | .address, v => ∃ n, v = .num n ∧ n < 2 ^ 256
  | .vec t, v => ∃ vs, v = .vec vs ∧ ∀ v ∈ vs, KeyVal t v
  | .struct fs, v => ∃ vs, v = .struct vs ∧ KeyValFs fs vs
  | _, _ => False
def KeyValFs : List Ty → List Val → Prop
  | [], vs => vs = []
  | t :: ts, vs => ∃ v vs', vs = v :: vs' ∧ KeyVal t v ∧ KeyValFs ts vs'
end

mutual
theorem Rep.keyVal {f : Bytes} {R : Nat → Prop} : ∀ (t : Ty) {v : Val} {w : Nat}, keyTy t = true → Mv.Rep f R t v w → KeyVal t v
  | .bool, v, w, _, h => by simp only [Mv.Rep] at h; exact ⟨w, h⟩
  | .u8, v, w, _, h => by simp only [Mv.Rep] at h; exact ⟨w, h⟩
  | .u16, v, w, _, h => by simp only [Mv.Rep] at h; exact ⟨w, h⟩
  | .u32, v, w, _, h => by simp only [Mv.Rep] at h; exact ⟨w, h⟩
  | .u64, v, w, _, h => by simp only [Mv.Rep] at h; exact ⟨w, h⟩
  | .u128, v, w, _, h => by simp only [Mv.Rep] at h; exact ⟨_, h.1, leNat_lt f w 16⟩
  | .u256, v, w, _, h => by simp only [Mv.Rep] at h; exact ⟨_, h.1, leNat_lt f w 32⟩
  | .address, v, w, _, h => by simp only [Mv.Rep] at h; exact ⟨_, h.1, beNat_lt f w 32⟩
  | .vec t, v, w, ht, h => by
    simp only [Mv.Rep] at h
    obtain ⟨vs, rfl, -, -, -, h⟩ := h
    refine ⟨vs, rfl, fun v hv => ?_⟩
    obtain ⟨i, hi, rfl⟩ := List.mem_iff_getElem.mp hv
    exact Rep.keyVal t (by simpa only [keyTy] using ht) (h i hi)
  | .struct fs, v, w, ht, h => by
    simp only [Mv.Rep] at h
    obtain ⟨vs, rfl, h⟩ := h
    exact ⟨vs, rfl, RepFs.keyVal fs (by simpa only [keyTy] using ht) h⟩
  | .object _, _, _, ht, _ => by simp [keyTy] at ht
  | .enum _, _, _, ht, _ => by simp [keyTy] at ht
theorem RepFs.keyVal {f : Bytes} {R : Nat → Prop} : ∀ (ts : List Ty) {vs : List Val} {p : Nat}, keyTyFs ts = true → Mv.RepFs f R ts vs p → KeyValFs ts vs
  | [], vs, p, _, h => by simpa only [Mv.RepFs, KeyValFs] using h
  | t :: ts, vs, p, ht, h => by
    simp only [Mv.RepFs] at h
    obtain ⟨v, vs', rfl, -, -, h, h'⟩ := h
    simp only [keyTyFs, Bool.and_eq_true] at ht
    exact ⟨v, vs', rfl, Rep.keyVal t ht.1 h, RepFs.keyVal ts ht.2 h'⟩
end

mutual
/-- No part of the type is a vector. -/
def keyFixed : Ty → Bool
  | .vec _ => false
  | .struct fs => keyFixedFs fs
  | .object _ => false
  | .enum _ => false
  | _ => true
def keyFixedFs : List Ty → Bool
  | [] => true
  | t :: ts => keyFixed t && keyFixedFs ts
end

mutual
/-- Number of bytes of keys of a type without vectors. -/
def keyWidth : Ty → Nat
  | .bool => 1
  | .u8 => 1
  | .u16 => 2
  | .u32 => 4
  | .u64 => 8
  | .u128 => 16
  | .u256 => 32
  | .address => 32
  | .struct fs => keyWidthFs fs
  | _ => 0
def keyWidthFs : List Ty → Nat
  | [] => 0
  | t :: ts => keyWidth t + keyWidthFs ts
end

mutual
/-- Types with at most one vector, of elements without vectors, at the very end. -/
def keyDet : Ty → Bool
  | .vec t => keyFixed t && decide (0 < keyWidth t)
  | .struct fs => keyDetFs fs
  | t => keyFixed t
def keyDetFs : List Ty → Bool
  | [] => true
  | t :: ts => (keyFixed t && keyDetFs ts) || (keyDet t && ts.isEmpty)
end

mutual
theorem keyBytes_width : ∀ (t : Ty) {v : Val}, keyFixed t = true → KeyVal t v → (keyBytes t v).length = keyWidth t
  | .bool, v, _, h => by obtain ⟨n, rfl, -⟩ := h; simp only [keyBytes, keyWidth, bytesLe_length]
  | .u8, v, _, h => by obtain ⟨n, rfl, -⟩ := h; simp only [keyBytes, keyWidth, bytesLe_length]
  | .u16, v, _, h => by obtain ⟨n, rfl, -⟩ := h; simp only [keyBytes, keyWidth, bytesLe_length]
  | .u32, v, _, h => by obtain ⟨n, rfl, -⟩ := h; simp only [keyBytes, keyWidth, bytesLe_length]
  | .u64, v, _, h => by obtain ⟨n, rfl, -⟩ := h; simp only [keyBytes, keyWidth, bytesLe_length]
  | .u128, v, _, h => by obtain ⟨n, rfl, -⟩ := h; simp only [keyBytes, keyWidth, bytesLe_length]
  | .u256, v, _, h => by obtain ⟨n, rfl, -⟩ := h; simp only [keyBytes, keyWidth, bytesLe_length]
  | .address, v, _, h => by obtain ⟨n, rfl, -⟩ := h; simp only [keyBytes, keyWidth, word_length]
  | .vec t, v, hf, _ => by simp [keyFixed] at hf
  | .struct fs, v, hf, h => by
    obtain ⟨vs, rfl, h⟩ := h
    simp only [keyBytes, keyWidth]
    exact keyBytesFs_width fs (by simpa only [keyFixed] using hf) h
  | .object _, _, hf, _ => by simp [keyFixed] at hf
  | .enum _, _, hf, _ => by simp [keyFixed] at hf
theorem keyBytesFs_width : ∀ (ts : List Ty) {vs : List Val}, keyFixedFs ts = true → KeyValFs ts vs → (keyBytesFs ts vs).length = keyWidthFs ts
  | [], vs, _, h => by simp only [KeyValFs] at h; subst h; rfl
  | t :: ts, vs, hf, h => by
    obtain ⟨v, vs', rfl, h, h'⟩ := h
    simp only [keyFixedFs, Bool.and_eq_true] at hf
    simp only [keyBytesFs, keyWidthFs, List.length_append, keyBytes_width t hf.1 h, keyBytesFs_width ts hf.2 h']
end

mutual
theorem keyBytes_fixed : ∀ (t : Ty) {v v' : Val}, keyFixed t = true → KeyVal t v → KeyVal t v' → keyBytes t v = keyBytes t v' → v = v'
  | .bool, v, v', _, h, h', e => by
    obtain ⟨n, rfl, a⟩ := h; obtain ⟨m, rfl, b⟩ := h'; simp only [keyBytes] at e; rw [bytesLe_inj' (by omega) (by omega) e]
  | .u8, v, v', _, h, h', e => by
    obtain ⟨n, rfl, a⟩ := h; obtain ⟨m, rfl, b⟩ := h'; simp only [keyBytes] at e; rw [bytesLe_inj' (by omega) (by omega) e]
  | .u16, v, v', _, h, h', e => by
    obtain ⟨n, rfl, a⟩ := h; obtain ⟨m, rfl, b⟩ := h'; simp only [keyBytes] at e; rw [bytesLe_inj' (by omega) (by omega) e]
  | .u32, v, v', _, h, h', e => by
    obtain ⟨n, rfl, a⟩ := h; obtain ⟨m, rfl, b⟩ := h'; simp only [keyBytes] at e; rw [bytesLe_inj' (by omega) (by omega) e]
  | .u64, v, v', _, h, h', e => by
    obtain ⟨n, rfl, a⟩ := h; obtain ⟨m, rfl, b⟩ := h'; simp only [keyBytes] at e; rw [bytesLe_inj' (by omega) (by omega) e]
  | .u128, v, v', _, h, h', e => by
    obtain ⟨n, rfl, a⟩ := h; obtain ⟨m, rfl, b⟩ := h'; simp only [keyBytes] at e; rw [bytesLe_inj' (by omega) (by omega) e]
  | .u256, v, v', _, h, h', e => by
    obtain ⟨n, rfl, a⟩ := h; obtain ⟨m, rfl, b⟩ := h'; simp only [keyBytes] at e; rw [bytesLe_inj' (by omega) (by omega) e]
  | .address, v, v', _, h, h', e => by
    obtain ⟨n, rfl, a⟩ := h; obtain ⟨m, rfl, b⟩ := h'; simp only [keyBytes] at e; rw [word_inj (by omega) (by omega) e]
  | .vec t, _, _, hf, _, _, _ => by simp [keyFixed] at hf
  | .struct fs, v, v', hf, h, h', e => by
    obtain ⟨vs, rfl, h⟩ := h
    obtain ⟨vs', rfl, h'⟩ := h'
    simp only [keyBytes] at e
    rw [keyBytesFs_fixed fs (by simpa only [keyFixed] using hf) h h' e]
  | .object _, _, _, hf, _, _, _ => by simp [keyFixed] at hf
  | .enum _, _, _, hf, _, _, _ => by simp [keyFixed] at hf
theorem keyBytesFs_fixed : ∀ (ts : List Ty) {vs vs' : List Val}, keyFixedFs ts = true → KeyValFs ts vs → KeyValFs ts vs' →
    keyBytesFs ts vs = keyBytesFs ts vs' → vs = vs'
  | [], vs, vs', _, h, h', _ => by simp only [KeyValFs] at h h'; rw [h, h']
  | t :: ts, vs, vs', hf, h, h', e => by
    obtain ⟨v, us, rfl, h1, h2⟩ := h
    obtain ⟨v', us', rfl, h1', h2'⟩ := h'
    simp only [keyFixedFs, Bool.and_eq_true] at hf
    simp only [keyBytesFs] at e
    obtain ⟨e1, e2⟩ := List.append_inj e (by rw [keyBytes_width t hf.1 h1, keyBytes_width t hf.1 h1'])
    rw [keyBytes_fixed t hf.1 h1 h1' e1, keyBytesFs_fixed ts hf.2 h2 h2' e2]
end

theorem keyBytes_vec {t : Ty} (hf : keyFixed t = true) (hw : 0 < keyWidth t) : ∀ {vs vs' : List Val}, (∀ v ∈ vs, KeyVal t v) → (∀ v ∈ vs', KeyVal t v) →
    (vs.flatMap fun v => keyBytes t v) = (vs'.flatMap fun v => keyBytes t v) → vs = vs'
  | [], [], _, _, _ => rfl
  | [], v :: vs, _, h', e => by
    have := congrArg List.length e
    have h2 := keyBytes_width t hf (h' v List.mem_cons_self)
    simp only [List.flatMap_nil, List.flatMap_cons, List.length_append, List.length_nil] at this
    omega
  | v :: vs, [], h, _, e => by
    have := congrArg List.length e
    have h2 := keyBytes_width t hf (h v List.mem_cons_self)
    simp only [List.flatMap_nil, List.flatMap_cons, List.length_append, List.length_nil] at this
    omega
  | v :: vs, v' :: vs', h, h', e => by
    simp only [List.flatMap_cons] at e
    obtain ⟨e1, e2⟩ := List.append_inj e (by rw [keyBytes_width t hf (h v List.mem_cons_self), keyBytes_width t hf (h' v' List.mem_cons_self)])
    rw [keyBytes_fixed t hf (h v List.mem_cons_self) (h' v' List.mem_cons_self) e1,
      keyBytes_vec hf hw (fun u hu => h u (List.mem_cons_of_mem _ hu)) (fun u hu => h' u (List.mem_cons_of_mem _ hu)) e2]

mutual
theorem keyBytes_det : ∀ (t : Ty) {v v' : Val}, keyDet t = true → KeyVal t v → KeyVal t v' → keyBytes t v = keyBytes t v' → v = v'
  | .vec t, v, v', hd, h, h', e => by
    obtain ⟨vs, rfl, h⟩ := h
    obtain ⟨vs', rfl, h'⟩ := h'
    simp only [keyDet, Bool.and_eq_true, decide_eq_true_eq] at hd
    simp only [keyBytes] at e
    rw [keyBytes_vec hd.1 hd.2 h h' e]
  | .struct fs, v, v', hd, h, h', e => by
    obtain ⟨vs, rfl, h⟩ := h
    obtain ⟨vs', rfl, h'⟩ := h'
    simp only [keyBytes] at e
    rw [keyBytesFs_det fs (by simpa only [keyDet] using hd) h h' e]
  | .bool, _, _, hd, h, h', e => keyBytes_fixed _ hd h h' e
  | .u8, _, _, hd, h, h', e => keyBytes_fixed _ hd h h' e
  | .u16, _, _, hd, h, h', e => keyBytes_fixed _ hd h h' e
  | .u32, _, _, hd, h, h', e => keyBytes_fixed _ hd h h' e
  | .u64, _, _, hd, h, h', e => keyBytes_fixed _ hd h h' e
  | .u128, _, _, hd, h, h', e => keyBytes_fixed _ hd h h' e
  | .u256, _, _, hd, h, h', e => keyBytes_fixed _ hd h h' e
  | .address, _, _, hd, h, h', e => keyBytes_fixed _ hd h h' e
  | .object _, _, _, hd, _, _, _ => by simp [keyDet, keyFixed] at hd
  | .enum _, _, _, hd, _, _, _ => by simp [keyDet, keyFixed] at hd
theorem keyBytesFs_det : ∀ (ts : List Ty) {vs vs' : List Val}, keyDetFs ts = true → KeyValFs ts vs → KeyValFs ts vs' →
    keyBytesFs ts vs = keyBytesFs ts vs' → vs = vs'
  | [], vs, vs', _, h, h', _ => by simp only [KeyValFs] at h h'; rw [h, h']
  | t :: ts, vs, vs', hd, h, h', e => by
    obtain ⟨v, us, rfl, h1, h2⟩ := h
    obtain ⟨v', us', rfl, h1', h2'⟩ := h'
    simp only [keyDetFs, Bool.or_eq_true, Bool.and_eq_true] at hd
    simp only [keyBytesFs] at e
    rcases hd with ⟨hf, hd⟩ | ⟨hd, hts⟩
    · obtain ⟨e1, e2⟩ := List.append_inj e (by rw [keyBytes_width t hf h1, keyBytes_width t hf h1'])
      rw [keyBytes_fixed t hf h1 h1' e1, keyBytesFs_det ts hd h2 h2' e2]
    · rw [List.isEmpty_iff] at hts
      subst hts
      simp only [KeyValFs] at h2 h2'
      subst h2 h2'
      simp only [keyBytesFs, List.append_nil] at e
      rw [keyBytes_det t hd h1 h1' e]
end

end Rt
