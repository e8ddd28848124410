import Verif.Rt.TypeHash
import Verif.Proof.Ascii
import Verif.Proof.Router2

/-!
# What is hashed determines the type
-/

namespace TyHash
open Rt

/-- An identifier of Move: letters, digits and underscores. -/
def Ident (s : List UInt8) : Prop := s ≠ [] ∧ ∀ b ∈ s, 48 ≤ b.toNat ∧ b.toNat ≤ 122

instance (s : List UInt8) : Decidable (Ident s) := by unfold Ident; infer_instance

theorem toNat_inj {s t : List UInt8} (h : s.map (·.toNat) = t.map (·.toNat)) : s = t := by
  refine (List.map_injective_iff.mpr ?_) h
  exact fun a b h => UInt8.toNat_inj.mp h

theorem bytes255 : ∀ {s t : List UInt8} {r q : List Nat}, (∀ b ∈ s, b.toNat < 255) → (∀ b ∈ t, b.toNat < 255) →
    s.map (·.toNat) ++ 255 :: r = t.map (·.toNat) ++ 255 :: q → s = t ∧ r = q
  | [], [], _, _, _, _, h => ⟨rfl, by simpa using h⟩
  | [], b :: t, _, _, _, ht, h => by
    simp only [List.map_cons, List.map_nil, List.nil_append, List.cons_append, List.cons.injEq] at h
    have := ht b (by simp)
    omega
  | a :: s, [], _, _, hs, _, h => by
    simp only [List.map_cons, List.map_nil, List.nil_append, List.cons_append, List.cons.injEq] at h
    have := hs a (by simp)
    omega
  | a :: s, b :: t, _, _, hs, ht, h => by
    simp only [List.map_cons, List.cons_append, List.cons.injEq] at h
    obtain ⟨rfl, rfl⟩ := bytes255 (fun b hb => hs b (by simp [hb])) (fun b hb => ht b (by simp [hb])) h.2
    exact ⟨by rw [UInt8.toNat_inj.mp h.1], rfl⟩

theorem leBytes_low : ∀ {s : List UInt8}, (∀ b ∈ s, 48 ≤ b.toNat) → s ≠ [] → 48 * 256 ^ (s.length - 1) ≤ leBytes s
  | [], _, h => absurd rfl h
  | [a], h, _ => by have := h a (by simp); simpa [leBytes] using this
  | a :: b :: s, h, _ => by
    have := leBytes_low (s := b :: s) (fun c hc => h c (by simp [hc])) (by simp)
    simp only [List.length_cons, Nat.add_sub_cancel, leBytes] at this ⊢
    rw [Nat.pow_succ]
    omega

/-- The first word of a string of identifier characters and what follows it. -/
theorem words_ident : ∀ {k j : Nat} {s t : List UInt8} {r q : List Nat}, s.length < k → t.length < j →
    (∀ b ∈ s, 48 ≤ b.toNat ∧ b.toNat ≤ 122) → (∀ b ∈ t, 48 ≤ b.toNat ∧ b.toNat ≤ 122) →
    words k s ++ 255 :: r = words j t ++ 255 :: q → s = t ∧ r = q
  | 0, _, _, _, _, _, h, _, _, _, _ => by omega
  | _ + 1, 0, _, _, _, _, _, h, _, _, _ => by omega
  | k + 1, j + 1, s, t, r, q, hk, hj, hs, ht, h => by
    have lo : ∀ {s : List UInt8} {n : Nat}, (∀ b ∈ s, 48 ≤ b.toNat ∧ b.toNat ≤ 122) → 0 < n → n ≤ s.length →
        48 * 256 ^ (n - 1) ≤ leBytes (s.take n) ∧ leBytes (s.take n) < 256 ^ n := by
      intro s n hs h0 hn
      have hl : (s.take n).length = n := by simp; omega
      have h1 := leBytes_low (s := s.take n) (fun b hb => (hs b (List.mem_of_mem_take hb)).1)
        (by intro h; rw [h] at hl; simp at hl; omega)
      have h2 := leBytes_lt (s.take n)
      rw [hl] at h1 h2
      exact ⟨h1, h2⟩
    have small : ∀ {s : List UInt8} {r : List Nat} {w : Nat} {q : List Nat}, (∀ b ∈ s, 48 ≤ b.toNat ∧ b.toNat ≤ 122) →
        s.map (·.toNat) ++ 255 :: r = w :: q → w < 256 := by
      intro s r w q hs h
      cases s with
      | nil => simp at h; omega
      | cons b s => simp at h; have := hs b (by simp); omega
    simp only [words] at h
    split_ifs at h
    · simp only [List.cons_append, List.cons.injEq] at h
      have e1 := leBytes_inj (by simp; omega) h.1
      obtain ⟨e2, rfl⟩ := words_ident (k := k) (j := j) (by simp; omega) (by simp; omega)
        (fun b hb => hs b (List.mem_of_mem_drop hb)) (fun b hb => ht b (List.mem_of_mem_drop hb)) h.2
      exact ⟨by rw [← List.take_append_drop 8 s, e1, e2, List.take_append_drop], rfl⟩
    · simp only [List.cons_append, List.cons.injEq] at h
      have h5 := lo hs (n := 8) (by omega) (by assumption)
      have h6 := lo ht (n := 4) (by omega) (by assumption)
      omega
    · have := small ht (h.symm.trans (by rw [List.cons_append]))
      have h5 := lo hs (n := 8) (by omega) (by assumption)
      omega
    · simp only [List.cons_append, List.cons.injEq] at h
      have h5 := lo hs (n := 4) (by omega) (by assumption)
      have h6 := lo ht (n := 8) (by omega) (by assumption)
      omega
    · simp only [List.cons_append, List.cons.injEq] at h
      have e1 := leBytes_inj (by simp; omega) h.1
      obtain ⟨e2, rfl⟩ := bytes255 (fun b hb => by have := hs b (List.mem_of_mem_drop hb); omega)
        (fun b hb => by have := ht b (List.mem_of_mem_drop hb); omega) h.2
      exact ⟨by rw [← List.take_append_drop 4 s, e1, e2, List.take_append_drop], rfl⟩
    · have := small ht (h.symm.trans (by rw [List.cons_append]))
      have h5 := lo hs (n := 4) (by omega) (by assumption)
      omega
    · have := small hs (h.trans (by rw [List.cons_append]))
      have h5 := lo ht (n := 8) (by omega) (by assumption)
      omega
    · have := small hs (h.trans (by rw [List.cons_append]))
      have h5 := lo ht (n := 4) (by omega) (by assumption)
      omega
    · exact bytes255 (fun b hb => by have := hs b hb; omega) (fun b hb => by have := ht b hb; omega) h

theorem strW_inj {s t : List UInt8} {r q : List Nat} (hs : Ident s) (ht : Ident t) (h : strW s ++ r = strW t ++ q) :
    s = t ∧ r = q := by
  unfold strW at h
  rw [List.append_assoc, List.append_assoc] at h
  exact words_ident (Nat.lt_succ_self _) (Nat.lt_succ_self _) hs.2 ht.2 h

theorem words_inj : ∀ {k : Nat} {s t : List UInt8} {r q : List Nat}, s.length = t.length → s.length < k →
    words k s ++ r = words k t ++ q → s = t ∧ r = q
  | 0, _, _, _, _, _, h, _ => by omega
  | k + 1, s, t, r, q, hl, hk, h => by
    simp only [words, hl] at h
    split_ifs at h with h1 h2
    · simp only [List.cons_append, List.cons.injEq] at h
      have e1 := leBytes_inj (by simp; omega) h.1
      obtain ⟨e2, rfl⟩ := words_inj (k := k) (by simp; omega) (by simp; omega) h.2
      exact ⟨by rw [← List.take_append_drop 8 s, e1, e2, List.take_append_drop], rfl⟩
    · simp only [List.cons_append, List.cons.injEq] at h
      have e1 := leBytes_inj (by simp; omega) h.1
      obtain ⟨e2, rfl⟩ := List.append_inj h.2 (by simp; omega)
      exact ⟨by rw [← List.take_append_drop 4 s, e1, toNat_inj e2, List.take_append_drop], rfl⟩
    · obtain ⟨e2, rfl⟩ := List.append_inj h (by simp; omega)
      exact ⟨toNat_inj e2, rfl⟩

/-- A module: an address of 32 bytes and an identifier. -/
def ModId.Ok (m : ModId) : Prop := m.addr.length = 32 ∧ Ident m.name

instance (m : ModId) : Decidable m.Ok := by unfold ModId.Ok; infer_instance

theorem modW_inj {m n : ModId} {r q : List Nat} (hm : m.Ok) (hn : n.Ok) (h : modW m ++ r = modW n ++ q) : m = n ∧ r = q := by
  unfold modW at h
  rw [hm.1, hn.1] at h
  simp only [List.cons_append, List.append_assoc, List.cons.injEq, true_and] at h
  obtain ⟨e1, h⟩ := words_inj (k := 33) (by rw [hm.1, hn.1]) (by rw [hm.1]; omega) h
  obtain ⟨e2, rfl⟩ := strW_inj hm.2 hn.2 h
  cases m; cases n
  cases e1; cases e2
  exact ⟨rfl, rfl⟩

mutual
/-- Types with proper modules. -/
def OkD : ITy → Prop
  | .vec t => OkD t
  | .ref t => OkD t
  | .mref t => OkD t
  | .struct m _ vm => m.Ok ∧ OkVm vm
  | .gstruct m _ ts vm => m.Ok ∧ OkDs ts ∧ OkVm vm
  | .enum m _ => m.Ok
  | .genum m _ ts => m.Ok ∧ OkDs ts
  | _ => True
def OkDs : List ITy → Prop
  | [] => True
  | t :: ts => OkD t ∧ OkDs ts
def OkVm : Vm → Prop
  | .id m _ => m.Ok
  | .idG m _ ts => m.Ok ∧ OkDs ts
  | .none => True
end

mutual
theorem dW_inj : ∀ {a b : ITy} {r q : List Nat}, OkD a → OkD b → dW a ++ r = dW b ++ q → a = b ∧ r = q := by
  intro a b r q ha hb h
  cases a with
  | vec t =>
    cases b <;> simp [dW] at h
    rename_i u
    obtain ⟨rfl, rfl⟩ := dW_inj (show OkD t from ha) (show OkD u from hb) h
    exact ⟨rfl, rfl⟩
  | ref t =>
    cases b <;> simp [dW] at h
    rename_i u
    obtain ⟨rfl, rfl⟩ := dW_inj (show OkD t from ha) (show OkD u from hb) h
    exact ⟨rfl, rfl⟩
  | mref t =>
    cases b <;> simp [dW] at h
    rename_i u
    obtain ⟨rfl, rfl⟩ := dW_inj (show OkD t from ha) (show OkD u from hb) h
    exact ⟨rfl, rfl⟩
  | param i => cases b <;> simp [dW] at h ⊢; exact h
  | struct m i vm =>
    cases b <;> simp [dW] at h
    obtain ⟨rfl, h2⟩ := modW_inj ha.1 hb.1 h
    simp only [List.cons.injEq] at h2
    obtain ⟨rfl, rfl⟩ := vmW_inj ha.2 hb.2 h2.2
    exact ⟨by rw [h2.1], rfl⟩
  | gstruct m i ts vm =>
    cases b <;> simp [dW] at h
    obtain ⟨rfl, h2⟩ := modW_inj ha.1 hb.1 h
    simp only [List.cons.injEq] at h2
    obtain ⟨rfl, h5⟩ := dWs_inj ha.2.1 hb.2.1 h2.2.1 h2.2.2
    obtain ⟨rfl, rfl⟩ := vmW_inj ha.2.2 hb.2.2 h5
    exact ⟨by rw [h2.1], rfl⟩
  | enum m i =>
    cases b <;> simp [dW] at h
    obtain ⟨rfl, h2⟩ := modW_inj ha hb h
    simp only [List.cons.injEq] at h2
    exact ⟨by rw [h2.1], h2.2⟩
  | genum m i ts =>
    cases b <;> simp [dW] at h
    obtain ⟨rfl, h2⟩ := modW_inj ha.1 hb.1 h
    simp only [List.cons.injEq] at h2
    obtain ⟨rfl, h5⟩ := dWs_inj ha.2 hb.2 h2.2.1 h2.2.2
    exact ⟨by rw [h2.1], h5⟩
  | _ => cases b <;> simp [dW] at h ⊢; exact h
theorem dWs_inj : ∀ {as bs : List ITy} {r q : List Nat}, OkDs as → OkDs bs → as.length = bs.length →
    dWs as ++ r = dWs bs ++ q → as = bs ∧ r = q := by
  intro as bs r q ha hb hl h
  cases as with
  | nil => cases bs with
    | nil => exact ⟨rfl, by simpa [dWs] using h⟩
    | cons b bs => simp at hl
  | cons a as => cases bs with
    | nil => simp at hl
    | cons b bs =>
      simp only [dWs, List.append_assoc] at h
      obtain ⟨rfl, h2⟩ := dW_inj ha.1 hb.1 h
      obtain ⟨rfl, rfl⟩ := dWs_inj ha.2 hb.2 (by simpa using hl) h2
      exact ⟨rfl, rfl⟩
theorem vmW_inj : ∀ {a b : Vm} {r q : List Nat}, OkVm a → OkVm b → vmW a ++ r = vmW b ++ q → a = b ∧ r = q := by
  intro a b r q ha hb h
  cases a with
  | id m i =>
    cases b with
    | id n j =>
      simp [vmW] at h
      obtain ⟨rfl, h2⟩ := modW_inj ha hb h
      simp only [List.cons.injEq] at h2
      exact ⟨by rw [h2.1], h2.2.2⟩
    | idG n j us =>
      simp [vmW] at h
      obtain ⟨rfl, h2⟩ := modW_inj ha hb.1 h
      simp at h2
    | none => simp [vmW] at h
  | idG m i ts =>
    cases b with
    | id n j =>
      simp [vmW] at h
      obtain ⟨rfl, h2⟩ := modW_inj ha.1 hb h
      simp at h2
    | idG n j us =>
      simp [vmW] at h
      obtain ⟨rfl, h2⟩ := modW_inj ha.1 hb.1 h
      simp only [List.cons.injEq, true_and] at h2
      obtain ⟨rfl, rfl⟩ := dWs_inj ha.2 hb.2 h2.2.1 h2.2.2
      exact ⟨by rw [h2.1], rfl⟩
    | none => simp [vmW] at h
  | none => cases b <;> simp [vmW] at h ⊢; exact h
end

mutual
/-- Types as they occur in a program: proper modules and names, generic structs have parameters. -/
def Ok (C : Ctx) : ITy → Prop
  | .struct m i _ => (C.home m i).Ok ∧ Ident (C.name m i)
  | .gstruct m i ts _ => (C.home m i).Ok ∧ Ident (C.name m i) ∧ ts ≠ [] ∧ Oks C ts
  | t => OkD t
def Oks (C : Ctx) : List ITy → Prop
  | [] => True
  | t :: ts => Ok C t ∧ Oks C ts
end

mutual
/-- The same type: structs are the same if they are declared for the same module and have the same name and the same
arguments; other types are equal. -/
def Same (C : Ctx) : ITy → ITy → Prop
  | .struct m i _, .struct n j _ => C.home m i = C.home n j ∧ C.name m i = C.name n j
  | .gstruct m i ts _, .gstruct n j us _ => C.home m i = C.home n j ∧ C.name m i = C.name n j ∧ Sames C ts us
  | a, b => a = b
def Sames (C : Ctx) : List ITy → List ITy → Prop
  | [], [] => True
  | t :: ts, u :: us => Same C t u ∧ Sames C ts us
  | _, _ => False
end

theorem strW_head {s : List UInt8} (hs : Ident s) : ∃ w r, strW s = w :: r ∧ 32 < w := by
  obtain ⟨h0, hs⟩ := hs
  have hl : 0 < s.length := List.length_pos_iff.mpr h0
  have lo : ∀ n, 0 < n → n ≤ s.length → 48 * 256 ^ (n - 1) ≤ leBytes (s.take n) := by
    intro n h0 hn
    have hl : (s.take n).length = n := by simp; omega
    have h1 := leBytes_low (s := s.take n) (fun b hb => (hs b (List.mem_of_mem_take hb)).1)
      (by intro h; rw [h] at hl; simp at hl; omega)
    rwa [hl] at h1
  unfold strW
  simp only [words]
  split_ifs with h1 h2
  · exact ⟨_, _, rfl, by have := lo 8 (by omega) h1; omega⟩
  · exact ⟨_, _, rfl, by have := lo 4 (by omega) h2; omega⟩
  · cases s with
    | nil => simp at hl
    | cons b s => exact ⟨_, _, rfl, by have := hs b (by simp); show 32 < b.toNat; omega⟩

theorem dW_head (t : ITy) : ∃ w r, dW t = w :: r ∧ w ≤ 16 := by
  cases t <;> simp [dW]

theorem pW_head {C : Ctx} {t : ITy} (ht : Ok C t) : ∃ w r, pW C t = w :: r ∧ w ≤ 32 := by
  cases t with
  | struct m i vm => exact ⟨_, _, rfl, Nat.le_of_eq ht.1.1⟩
  | gstruct m i ts vm => exact ⟨_, _, rfl, Nat.le_of_eq ht.1.1⟩
  | _ => obtain ⟨w, r, h, hw⟩ := dW_head _; exact ⟨w, r, h, by omega⟩

theorem modW_head (m : ModId) : ∃ r, modW m = m.addr.length :: r := ⟨_, rfl⟩

/-- A struct and a type that is not a struct are hashed differently. -/
theorem mod_ne_d {m : ModId} {t : ITy} {r q : List Nat} (hm : m.Ok) (h : modW m ++ r = dW t ++ q) : False := by
  obtain ⟨w, s, h1, h2⟩ := dW_head t
  rw [h1] at h
  unfold modW at h
  simp only [List.cons_append, List.cons.injEq] at h
  have := hm.1
  omega

theorem pWs_ne_str {C : Ctx} {ts : List ITy} {s : List UInt8} {r q : List Nat} (hts : Oks C ts) (h0 : ts ≠ []) (hs : Ident s)
    (h : pWs C ts ++ r = strW s ++ q) : False := by
  cases ts with
  | nil => exact h0 rfl
  | cons t ts =>
    obtain ⟨w, a, h1, h2⟩ := pW_head hts.1
    obtain ⟨v, b, h3, h4⟩ := strW_head hs
    rw [pWs, h1, h3] at h
    simp only [List.cons_append, List.cons.injEq] at h
    omega

mutual
theorem pW_inj {C : Ctx} : ∀ {a b : ITy} {r q : List Nat}, Ok C a → Ok C b → pW C a ++ r = pW C b ++ q → Same C a b ∧ r = q := by
  intro a b r q ha hb h
  cases a with
  | struct m i vm =>
    cases b with
    | struct n j vm' =>
      simp only [pW, List.append_assoc] at h
      obtain ⟨e1, h⟩ := modW_inj ha.1 hb.1 h
      obtain ⟨e2, h⟩ := strW_inj ha.2 hb.2 h
      exact ⟨⟨e1, e2⟩, h⟩
    | gstruct n j us vm' =>
      simp only [pW, List.append_assoc] at h
      obtain ⟨e1, h⟩ := modW_inj ha.1 hb.1 h
      exact (pWs_ne_str hb.2.2.2 hb.2.2.1 ha.2 h.symm).elim
    | _ => simp only [pW, List.append_assoc] at h; exact (mod_ne_d ha.1 h).elim
  | gstruct m i ts vm =>
    cases b with
    | struct n j vm' =>
      simp only [pW, List.append_assoc] at h
      obtain ⟨e1, h⟩ := modW_inj ha.1 hb.1 h
      exact (pWs_ne_str ha.2.2.2 ha.2.2.1 hb.2 h).elim
    | gstruct n j us vm' =>
      simp only [pW, List.append_assoc] at h
      obtain ⟨e1, h⟩ := modW_inj ha.1 hb.1 h
      obtain ⟨e2, e3, h⟩ := pWs_inj ha.2.2.2 hb.2.2.2 ha.2.1 hb.2.1 h
      exact ⟨⟨e1, e3, e2⟩, h⟩
    | _ => simp only [pW, List.append_assoc] at h; exact (mod_ne_d ha.1 h).elim
  | _ =>
    cases b with
    | struct n j vm' => simp only [pW, List.append_assoc] at h; exact (mod_ne_d hb.1 h.symm).elim
    | gstruct n j us vm' => simp only [pW, List.append_assoc] at h; exact (mod_ne_d hb.1 h.symm).elim
    | _ => exact dW_inj ha hb h
theorem pWs_inj {C : Ctx} : ∀ {as bs : List ITy} {s t : List UInt8} {r q : List Nat}, Oks C as → Oks C bs → Ident s → Ident t →
    pWs C as ++ (strW s ++ r) = pWs C bs ++ (strW t ++ q) → Sames C as bs ∧ s = t ∧ r = q := by
  intro as bs s t r q ha hb hs ht h
  cases as with
  | nil => cases bs with
    | nil => obtain ⟨e1, e2⟩ := strW_inj hs ht h; exact ⟨trivial, e1, e2⟩
    | cons b bs => exact (pWs_ne_str hb (by simp) hs h.symm).elim
  | cons a as => cases bs with
    | nil => exact (pWs_ne_str ha (by simp) ht h).elim
    | cons b bs =>
      simp only [pWs, List.append_assoc] at h
      obtain ⟨e1, h⟩ := pW_inj ha.1 hb.1 h
      obtain ⟨e2, e3, e4⟩ := pWs_inj ha.2 hb.2 hs ht h
      exact ⟨⟨e1, e2⟩, e3, e4⟩
end

theorem pWs_end {C : Ctx} : ∀ {as bs : List ITy}, Oks C as → Oks C bs → pWs C as = pWs C bs → Sames C as bs
  | [], [], _, _, _ => trivial
  | [], b :: bs, _, hb, h => by
    obtain ⟨w, r, h1, -⟩ := pW_head hb.1
    rw [pWs, pWs, h1] at h
    simp at h
  | a :: as, [], ha, _, h => by
    obtain ⟨w, r, h1, -⟩ := pW_head ha.1
    rw [pWs, pWs, h1] at h
    simp at h
  | a :: as, b :: bs, ha, hb, h => by
    simp only [pWs] at h
    obtain ⟨e1, h⟩ := pW_inj ha.1 hb.1 h
    exact ⟨e1, pWs_end ha.2 hb.2 h⟩

end TyHash
