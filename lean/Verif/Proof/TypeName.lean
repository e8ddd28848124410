import Verif.Rt.TypeName
import Verif.Props.TypeHash
import Verif.Proof.Natives
import Verif.Proof.Event

/-!
# Names of types are unique
-/

namespace TyHash
open Wasm Rt

variable {σ : Store}

/-! ### The name is what the function returns -/

theorem wrBytes_cons (f : Bytes) (a : Nat) (b : UInt8) (bs : List UInt8) :
    wrBytes f a (b :: bs) = wrBytes (putLe f a 1 b.toNat) (a + 1) bs := by
  have h := wrBytes_append f a [b] bs
  have h2 := wrBytes_snoc f a [b] (i := 0) (by simp)
  simp only [List.take_zero, Nat.add_zero, List.getElem_cons_zero, zero_add, List.take_succ_cons] at h2
  rw [List.singleton_append] at h
  rw [h, h2, wrBytes_nil]
  rfl

theorem wp_writeName : ∀ {bs : List UInt8} {o p a b : Nat} {is s} {σ : Store} {Q}, p + o + bs.length ≤ σ.size → σ.size < 2 ^ 32 →
    wp is s [a, b, p] (σ.setMem (wrBytes σ.mem (p + o) bs)) Q → wp (writeName bs o ++ is) s [a, b, p] σ Q
  | [], o, p, a, b, is, s, σ, Q, _, _, h => by
    rw [wrBytes_nil, setMem_self] at h
    exact h
  | c :: bs, o, p, a, b, is, s, σ, Q, hp, hs, h => by
    rw [List.length_cons] at hp
    have hc := c.toNat_lt
    unfold writeName
    wstep
    refine wp_writeName (by simpa using (by omega)) (by simpa using hs) ?_
    rw [wrBytes_cons] at h
    simpa [Nat.add_assoc] using h

/-- The memory at `p` is a value of type `TypeName` with the name `bs`. -/
def NameAt (m : Bytes) (p : Nat) (bs : List UInt8) : Prop := ByteVec m (leNat m (leNat m p 4) 4) bs

theorem typeNameGet_spec {bs : List UInt8} (hσ : Heap σ) (hr : Room σ (16 + bs.length)) :
    (typeNameGet bs).Calls [] σ (fun r σ' => ∃ p, r = [p] ∧ Extends σ σ' ∧ NameAt σ'.mem p bs) := by
  have h1 := hσ.alloc.nextFree_le
  have h2 := hσ.alloc.size_lt
  have hr1 := hr.1
  refine ⟨rfl, ?_⟩
  unfold typeNameGet
  rw [List.append_assoc]
  wstep
  refine wp_allocR hσ hr (by omega) ?_
  intro σ1 a1
  have e1 : Extends σ σ1 := ⟨by rw [a1.nextFree]; omega, a1.size, fun x _ => by rw [a1.mem], fun x hx => a1.heap.fresh x hx, a1.heap.alloc, a1.maxPages, a1.reader, a1.host⟩
  have r1 : Room σ1 (12 + bs.length) := hr.mono (k := 4 + (12 + bs.length)) (by omega) |>.after (by rw [a1.nextFree]) a1.maxPages
  wstep
  refine wp_allocR a1.heap r1 (by omega) ?_
  intro σ2 a2
  have e2 : Extends σ1 σ2 := ⟨by rw [a2.nextFree]; omega, a2.size, fun x _ => by rw [a2.mem], fun x hx => a2.heap.fresh x hx, a2.heap.alloc, a2.maxPages, a2.reader, a2.host⟩
  have n1 := a1.nextFree
  have n2 := a2.nextFree
  have i2 := a2.inside
  have l2 := a2.heap.alloc.size_lt
  wstep
  set m2 := putLe σ2.mem σ.nextFree 4 σ1.nextFree
  have e3 : Extends σ (σ2.setMem m2) := (e1.trans e2).write (fun x hx => putLe_out (by omega)) (fun x hx => putLe_out (by omega))
  have r2 : Room (σ2.setMem m2) (8 + bs.length * 1) := r1.mono (k := 4 + (8 + bs.length * 1)) (by omega) |>.after
    (by rw [setMem_nextFree, n2]) (by rw [setMem_maxPages, a2.maxPages])
  refine wp_call3 (allocVec_spec (e3.heap hσ) (Nat.le_refl _) r2) ?_
  rintro r σ3 ⟨rfl, x3, n3, m3⟩
  rw [setMem_nextFree] at n3 m3
  rw [setMem_mem] at m3
  have i3 := x3.alloc.nextFree_le
  have l3 := x3.alloc.size_lt
  wstep
  refine wp_writeName (by simp only [setMem_size]; omega) (by simpa using l3) ?_
  wstep
  have e4 := e3.trans x3
  rw [Nat.mul_one] at n3
  set m4 := putLe σ3.mem σ1.nextFree 4 σ2.nextFree
  set m5 := wrBytes m4 (σ2.nextFree + 8) bs
  have o5 : ∀ x, x < σ2.nextFree + 8 ∨ σ2.nextFree + 8 + bs.length ≤ x → m5 x = m4 x := fun x hx => wrBytes_out (by omega)
  refine ⟨_, rfl, e4.write (fun x hx => ?_) (fun x hx => ?_), ?_⟩
  · rw [o5 x (by omega)]; exact putLe_out (by omega)
  · rw [o5 x (by omega)]; exact putLe_out (by omega)
  have q1 : leNat m5 σ.nextFree 4 = σ1.nextFree := by
    rw [leNat_congr fun x h1 h2 => o5 x (by omega), leNat_congr fun x h1 h2 => putLe_out (by omega), m3,
      leNat_congr fun x h1 h2 => putLe_out (by omega), leNat_congr fun x h1 h2 => putLe_out (by omega), leNat_putLe_same,
      Nat.mod_eq_of_lt (by omega)]
  have q2 : leNat m5 σ1.nextFree 4 = σ2.nextFree := by
    rw [leNat_congr fun x h1 h2 => o5 x (by omega), leNat_putLe_same, Nat.mod_eq_of_lt (by omega)]
  unfold NameAt
  rw [q1, q2]
  refine ⟨?_, ?_, rdBytes_wr _ _ _⟩
  · rw [leNat_congr fun x h1 h2 => o5 x (by omega), leNat_congr fun x h1 h2 => putLe_out (by omega), m3,
      leNat_congr fun x h1 h2 => putLe_out (by omega), leNat_putLe_same, Nat.mod_eq_of_lt (by omega)]
  · rw [leNat_congr fun x h1 h2 => o5 x (by omega), leNat_congr fun x h1 h2 => putLe_out (by omega), m3,
      leNat_putLe_same, Nat.mod_eq_of_lt (by omega)]

/-! ### The name determines the type -/

/-- Characters of identifiers and numbers: not `,`, `:`, `<`, `>`. -/
def NameChar (b : UInt8) : Prop := b ≠ 44 ∧ b ≠ 58 ∧ b ≠ 60 ∧ b ≠ 62

instance (b : UInt8) : Decidable (NameChar b) := by unfold NameChar; infer_instance

/-- What follows a word: nothing, or one of these characters. -/
def Stops : List UInt8 → Prop
  | [] => True
  | b :: _ => ¬ NameChar b

theorem word_inj : ∀ {s t r q : List UInt8}, (∀ b ∈ s, NameChar b) → (∀ b ∈ t, NameChar b) → Stops r → Stops q →
    s ++ r = t ++ q → s = t ∧ r = q
  | [], [], _, _, _, _, _, _, h => ⟨rfl, h⟩
  | [], b :: t, r, q, _, ht, hr, _, h => by
    rw [List.nil_append, List.cons_append] at h
    rw [h] at hr
    exact absurd (ht b (by simp)) hr
  | a :: s, [], r, q, hs, _, _, hq, h => by
    rw [List.nil_append, List.cons_append] at h
    rw [← h] at hq
    exact absurd (hs a (by simp)) hq
  | a :: s, b :: t, r, q, hs, ht, hr, hq, h => by
    simp only [List.cons_append, List.cons.injEq] at h
    obtain ⟨e1, e2⟩ := word_inj (fun b hb => hs b (by simp [hb])) (fun b hb => ht b (by simp [hb])) hr hq h.2
    exact ⟨by rw [h.1, e1], e2⟩

/-- An identifier of Move. -/
def IdentN (s : List UInt8) : Prop := s ≠ [] ∧ ∀ b ∈ s, NameChar b

theorem hexDigit_char : ∀ n < 16, NameChar (hexDigit n) := by decide
theorem hexDigit_inj : ∀ n < 16, ∀ k < 16, hexDigit n = hexDigit k → n = k := by decide

theorem hexAddr_char {a : List UInt8} : ∀ b ∈ hexAddr a, NameChar b := by
  intro b hb
  unfold hexAddr at hb
  obtain ⟨c, -, hc⟩ := List.mem_flatMap.mp hb
  have := c.toNat_lt
  simp only [List.mem_cons, List.not_mem_nil, or_false] at hc
  rcases hc with rfl | rfl
  · exact hexDigit_char _ (by omega)
  · exact hexDigit_char _ (by omega)

theorem hexAddr_inj : ∀ {a b : List UInt8}, hexAddr a = hexAddr b → a = b
  | [], [], _ => rfl
  | [], b :: bs, h => by simp [hexAddr] at h
  | a :: as, [], h => by simp [hexAddr] at h
  | a :: as, b :: bs, h => by
    have ha := a.toNat_lt
    have hb := b.toNat_lt
    simp only [hexAddr, List.flatMap_cons, List.cons_append, List.nil_append, List.cons.injEq] at h
    have e1 := hexDigit_inj _ (by omega) _ (by omega) h.1
    have e2 := hexDigit_inj _ (by omega) _ (by omega) h.2.1
    have e3 := hexAddr_inj h.2.2
    rw [e3, UInt8.toNat_inj.mp (show a.toNat = b.toNat by omega)]

theorem hexAddr_length (a : List UInt8) : (hexAddr a).length = 2 * a.length := by
  unfold hexAddr
  induction a with
  | nil => rfl
  | cons b a ih => rw [List.flatMap_cons, List.length_append, ih]; simp; omega

/-- Modules as they occur: an address of 32 bytes and a name. -/
def ModId.OkN (m : ModId) : Prop := m.addr.length = 32 ∧ IdentN m.name

theorem qualified_inj {m n : ModId} {s t r q : List UInt8} (hm : m.OkN) (hn : n.OkN) (hs : IdentN s) (ht : IdentN t)
    (hr : Stops r) (hq : Stops q) (h : qualified m s ++ r = qualified n t ++ q) : m = n ∧ s = t ∧ r = q := by
  have st : ∀ x, Stops (58 :: x) := fun x h => h.2.1 rfl
  unfold qualified at h
  simp only [List.append_assoc, List.cons_append] at h
  obtain ⟨e1, h1⟩ := word_inj hexAddr_char hexAddr_char (st _) (st _) h
  simp only [List.cons.injEq, true_and] at h1
  obtain ⟨e2, h2⟩ := word_inj hm.2.2 hn.2.2 (st _) (st _) h1
  simp only [List.cons.injEq, true_and] at h2
  obtain ⟨e3, h3⟩ := word_inj hs.2 ht.2 hr hq h2
  cases m; cases n
  have := hexAddr_inj e1
  simp_all

mutual
/-- Types as they occur, with proper modules and names. -/
def OkN (N : Names) : ITy → Prop
  | .vec t => OkN N t
  | .struct m i _ => m.OkN ∧ IdentN (N.sn m i)
  | .gstruct m i ts _ => m.OkN ∧ IdentN (N.sn m i) ∧ OkNs N ts
  | .enum m i => m.OkN ∧ IdentN (N.en m i)
  | .genum m i ts => m.OkN ∧ IdentN (N.en m i) ∧ OkNs N ts
  | _ => True
def OkNs (N : Names) : List ITy → Prop
  | [] => True
  | t :: ts => OkN N t ∧ OkNs N ts
end

mutual
/-- The type without the mark of the structs known to the compiler. -/
def erase : ITy → ITy
  | .vec t => .vec (erase t)
  | .struct m i _ => .struct m i .none
  | .gstruct m i ts _ => .gstruct m i (erases ts) .none
  | .genum m i ts => .genum m i (erases ts)
  | t => t
def erases : List ITy → List ITy
  | [] => []
  | t :: ts => erase t :: erases ts
end

/-- The declarations of a module have different names. -/
structure Names.Ok (N : Names) : Prop where
  sn : ∀ m i j, N.sn m i = N.sn m j → i = j
  en : ∀ m i j, N.en m i = N.en m j → i = j
  ne : ∀ m i j, N.sn m i ≠ N.en m j

/-- What may follow the name of a type: nothing, `,` or `>`. -/
def Ends : List UInt8 → Prop
  | [] => True
  | b :: _ => b = 44 ∨ b = 62

theorem Ends.stops {r : List UInt8} (h : Ends r) : Stops r := by
  cases r with
  | nil => trivial
  | cons b r =>
    show ¬ NameChar b
    rcases h with rfl | rfl <;> decide

theorem ends44 (r : List UInt8) : Ends (44 :: r) := .inl rfl
theorem ends62 (r : List UInt8) : Ends (62 :: r) := .inr rfl

/-- The name of a struct or enum. -/
def Names.get (N : Names) (e : Bool) : ModId → Nat → List UInt8 := if e then N.en else N.sn

def mk0 (e : Bool) (m : ModId) (i : Nat) : ITy := if e then .enum m i else .struct m i .none
def mkG (e : Bool) (m : ModId) (i : Nat) (ts : List ITy) : ITy := if e then .genum m i ts else .gstruct m i ts .none

/-- The names of types without parts. -/
def primName : ITy → Option (List UInt8)
  | .bool => some [98, 111, 111, 108]
  | .u8 => some [117, 56]
  | .u16 => some [117, 49, 54]
  | .u32 => some [117, 51, 50]
  | .u64 => some [117, 54, 52]
  | .u128 => some [117, 49, 50, 56]
  | .u256 => some [117, 50, 53, 54]
  | .address => some [97, 100, 100, 114, 101, 115, 115]
  | .signer => some [115, 105, 103, 110, 101, 114]
  | _ => none

theorem primName_word {t : ITy} {w : List UInt8} (h : primName t = some w) : (∀ b ∈ w, NameChar b) ∧ w.length < 64 ∧ w ≠ [] ∧
    w ≠ [118, 101, 99, 116, 111, 114] := by
  cases t <;> cases h <;> decide

theorem primName_inj {t u : ITy} {w : List UInt8} (h : primName t = some w) (h' : primName u = some w) : t = u := by
  cases t <;> cases h <;> cases u <;> first | rfl | exact absurd h' (by simp [primName])

inductive Form (N : Names) : ITy → List UInt8 → Prop
  | prim {t w} : primName t = some w → Form N t w
  | vec {t x} : OkN N t → typeName N t = some x → Form N (.vec t) ([118, 101, 99, 116, 111, 114] ++ 60 :: (x ++ [62]))
  | named {t} (e m i) : erase t = mk0 e m i → m.OkN → IdentN (N.get e m i) → Form N t (qualified m (N.get e m i))
  | gen {t} (e m i ts) {x} : erase t = mkG e m i (erases ts) → m.OkN → IdentN (N.get e m i) → OkNs N ts → sizeOf ts < sizeOf t →
      typeNames N ts = some x → Form N t (qualified m (N.get e m i) ++ 60 :: (x ++ [62]))

theorem form {N : Names} {t : ITy} {x : List UInt8} (ht : OkN N t) (h : typeName N t = some x) : Form N t x := by
  cases t with
  | vec t =>
    simp only [typeName, Option.bind_eq_bind, Option.bind_eq_some_iff, Option.some.injEq] at h
    obtain ⟨y, hy, rfl⟩ := h
    exact .vec ht hy
  | struct m i vm => cases h; exact .named false m i rfl ht.1 ht.2
  | enum m i => cases h; exact .named true m i rfl ht.1 ht.2
  | gstruct m i ts vm =>
    simp only [typeName, Option.bind_eq_bind, Option.bind_eq_some_iff, Option.some.injEq] at h
    obtain ⟨y, hy, rfl⟩ := h
    exact .gen false m i ts rfl ht.1 ht.2.1 ht.2.2 (by simp; omega) hy
  | genum m i ts =>
    simp only [typeName, Option.bind_eq_bind, Option.bind_eq_some_iff, Option.some.injEq] at h
    obtain ⟨y, hy, rfl⟩ := h
    exact .gen true m i ts rfl ht.1 ht.2.1 ht.2.2 (by simp) hy
  | _ => cases h <;> exact .prim rfl

theorem hexAddr_cons {m : ModId} (hm : m.OkN) : ∃ b r, hexAddr m.addr = b :: r := by
  have := hexAddr_length m.addr
  rw [hm.1] at this
  cases h : hexAddr m.addr with
  | nil => rw [h] at this; simp at this
  | cons b r => exact ⟨b, r, rfl⟩

theorem Form.head {N : Names} {t : ITy} {x : List UInt8} (h : Form N t x) : ∃ b r, x = b :: r ∧ NameChar b := by
  have q : ∀ (m : ModId) n, m.OkN → ∃ b r, qualified m n = b :: r ∧ NameChar b := by
    intro m n hm
    obtain ⟨b, r, e⟩ := hexAddr_cons hm
    unfold qualified
    rw [e]
    exact ⟨b, _, rfl, hexAddr_char (a := m.addr) b (by rw [e]; simp)⟩
  cases h with
  | prim h =>
    obtain ⟨h1, -, h3, -⟩ := primName_word h
    cases x with
    | nil => exact absurd rfl h3
    | cons b r => exact ⟨b, r, rfl, h1 b (by simp)⟩
  | vec => exact ⟨_, _, rfl, by decide⟩
  | named e m i h hm => exact q _ _ hm
  | gen e m i ts h hm =>
    obtain ⟨b, r, e, hb⟩ := q m (N.get e m i) hm
    rw [e]
    exact ⟨b, _, rfl, hb⟩

theorem prim_ne_q {t : ITy} {m : ModId} {w n r q : List UInt8} (h : primName t = some w) (hm : m.OkN) (hr : Stops r)
    (e : w ++ r = qualified m n ++ q) : False := by
  obtain ⟨h1, h2, -, -⟩ := primName_word h
  unfold qualified at e
  rw [List.append_assoc] at e
  obtain ⟨e1, -⟩ := word_inj h1 hexAddr_char hr (show Stops (58 :: _) from fun h => h.2.1 rfl) e
  rw [e1, hexAddr_length, hm.1] at h2
  omega

theorem vec_ne_q {m : ModId} {n r q : List UInt8} (hm : m.OkN)
    (e : ([118, 101, 99, 116, 111, 114] : List UInt8) ++ 60 :: r = qualified m n ++ q) : False := by
  unfold qualified at e
  rw [List.append_assoc] at e
  obtain ⟨e1, -⟩ := word_inj (by decide) hexAddr_char (show Stops (60 :: _) from fun h => h.2.2.1 rfl)
    (show Stops (58 :: _) from fun h => h.2.1 rfl) e
  have := congrArg List.length e1
  rw [hexAddr_length, hm.1] at this
  simp at this

theorem prim_ne_vec {t : ITy} {w r q : List UInt8} (h : primName t = some w) (hr : Stops r)
    (e : w ++ r = ([118, 101, 99, 116, 111, 114] : List UInt8) ++ 60 :: q) : False := by
  obtain ⟨h1, -, -, h4⟩ := primName_word h
  exact h4 (word_inj h1 (by decide) hr (show Stops (60 :: _) from fun h => h.2.2.1 rfl) e).1

theorem Names.Ok.get {N : Names} (hN : N.Ok) {e f : Bool} {m : ModId} {i j : Nat} (h : N.get e m i = N.get f m j) : e = f ∧ i = j := by
  cases e <;> cases f
  · exact ⟨rfl, hN.sn _ _ _ h⟩
  · exact absurd h (hN.ne _ _ _)
  · exact absurd h.symm (hN.ne _ _ _)
  · exact ⟨rfl, hN.en _ _ _ h⟩

def InjAt (N : Names) (a : ITy) : Prop := ∀ b x y r q, OkN N a → OkN N b → typeName N a = some x → typeName N b = some y → Ends r → Ends q →
  x ++ r = y ++ q → erase a = erase b ∧ r = q

theorem cons_names {N : Names} {a u : ITy} {as : List ITy} {x : List UInt8} (h : typeNames N (a :: u :: as) = some x) :
    ∃ y z, typeName N a = some y ∧ typeNames N (u :: as) = some z ∧ x = y ++ 44 :: z := by
  simp only [typeNames, Option.bind_eq_bind, Option.bind_eq_some_iff, Option.some.injEq] at h
  obtain ⟨y, hy, z, hz, rfl⟩ := h
  exact ⟨y, z, hy, hz, rfl⟩

theorem list_head {N : Names} {a : ITy} {as : List ITy} {x : List UInt8} (ho : OkNs N (a :: as)) (h : typeNames N (a :: as) = some x) :
    ∃ b r, x = b :: r ∧ NameChar b := by
  cases as with
  | nil => exact (form ho.1 h).head
  | cons u as =>
    obtain ⟨y, z, h1, -, rfl⟩ := cons_names h
    obtain ⟨b, r, rfl, hb⟩ := (form ho.1 h1).head
    exact ⟨b, _, rfl, hb⟩

theorem list_inj {N : Names} : ∀ {as bs : List ITy} {x y r q : List UInt8}, (∀ a ∈ as, InjAt N a) → OkNs N as → OkNs N bs →
    typeNames N as = some x → typeNames N bs = some y → x ++ 62 :: r = y ++ 62 :: q → erases as = erases bs ∧ r = q
  | [], [], _, _, _, _, _, _, _, hx, hy, h => by cases hx; cases hy; simpa [erases] using h
  | [], b :: bs, _, _, _, _, _, _, hb, hx, hy, h => by
    obtain ⟨c, s, rfl, hc⟩ := list_head hb hy
    cases hx
    simp only [List.nil_append, List.cons_append, List.cons.injEq] at h
    exact absurd h.1.symm hc.2.2.2
  | a :: as, [], _, _, _, _, _, ha, _, hx, hy, h => by
    obtain ⟨c, s, rfl, hc⟩ := list_head ha hx
    cases hy
    simp only [List.nil_append, List.cons_append, List.cons.injEq] at h
    exact absurd h.1 hc.2.2.2
  | [a], [b], x, y, r, q, hi, ha, hb, hx, hy, h => by
    obtain ⟨e1, e2⟩ := hi a (by simp) b x y _ _ ha.1 hb.1 hx hy (ends62 _) (ends62 _) h
    simp only [List.cons.injEq, true_and] at e2
    exact ⟨by simp only [erases, e1], e2⟩
  | [a], b :: c :: bs, x, y, r, q, hi, ha, hb, hx, hy, h => by
    obtain ⟨y1, y2, h1, h2, rfl⟩ := cons_names hy
    rw [List.append_assoc, List.cons_append] at h
    obtain ⟨e1, e2⟩ := hi a (by simp) b x y1 _ _ ha.1 hb.1 hx h1 (ends62 _) (ends44 _) h
    simp at e2
  | a :: d :: as, [b], x, y, r, q, hi, ha, hb, hx, hy, h => by
    obtain ⟨y1, y2, h1, h2, rfl⟩ := cons_names hx
    rw [List.append_assoc, List.cons_append] at h
    obtain ⟨e1, e2⟩ := hi a (by simp) b y1 y _ _ ha.1 hb.1 h1 hy (ends44 _) (ends62 _) h
    simp at e2
  | a :: d :: as, b :: c :: bs, x, y, r, q, hi, ha, hb, hx, hy, h => by
    obtain ⟨x1, x2, h1, h2, rfl⟩ := cons_names hx
    obtain ⟨y1, y2, h3, h4, rfl⟩ := cons_names hy
    rw [List.append_assoc, List.cons_append, List.append_assoc, List.cons_append] at h
    obtain ⟨e1, e2⟩ := hi a (by simp) b x1 y1 _ _ ha.1 hb.1 h1 h3 (ends44 _) (ends44 _) h
    simp only [List.cons.injEq, true_and] at e2
    obtain ⟨e3, e4⟩ := list_inj (fun t ht => hi t (List.mem_cons_of_mem _ ht)) ha.2 hb.2 h2 h4 e2
    exact ⟨by rw [erases, e1, e3, ← erases], e4⟩

theorem name_inj {N : Names} (hN : N.Ok) : ∀ (n : Nat) (a : ITy), sizeOf a < n → InjAt N a
  | 0, _, h => by omega
  | n + 1, a, hn => by
    intro b x y r q ha hb hx hy hr hq h
    have fa := form ha hx
    have fb := form hb hy
    cases fa with
    | prim h1 =>
      cases fb with
      | prim h2 =>
        obtain ⟨rfl, e⟩ := word_inj (primName_word h1).1 (primName_word h2).1 hr.stops hq.stops h
        rw [primName_inj h1 h2]
        exact ⟨rfl, e⟩
      | vec => rw [List.append_assoc, List.cons_append] at h; exact (prim_ne_vec h1 hr.stops h).elim
      | named e m i _ hm => exact (prim_ne_q h1 hm hr.stops h).elim
      | gen e m i ts _ hm => rw [List.append_assoc] at h; exact (prim_ne_q h1 hm hr.stops h).elim
    | vec o1 h1 =>
      rw [List.append_assoc, List.cons_append] at h
      cases fb with
      | prim h2 => exact (prim_ne_vec h2 hq.stops h.symm).elim
      | vec o2 h2 =>
        have h3 := h
        simp only [List.append_assoc, List.cons_append, List.nil_append, List.cons.injEq, true_and] at h3
        obtain ⟨e1, e2⟩ := name_inj hN n _ (by simp at hn; omega) _ _ _ _ _ o1 o2 h1 h2 (ends62 _) (ends62 _) h3
        simp only [List.cons.injEq, true_and] at e2
        exact ⟨by rw [erase, erase, e1], e2⟩
      | named e m i _ hm => exact (vec_ne_q hm h).elim
      | gen e m i ts _ hm => rw [List.append_assoc] at h; exact (vec_ne_q hm h).elim
    | named e m i h1 m1 i1 =>
      cases fb with
      | prim h2 => exact (prim_ne_q h2 m1 hq.stops h.symm).elim
      | vec o2 h2 => rw [List.append_assoc, List.cons_append] at h; exact (vec_ne_q m1 h.symm).elim
      | named f m' j h2 m2 i2 =>
        obtain ⟨rfl, e1, e2⟩ := qualified_inj m1 m2 i1 i2 hr.stops hq.stops h
        obtain ⟨rfl, rfl⟩ := hN.get e1
        exact ⟨h1.trans h2.symm, e2⟩
      | gen f m' j ts h2 m2 i2 o2 _ t2 =>
        rw [List.append_assoc, List.cons_append] at h
        obtain ⟨-, -, e2⟩ := qualified_inj m1 m2 i1 i2 hr.stops (show Stops (60 :: _) from fun h => h.2.2.1 rfl) h
        rw [e2] at hr
        exact absurd hr (by simp [Ends])
    | gen e m i ts h1 m1 i1 o1 s1 t1 =>
      rw [List.append_assoc, List.cons_append] at h
      cases fb with
      | prim h2 => exact (prim_ne_q h2 m1 hq.stops h.symm).elim
      | vec o2 h2 => rw [List.append_assoc, List.cons_append] at h; exact (vec_ne_q m1 h.symm).elim
      | named f m' j h2 m2 i2 =>
        obtain ⟨-, -, e2⟩ := qualified_inj m1 m2 i1 i2 (show Stops (60 :: _) from fun h => h.2.2.1 rfl) hq.stops h
        rw [← e2] at hq
        exact absurd hq (by simp [Ends])
      | gen f m' j us h2 m2 i2 o2 _ t2 =>
        simp only [List.append_assoc, List.cons_append] at h
        obtain ⟨rfl, e1, e2⟩ := qualified_inj m1 m2 i1 i2 (show Stops (60 :: _) from fun h => h.2.2.1 rfl)
          (show Stops (60 :: _) from fun h => h.2.2.1 rfl) h
        obtain ⟨rfl, rfl⟩ := hN.get e1
        simp only [List.cons.injEq, true_and] at e2
        have hi : ∀ t ∈ ts, InjAt N t := fun t ht => name_inj hN n t (by have := List.sizeOf_lt_of_mem ht; omega)
        obtain ⟨e3, e4⟩ := list_inj hi o1 o2 t1 t2 e2
        exact ⟨by rw [h1, h2, e3], e4⟩

/-- Different types have different names. -/
theorem typeName_inj {N : Names} (hN : N.Ok) {a b : ITy} {x : List UInt8} (ha : OkN N a) (hb : OkN N b) (h1 : typeName N a = some x)
    (h2 : typeName N b = some x) : erase a = erase b :=
  (name_inj hN _ a (Nat.lt_succ_self _) b x x [] [] ha hb h1 h2 trivial trivial rfl).1

end TyHash
