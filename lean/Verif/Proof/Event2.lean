import Verif.Proof.Event

/-! Events: indexed structs and topics. -/

namespace Rt
open Wasm Abi

variable {σ σ' σ'' : Store} {E : ErrPtrs}

/-- `IxFull` for the fields of a struct. -/
def IxFullFs : List MTy → List Val → Prop
  | t :: ts, v :: vs => IxFull t v ∧ IxFullFs ts vs
  | _, _ => True

theorem wp_ixField {t : MTy} {v : Val} {b off lim p k : Nat} {is s l Q} (hσ : Heap σ) (hr : RepFs σ.mem lim [t] [v] (b + off))
    (hlim : lim ≤ σ.nextFree) (hf : IxFull t v) (hroom : Room σ (inPlace v).length) (hp : lget l p = b) (hpk : p < k)
    (hlen : k + nlIxField t ≤ l.length)
    (hk : ∀ σ' l', Keyed (inPlace v) σ σ' → l'.length = l.length → (∀ j, j < k → lget l' j = lget l j) → wp is s l' σ' Q) :
    wp (ixField E t p off k ++ is) s l σ Q := by
  have f1 := hσ.alloc.nextFree_le
  have f3 := hσ.alloc.size_lt
  simp only [RepFs] at hr
  obtain ⟨h1, h2, h3, -⟩ := hr
  obtain ⟨q, hq⟩ : ∃ q, q = leNat σ.mem (b + off) 4 := ⟨_, rfl⟩
  rw [← hq] at h2 h3
  have word : ∀ (t : MTy), isWord t = true → (∀ n, t ≠ .enum n) → (t.isScalar = true → q + t.size ≤ lim) →
      Rep σ.mem lim t v (if t.isScalar then leNat σ.mem q t.size else q) → k + 2 ≤ l.length →
      wp ((code[Op.lget p, Op.load 4 off] ++ (if t.isScalar then code[Op.load t.size 0] else []) ++
      code[Op.lset k] ++ ixWord E t k (k + 1)) ++ is) s l σ Q := by
    intro t ht he h2 h3 hlen
    obtain ⟨n, rfl⟩ : ∃ n, v = .word n := by
      cases t <;> simp [isWord] at ht <;> cases v <;> simp [Rep] at h3 <;> exact ⟨_, rfl⟩
    rw [inPlace, word_length] at hroom
    obtain ⟨X, hX⟩ : ∃ X, X = ixWord E t k (k + 1) ++ is := ⟨_, rfl⟩
    simp only [List.append_assoc, ← hX]
    have f4 := MTy.size_pos t
    have fin : ∀ c, Rep σ.mem lim t (.word n) c → wp X s (lset l k c) σ Q := by
      intro c hc
      rw [hX]
      refine wp_ixWord ht hσ (x := .word n) (lim := lim) (by rw [lget_lset_same (by omega)]; exact hc) hlim hroom (by omega) (by rw [lset_length]; omega)
        fun σ' hkd => hk σ' _ hkd (by simp only [lset_length]) fun j hj => ?_
      rw [lget_lset_ne (by omega), lget_lset_ne (by omega)]
    cases hs : t.isScalar
    · rw [hs] at h3
      simp only [Bool.false_eq_true, if_false] at h3
      simp only [Bool.false_eq_true, if_false, List.cons_append, List.nil_append]
      wstep
      rw [hp, ← hq]
      exact fin q h3
    · rw [hs] at h3
      have h2 := h2 hs
      simp only [if_true] at h3
      simp only [if_true, List.cons_append, List.nil_append]
      wstep
      rw [hp, ← hq]
      wstep
      exact fin _ h3
  cases t with
  | bool | u8 | u16 | u32 | u64 | u128 | u256 | address =>
    rw [ixField]
    · exact word _ rfl (by simp) h2 h3 (by simpa [nlIxField] using hlen)
    all_goals simp
  | enum m =>
    simp only [nlIxField] at hlen
    simp only [MTy.isScalar, Bool.false_eq_true, if_false] at h3
    obtain ⟨n, rfl⟩ : ∃ n, v = .word n := by cases v <;> simp [Rep] at h3; exact ⟨_, rfl⟩
    rw [Rep] at h3
    rw [inPlace, word_length] at hroom
    rw [ixField]
    obtain ⟨X, hX⟩ : ∃ X, X = ixWord E .u8 k (k + 1) ++ is := ⟨_, rfl⟩
    rw [List.append_assoc, ← hX]
    simp only [List.cons_append, List.nil_append]
    wstep
    rw [hp, ← hq]
    wstep
    have e : leNat σ.mem q 1 = n := by
      have e1 : leNat σ.mem q 4 = leNat σ.mem q 1 + 256 * leNat σ.mem (q + 1) 3 := leNat_add σ.mem q 1 3
      have := leNat_lt σ.mem q 1
      omega
    rw [e, hX]
    refine wp_ixWord rfl hσ (x := .word n) (lim := lim) (by rw [lget_lset_same (by omega), Rep]; exact ⟨rfl, h3.2.2.2⟩) hlim hroom (by omega) (by rw [lset_length]; omega)
        fun σ' hkd => hk σ' _ hkd (by simp only [lset_length]) fun j hj => ?_
    rw [lget_lset_ne (by omega), lget_lset_ne (by omega)]
  | struct fs => simp [IxFull] at hf
  | string =>
    simp only [nlIxField] at hlen
    simp only [MTy.isScalar, Bool.false_eq_true, if_false] at h3
    obtain ⟨bs, rfl⟩ : ∃ bs, v = .bytes bs := by cases v <;> simp [Rep] at h3; exact ⟨_, rfl⟩
    rw [inPlace] at hroom
    rw [ixField]
    obtain ⟨X, hX⟩ : ∃ X, X = ixString true k (k + 1) ++ is := ⟨_, rfl⟩
    rw [List.append_assoc, ← hX]
    simp only [List.cons_append, List.nil_append]
    wstep
    rw [hp, ← hq, hX]
    refine wp_ixString (pd := true) hσ (bs := bs) (lim := lim) h3 hlim hf hroom (.inl rfl) (lget_lset_same (by omega)) (by omega) (by rw [lset_length]; omega)
      fun σ' l' hkd e1 e2 => hk σ' l' hkd (by rw [e1, lset_length]) fun j hj => ?_
    rw [e2 j (by omega) (by omega), lget_lset_ne (by omega)]
  | vec t =>
    simp only [nlIxField] at hlen
    simp only [MTy.isScalar, Bool.false_eq_true, if_false] at h3
    obtain ⟨vs, rfl⟩ : ∃ vs, v = .array vs := by cases v <;> simp [Rep] at h3; exact ⟨_, rfl⟩
    rw [inPlace] at hroom
    rw [ixField]
    obtain ⟨X, hX⟩ : ∃ X, X = ixVec E t k (k + 1) ++ is := ⟨_, rfl⟩
    rw [List.append_assoc, ← hX]
    simp only [List.cons_append, List.nil_append]
    wstep
    rw [hp, ← hq, hX]
    refine ixVec_ok t σ lim vs q k (k + 1) s _ is Q hσ h3 hlim hf hroom (lget_lset_same (by omega)) (by omega) (by rw [lset_length]; omega)
      fun σ' l' hkd e1 e2 => hk σ' l' hkd (by rw [e1, lset_length]) fun j hj => ?_
    rw [e2 j (by omega) (by omega), lget_lset_ne (by omega)]

/-- The encoding of a struct. -/
theorem wp_ixStruct {b lim p : Nat} {is s Q} : ∀ {ts : List MTy} {vs : List Val} {off k : Nat} {l : List Nat} {σ : Store}, Heap σ →
    RepFs σ.mem lim ts vs (b + off) → lim ≤ σ.nextFree → IxFullFs ts vs → Room σ (inPlaces vs).length → lget l p = b → p < k →
    k + nlIxStruct ts ≤ l.length →
    (∀ σ' l', Keyed (inPlaces vs) σ σ' → l'.length = l.length → (∀ j, j < k → lget l' j = lget l j) → wp is s l' σ' Q) →
    wp (ixStruct E ts p off k ++ is) s l σ Q := by
  intro ts
  induction ts with
  | nil =>
    intro vs off k l σ hσ hr hlim hf hroom hp hpk hlen hk
    cases vs with
    | nil => exact hk σ l (by rw [inPlaces]; exact hσ.keyed_nil) rfl fun _ _ => rfl
    | cons v vs => simp [RepFs] at hr
  | cons t ts ih =>
    intro vs off k l σ hσ hr hlim hf hroom hp hpk hlen hk
    cases vs with
    | nil => simp [RepFs] at hr
    | cons v vs =>
    rw [RepFs] at hr
    obtain ⟨h1, h2, h3, h4⟩ := hr
    rw [inPlaces, List.length_append] at hroom
    simp only [nlIxStruct] at hlen
    rw [ixStruct, List.append_assoc]
    refine wp_ixField hσ (v := v) (b := b) (lim := lim) (by simp only [RepFs]; exact ⟨h1, h2, h3, trivial⟩) hlim hf.1 (hroom.mono (by omega)) hp hpk (by omega)
      fun σ1 l1 hkd e1 e2 => ?_
    refine ih (hkd.ext.heap hσ) (RepFs.congr (fun x hx => hkd.ext.mem x (by omega)) ts h4) (by have := hkd.ext.nextFree; omega) hf.2
      (Room.after hroom (Nat.le_of_eq hkd.nextFree) hkd.ext.maxPages) (by rw [e2 p hpk, hp]) (by omega) (by omega) fun σ2 l2 hkd2 e3 e4 => ?_
    refine hk σ2 l2 (by rw [inPlaces]; exact hkd.trans hkd2) (by omega) fun j hj => ?_
    rw [e4 j (by omega), e2 j hj]

/-! ### Indexed fields -/

/-- Fields whose topic is a hash. -/
def ETy.hashed : ETy → Bool
  | .val t => !isWord t
  | .id => true

/-- What the code writes for an indexed field before the topics. -/
def ixData : ETy → Val → List UInt8
  | .val (.vec _), v => inPlace v
  | .val .string, .bytes bs => bs
  | .val (.struct _), v => inPlace v
  | .id, v => inPlace v
  | _, _ => []

/-- No empty vectors and strings in indexed fields, and no structs in indexed structs. -/
def IxOk : ETy → Val → Prop
  | .val (.struct ts), .tuple vs => IxFullFs ts vs
  | .val t, v => IxFull t v
  | .id, _ => True

/-- The field is a string of less than three bytes. -/
def ixShort : ETy → Val → Bool
  | .val .string, .bytes bs => bs.length < 3
  | _, _ => false

theorem wp_ixAround {bs : List UInt8} {C : List Instr} {b w i k v : Nat} {is s l Q} (hσ : Heap σ) (hroom : Room σ bs.length)
    (hb : lget l 0 = b) (hf : b + 4 * i + 4 ≤ σ.nextFree) (hw : leNat σ.mem (b + 4 * i) 4 = w) (hi : i < 4) (hv : v = 4 ∨ v = k)
    (hkk : 18 ≤ k) (hlen : k ≤ l.length) (hvl : v < l.length)
    (hC : ∀ σ1 l1 is Q, Heap σ1 → σ1.nextFree = σ.nextFree → σ1.mem = σ.mem → σ1.maxPages = σ.maxPages → σ.size ≤ σ1.size → l1.length = l.length →
      lget l1 v = w → (∀ σ2 l2, Keyed bs σ1 σ2 → l2.length = l.length → (∀ j, j < k → j ≠ v → lget l2 j = lget l1 j) → wp is s l2 σ2 Q) →
      wp (C ++ is) s l1 σ1 Q)
    (hk : ∀ σ' l', Keyed bs σ σ' → l'.length = l.length → lget l' (10 + 2 * i) = σ.nextFree →
      lget l' (11 + 2 * i) = σ.nextFree + bs.length →
      (∀ j, j < k → j ≠ 4 → j ≠ 10 + 2 * i → j ≠ 11 + 2 * i → lget l' j = lget l j) → wp is s l' σ' Q) :
    wp ((code[Op.lget 0, Op.load 4 (4 * i), Op.lset v, Op.c32 0, alloc.call, Op.lset (10 + 2 * i)] ++ C ++
      code[Op.c32 0, alloc.call, Op.lset (11 + 2 * i)]) ++ is) s l σ Q := by
  have f1 := hσ.alloc.nextFree_le
  have f3 := hσ.alloc.size_lt
  obtain ⟨X, hX⟩ : ∃ X, X = C ++ (code[Op.c32 0, alloc.call, Op.lset (11 + 2 * i)] ++ is) := ⟨_, rfl⟩
  simp only [List.append_assoc, ← hX]
  obtain ⟨Y, hY⟩ : ∃ Y, Y = alloc.call :: Op.lset (10 + 2 * i) :: X := ⟨_, rfl⟩
  simp only [List.cons_append, List.nil_append, ← hY]
  wstep
  rw [hb, hw, hY]
  refine wp_allocR hσ hroom (Nat.zero_le _) fun σ1 a1 => ?_
  wstep
  rw [hX]
  refine hC σ1 _ _ _ a1.heap a1.nextFree a1.mem a1.maxPages a1.size (by simp only [lset_length])
    (by rw [lget_lset_ne (by omega), lget_lset_same hvl]) fun σ2 l2 kd e1 e2 => ?_
  simp only [List.cons_append, List.nil_append]
  have g1 := a1.nextFree
  have g2 := kd.nextFree
  refine wp_c32.mpr (wp_allocR (m := 0) (kd.ext.heap a1.heap) ⟨by omega, ?_⟩ (Nat.le_refl _) fun σ3 a3 => ?_)
  · have := hroom.2; rw [kd.ext.maxPages, a1.maxPages]; omega
  wstep
  refine hk σ3 _ ⟨(a1.extends.trans kd.ext).trans a3.extends, ?_, ?_⟩ (by rw [lset_length, e1]) ?_ ?_ ?_
  · rw [a3.nextFree]; omega
  · rw [a3.mem]; have := kd.bytes; rwa [g1] at this
  · rw [lget_lset_ne (by omega), e2 _ (by omega) (by omega), lget_lset_same (by rw [lset_length]; omega)]
  · rw [lget_lset_same (by omega)]; omega
  · intro j h1 h2 h3 h4
    rw [lget_lset_ne (by omega), e2 j h1 (by omega), lget_lset_ne (by omega), lget_lset_ne (by omega)]

/-- The encoding of an indexed field. -/
theorem wp_ixPrep {t : ETy} {v : Val} {b lim i k : Nat} {is s l Q} (hσ : Heap σ) (hr : RepFs σ.mem lim [t.mty] [v] (b + 4 * i))
    (hlim : lim ≤ σ.nextFree) (hf : IxOk t v) (hroom : Room σ (ixData t v).length)
    (hov : ixShort t v = false ∨ σ.nextFree + 3 ≤ σ.size) (hb : lget l 0 = b) (hi : i < 4) (hkk : 18 ≤ k)
    (hlen : k + nlIxPrep t ≤ l.length)
    (hk : ∀ σ' l', Keyed (ixData t v) σ σ' → l'.length = l.length →
      (t.hashed = true → lget l' (10 + 2 * i) = σ.nextFree ∧ lget l' (11 + 2 * i) = σ.nextFree + (ixData t v).length) →
      (∀ j, j < k → j ≠ 4 → j ≠ 10 + 2 * i → j ≠ 11 + 2 * i → lget l' j = lget l j) → wp is s l' σ' Q) :
    wp (ixPrep E i k t ++ is) s l σ Q := by
  simp only [RepFs] at hr
  obtain ⟨h1, -, h3, -⟩ := hr
  have word : ∀ t' : MTy, t = .val t' → isWord t' = true → wp ([] ++ is) s l σ Q := by
    rintro t' rfl ht
    have e : ixData (.val t') v = [] := by cases t' <;> simp_all [isWord, ixData]
    rw [e] at hk
    exact hk σ l hσ.keyed_nil rfl (by simp [ETy.hashed, ht]) fun _ _ _ _ _ => rfl
  have struct : ∀ fs, t.mty = .struct fs → ixPrep E i k t = code[Op.lget 0, Op.load 4 (4 * i), Op.lset 4, Op.c32 0, alloc.call, Op.lset (10 + 2 * i)] ++
      ixStruct E fs 4 0 k ++ code[Op.c32 0, alloc.call, Op.lset (11 + 2 * i)] → nlIxPrep t = nlIxStruct fs →
      (∀ vs, v = .tuple vs → IxFullFs fs vs) → ixData t v = inPlace v → wp (ixPrep E i k t ++ is) s l σ Q := by
    intro fs hm hc hn hfull hd
    rw [hm] at h3
    simp only [MTy.isScalar, Bool.false_eq_true, if_false] at h3
    obtain ⟨vs, rfl⟩ : ∃ vs, v = .tuple vs := by cases v <;> simp [Rep] at h3; exact ⟨_, rfl⟩
    rw [hd] at hroom hk
    rw [inPlace] at hroom hk
    rw [Rep] at h3
    rw [hc]
    refine wp_ixAround hσ hroom hb (by omega) rfl hi (.inl rfl) hkk (by omega) (by omega) ?_
      fun σ' l' a1 a2 a3 a4 a5 => hk σ' l' a1 a2 (fun _ => ⟨a3, a4⟩) a5
    intro σ1 l1 is1 Q1 b1 b2 b3 b4 b5 b6 b7 b8
    refine wp_ixStruct (b := leNat σ.mem (b + 4 * i) 4) (lim := lim) b1 (by rw [b3, Nat.add_zero]; exact h3.2) (by omega) (hfull vs rfl) ⟨hroom.1, by rw [b2, b4]; exact hroom.2⟩ b7
      (by omega) (by omega) fun σ2 l2 c1 c2 c3 => b8 σ2 l2 c1 (by omega) fun j hj _ => c3 j hj
  cases t with
  | id =>
    refine struct [.address] rfl rfl rfl ?_ rfl
    intro vs hv
    subst hv
    cases vs with
    | nil => trivial
    | cons v vs => exact ⟨by cases v <;> simp [IxFull], by cases vs <;> trivial⟩
  | val t =>
    cases t with
    | bool | u8 | u16 | u32 | u64 | u128 | u256 | address | enum m =>
      rw [ixPrep]
      · exact word _ rfl rfl
      all_goals simp
    | struct fs =>
      refine struct fs rfl rfl rfl ?_ rfl
      rintro vs rfl
      exact hf
    | vec t =>
      simp only [ETy.mty, MTy.isScalar, Bool.false_eq_true, if_false] at h3
      obtain ⟨vs, rfl⟩ : ∃ vs, v = .array vs := by cases v <;> simp [Rep] at h3; exact ⟨_, rfl⟩
      simp only [ixData] at hroom hk
      rw [inPlace] at hroom hk
      simp only [nlIxPrep] at hlen
      rw [ixPrep]
      refine wp_ixAround hσ hroom hb (by omega) rfl hi (.inl rfl) hkk (by omega) (by omega) ?_
        fun σ' l' a1 a2 a3 a4 a5 => hk σ' l' a1 a2 (fun _ => ⟨a3, a4⟩) a5
      intro σ1 l1 is1 Q1 b1 b2 b3 b4 b5 b6 b7 b8
      refine ixVec_ok t σ1 lim vs _ 4 k s l1 is1 Q1 b1 (by rw [b3]; exact h3) (by omega) hf ⟨hroom.1, by rw [b2, b4]; exact hroom.2⟩ b7
        (by omega) (by omega) fun σ2 l2 c1 c2 c3 => b8 σ2 l2 c1 (by omega) fun j hj hj' => c3 j hj hj'
    | string =>
      simp only [ETy.mty, MTy.isScalar, Bool.false_eq_true, if_false] at h3
      obtain ⟨bs, rfl⟩ : ∃ bs, v = .bytes bs := by cases v <;> simp [Rep] at h3; exact ⟨_, rfl⟩
      simp only [ixData] at hroom hk
      simp only [nlIxPrep] at hlen
      simp only [ixShort, decide_eq_false_iff_not, Nat.not_lt] at hov
      rw [ixPrep]
      refine wp_ixAround hσ hroom hb (by omega) rfl hi (.inr rfl) hkk (by omega) (by omega) ?_
        fun σ' l' a1 a2 a3 a4 a5 => hk σ' l' a1 a2 (fun _ => ⟨a3, a4⟩) a5
      intro σ1 l1 is1 Q1 b1 b2 b3 b4 b5 b6 b7 b8
      refine wp_ixString (pd := false) b1 (bs := bs) (lim := lim) (by rw [b3]; exact h3) (by omega) hf ⟨hroom.1, by rw [b2, b4]; exact hroom.2⟩
        (.inr (by rcases hov with h | h <;> [exact .inl h; exact .inr (by omega)])) b7 (by omega) (by omega)
        fun σ2 l2 c1 c2 c3 => b8 σ2 l2 c1 (by omega) fun j hj hj' => c3 j (by omega) hj'

/-- Field `i` has been encoded. -/
def IxDone (σ : Store) (l : List Nat) (i : Nat) (t : ETy) (v : Val) : Prop :=
  t.hashed = true → ∃ a, lget l (10 + 2 * i) = a ∧ lget l (11 + 2 * i) = a + (ixData t v).length ∧
    a + (ixData t v).length ≤ σ.nextFree ∧ rdBytes σ.mem a (ixData t v).length = ixData t v

def IxDones (σ : Store) (l : List Nat) : Nat → List ETy → List Val → Prop
  | i, t :: ts, v :: vs => IxDone σ l i t v ∧ IxDones σ l (i + 1) ts vs
  | _, _, _ => True

theorem IxDone.later {l l' : List Nat} {i : Nat} {t : ETy} {v : Val} (h : IxDone σ l i t v) (he : Extends σ σ')
    (hl : lget l' (10 + 2 * i) = lget l (10 + 2 * i)) (hl' : lget l' (11 + 2 * i) = lget l (11 + 2 * i)) : IxDone σ' l' i t v := by
  intro ht
  obtain ⟨a, h1, h2, h3, h4⟩ := h ht
  refine ⟨a, by rw [hl, h1], by rw [hl', h2], Nat.le_trans h3 he.nextFree, ?_⟩
  rw [← h4]
  simp only [rdBytes_length]
  exact rdBytes_congr fun x _ hx => he.mem x (by omega)

theorem IxDones.later {l l' : List Nat} (he : Extends σ σ') : ∀ {ts : List ETy} {vs : List Val} {i : Nat}, IxDones σ l i ts vs →
    (∀ j, 10 + 2 * i ≤ j → j < 10 + 2 * (i + ts.length) → lget l' j = lget l j) → IxDones σ' l' i ts vs
  | [], _, _, _, _ => trivial
  | _ :: _, [], _, _, _ => trivial
  | t :: ts, v :: vs, i, h, hl =>
    ⟨h.1.later he (hl _ (by omega) (by simp only [List.length_cons]; omega)) (hl _ (by omega) (by simp only [List.length_cons]; omega)),
      h.2.later he fun j h1 h2 => hl j (by omega) (by simp only [List.length_cons]; omega)⟩

def ixDatas : List ETy → List Val → List UInt8
  | t :: ts, v :: vs => ixData t v ++ ixDatas ts vs
  | _, _ => []

def IxOks : List ETy → List Val → Prop
  | t :: ts, v :: vs => IxOk t v ∧ IxOks ts vs
  | _, _ => True

def ixShorts : List ETy → List Val → Bool
  | t :: ts, v :: vs => ixShort t v || ixShorts ts vs
  | _, _ => false

theorem wp_ixPreps {b lim : Nat} {is s Q} : ∀ {ts : List ETy} {vs : List Val} {i k : Nat} {l : List Nat} {σ : Store}, Heap σ →
    RepFs σ.mem lim (ts.map ETy.mty) vs (b + 4 * i) → lim ≤ σ.nextFree → IxOks ts vs → Room σ (ixDatas ts vs).length →
    (ixShorts ts vs = false ∨ σ.nextFree + (ixDatas ts vs).length + 3 ≤ σ.size) → lget l 0 = b → i + ts.length ≤ 4 → 18 ≤ k →
    k + (ts.map nlIxPrep).sum ≤ l.length →
    (∀ σ' l', Keyed (ixDatas ts vs) σ σ' → l'.length = l.length → IxDones σ' l' i ts vs →
      (∀ j, j < k → j ≠ 4 → (j < 10 + 2 * i ∨ 10 + 2 * (i + ts.length) ≤ j) → lget l' j = lget l j) → wp is s l' σ' Q) →
    wp (ixPreps E ts i k ++ is) s l σ Q := by
  intro ts
  induction ts with
  | nil =>
    intro vs i k l σ hσ hr hlim hf hroom hov hb hi hkk hlen hk
    have e : ixDatas [] vs = [] := by cases vs <;> rfl
    rw [e] at hk
    exact hk σ l hσ.keyed_nil rfl trivial fun _ _ _ _ => rfl
  | cons t ts ih =>
    intro vs i k l σ hσ hr hlim hf hroom hov hb hi hkk hlen hk
    cases vs with
    | nil => simp [RepFs] at hr
    | cons v vs =>
    rw [List.map_cons, RepFs] at hr
    obtain ⟨h1, h2, h3, h4⟩ := hr
    rw [ixDatas, List.length_append] at hroom
    rw [ixShorts, Bool.or_eq_false_iff, ixDatas, List.length_append] at hov
    simp only [List.map_cons, List.sum_cons] at hlen
    simp only [List.length_cons] at hi hk
    rw [ixPreps, List.append_assoc]
    refine wp_ixPrep hσ (v := v) (b := b) (lim := lim) (by simp only [RepFs]; exact ⟨h1, h2, h3, trivial⟩) hlim hf.1 (hroom.mono (by omega))
      (by rcases hov with h | h <;> [exact .inl h.1; exact .inr (by omega)]) hb (by omega) hkk (by omega) fun σ1 l1 hkd e1 e2 e3 => ?_
    have g := hkd.nextFree
    have hs := hkd.ext.size
    refine ih (i := i + 1) (hkd.ext.heap hσ) (RepFs.congr (fun x hx => hkd.ext.mem x (by omega)) _ (by rw [Nat.mul_add, ← Nat.add_assoc]; exact h4)) (by omega) hf.2
      (Room.after hroom (Nat.le_of_eq g) hkd.ext.maxPages)
      (by rcases hov with h | h <;> [exact .inl h.2; exact .inr (by omega)]) (by rw [e3 0 (by omega) (by omega) (by omega) (by omega), hb]) (by omega)
      (by omega) (by omega) fun σ2 l2 hkd2 e4 e5 e6 => ?_
    refine hk σ2 l2 (by rw [ixDatas]; exact hkd.trans hkd2) (by omega) ⟨?_, e5⟩ fun j a1 a2 a3 => ?_
    · intro ht
      obtain ⟨c1, c2⟩ := e2 ht
      have g2 := hkd2.ext.nextFree
      refine ⟨σ.nextFree, ?_, ?_, by omega, ?_⟩
      · rw [e6 _ (by omega) (by omega) (by omega), c1]
      · rw [e6 _ (by omega) (by omega) (by omega), c2]
      · rw [← hkd.bytes]
        simp only [rdBytes_length]
        exact rdBytes_congr fun x _ hx => hkd2.ext.mem x (by omega)
    · rw [e6 j (by omega) a2 (by omega), e3 j a1 a2 (by omega) (by omega)]

end Rt
