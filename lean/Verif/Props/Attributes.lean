import Verif.Rt.Attributes

/-!
C113: attributes of structs and functions are taken as they are written or refused.
-/

namespace Props.Attrs
open Attributes

/-- `y` is `x` or among the arguments of `x`, at any depth. -/
inductive Inside : Attr → Attr → Prop where
  | self (a) : Inside a a
  | arg {x y n args} : x ∈ args → Inside y x → Inside y (.param n args)

/-- The text is a number of one digit that may have zeros before it. -/
def Digit (s : List Char) (k : Nat) : Prop :=
  k ≤ 9 ∧ ∃ z, s = List.replicate z '0' ++ [Char.ofNat (48 + k)]

/-- `indexes = k`. -/
def IsIndex (x : Attr) (k : Nat) : Prop := ∃ s, x = .assigned "indexes" (.num s) ∧ Digit s k

/-- The arguments of an event with `k` indexed fields. -/
structure EventWritten (args : List Attr) (k : Nat) (an : Bool) : Prop where
  each : ∀ x ∈ args, x = .name "anonymous" ∨ ∃ j, IsIndex x j
  anonymous : an = true ↔ .name "anonymous" ∈ args
  indexes : (∃ x ∈ args, IsIndex x k) ∨ k = 0 ∧ ∀ x ∈ args, ∀ j, ¬ IsIndex x j
  bound : k ≤ 3 ∨ an = true ∧ k ≤ 4

/-- How modifiers of structs are written. -/
inductive WritesS : Attr → SMod → Prop where
  | event0 : WritesS (.name "event") (.event 0 false)
  | event {args k an} : EventWritten args k an → WritesS (.param "event" args) (.event k an)
  | external {args a m} :
      args = [.assigned "address" (.address a), .assigned "module_name" (.bytes m)] ∨
        args = [.assigned "module_name" (.bytes m), .assigned "address" (.address a)] →
      WritesS (.param "external_struct" args) (.external a m)
  | call : WritesS (.name "external_call") .call
  | abiError : WritesS (.name "abi_error") .abiError

/-- The words for modifiers of Solidity. -/
def word : Sol → String
  | .pure => "pure"
  | .view => "view"
  | .payable => "payable"

/-- How modifiers of functions are written. -/
inductive WritesF : Attr → FMod → Prop where
  | owned (ids) : WritesF (.param "owned_objects" (ids.map .name)) (.owned ids)
  | shared (ids) : WritesF (.param "shared_objects" (ids.map .name)) (.shared ids)
  | frozen (ids) : WritesF (.param "frozen_objects" (ids.map .name)) (.frozen ids)
  | abi (ms) : WritesF (.param "abi" (ms.map fun m => .name (word m))) (.abi ms)
  | call (ms) : WritesF (.param "external_call" (ms.map fun m => .name (word m))) (.call ms)
  | call0 : WritesF (.name "external_call") (.call [])
  | test : WritesF (.name "test") .test
  | skip : WritesF (.name "skip") .skip
  | failure : WritesF (.name "expected_failure") .expectedFailure
  | failureOf (args) : WritesF (.param "expected_failure" args) .expectedFailure

/-- The attribute says `indexes` at most once if it is an event, and both the address and the module if it is an
external struct. -/
def Full : Attr → Prop
  | .param n args =>
    (n = "event" → args.Pairwise fun x y => ¬ ((∃ v, x = .assigned "indexes" v) ∧ ∃ v, y = .assigned "indexes" v)) ∧
    (n = "external_struct" → 2 ≤ args.length)
  | _ => True

/-! ### Numbers -/

theorem digits_append (s : List Char) (c : Char) : ∀ v, digits v (s ++ [c]) =
    (digits v s).bind fun n => if c.isDigit then some (10 * n + (c.toNat - 48)) else none := by
  induction s with
  | nil => intro v; simp [digits]
  | cons a s ih => intro v; simp only [List.cons_append, digits]; split <;> simp [ih]

theorem digits_zeros (z : Nat) : digits 0 (List.replicate z '0') = some 0 := by
  induction z with
  | zero => rfl
  | succ z ih => rw [List.replicate_succ, digits, if_pos (by decide)]; exact ih

theorem isDigit_toNat {c : Char} (h : c.isDigit = true) : 48 ≤ c.toNat ∧ c.toNat ≤ 57 := by
  simp only [Char.isDigit, Bool.and_eq_true, decide_eq_true_eq] at h
  exact ⟨by have := h.1; exact this, by have := h.2; exact this⟩

theorem digits_le {s : List Char} : ∀ {v n}, digits v s = some n → v ≤ n := by
  induction s with
  | nil => intro v n h; simp [digits] at h; omega
  | cons a s ih =>
    intro v n h
    rw [digits] at h
    split at h
    · have := ih h; omega
    · cases h

theorem char_ofToNat (c : Char) : Char.ofNat c.toNat = c := by simp

/-- Texts with value 0 are zeros. -/
theorem digits_zero {s : List Char} (h : digits 0 s = some 0) : s = List.replicate s.length '0' := by
  induction s with
  | nil => rfl
  | cons c s ih =>
    rw [digits] at h
    split at h
    · rename_i hd
      have hle := digits_le h
      have hc : c.toNat = 48 := by have := isDigit_toNat hd; omega
      have : c = '0' := by rw [← char_ofToNat c, hc]
      subst this
      rw [List.length_cons, List.replicate_succ, ← ih (by simpa using h)]
    · cases h

theorem digit_char {k : Nat} (h : k ≤ 9) : (Char.ofNat (48 + k)).isDigit = true ∧ (Char.ofNat (48 + k)).toNat = 48 + k := by
  have : ∀ k, k ≤ 9 → (Char.ofNat (48 + k)).isDigit = true ∧ (Char.ofNat (48 + k)).toNat = 48 + k := by decide
  exact this k h

theorem parseU8_iff {s : List Char} {k : Nat} (hk : k ≤ 9) : parseU8 s = some k ↔ Digit s k := by
  constructor
  · intro h
    refine ⟨hk, ?_⟩
    unfold parseU8 at h
    split at h
    · cases h
    · rename_i hs
      obtain ⟨t, c, rfl⟩ : ∃ t c, s = t ++ [c] := ⟨s.dropLast, s.getLast hs, (List.dropLast_concat_getLast hs).symm⟩
      rw [digits_append] at h
      rcases ht : digits 0 t with _ | n
      · simp [ht] at h
      · simp only [ht, Option.bind_some] at h
        by_cases hc : c.isDigit = true
        · simp only [hc, if_true] at h
          split at h
          · cases h
            have := isDigit_toNat hc
            have hn : n = 0 := by omega
            subst hn
            refine ⟨t.length, ?_⟩
            rw [← digits_zero ht, show 48 + (10 * 0 + (c.toNat - 48)) = c.toNat by omega, char_ofToNat]
          · cases h
        · simp [hc] at h
  · rintro ⟨-, z, rfl⟩
    obtain ⟨h1, h2⟩ := digit_char hk
    simp [parseU8, digits_append, digits_zeros, h1, h2]
    omega

theorem indexOf_iff {v j} : indexOf v = .ok j ↔ j ≤ 4 ∧ ∃ s, v = .num s ∧ Digit s j := by
  constructor
  · intro h
    cases v with
    | num s =>
      rw [indexOf] at h
      rcases hs : parseU8 s with _ | i
      · simp [hs] at h
      · simp only [hs] at h
        split at h
        · rename_i hi
          cases h
          exact ⟨hi, s, rfl, (parseU8_iff (by omega)).1 hs⟩
        · cases h
    | _ => simp [indexOf] at h
  · rintro ⟨hj, s, rfl, h⟩
    simp [indexOf, (parseU8_iff h.1).2 h, hj]

/-! ### Structs -/

/-- No second `indexes`. -/
abbrev OneIndex (args : List Attr) : Prop :=
  args.Pairwise fun x y => ¬ ((∃ v, x = .assigned "indexes" v) ∧ ∃ v, y = .assigned "indexes" v)

theorem IsIndex.assigned {x j} (h : IsIndex x j) : ∃ v, x = .assigned "indexes" v := ⟨_, h.choose_spec.1⟩

theorem IsIndex.unique {x i j} (h : IsIndex x i) (h' : IsIndex x j) : i = j := by
  obtain ⟨s, rfl, hs⟩ := h
  obtain ⟨t, ht, hs'⟩ := h'
  cases ht
  have h1 := (parseU8_iff hs.1).2 hs
  have h2 := (parseU8_iff hs'.1).2 hs'
  rw [h1] at h2
  exact Option.some.inj h2

theorem eventArgs_iff {k : Nat} {an : Bool} : ∀ {args : List Attr} {k0 : Nat} {an0 : Bool}, OneIndex args →
    (eventArgs k0 an0 args = .ok (k, an) ↔
      (∀ x ∈ args, x = .name "anonymous" ∨ ∃ j ≤ 4, IsIndex x j) ∧
      (an = true ↔ an0 = true ∨ .name "anonymous" ∈ args) ∧
      ((∃ x ∈ args, IsIndex x k) ∨ k = k0 ∧ ∀ x ∈ args, ∀ j, ¬ IsIndex x j)) := by
  intro args
  induction args with
  | nil =>
    intro k0 an0 _
    simp only [eventArgs, Except.ok.injEq, Prod.mk.injEq]
    cases an <;> cases an0 <;> simp [eq_comm]
  | cons a as ih =>
    intro k0 an0 h1
    obtain ⟨hp, h1'⟩ := List.pairwise_cons.1 h1
    have bad : (∀ j, ¬ IsIndex a j) → a ≠ .name "anonymous" → ∀ e, ((.error e : Except Err (Nat × Bool)) = .ok (k, an) ↔
        (∀ x ∈ a :: as, x = .name "anonymous" ∨ ∃ j ≤ 4, IsIndex x j) ∧
        (an = true ↔ an0 = true ∨ .name "anonymous" ∈ a :: as) ∧
        ((∃ x ∈ a :: as, IsIndex x k) ∨ k = k0 ∧ ∀ x ∈ a :: as, ∀ j, ¬ IsIndex x j)) := by
      intro hi hn e
      refine iff_of_false (by simp) fun h => ?_
      rcases h.1 a List.mem_cons_self with h | ⟨j, -, h⟩
      · exact hn h
      · exact hi j h
    cases a with
    | name n =>
      rw [eventArgs]
      have hi : ∀ j, ¬ IsIndex (.name n) j := fun j ⟨_, h, _⟩ => by cases h
      split
      · rename_i hn
        subst hn
        rw [ih h1']
        simp [hi]
      · rename_i hn
        exact bad hi (by simpa using hn) _
    | param n l =>
      rw [eventArgs]
      exact bad (fun j ⟨_, h, _⟩ => by cases h) (by simp) _
    | assigned n v =>
      have hn' : Attr.assigned n v ≠ .name "anonymous" := by simp
      rw [eventArgs]
      split
      · rename_i hn
        subst hn
        have hrest : ∀ x ∈ as, ∀ j, ¬ IsIndex x j := fun x hx j hj => hp x hx ⟨⟨_, rfl⟩, hj.assigned⟩
        rcases hv : indexOf v with e | j
        · simp only
          refine iff_of_false (by simp) fun h => ?_
          rcases h.1 _ List.mem_cons_self with h | ⟨i, hi, t, ht, hd⟩
          · exact hn' h
          · cases ht
            rw [indexOf_iff.2 ⟨hi, t, rfl, hd⟩] at hv
            cases hv
        · simp only
          obtain ⟨hj, s, rfl, hs⟩ := indexOf_iff.1 hv
          have hij : IsIndex (.assigned "indexes" (.num s)) j := ⟨s, rfl, hs⟩
          rw [ih h1']
          constructor
          · rintro ⟨h2, h3, h4⟩
            refine ⟨fun x hx => ?_, by simpa using h3, ?_⟩
            · rcases List.mem_cons.1 hx with rfl | hx
              · exact .inr ⟨j, hj, hij⟩
              · exact h2 x hx
            · rcases h4 with ⟨x, hx, h⟩ | ⟨rfl, -⟩
              · exact absurd h (hrest x hx k)
              · exact .inl ⟨_, List.mem_cons_self, hij⟩
          · rintro ⟨h2, h3, h4⟩
            refine ⟨fun x hx => h2 x (List.mem_cons_of_mem _ hx), by simpa using h3, .inr ⟨?_, hrest⟩⟩
            rcases h4 with ⟨x, hx, h⟩ | ⟨-, h⟩
            · rcases List.mem_cons.1 hx with rfl | hx
              · exact h.unique hij
              · exact absurd h (hrest x hx k)
            · exact absurd hij (h _ List.mem_cons_self j)
      · rename_i hn
        refine bad (fun j ⟨_, h, _⟩ => ?_) hn' _
        cases h
        exact hn rfl

/-- Events are read as they are written. -/
theorem parseEvent_iff {args : List Attr} (h1 : OneIndex args) {r : Option SMod} :
    parseEvent args = .ok r ↔ ∃ k an, r = some (.event k an) ∧ EventWritten args k an := by
  have key : ∀ k an, eventArgs 0 false args = .ok (k, an) ∧ ¬ (an = false ∧ 4 ≤ k) ↔ EventWritten args k an := by
    intro k an
    rw [eventArgs_iff h1]
    constructor
    · rintro ⟨⟨h2, h3, h4⟩, h5⟩
      refine ⟨fun x hx => (h2 x hx).imp_right fun ⟨j, _, h⟩ => ⟨j, h⟩, by simpa using h3, h4, ?_⟩
      have hk : k ≤ 4 := by
        rcases h4 with ⟨x, hx, hi⟩ | ⟨rfl, -⟩
        · rcases h2 x hx with rfl | ⟨j, hj, h⟩
          · obtain ⟨_, h, _⟩ := hi; cases h
          · rw [hi.unique h]; exact hj
        · omega
      cases an
      · left; simp at h5; omega
      · exact .inr ⟨rfl, hk⟩
    · rintro ⟨h2, h3, h4, h5⟩
      refine ⟨⟨fun x hx => ?_, by simpa using h3, h4⟩, ?_⟩
      · rcases h2 x hx with h | ⟨j, hj⟩
        · exact .inl h
        · refine .inr ⟨j, ?_, hj⟩
          rcases h4 with ⟨y, hy, hk⟩ | ⟨-, h⟩
          · by_cases hxy : x = y
            · subst hxy
              rw [hj.unique hk]
              rcases h5 with h | ⟨-, h⟩ <;> omega
            · exfalso
              obtain ⟨l, r, rfl⟩ := List.append_of_mem hx
              have hp := List.pairwise_append.1 h1
              rcases List.mem_append.1 hy with hy | hy
              · exact hp.2.2 y hy x List.mem_cons_self ⟨hk.assigned, hj.assigned⟩
              · rcases List.mem_cons.1 hy with rfl | hy
                · exact hxy rfl
                · exact (List.pairwise_cons.1 hp.2.1).1 y hy ⟨hj.assigned, hk.assigned⟩
          · exact absurd hj (h x hx j)
      · rintro ⟨rfl, h⟩
        rcases h5 with h | ⟨h, -⟩
        · omega
        · cases h
  unfold parseEvent
  constructor
  · intro h
    split at h
    · cases h
    · rename_i k an he
      split at h
      · cases h
      · rename_i hb
        cases h
        exact ⟨k, an, rfl, (key k an).1 ⟨he, hb⟩⟩
  · rintro ⟨k, an, rfl, h⟩
    obtain ⟨h2, h3⟩ := (key k an).2 h
    simp only [h2]
    rw [if_neg h3]

theorem addressOf_iff {a v x} : addressOf a v = .ok x ↔ a = none ∧ v = .address x := by
  cases v <;> cases a <;> simp [addressOf]

theorem moduleOf_iff {m v x} : moduleOf m v = .ok x ↔ m = none ∧ v = .bytes x := by
  cases v <;> cases m <;> simp [moduleOf]

/-- One step of the loop. -/
theorem externalArgs_cons {a m x as a' m'} : externalArgs a m (x :: as) = .ok (a', m') ↔
    (∃ y, a = none ∧ x = .assigned "address" (.address y) ∧ externalArgs (some y) m as = .ok (a', m')) ∨
    (∃ s, m = none ∧ x = .assigned "module_name" (.bytes s) ∧ externalArgs a (some s) as = .ok (a', m')) := by
  cases x with
  | name n => simp [externalArgs]
  | param n l => simp [externalArgs]
  | assigned n v =>
    rw [externalArgs]
    by_cases h1 : n = "address"
    · subst h1
      rw [if_pos rfl]
      rcases hv : addressOf a v with e | y
      · simp only [Attr.assigned.injEq, true_and]
        refine iff_of_false (by simp) ?_
        rintro (⟨y, rfl, rfl, -⟩ | ⟨s, -, ⟨h, -⟩, -⟩)
        · simp [addressOf] at hv
        · revert h; decide
      · obtain ⟨rfl, rfl⟩ := addressOf_iff.1 hv
        simp
    · rw [if_neg h1]
      by_cases h2 : n = "module_name"
      · subst h2
        rw [if_pos rfl]
        rcases hv : moduleOf m v with e | y
        · simp only [Attr.assigned.injEq, true_and]
          refine iff_of_false (by simp) ?_
          rintro (⟨y, -, ⟨h, -⟩, -⟩ | ⟨s, rfl, rfl, -⟩)
          · revert h; decide
          · simp [moduleOf] at hv
        · obtain ⟨rfl, rfl⟩ := moduleOf_iff.1 hv
          simp
      · simp [h1, h2]

/-- External structs are read as they are written. -/
theorem parseExternal_iff {args : List Attr} (h2 : 2 ≤ args.length) {r : Option SMod} :
    parseExternal args = .ok r ↔
      ∃ a m, r = some (.external a m) ∧ WritesS (.param "external_struct" args) (.external a m) := by
  constructor
  · intro h
    unfold parseExternal at h
    split at h
    · cases h
    · rename_i a m he
      cases h
      rcases args with _ | ⟨x, _ | ⟨y, as⟩⟩
      · simp at h2
      · simp at h2
      · rcases externalArgs_cons.1 he with ⟨u, -, rfl, h3⟩ | ⟨s, -, rfl, h3⟩
        · rcases externalArgs_cons.1 h3 with ⟨_, h, -⟩ | ⟨s, -, rfl, h4⟩
          · cases h
          · rcases as with _ | ⟨z, as⟩
            · simp only [externalArgs, Except.ok.injEq, Prod.mk.injEq] at h4
              obtain ⟨rfl, rfl⟩ := h4
              exact ⟨u, s, rfl, .external (.inl rfl)⟩
            · rcases externalArgs_cons.1 h4 with ⟨_, h, -⟩ | ⟨_, h, -⟩ <;> cases h
        · rcases externalArgs_cons.1 h3 with ⟨u, -, rfl, h4⟩ | ⟨_, h, -⟩
          · rcases as with _ | ⟨z, as⟩
            · simp only [externalArgs, Except.ok.injEq, Prod.mk.injEq] at h4
              obtain ⟨rfl, rfl⟩ := h4
              exact ⟨u, s, rfl, .external (.inr rfl)⟩
            · rcases externalArgs_cons.1 h4 with ⟨_, h, -⟩ | ⟨_, h, -⟩ <;> cases h
          · cases h
  · rintro ⟨a, m, rfl, h⟩
    generalize hx : Attr.param "external_struct" args = x at h
    cases h with
    | external h => cases hx; rcases h with rfl | rfl <;> simp [parseExternal, externalArgs, addressOf, moduleOf]

/-- A modifier that is written is read. -/
theorem parseStruct_writes {a m} (hf : Full a) (h : WritesS a m) : parseStruct a = .ok (some m) := by
  cases h with
  | event0 => simp [parseStruct]
  | event h => rw [parseStruct, if_pos rfl]; exact (parseEvent_iff (hf.1 rfl)).2 ⟨_, _, rfl, h⟩
  | external h =>
    rw [parseStruct, if_neg (by decide), if_pos rfl]
    exact (parseExternal_iff (hf.2 rfl)).2 ⟨_, _, rfl, .external h⟩
  | call => simp [parseStruct]
  | abiError => simp [parseStruct]

mutual
/-- A modifier that is read is written. -/
theorem parseStruct_sound : ∀ (a : Attr) (m : SMod), (∀ x, Inside x a → Full x) → parseStruct a = .ok (some m) →
    ∃ x, Inside x a ∧ WritesS x m
  | .param n args, m, hf, h => by
    rw [parseStruct] at h
    have hfull := hf _ (.self _)
    split at h
    · rename_i hn
      subst hn
      obtain ⟨k, an, hm, hw⟩ := (parseEvent_iff (hfull.1 rfl)).1 h
      cases hm
      exact ⟨_, .self _, .event hw⟩
    · split at h
      · rename_i hn
        subst hn
        obtain ⟨k, an, hm, hw⟩ := (parseExternal_iff (hfull.2 rfl)).1 h
        cases hm
        exact ⟨_, .self _, hw⟩
      · obtain ⟨x, hx, y, hy, hw⟩ := parseHead_sound args m (fun x hx y hy => hf y (.arg hx hy)) h
        exact ⟨y, .arg hx hy, hw⟩
  | .name n, m, _, h => by
    rw [parseStruct] at h
    split at h
    · rename_i hn; subst hn; cases h; exact ⟨_, .self _, .call⟩
    · split at h
      · rename_i hn; subst hn; cases h; exact ⟨_, .self _, .event0⟩
      · split at h
        · rename_i hn; subst hn; cases h; exact ⟨_, .self _, .abiError⟩
        · cases h
  | .assigned n v, m, _, h => by rw [parseStruct] at h; cases h

theorem parseHead_sound : ∀ (as : List Attr) (m : SMod), (∀ x ∈ as, ∀ y, Inside y x → Full y) →
    parseHead as = .ok (some m) → ∃ x ∈ as, ∃ y, Inside y x ∧ WritesS y m
  | [], m, _, h => by rw [parseHead] at h; cases h
  | a :: as, m, hf, h => by
    rw [parseHead] at h
    obtain ⟨y, hy, hw⟩ := parseStruct_sound a m (hf a List.mem_cons_self) h
    exact ⟨a, List.mem_cons_self, y, hy, hw⟩
end

/-! ### Functions -/

theorem collect_id_iff {args ids} : collect parseId args = .ok ids ↔ args = ids.map .name := by
  induction args generalizing ids with
  | nil => rcases ids with _ | ⟨i, ids⟩ <;> simp [collect]
  | cons a as ih =>
    cases a with
    | name n =>
      rcases hc : collect parseId as with e | l
      · simp only [collect, parseId, hc]
        refine iff_of_false (by simp) ?_
        rcases ids with _ | ⟨i, ids⟩
        · simp
        · simp only [List.map_cons, List.cons.injEq, not_and]
          intro _ h
          rw [ih.2 h] at hc
          cases hc
      · simp only [collect, parseId, hc, Except.ok.injEq]
        have := (ih (ids := l)).1 hc
        subst this
        rcases ids with _ | ⟨i, ids⟩
        · simp
        · simp only [List.map_cons, List.cons.injEq, Attr.name.injEq]
          refine ⟨fun h => ⟨h.1, by rw [h.2]⟩, fun h => ⟨h.1, ?_⟩⟩
          rw [ih.2 h.2] at hc
          cases hc
          rfl
    | _ => rcases ids with _ | ⟨i, ids⟩ <;> simp [collect, parseId]

theorem parseSol_iff {a s} : parseSol a = .ok s ↔ a = .name (word s) := by
  cases a with
  | name n =>
    simp only [parseSol, Attr.name.injEq]
    by_cases h1 : n = "pure"
    · subst h1; cases s <;> simp [word]
    · by_cases h2 : n = "view"
      · subst h2; cases s <;> simp [word]
      · by_cases h3 : n = "payable"
        · subst h3; cases s <;> simp [word]
        · cases s <;> simp [word, h1, h2, h3]
  | _ => simp [parseSol]

theorem word_inj {s t} (h : word s = word t) : s = t := by
  cases s <;> cases t <;> first | rfl | (simp [word] at h)

theorem collect_sol_iff {args ms} : collect parseSol args = .ok ms ↔ args = ms.map fun m => .name (word m) := by
  induction args generalizing ms with
  | nil => rcases ms with _ | ⟨i, ids⟩ <;> simp [collect]
  | cons a as ih =>
    rcases hs : parseSol a with e | s
    · simp only [collect, hs]
      refine iff_of_false (by simp) ?_
      rcases ms with _ | ⟨i, ids⟩
      · simp
      · simp only [List.map_cons, List.cons.injEq, not_and]
        intro h _
        rw [parseSol_iff.2 h] at hs
        cases hs
    · have ha := parseSol_iff.1 hs
      subst ha
      rcases hc : collect parseSol as with e | l
      · simp only [collect, hs, hc]
        refine iff_of_false (by simp) ?_
        rcases ms with _ | ⟨i, ids⟩
        · simp
        · simp only [List.map_cons, List.cons.injEq, not_and]
          intro _ h
          rw [ih.2 h] at hc
          cases hc
      · simp only [collect, hs, hc, Except.ok.injEq]
        rcases ms with _ | ⟨i, ids⟩
        · simp
        · simp only [List.map_cons, List.cons.injEq, Attr.name.injEq]
          constructor
          · rintro ⟨rfl, rfl⟩; exact ⟨rfl, ih.1 hc⟩
          · rintro ⟨h1, h2⟩
            rw [ih.2 h2] at hc
            cases hc
            exact ⟨word_inj h1, rfl⟩

/-- A modifier that is written is read. -/
theorem parseFun_writes {a m} (h : WritesF a m) : parseFun a = .ok [m] := by
  cases h with
  | owned ids => simp [parseFun, collect_id_iff.2 rfl, Except.map]
  | shared ids => simp [parseFun, collect_id_iff.2 rfl, Except.map]
  | frozen ids => simp [parseFun, collect_id_iff.2 rfl, Except.map]
  | abi ms => simp [parseFun, collect_sol_iff.2 rfl, Except.map]
  | call ms => simp [parseFun, collect_sol_iff.2 rfl, Except.map]
  | _ => simp [parseFun]

theorem map_ok {α β} {e : Except Err α} {f : α → β} {b} (h : e.map f = .ok b) : ∃ a, e = .ok a ∧ f a = b := by
  cases e with
  | error e => cases h
  | ok a => exact ⟨a, rfl, by simpa [Except.map] using h⟩

mutual
/-- A modifier that is read is written. -/
theorem parseFun_sound : ∀ (a : Attr) (ms : List FMod), parseFun a = .ok ms → ∀ m ∈ ms, ∃ x, Inside x a ∧ WritesF x m
  | .param n args, ms, h => by
    rw [parseFun] at h
    split at h
    · rename_i hn; subst hn
      obtain ⟨ids, hi, rfl⟩ := map_ok h
      simpa [collect_id_iff.1 hi] using ⟨_, .self _, .owned ids⟩
    split at h
    · rename_i hn; subst hn
      obtain ⟨ids, hi, rfl⟩ := map_ok h
      simpa [collect_id_iff.1 hi] using ⟨_, .self _, .shared ids⟩
    split at h
    · rename_i hn; subst hn
      obtain ⟨ids, hi, rfl⟩ := map_ok h
      simpa [collect_id_iff.1 hi] using ⟨_, .self _, .frozen ids⟩
    split at h
    · rename_i hn; subst hn
      obtain ⟨ids, hi, rfl⟩ := map_ok h
      simpa [collect_sol_iff.1 hi] using ⟨_, .self _, .abi ids⟩
    split at h
    · rename_i hn; subst hn
      obtain ⟨ids, hi, rfl⟩ := map_ok h
      simpa [collect_sol_iff.1 hi] using ⟨_, .self _, .call ids⟩
    split at h
    · rename_i hn; subst hn
      cases h
      simpa using ⟨_, .self _, .failureOf args⟩
    intro m hm
    obtain ⟨x, hx, y, hy, hw⟩ := parseFuns_sound args ms h m hm
    exact ⟨y, .arg hx hy, hw⟩
  | .name n, ms, h => by
    rw [parseFun] at h
    split at h
    · rename_i hn; subst hn; cases h; simpa using ⟨_, .self _, .call0⟩
    split at h
    · rename_i hn; subst hn; cases h; simpa using ⟨_, .self _, .test⟩
    split at h
    · rename_i hn; subst hn; cases h; simpa using ⟨_, .self _, .skip⟩
    split at h
    · rename_i hn; subst hn; cases h; simpa using ⟨_, .self _, .failure⟩
    cases h
    simp
  | .assigned n v, ms, h => by rw [parseFun] at h; cases h; simp

theorem parseFuns_sound : ∀ (as : List Attr) (ms : List FMod), parseFuns as = .ok ms →
    ∀ m ∈ ms, ∃ x ∈ as, ∃ y, Inside y x ∧ WritesF y m
  | [], ms, h => by rw [parseFuns] at h; cases h; simp
  | a :: as, ms, h => by
    rw [parseFuns] at h
    split at h
    · cases h
    · rename_i m1 h1
      split at h
      · cases h
      · rename_i m2 h2
        cases h
        intro m hm
        rcases List.mem_append.1 hm with hm | hm
        · obtain ⟨y, hy, hw⟩ := parseFun_sound a m1 h1 m hm
          exact ⟨a, List.mem_cons_self, y, hy, hw⟩
        · obtain ⟨x, hx, y, hy, hw⟩ := parseFuns_sound as m2 h2 m hm
          exact ⟨x, List.mem_cons_of_mem _ hx, y, hy, hw⟩
end

/-! ### Lists of attributes -/

/-- The attribute `a` or `ext(a)`, where `a` writes the modifier. -/
def StructAttr (x : Attr) (m : SMod) : Prop := ∃ a, WritesS a m ∧ Full a ∧ (x = a ∨ x = .param "ext" [a])

/-- An attribute that writes a modifier, or `ext` with a list of those. -/
def FunAttr (x : Attr) (ms : List FMod) : Prop :=
  (∃ m, WritesF x m ∧ ms = [m]) ∨
  ∃ q : List (Attr × FMod), (∀ p ∈ q, WritesF p.1 p.2) ∧ x = .param "ext" (q.map Prod.fst) ∧ ms = q.map Prod.snd

theorem parseStruct_ext (args : List Attr) : parseStruct (.param "ext" args) = parseHead args := by
  rw [parseStruct, if_neg (by decide), if_neg (by decide)]

theorem parseFun_ext (args : List Attr) : parseFun (.param "ext" args) = parseFuns args := by
  rw [parseFun, if_neg (by decide), if_neg (by decide), if_neg (by decide), if_neg (by decide), if_neg (by decide),
    if_neg (by decide)]

theorem structAttr_parse {x m} (h : StructAttr x m) : parseStruct x = .ok (some m) := by
  obtain ⟨a, hw, hf, rfl | rfl⟩ := h
  · exact parseStruct_writes hf hw
  · rw [parseStruct_ext, parseHead]
    exact parseStruct_writes hf hw

theorem structMods_ok : ∀ l : List (Attr × SMod), (∀ p ∈ l, StructAttr p.1 p.2) →
    structMods [l.map Prod.fst] = (l.map Prod.snd, []) := by
  intro l h
  induction l with
  | nil => rfl
  | cons p l ih =>
    have h1 := structAttr_parse (h p List.mem_cons_self)
    have h2 := ih fun q hq => h q (List.mem_cons_of_mem _ hq)
    simp only [structMods, List.flatten_cons, List.flatten_nil, List.append_nil, Prod.mk.injEq] at h2 ⊢
    simp only [List.map_cons, h1, List.filterMap_cons, h2.1, h2.2]
    exact ⟨trivial, trivial⟩

theorem structMods_flatten (groups : List (List Attr)) : structMods groups = structMods [groups.flatten] := by
  simp [structMods]

theorem mem_structMods {groups m} (h : m ∈ (structMods groups).1) :
    ∃ a ∈ groups.flatten, parseStruct a = .ok (some m) := by
  simp only [structMods, List.mem_filterMap, List.mem_map] at h
  obtain ⟨r, ⟨a, ha, rfl⟩, h⟩ := h
  refine ⟨a, ha, ?_⟩
  rcases hr : parseStruct a with e | o
  · simp [hr] at h
  · simp only [hr] at h
    rw [h]

theorem structMods_errors {groups a e} (ha : a ∈ groups.flatten) (h : parseStruct a = .error e) :
    (structMods groups).2 ≠ [] := by
  have : e ∈ (structMods groups).2 := by
    simp only [structMods, List.mem_filterMap, List.mem_map]
    exact ⟨_, ⟨a, ha, rfl⟩, by rw [h]⟩
  intro h0
  rw [h0] at this
  cases this

theorem parseFuns_ok : ∀ q : List (Attr × List FMod), (∀ p ∈ q, parseFun p.1 = .ok p.2) →
    parseFuns (q.map Prod.fst) = .ok (q.map Prod.snd).flatten := by
  intro q h
  induction q with
  | nil => simp [parseFuns]
  | cons p q ih =>
    simp [parseFuns, h p List.mem_cons_self, ih fun x hx => h x (List.mem_cons_of_mem _ hx)]

theorem funAttr_parse {x ms} (h : FunAttr x ms) : parseFun x = .ok ms := by
  rcases h with ⟨m, h, rfl⟩ | ⟨q, h, rfl, rfl⟩
  · exact parseFun_writes h
  · rw [parseFun_ext]
    have := parseFuns_ok (q.map fun p => (p.1, [p.2])) (by
      intro p hp
      obtain ⟨p, hq, rfl⟩ := List.mem_map.1 hp
      exact parseFun_writes (h p hq))
    simp only [List.map_map] at this
    rw [show q.map Prod.fst = q.map (Prod.fst ∘ fun p => (p.1, [p.2])) from rfl, this]
    congr 1
    clear this h
    induction q with
    | nil => rfl
    | cons p q ih => simpa using ih

theorem parseFuns_error {a e} : ∀ as : List Attr, a ∈ as → parseFun a = .error e → ∃ e', parseFuns as = .error e' := by
  intro as
  induction as with
  | nil => intro h; cases h
  | cons b as ih =>
    intro h he
    rw [parseFuns]
    rcases hb : parseFun b with e' | m
    · exact ⟨e', rfl⟩
    · rcases List.mem_cons.1 h with rfl | h
      · rw [he] at hb; cases hb
      · obtain ⟨e', h'⟩ := ih h he
        exact ⟨e', by simp [h']⟩

theorem funMods_ok (l : List (List (Attr × List FMod))) (h : ∀ g ∈ l, ∀ p ∈ g, FunAttr p.1 p.2) :
    funMods (l.map (·.map Prod.fst)) = ((l.flatten.map Prod.snd).flatten, []) := by
  induction l with
  | nil => rfl
  | cons g l ih =>
    have h1 := parseFuns_ok g fun p hp => funAttr_parse (h g List.mem_cons_self p hp)
    have h2 := ih fun g' hg => h g' (List.mem_cons_of_mem _ hg)
    simp only [funMods, Prod.mk.injEq] at h2 ⊢
    simp only [List.map_cons, h1, List.filterMap_cons, h2.2, List.flatten_cons, h2.1]
    simp

theorem mem_funMods {groups m} (h : m ∈ (funMods groups).1) :
    ∃ a ∈ groups.flatten, ∃ x, Inside x a ∧ WritesF x m := by
  simp only [funMods, List.map_map, List.mem_flatten, List.mem_map, Function.comp] at h
  obtain ⟨ms, ⟨g, hg, rfl⟩, h⟩ := h
  rcases hr : parseFuns g with e | ms
  · simp [hr] at h
  · simp only [hr] at h
    obtain ⟨a, ha, hx⟩ := parseFuns_sound g ms hr m h
    exact ⟨a, List.mem_flatten.2 ⟨g, hg, ha⟩, hx⟩

theorem funMods_errors {groups a e} (ha : a ∈ groups.flatten) (h : parseFun a = .error e) :
    (funMods groups).2 ≠ [] := by
  obtain ⟨g, hg, ha⟩ := List.mem_flatten.1 ha
  obtain ⟨e', h'⟩ := parseFuns_error g ha h
  have : e' ∈ (funMods groups).2 := by
    simp only [funMods, List.mem_filterMap, List.mem_map]
    exact ⟨_, ⟨g, hg, rfl⟩, by rw [h']⟩
  intro h0
  rw [h0] at this
  cases this

/-- The names of modifiers of functions that take a list. -/
def Lists (n : String) : Prop :=
  n = "owned_objects" ∨ n = "shared_objects" ∨ n = "frozen_objects" ∨ n = "abi" ∨ n = "external_call"

theorem parseFun_lists {n args} (hn : Lists n) (h : ¬ ∃ m, WritesF (.param n args) m) :
    ∃ e, parseFun (.param n args) = .error e := by
  rcases hp : parseFun (.param n args) with e | ms
  · exact ⟨e, rfl⟩
  · exfalso
    apply h
    rcases hn with rfl | rfl | rfl | rfl | rfl <;> simp only [parseFun] at hp <;> obtain ⟨l, hl, -⟩ := map_ok hp
    · rw [collect_id_iff.1 hl]; exact ⟨_, .owned l⟩
    · rw [collect_id_iff.1 hl]; exact ⟨_, .shared l⟩
    · rw [collect_id_iff.1 hl]; exact ⟨_, .frozen l⟩
    · rw [collect_sol_iff.1 hl]; exact ⟨_, .abi l⟩
    · rw [collect_sol_iff.1 hl]; exact ⟨_, .call l⟩

theorem parseStruct_heads {n args} (hn : n = "event" ∨ n = "external_struct") (hf : Full (.param n args))
    (h : ¬ ∃ m, WritesS (.param n args) m) : ∃ e, parseStruct (.param n args) = .error e := by
  rcases hp : parseStruct (.param n args) with e | r
  · exact ⟨e, rfl⟩
  · exfalso
    apply h
    rcases hn with rfl | rfl
    · rw [parseStruct, if_pos rfl] at hp
      obtain ⟨k, an, -, hw⟩ := (parseEvent_iff (hf.1 rfl)).1 hp
      exact ⟨_, .event hw⟩
    · rw [parseStruct, if_neg (by decide), if_pos rfl] at hp
      obtain ⟨a, m, -, hw⟩ := (parseExternal_iff (hf.2 rfl)).1 hp
      exact ⟨_, hw⟩

end Props.Attrs

namespace Props
open Attributes Attrs

/-- **C113 (partial).**  Structs:
- any number of attributes `a` or `ext(a)`, each writing a modifier, give exactly these modifiers in order;
- no modifier comes from anything else: it is written in one of the attributes;
- `event(..)` and `external_struct(..)` that do not write a modifier are errors.
Functions:
- any number of attributes, each writing a modifier or of the form `ext(a, b, ..)` with such, give exactly these
  modifiers in order;
- no modifier comes from anything else;
- `owned_objects(..)`, `shared_objects(..)`, `frozen_objects(..)`, `abi(..)` and `external_call(..)` that do not
  write a modifier are errors, also inside `ext`.
Missing: structs with a second `indexes` or with an address or module name left out (`Full`); and what is false:
`C113_false_first`, `C113_false_typo`, `C113_false_bare`, `C113_false_default`, `C113_false_other`,
`C113_false_literal`. -/
theorem C113_partial :
    (∀ l : List (List (Attr × SMod)), (∀ g ∈ l, ∀ p ∈ g, StructAttr p.1 p.2) →
      structMods (l.map (·.map Prod.fst)) = (l.flatten.map Prod.snd, [])) ∧
    (∀ groups, (∀ a ∈ groups.flatten, ∀ x, Inside x a → Full x) → ∀ m ∈ (structMods groups).1,
      ∃ a ∈ groups.flatten, ∃ x, Inside x a ∧ WritesS x m) ∧
    (∀ groups n args, n = "event" ∨ n = "external_struct" → Full (.param n args) →
      .param n args ∈ groups.flatten ∨ .param "ext" [.param n args] ∈ groups.flatten →
      (¬ ∃ m, WritesS (.param n args) m) → (structMods groups).2 ≠ []) ∧
    (∀ l : List (List (Attr × List FMod)), (∀ g ∈ l, ∀ p ∈ g, FunAttr p.1 p.2) →
      funMods (l.map (·.map Prod.fst)) = ((l.flatten.map Prod.snd).flatten, [])) ∧
    (∀ groups, ∀ m ∈ (funMods groups).1, ∃ a ∈ groups.flatten, ∃ x, Inside x a ∧ WritesF x m) ∧
    (∀ groups n args, Lists n →
      .param n args ∈ groups.flatten ∨ (∃ l, .param n args ∈ l ∧ .param "ext" l ∈ groups.flatten) →
      (¬ ∃ m, WritesF (.param n args) m) → (funMods groups).2 ≠ []) := by
  refine ⟨fun l h => ?_, fun groups hf m hm => ?_, fun groups n args hn hf hm hw => ?_, funMods_ok,
    fun groups m hm => mem_funMods hm, fun groups n args hn hm hw => ?_⟩
  · rw [structMods_flatten, ← List.map_flatten]
    exact structMods_ok _ fun p hp => by
      obtain ⟨g, hg, hp⟩ := List.mem_flatten.1 hp
      exact h g hg p hp
  · obtain ⟨a, ha, hp⟩ := mem_structMods hm
    exact ⟨a, ha, parseStruct_sound a m (hf a ha) hp⟩
  · obtain ⟨e, he⟩ := parseStruct_heads hn hf hw
    rcases hm with hm | hm
    · exact structMods_errors hm he
    · exact structMods_errors hm (by rw [parseStruct_ext, parseHead]; exact he)
  · obtain ⟨e, he⟩ := parseFun_lists hn hw
    rcases hm with hm | ⟨l, hl, hm⟩
    · exact funMods_errors hm he
    · obtain ⟨e', h'⟩ := parseFuns_error l hl he
      exact funMods_errors hm (by rw [parseFun_ext]; exact h')

/-- `indexes = 2`. -/
def twoIndexes : Attr := .assigned "indexes" (.num ['2'])

theorem twoIndexes_is : IsIndex twoIndexes 2 := ⟨_, rfl, by decide, 0, rfl⟩

/-- `#[ext(event(indexes = 2, anonymous))]` and `#[abi_error]` meet the first hypothesis. -/
example : ∀ g ∈ [[(Attr.param "ext" [.param "event" [twoIndexes, .name "anonymous"]], SMod.event 2 true)],
    [(.name "abi_error", .abiError)]], ∀ p ∈ g, StructAttr p.1 p.2 := by
  simp only [List.mem_cons, List.not_mem_nil, or_false, forall_eq_or_imp, forall_eq]
  refine ⟨⟨_, .event ⟨?_, by simp [twoIndexes], .inl ⟨_, List.mem_cons_self, twoIndexes_is⟩, .inl (by decide)⟩, ?_, .inr rfl⟩,
    ⟨_, .abiError, trivial, .inl rfl⟩⟩
  · intro x hx
    simp only [List.mem_cons, List.not_mem_nil, or_false] at hx
    rcases hx with rfl | rfl
    · exact .inr ⟨2, twoIndexes_is⟩
    · exact .inl rfl
  · exact ⟨fun _ => by simp [twoIndexes], fun h => absurd h (by decide)⟩

/-- They give an anonymous event with two indexed fields, and an error. -/
example : structMods [[.param "ext" [.param "event" [twoIndexes, .name "anonymous"]]], [.name "abi_error"]] =
    ([.event 2 true, .abiError], []) := by
  simp [structMods, parseStruct, parseHead, parseEvent, eventArgs, twoIndexes, indexOf, parseU8, digits]

/-- Four indexed fields of an event with a name are refused. -/
example : ¬ ∃ m, WritesS (.param "event" [.assigned "indexes" (.num ['4'])]) m := by
  have h4 : IsIndex (.assigned "indexes" (.num ['4'])) 4 := ⟨_, rfl, by decide, 0, rfl⟩
  rintro ⟨m, h⟩
  generalize hx : Attr.param "event" [.assigned "indexes" (.num ['4'])] = x at h
  cases h with
  | event h =>
    cases hx
    have han := h.anonymous
    simp at han
    rcases h.indexes with ⟨x, hx, hi⟩ | ⟨-, hi⟩
    · rw [List.mem_singleton.1 hx] at hi
      have := hi.unique h4
      rcases h.bound with hb | ⟨hb, -⟩
      · omega
      · rw [han] at hb; cases hb
    · exact hi _ List.mem_cons_self 4 h4
  | external _ => revert hx; simp
  | _ => cases hx

/-- `#[ext(abi(view, payable), owned_objects(coin, bag))]` and `#[test]`. -/
example : ∀ g ∈ [[(Attr.param "ext" [.param "abi" [.name "view", .name "payable"],
      .param "owned_objects" [.name "coin", .name "bag"]], [FMod.abi [.view, .payable], .owned ["coin", "bag"]]),
    (.name "test", [.test])]], ∀ p ∈ g, FunAttr p.1 p.2 := by
  simp only [List.mem_cons, List.not_mem_nil, or_false, forall_eq_or_imp, forall_eq]
  refine ⟨.inr ⟨[(.param "abi" [.name "view", .name "payable"], .abi [.view, .payable]),
    (.param "owned_objects" [.name "coin", .name "bag"], .owned ["coin", "bag"])], ?_, rfl, rfl⟩, .inl ⟨_, .test, rfl⟩⟩
  simp only [List.mem_cons, List.not_mem_nil, or_false, forall_eq_or_imp, forall_eq]
  exact ⟨.abi [.view, .payable], .owned ["coin", "bag"]⟩

/-- `abi(external)` is no modifier. -/
example : Lists "abi" ∧ ¬ ∃ m, WritesF (.param "abi" [.name "external"]) m := by
  refine ⟨by simp [Lists], fun ⟨m, h⟩ => ?_⟩
  generalize hx : Attr.param "abi" [.name "external"] = x at h
  cases h with
  | abi ms =>
    rcases ms with _ | ⟨s, _ | _⟩
    · simp at hx
    · cases s <;> simp [word] at hx
    · simp at hx
  | _ => simp at hx

/-! ### What is false -/

/-- **C113 is false: only the first.**  On a struct, only the first argument of `ext` is looked at:
`#[ext(abi_error, event)]` is no event, and after a word that is no modifier all are dropped, without an error. -/
theorem C113_false_first (rest : List Attr) :
    structMods [[.param "ext" (.name "abi_error" :: rest)]] = ([.abiError], []) ∧
    structMods [[.param "ext" (.name "v2" :: rest)]] = ([], []) := by
  simp [structMods, parseStruct, parseHead]

/-- **C113 is false: misspelt modifiers.**  `#[ext(owned_object(coin))]`, with a letter missing, has no effect and
gives no error, so the parameter may be an object of any kind. -/
theorem C113_false_typo (ids : List String) (h : ∀ i ∈ ids, parseFun (.name i) = .ok []) :
    funMods [[.param "ext" [.param "owned_object" (ids.map .name)]]] = ([], []) := by
  have : parseFuns (ids.map .name) = .ok [] := by
    induction ids with
    | nil => simp [parseFuns]
    | cons i ids ih =>
      simp [parseFuns, h i List.mem_cons_self, ih fun j hj => h j (List.mem_cons_of_mem _ hj)]
  simp [funMods, parseFuns, parseFun, this]

example : ∀ i ∈ ["coin", "bag"], parseFun (.name i) = .ok [] := by
  simp [parseFun]

/-- **C113 is false: arguments left out.**  `#[ext(external_struct)]`, `#[ext(abi)]` and `#[ext(owned_objects)]`
have no effect and give no error. -/
theorem C113_false_bare : structMods [[.param "ext" [.name "external_struct"]]] = ([], []) ∧
    funMods [[.param "ext" [.name "abi"]]] = ([], []) ∧
    funMods [[.param "ext" [.name "owned_objects"]]] = ([], []) := by
  simp [structMods, funMods, parseStruct, parseHead, parseFun, parseFuns]

/-- **C113 is false: no address.**  An external struct without address or module is taken to be in the module
with the empty name at address zero. -/
theorem C113_false_default : structMods [[.param "ext" [.param "external_struct" []]]] = ([.external 0 ""], []) ∧
    ∀ m, structMods [[.param "ext" [.param "external_struct" [.assigned "module_name" (.bytes m)]]]] =
      ([.external 0 m], []) := by
  simp [structMods, parseStruct, parseHead, parseExternal, externalArgs, moduleOf]

/-- **C113 is false: other attributes.**  Modifiers are taken from the arguments of any attribute:
`#[allow(event)]` makes an event, `#[deprecated(test)]` a test. -/
theorem C113_false_other : structMods [[.param "allow" [.name "event"]]] = ([.event 0 false], []) ∧
    funMods [[.param "deprecated" [.name "test"]]] = ([.test], []) := by
  simp [structMods, funMods, parseStruct, parseHead, parseFun, parseFuns]

/-- **C113 is false: literals.**  `indexes = 2u8` and `indexes = 0x2`, which are numbers in Move, are refused. -/
theorem C113_false_literal :
    structMods [[.param "ext" [.param "event" [.assigned "indexes" (.num ['2', 'u', '8'])]]]] =
      ([], [.invalidNumber]) ∧
    structMods [[.param "ext" [.param "event" [.assigned "indexes" (.num ['0', 'x', '2'])]]]] =
      ([], [.invalidNumber]) := by
  simp [structMods, parseStruct, parseHead, parseEvent, eventArgs, indexOf, parseU8, digits]

end Props
