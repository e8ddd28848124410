import Verif.Rt.Wire
import Verif.Proof.Export2

/-!
# Names of the types by which values are encoded
-/

namespace Export
open Abi Rt

mutual
/-- The Solidity types whose values are encoded like those of the type.  `address` is a word, and so is a tuple with a word as its
only component. -/
inductive Encodes : MTy → String → Prop
  | bool : Encodes .bool "bool"
  | u8 : Encodes .u8 "uint8"
  | u16 : Encodes .u16 "uint16"
  | u32 : Encodes .u32 "uint32"
  | u64 : Encodes .u64 "uint64"
  | u128 : Encodes .u128 "uint128"
  | u256 : Encodes .u256 "uint256"
  | address : Encodes .address "address"
  | enum {n} : Encodes (.enum n) "uint8"
  | string : Encodes .string "string"
  | vec {t s} : Encodes t s → Encodes (.vec t) (s ++ "[]")
  | struct {ts ss} : EncodesAll ts ss → Encodes (.struct ts) ("(" ++ String.intercalate "," ss ++ ")")
  | id : Encodes (.struct [.address]) "bytes32"
  | uid : Encodes (.struct [.struct [.address]]) "bytes32"
inductive EncodesAll : List MTy → List String → Prop
  | nil : EncodesAll [] []
  | cons {t s ts ss} : Encodes t s → EncodesAll ts ss → EncodesAll (t :: ts) (s :: ss)
end

/-- The identifier of an object and its wrapper are encoded as the word. -/
theorem enc_id (n : Nat) : enc (.tuple [.word n]) = word n ∧ enc (.tuple [.tuple [.word n]]) = word n := by
  simp [enc, heads, tails, headLen, dyn, anyDyn]

/-- Types whose encoding does not depend on more than their structure: no objects, no fixed bytes, no instances of generic enums,
and the identifiers are as declared in the framework (object.move). -/
def Structural : ITy → Prop
  | .enum _ _ generic _ => generic = false
  | .struct m n args key fields _ =>
    key = false ∧ (args = [] → n ∉ bytesNames ∧ n ≠ "TxContext" ∧ (n = "ID" → m = objectMod → fields = [.address]) ∧
      (n = "UID" → m = objectMod → ∃ args' names, fields = [.struct objectMod "ID" args' false [.address] names]))
  | _ => True

theorem reserved_id {m : Mod} {n : String} {r : Option (Option String)} (h : reserved m n = some r) (h1 : n ∉ bytesNames)
    (h2 : n ≠ "TxContext") :
    (n = "String" ∧ m ∈ stringMods ∧ r = some (some "string")) ∨
    (n ≠ "String" ∧ m = objectMod ∧ (n = "UID" ∨ n = "ID") ∧ r = some (some "bytes32")) ∨ (n ≠ "String" ∧ r = none) := by
  by_cases h3 : n = "String"
  · subst h3
    by_cases hm : m ∈ stringMods <;> simp [reserved, isVm, hm] at h
    exact .inl ⟨rfl, hm, h.symm⟩
  by_cases h4 : n = "UID"
  · subst h4
    by_cases hm : m = objectMod <;> simp [reserved, isVm, isBytes, h1, hm] at h
    exact .inr (.inl ⟨by decide, hm, .inl rfl, h.symm⟩)
  by_cases h5 : n = "ID"
  · subst h5
    by_cases hm : m = objectMod <;> simp [reserved, isVm, isBytes, h1, hm] at h
    exact .inr (.inl ⟨by decide, hm, .inr rfl, h.symm⟩)
  simp [reserved, isVm, isBytes, h1, h2, h3, h4, h5] at h
  exact .inr (.inr ⟨h3, h.symm⟩)

mutual
theorem sol_wire {k : Mod → String → Nat} : ∀ (t : ITy) (r : Option String) (M : MTy),
    (∀ u, Shown t u → Structural u) → solName t = some r → wireTy k t = some M → ∃ s, r = some s ∧ Encodes M s
  | .bool, r, M, _, hs, hw => by cases hs; cases hw; exact ⟨_, rfl, .bool⟩
  | .u8, r, M, _, hs, hw => by cases hs; cases hw; exact ⟨_, rfl, .u8⟩
  | .u16, r, M, _, hs, hw => by cases hs; cases hw; exact ⟨_, rfl, .u16⟩
  | .u32, r, M, _, hs, hw => by cases hs; cases hw; exact ⟨_, rfl, .u32⟩
  | .u64, r, M, _, hs, hw => by cases hs; cases hw; exact ⟨_, rfl, .u64⟩
  | .u128, r, M, _, hs, hw => by cases hs; cases hw; exact ⟨_, rfl, .u128⟩
  | .u256, r, M, _, hs, hw => by cases hs; cases hw; exact ⟨_, rfl, .u256⟩
  | .address, r, M, _, hs, hw => by cases hs; cases hw; exact ⟨_, rfl, .address⟩
  | .signer, r, M, _, hs, hw => by simp [wireTy] at hw
  | .param i, r, M, _, hs, hw => by simp [wireTy] at hw
  | .ref t, r, M, _, hs, hw => by simp [wireTy] at hw
  | .mutRef t, r, M, _, hs, hw => by simp [wireTy] at hw
  | .enum m n g simp, r, M, hp, hs, hw => by
    have hg : g = false := hp _ (.refl _)
    subst hg
    cases simp
    · simp [wireTy] at hw
    · simp [wireTy] at hw
      simp [solName] at hs
      subst hw hs
      exact ⟨_, rfl, .enum⟩
  | .vec t, r, M, hp, hs, hw => by
    simp only [wireTy, Option.map_eq_some_iff] at hw
    simp only [solName, Option.map_eq_some_iff] at hs
    obtain ⟨M', hw, rfl⟩ := hw
    obtain ⟨r', hs, rfl⟩ := hs
    obtain ⟨s, rfl, he⟩ := sol_wire t r' M' (fun u hu => hp u (.vec hu)) hs hw
    exact ⟨_, rfl, .vec he⟩
  | .struct m n args key fields names, r, M, hp, hs, hw => by
    obtain ⟨rfl, hst⟩ := hp _ (.refl _)
    have main : (solNames fields).map (Option.map (fun ss => "(" ++ String.intercalate "," ss ++ ")")) = some r →
        (wireTys k fields).map MTy.struct = some M → ∃ s, r = some s ∧ Encodes M s := by
      intro hs2 hw2
      simp only [Option.map_eq_some_iff] at hs2 hw2
      obtain ⟨r', hs3, rfl⟩ := hs2
      obtain ⟨Ms, hw3, rfl⟩ := hw2
      obtain ⟨ss, rfl, he⟩ := sol_wires fields r' Ms (fun t ht u hu => hp u (.field ht hu)) hs3 hw3
      exact ⟨_, rfl, .struct he⟩
    cases args with
    | cons a as =>
      simp only [solName, List.isEmpty_cons, Bool.false_eq_true, if_false] at hs
      simp only [wireTy, List.isEmpty_cons, Bool.false_eq_true, if_false] at hw
      exact main hs hw
    | nil =>
      obtain ⟨h1, h2, h3, h4⟩ := hst rfl
      simp only [solName, List.isEmpty_nil, if_true, Bool.false_eq_true, if_false] at hs
      simp only [wireTy, List.isEmpty_nil, if_true] at hw
      cases hrr : reserved m n with
      | none => simp [hrr] at hs
      | some q =>
        rcases reserved_id hrr h1 h2 with ⟨rfl, hm, rfl⟩ | ⟨hn, hm, hn', rfl⟩ | ⟨hn, rfl⟩
        · simp only [hrr, Option.some.injEq] at hs
          simp only [isVm, hm, if_true, Option.some.injEq] at hw
          subst hs hw
          exact ⟨_, rfl, .string⟩
        · simp only [hrr, Option.some.injEq] at hs
          simp only [isVm, hn, if_false, Option.map_eq_some_iff] at hw
          subst hs
          obtain ⟨Ms, hw, rfl⟩ := hw
          rcases hn' with rfl | rfl
          · obtain ⟨as, ns, rfl⟩ := h4 rfl hm
            cases as <;> simp [wireTys, wireTy, isVm] at hw <;> subst hw <;> exact ⟨_, rfl, .uid⟩
          · rw [h3 rfl hm] at hw
            simp [wireTys, wireTy] at hw
            subst hw
            exact ⟨_, rfl, .id⟩
        · simp only [hrr] at hs
          simp only [isVm, hn, if_false] at hw
          exact main hs hw
theorem sol_wires {k : Mod → String → Nat} : ∀ (ts : List ITy) (r : Option (List String)) (Ms : List MTy),
    (∀ t ∈ ts, ∀ u, Shown t u → Structural u) → solNames ts = some r → wireTys k ts = some Ms →
    ∃ ss, r = some ss ∧ EncodesAll Ms ss
  | [], r, Ms, _, hs, hw => by cases hs; cases hw; exact ⟨_, rfl, .nil⟩
  | t :: ts, r, Ms, hp, hs, hw => by
    simp only [wireTys, Option.bind_eq_some_iff, Option.map_eq_some_iff] at hw
    obtain ⟨M, hM, Ms', hMs, rfl⟩ := hw
    rw [solNames] at hs
    split at hs
    · cases hs
    · rename_i h
      obtain ⟨s, h', _⟩ := sol_wire t _ M (hp t (by simp)) h hM
      cases h'
    · rename_i s h
      obtain ⟨s', h', he⟩ := sol_wire t _ M (hp t (by simp)) h hM
      cases h'
      simp only [Option.map_eq_some_iff] at hs
      obtain ⟨r', hs, rfl⟩ := hs
      obtain ⟨ss, rfl, hes⟩ := sol_wires ts r' Ms' (fun t ht => hp t (by simp [ht])) hs hMs
      exact ⟨_, rfl, .cons he hes⟩
end

theorem wireP_strip {k : Mod → String → Nat} {t : ITy} {p : PTy} (h : wireP k t = some p) : wireTy k (strip t) = some p.ty := by
  cases t <;> simp only [wireP, Option.map_eq_some_iff] at h <;> obtain ⟨M, h, rfl⟩ := h <;> exact h

/-- The outputs of a function: their names are those of the types by which the results are encoded. -/
theorem outputs_names {Occ Vis : ITy → Prop} {ss : List AStruct} (hd : NamesDiffer Occ) (hn : Nice Occ Vis) (hss : FromTypes Occ ss)
    {fuel : Nat} {k : Mod → String → Nat} :
    ∀ (rs : List ITy) as js ns ts, (∀ t ∈ rs, Vis (strip t) ∧ ∀ u, Shown (strip t) u → Structural u) →
      rs.mapM genTy = some as → processIO ss fuel (as.map ("", ·)) = some js → rs.mapM solName = some ns →
      rs.mapM (wireP k) = some ts → EncodesAll (ts.map PTy.ty) (canons js) := by
  intro rs
  induction rs with
  | nil =>
    intro as js ns ts _ ha hj hs hw
    simp only [List.mapM_nil, Option.pure_def, Option.some.injEq] at ha hw
    subst ha hw
    simp only [List.map_nil, processIO, Option.some.injEq] at hj
    subst hj
    exact .nil
  | cons t rs ih =>
    intro as js ns ts hv ha hj hs hw
    obtain ⟨a, as', ha1, ha2, rfl⟩ := mapM_cons' ha
    obtain ⟨r, ns', hs1, hs2, rfl⟩ := mapM_cons' hs
    obtain ⟨p, ts', hw1, hw2, rfl⟩ := mapM_cons' hw
    obtain ⟨hvt, hst⟩ := hv t (by simp)
    rw [solName_strip] at hs1
    have hw1' := wireP_strip hw1
    have hg : genTy (strip t) = some a := by
      rw [← ha1]
      cases t <;> first | rfl | (simp only [strip]; rw [genTy.eq_def (.ref _)]) | (simp only [strip]; rw [genTy.eq_def (.mutRef _)])
    obtain ⟨s, rfl, he⟩ := sol_wire _ _ _ hst hs1 hw1'
    have hne : a ≠ .none := by
      rintro rfl
      have hp := hn.plain hvt
      clear ih hv hst hvt ha1 hs1 he
      revert hg hw1' hp
      generalize strip t = v
      intro hw1' hg hp
      cases v with
      | struct => exact genTy_struct_ne hg
      | enum m n g simp => cases simp <;> simp [genTy, wireTy] at hg hw1'
      | _ => simp [genTy, wireTy] at hg hw1'
    rw [List.map_cons] at hj
    obtain ⟨j, js', hj1, hj2, rfl⟩ := processIO_cons hne hj
    obtain ⟨h1, _⟩ := (json_name hd hn hss fuel).1 _ _ _ _ _ hvt hg hj1 hs1
    cases h1
    simp only [List.map_cons, canons]
    exact .cons he (ih as' js' ns' ts' (fun u hu => hv u (by simp [hu])) ha2 hj2 hs2 hw2)

/-- What the name in a signature says about an argument. -/
inductive Arg.Named : Arg → Option String → Prop
  | absent : Named .absent none
  | object : Named .object (some "bytes32")
  | bytes {n} : n ∈ bytesNames → Named (.bytes n) (some (lower n))
  | value {t s} : Encodes t s → Named (.value t) (some s)

inductive NamedAll : List Arg → List (Option String) → Prop
  | nil : NamedAll [] []
  | cons {a r as rs} : a.Named r → NamedAll as rs → NamedAll (a :: as) (r :: rs)

/-- Parameters whose values in the call data depend on no more than the structure of their type: objects, fixed bytes and the
transaction context are no part of other values. -/
def StructuralArg (t : ITy) : Prop :=
  (∃ m n args fields names, t = .struct m n args true fields names ∧ m ≠ objectMod) ∨
  (∃ m n key fields names, t = .struct m n [] key fields names ∧ (n ∈ bytesNames ∨ n = "TxContext")) ∨
  ∀ u, Shown t u → Structural u

theorem arg_named {k : Mod → String → Nat} {t : ITy} {r : Option String} {a : Arg} (hst : StructuralArg t) (hs : solName t = some r)
    (ha : argOf1 k t = some a) : a.Named r := by
  have value : ∀ M, (∀ u, Shown t u → Structural u) → wireTy k t = some M → Arg.Named (.value M) r := by
    intro M hst hw
    obtain ⟨s, rfl, he⟩ := sol_wire _ _ _ hst hs hw
    exact .value he
  by_cases hx : ∃ m n args key fields names, t = .struct m n args key fields names
  · obtain ⟨m, n, args, key, fields, names, rfl⟩ := hx
    have hst' : (key = true ∧ m ≠ objectMod) ∨ (args = [] ∧ (n ∈ bytesNames ∨ n = "TxContext")) ∨
        ∀ u, Shown (.struct m n args key fields names) u → Structural u := by
      rcases hst with ⟨_, _, _, _, _, h, h'⟩ | ⟨_, _, _, _, _, h, h'⟩ | h
      · cases h; exact .inl ⟨rfl, h'⟩
      · cases h; exact .inr (.inl ⟨rfl, h'⟩)
      · exact .inr (.inr h)
    clear hst
    have main : ∀ (o : Option (Option String)), ¬ (args = [] ∧ (n ∈ bytesNames ∨ n = "TxContext")) →
        (key = true → o = none) →
        (match o with
          | some r => some r
          | none => if key then storageIds fields
            else (solNames fields).map (Option.map (fun ss => "(" ++ String.intercalate "," ss ++ ")"))) = some r →
        (if key then storageArg fields else (wireTy k (.struct m n args key fields names)).map .value) = some a → a.Named r := by
      intro o hno ho h1 h2
      cases key with
      | false =>
        simp only [Bool.false_eq_true, if_false, Option.map_eq_some_iff] at h2
        obtain ⟨M, hw, rfl⟩ := h2
        rcases hst' with h | h | h
        · simp at h
        · exact (hno h).elim
        · exact value M h hw
      | true =>
        rw [ho rfl] at h1
        simp only [if_true] at h1 h2
        unfold storageIds at h1
        split at h1
        · simp only [storageArg, Option.bind_eq_some_iff] at h1 h2
          obtain ⟨b, hb, h1⟩ := h1
          obtain ⟨b', hb', h2⟩ := h2
          rw [hb] at hb'
          cases hb'
          cases b <;> simp at h1 h2
          subst h1 h2
          exact .object
        · simp only [storageArg, Option.bind_eq_some_iff] at h1 h2
          obtain ⟨b, hb, h1⟩ := h1
          obtain ⟨b', hb', h2⟩ := h2
          rw [hb] at hb'
          cases hb'
          cases b <;> simp at h1 h2
          subst h1 h2
          exact .absent
        · cases h1
    cases args with
    | cons x xs =>
      refine main none (by simp) (fun _ => rfl) ?_ ?_
      · simpa only [solName, List.isEmpty_cons, Bool.false_eq_true, if_false] using hs
      · simpa [argOf1] using ha
    | nil =>
      by_cases h1 : n = "TxContext"
      · subst h1
        by_cases hm : m = txMod
        · simp [solName, reserved, isVm, hm] at hs
          simp [argOf1, isVm, hm] at ha
          subst hs ha
          exact .absent
        · simp [argOf1, isVm, hm] at ha
      by_cases h3 : n ∈ bytesNames
      · have h2 : n ≠ "String" := by rintro rfl; revert h3; decide
        by_cases hm : m = solMod
        · simp [solName, reserved, isVm, isBytes, h1, h2, h3, hm] at hs
          simp [argOf1, isVm, isBytes, h1, h2, h3, hm] at ha
          subst hs ha
          exact .bytes h3
        · simp [argOf1, isVm, isBytes, h1, h2, h3, hm] at ha
      by_cases h2 : n = "String"
      · subst h2
        by_cases hm : m ∈ stringMods
        · simp [solName, reserved, isVm, hm] at hs
          simp [argOf1, isVm, hm] at ha
          subst hs ha
          exact .value .string
        · simp [argOf1, isVm, hm] at ha
      simp only [solName, List.isEmpty_nil, if_true] at hs
      cases hq : reserved m n with
      | none => simp [hq] at hs
      | some q =>
        refine main q (by simp [h1, h3]) ?_ ?_ ?_
        · rintro rfl
          rcases hst' with ⟨_, hm⟩ | ⟨_, h | h⟩ | h
          · rcases reserved_id hq h3 h1 with ⟨h, _⟩ | ⟨_, h, _⟩ | ⟨_, h⟩
            · exact (h2 h).elim
            · exact (hm h).elim
            · exact h
          · exact (h3 h).elim
          · exact (h1 h).elim
          · have := (h _ (.refl _)).1
            simp at this
        · rw [hq] at hs
          cases q <;> simpa using hs
        · simpa [argOf1, isVm, isBytes, h1, h2, h3] using ha
  · have hst' : ∀ u, Shown t u → Structural u := by
      rcases hst with ⟨_, _, _, _, _, h, h'⟩ | ⟨_, _, _, _, _, h, h'⟩ | h
      · exact (hx ⟨_, _, _, _, _, _, h⟩).elim
      · exact (hx ⟨_, _, _, _, _, _, h⟩).elim
      · exact h
    cases t <;> first | exact (hx ⟨_, _, _, _, _, _, rfl⟩).elim | skip
    case signer =>
      cases hs
      simp [argOf1] at ha
      subst ha
      exact .absent
    all_goals
      simp only [argOf1, Option.map_eq_some_iff] at ha
      obtain ⟨M, hw, rfl⟩ := ha
      exact value M hst' hw

theorem args_named {k : Mod → String → Nat} : ∀ (ts : List ITy) rs as, (∀ t ∈ ts, StructuralArg (strip t)) →
    ts.mapM solName = some rs → ts.mapM (argOf k) = some as → NamedAll as rs := by
  intro ts
  induction ts with
  | nil =>
    intro rs as _ hs ha
    simp only [List.mapM_nil, Option.pure_def, Option.some.injEq] at hs ha
    subst hs ha
    exact .nil
  | cons t ts ih =>
    intro rs as hst hs ha
    obtain ⟨r, rs', hs1, hs2, rfl⟩ := mapM_cons' hs
    obtain ⟨a, as', ha1, ha2, rfl⟩ := mapM_cons' ha
    rw [solName_strip] at hs1
    exact .cons (arg_named (hst t (by simp)) hs1 ha1) (ih rs' as' (fun u hu => hst u (by simp [hu])) hs2 ha2)

end Export
