import Verif.Proof.TypeName
import Verif.Props.Storage

/-! # Names of types -/

namespace TyHash
open Wasm Rt

mutual
theorem typeName_bare (N : Names) : ∀ t, typeName N (bare t) = typeName N t := by
  intro t
  cases t with
  | gstruct m i ts vm => simp only [bare, typeName, typeNames_bares N ts]
  | _ => rfl
theorem typeNames_bares (N : Names) : ∀ ts, typeNames N (bares ts) = typeNames N ts := by
  intro ts
  match ts with
  | [] => rfl
  | [t] => simp only [bares, typeNames, typeName_bare N t]
  | t :: u :: ts =>
    have := typeNames_bares N (u :: ts)
    simp only [bares, typeNames, typeName_bare N t] at this ⊢
    rw [this]
end

mutual
theorem own_none {C : Ctx} (he : ∀ m n, C.ext m n = none) : ∀ t, Own C t := by
  intro t
  cases t with
  | struct m i vm => exact he _ _
  | gstruct m i ts vm => exact ⟨he _ _, owns_none he ts⟩
  | _ => trivial
theorem owns_none {C : Ctx} (he : ∀ m n, C.ext m n = none) : ∀ ts, Owns C ts := by
  intro ts
  cases ts with
  | nil => trivial
  | cons t ts => exact ⟨own_none he t, owns_none he ts⟩
end

/-- The function generated for `get<T>()`. -/
def genName (N : Names) : Unit → List ITy → Fn
  | _, [t] => typeNameGet ((typeName N t).getD [])
  | _, _ => typeNameGet []

/-- **C89 (in part).**  Let a program use `std::type_name::get` with any sequence of types.  If the declarations of a module have
different names, no struct is bound with `external_struct` and the 64-bit hashes of the types do not collide, then every use
returns a `TypeName` with the name of its own type, and uses with different types return different names. -/
theorem _root_.Props.C89_partial (N : Names) (hN : N.Ok) (C : Ctx) (hC : C.name = N.sn) (he : ∀ m n, C.ext m n = none) (ts : List ITy)
    (ho : ∀ t ∈ ts, Ok C t ∧ OkN N t ∧ (typeName N t).isSome) (hn : NoCollision C (ts.map fun t => ((), [t]))) :
    ∃ names : List (List UInt8), names.map some = ts.map (typeName N) ∧
    List.Forall₂ (fun name (f : Fn) => ∀ σ, Heap σ → Room σ (16 + name.length) →
      f.Calls [] σ (fun r σ' => ∃ p, r = [p] ∧ Extends σ σ' ∧ NameAt σ'.mem p name)) names
      (requests C (genName N) [] (ts.map fun t => ((), [t]))) ∧
    ∀ (i j : Nat) (hi : i < ts.length) (hj : j < ts.length), names[i]? = names[j]? → erase ts[i] = erase ts[j] := by
  refine ⟨ts.map fun t => (typeName N t).getD [], ?_, ?_, ?_⟩
  · rw [List.map_map]
    refine List.map_congr_left fun t ht => ?_
    obtain ⟨x, hx⟩ := Option.isSome_iff_exists.mp (ho t ht).2.2
    simp [hx]
  · have h := (Props.C87_partial C (by rw [hC]; exact hN.sn)).2.2 (genName N) (ts.map fun t => ((), [t]))
      (by
        intro p hp
        obtain ⟨t, ht, rfl⟩ := List.mem_map.mp hp
        exact ⟨(ho t ht).1, trivial⟩)
      (fun p _ => owns_none he _) hn
    rw [List.forall₂_map_left_iff] at h ⊢
    refine h.imp ?_
    rintro t f ⟨us, e, rfl⟩
    match us, e with
    | [u], e =>
      have e1 : bare u = bare t := by simpa [bares] using e
      have e2 : typeName N u = typeName N t := by rw [← typeName_bare, e1, typeName_bare]
      intro σ hσ hr
      show (typeNameGet ((typeName N u).getD [])).Calls _ _ _
      rw [e2]
      exact typeNameGet_spec hσ hr
    | [], e => simp [bares] at e
    | _ :: _ :: _, e => simp [bares] at e
  · intro i j hi hj h
    simp only [List.getElem?_map, List.getElem?_eq_getElem hi, List.getElem?_eq_getElem hj, Option.map_some, Option.some.injEq] at h
    obtain ⟨-, o1, s1⟩ := ho _ (List.getElem_mem hi)
    obtain ⟨-, o2, s2⟩ := ho _ (List.getElem_mem hj)
    obtain ⟨x, hx⟩ := Option.isSome_iff_exists.mp s1
    obtain ⟨y, hy⟩ := Option.isSome_iff_exists.mp s2
    rw [hx, hy] at h
    cases h
    exact typeName_inj hN o1 o2 hx hy

/-- Struct names `Coin`, `AAAAA`, `AAAAAA`, …; enum names `B`, `BB`, … -/
def someNames : Names where
  sn _ i := if i = 0 then [67, 111, 105, 110] else List.replicate (i + 4) 65
  en _ i := List.replicate (i + 1) 66

theorem someNames_ok : someNames.Ok := by
  refine ⟨fun m i j h => ?_, fun m i j h => ?_, fun m i j h => ?_⟩
  · have h2 := congrArg List.length h
    unfold someNames at h2
    simp only at h2
    split_ifs at h2 <;> first | omega | (simp at h2; omega)
  · have h2 := congrArg List.length h
    simp [someNames] at h2
    exact h2
  · have h2 := congrArg List.head? h
    unfold someNames at h2
    simp only at h2
    split_ifs at h2 <;> simp [List.replicate_succ] at h2

def someCtx : Ctx := ⟨someNames.sn, fun _ _ => none⟩

example : ∃ ts : List ITy, ts.length = 3 ∧ (∀ t ∈ ts, Ok someCtx t ∧ OkN someNames t ∧ (typeName someNames t).isSome) ∧
    NoCollision someCtx (ts.map fun t => ((), [t])) ∧ Heap Props.store0 ∧ Room Props.store0 1000 := by
  refine ⟨[.struct bank 0 .none, .vec .u8, .gstruct bank 1 [.u64] .none], rfl, ?_, ?_, Props.store0_heap, by unfold Room; decide⟩
  · intro t ht
    simp only [List.mem_cons, List.not_mem_nil, or_false] at ht
    have hb : bank.OkN := ⟨by decide +kernel, by decide +kernel, by decide +kernel⟩
    rcases ht with rfl | rfl | rfl
    · exact ⟨⟨by decide +kernel, by decide +kernel⟩, ⟨hb, by unfold IdentN; decide +kernel⟩, by decide +kernel⟩
    · exact ⟨trivial, trivial, by decide +kernel⟩
    · exact ⟨⟨by decide +kernel, by decide +kernel, by simp, trivial, trivial⟩, ⟨hb, by unfold IdentN; decide +kernel, trivial, trivial⟩,
        by decide +kernel⟩
  · unfold NoCollision
    decide +kernel

/-- **C89 is false.**  If two modules of a program each bind the foreign struct `Coin` with `external_struct`, the two types have
different names, but `get` returns the name of the one it is first used with for both. -/
theorem _root_.Props.C89_false : ∃ (N : Names) (C : Ctx) (t u : ITy) (x y : List UInt8), N.Ok ∧ C.name = N.sn ∧ Ok C t ∧ Ok C u ∧
    OkN N t ∧ OkN N u ∧ typeName N t = some x ∧ typeName N u = some y ∧ x ≠ y ∧
    NoCollision C [((), [t]), ((), [u])] ∧ ∃ f g, requests C (genName N) [] [((), [t]), ((), [u])] = [f, g] ∧
      ∀ σ, Heap σ → Room σ (16 + x.length) → g.Calls [] σ (fun r σ' => ∃ p, r = [p] ∧ NameAt σ'.mem p x) := by
  have ha : modA.OkN := ⟨by decide +kernel, by decide +kernel, by decide +kernel⟩
  have hb : modB.OkN := ⟨by decide +kernel, by decide +kernel, by decide +kernel⟩
  refine ⟨someNames, boundCtx, .struct modA 0 .none, .struct modB 0 .none, _, _, someNames_ok, rfl, ⟨by decide +kernel, by decide +kernel⟩,
    ⟨by decide +kernel, by decide +kernel⟩, ⟨ha, by unfold IdentN; decide +kernel⟩, ⟨hb, by unfold IdentN; decide +kernel⟩, rfl, rfl,
    by decide +kernel, by unfold NoCollision; decide +kernel, typeNameGet (qualified modA (someNames.sn modA 0)),
    typeNameGet (qualified modA (someNames.sn modA 0)), ?_, ?_⟩
  · have e : fnName boundCtx () [ITy.struct modB 0 .none] = fnName boundCtx () [ITy.struct modA 0 .none] := by
      unfold fnName; exact Prod.ext rfl (by decide +kernel)
    simp [requests, request, e, genName, typeName]
  · intro σ hσ hr
    refine (typeNameGet_spec hσ hr).mono ?_
    rintro r σ' ⟨p, h1, -, h3⟩
    exact ⟨p, h1, h3⟩

end TyHash
