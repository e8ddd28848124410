import Verif.Proof.Wire
import Verif.Props.Export

/-!
# C84, C85: names of types and the data

The outputs in the ABI and the parameters in a signature name types; the contract encodes its results and decodes its arguments
by the types of the Move function.
-/

namespace Props
open Export Abi Rt

variable {same : ITy → ITy → Bool} {ord : List ITy → List ITy} {fuel : Nat} {src : Source} {k : Mod → String → Nat}

/-- C84.  The outputs of a function in the exported ABI are the types by which its results are encoded: `ts` are the types of
C51, whose encoding is what the function returns.  For results that could be parameters as well (`hr`), that are no objects,
fixed bytes or instances of generic enums, and contain none. -/
theorem C84_partial {rs : List ITy} {js : List J} {ns : List (Option String)} {ts : List PTy}
    (hout : src.outputs same ord fuel rs = some js) (hord : ∀ ts, ord ts ⊆ ts) (hd : NamesDiffer src.Occ)
    (hmem : ∀ t ∈ rs, t ∈ src.results) (hplain : ∀ t ∈ rs, ∀ u, Shown (strip t) u → Plain u ∧ Structural u)
    (hr : rs.mapM solName = some ns) (hw : rs.mapM (wireP k) = some ts) :
    EncodesAll (ts.map PTy.ty) (canons js) := by
  obtain ⟨ss, hss, as, has, hj⟩ := Source.outputs_parts hout hord
  have hn : Nice src.Occ (fun u => ∃ t ∈ rs, Shown (strip t) u) :=
    { closed := fun {t u} ⟨v, hv, h⟩ h' => ⟨v, hv, h.trans h'⟩
      plain := fun {u} ⟨t, ht, h⟩ => (hplain t ht u h).1
      occ := by
        rintro u ⟨t, ht, h⟩
        refine ⟨t, by simp only [Source.types, List.mem_append]; exact .inl (.inl (.inr (hmem t ht))), ?_⟩
        refine Occurs.trans ?_ h.occurs
        cases t <;> first | exact .refl _ | exact .ref (.refl _) | exact .mutRef (.refl _) }
  exact outputs_names hd hn hss rs as js ns ts
    (fun t ht => ⟨⟨t, ht, .refl _⟩, fun u hu => (hplain t ht u hu).2⟩) has hj hr hw

/-- C85.  The signature by which a function is selected names the types by which its arguments are read from the call data; a
parameter without a name is not in the call data.  For parameters that contain no objects, fixed bytes or instances of generic
enums; objects and fixed bytes may be parameters. -/
theorem C85_partial {name : String} {ts : List ITy} {sig : String} {as : List Arg} (hst : ∀ t ∈ ts, StructuralArg (strip t))
    (hs : functionSig name ts = some sig) (ha : ts.mapM (argOf k) = some as) :
    ∃ rs, NamedAll as rs ∧ sig = camel name ++ "(" ++ String.intercalate "," (rs.filterMap id) ++ ")" := by
  simp only [functionSig, signature, Option.map_eq_some_iff] at hs
  obtain ⟨rs, hrs, rfl⟩ := hs
  exact ⟨rs, args_named ts rs as hst hrs ha, rfl⟩

/-! ### Functions that meet the hypotheses -/

theorem structural_item : ∀ t, Shown tyItem t → Structural t := by
  intro t h
  have := mem_occList h.occurs
  simp only [tyItem, tyString, occList, occLists, List.cons_append, List.nil_append, List.append_nil,
    List.mem_cons, List.not_mem_nil, or_false] at this
  rcases this with rfl | rfl | rfl | rfl | rfl | rfl <;> simp [Structural, bytesNames]

theorem structural_base {t : ITy} (h : occList t = [t]) (hp : Structural t) : ∀ u, Shown t u → Structural u := by
  intro u hu
  have := mem_occList hu.occurs
  rw [h] at this
  simp only [List.mem_singleton] at this
  exact this ▸ hp

/-- `public fun last(): &Item` of the shop. -/
example : ∃ js, srcShop.outputs sameTy id 10 [.ref tyItem] = some js ∧ canons js = ["(uint64,string[])"] ∧
    EncodesAll [.struct [.u64, .vec .string]] (canons js) := by
  refine ⟨_, rfl, by decide +kernel, ?_⟩
  have h := C84_partial (src := srcShop) (same := sameTy) (ord := id) (fuel := 10) (k := fun _ _ => 0) (rs := [.ref tyItem])
    (ns := [some "(uint64,string[])"]) (ts := [.ref (.struct [.u64, .vec .string])]) rfl (fun ts => List.Subset.refl _)
    namesDiffer_shop (by simp [srcShop])
    (by
      intro t ht u hu
      simp only [List.mem_singleton] at ht
      subst ht
      exact ⟨plain_item u hu, structural_item u hu⟩) (by decide +kernel) (by rfl)
  exact h

/-- `add_item(s: &mut Shop, item: Item, n: u256)`: an object, a struct and a number are read. -/
example : ∃ rs, NamedAll [.object, .value (.struct [.u64, .vec .string]), .value .u256] rs ∧
    "addItem(bytes32,(uint64,string[]),uint256)" = camel "add_item" ++ "(" ++ String.intercalate "," (rs.filterMap id) ++ ")" := by
  refine C85_partial (k := fun _ _ => 0) (name := "add_item") (ts := [.mutRef tyShop, tyItem, .u256]) ?_ (by decide +kernel) (by rfl)
  intro t ht
  simp only [List.mem_cons, List.not_mem_nil, or_false] at ht
  rcases ht with rfl | rfl | rfl
  · exact .inl ⟨_, _, _, _, _, rfl, by decide⟩
  · exact .inr (.inr structural_item)
  · exact .inr (.inr (structural_base (by rfl) trivial))

/-! ### Functions for which the names are wrong -/

/-- The names of types whose values are encoded as two words. -/
theorem encTuple_shop {v : Val} (h : HasTy (.struct [.struct [.struct [.address]], .bool]) v) : (encTuple [v]).length = 64 := by
  cases v with
  | tuple vs =>
    match vs, h with
    | [.tuple [.tuple [.word a]], .word b], h => simp [encTuple, enc, heads, tails, headLen, dyn, anyDyn, word]
  | _ => exact h.elim

/-- A function that returns a reference to a `Shop`: the ABI says that a word is returned, what is returned are two. -/
theorem C84_false :
    (⟨[], [.ref tyShop], [], []⟩ : Source).outputs sameTy id 10 [.ref tyShop] = some [.mk "" "bytes32" false []] ∧
    wireP k (.ref tyShop) = some (.ref (.struct [.struct [.struct [.address]], .bool])) ∧
    (∀ v, HasTy (.struct [.struct [.struct [.address]], .bool]) v → (encTuple [v]).length = 64) ∧
    ¬ Encodes (.struct [.struct [.struct [.address]], .bool]) "bytes32" := by
  refine ⟨rfl, rfl, fun v h => encTuple_shop h, ?_⟩
  intro h
  generalize hs : "bytes32" = s at h
  cases h
  rename_i ss h
  have := congrArg String.toList hs
  simp [String.toList_append] at this

/-- `enum Kind<T> { A, B }`: the signature has no parameter, but one is read. -/
theorem C85_false : functionSig "f" [.enum modU "Kind" true true] = some "f()" ∧
    [ITy.enum modU "Kind" true true].mapM (argOf (fun _ _ => 2)) = some [.value (.enum 2)] ∧
    ¬ ∃ rs, NamedAll [.value (.enum 2)] rs ∧ "f()" = camel "f" ++ "(" ++ String.intercalate "," (rs.filterMap id) ++ ")" := by
  refine ⟨by decide +kernel, rfl, ?_⟩
  rintro ⟨rs, h, h'⟩
  cases h with
  | cons h t =>
    cases t
    cases h with
    | value h =>
      cases h
      revert h'
      decide +kernel

end Props
