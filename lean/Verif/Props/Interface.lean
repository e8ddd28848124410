import Verif.Proof.Interface
import Verif.Proof.Export2
import Mathlib.Data.List.Nodup

/-!
# C107: the Solidity interface can be compiled

The text `move-stylus abi-generate` writes for humans is an interface that the Solidity compiler accepts (`Sol.Accepts`: the grammar of interfaces and the
rules on types, data locations, visibility and overloading), and it declares what the contract has.
-/

namespace Props
open Export Sol

/-- A type of fixed size that needs no declaration. -/
def ValueTy (t : AT) : Prop := ∃ s ∈ valueTypes, t = .prim s

/-- A type that is elementary or one of the structs, or an array of those. -/
def KnownTy (A : HAbi) (t : AT) : Prop :=
  t.sty.base ∈ (valueTypes ++ refTypes).map String.toList ∨ ∃ s ∈ A.structs, t.sty.base = s.name.toList

/-- A function that is `entry` but not `public`, with parameters and results of fixed size. -/
structure PlainFun (f : HFun) : Prop where
  kind : f.kind = .function
  name : isIdent f.name.toList = true
  entry : f.isEntry = true
  priv : f.isPublic = false
  mods : f.mods.length ≤ 1 ∧ ∀ m ∈ f.mods, m ∈ mutabilities
  params : ∀ p ∈ f.params, isIdent p.1.toList = true ∧ ValueTy p.2
  rets : ∀ p ∈ f.rets.params, ∃ t, ValueTy t ∧ p = resultParam t
  tuple : ∀ ts, f.rets = .tuple ts → ts ≠ []

/-- A contract without enums, whose functions are `PlainFun`, whose names are identifiers of Solidity and whose types are declared. -/
structure PlainAbi (A : HAbi) : Prop where
  name : isIdent (genUpperCamel A.name).toList = true
  functions : ∀ f ∈ A.functions, PlainFun f
  overloads : (A.functions.map fun f => (f.name, f.params.map (·.2.name))).Nodup
  structs : ∀ s ∈ A.structs, isIdent s.name.toList = true ∧ s.fields ≠ [] ∧ (s.fields.map (·.1)).Nodup ∧
    ∀ p ∈ s.fields, isIdent p.1.toList = true ∧ KnownTy A p.2
  structNames : (A.structs.map (·.name)).Nodup
  enums : A.enums = []
  events : ∀ e ∈ A.events, isIdent e.name.toList = true ∧ (e.fields.filter (·.2.2)).length ≤ (if e.anonymous then 4 else 3) ∧
    ∀ f ∈ e.fields, isIdent f.1.toList = true ∧ KnownTy A f.2.1
  errors : ∀ e ∈ A.errors, isIdent e.name.toList = true ∧ ∀ f ∈ e.fields, isIdent f.1.toList = true ∧ KnownTy A f.2

instance decWd (w : List Char) : Decidable (Wd w) := by unfold Wd; infer_instance

theorem types_wd : ∀ w ∈ (valueTypes ++ refTypes).map String.toList, Wd w := by decide

theorem known_wd {A : HAbi} (h : PlainAbi A) {t : AT} (ht : KnownTy A t) : Wd t.sty.base := by
  rcases ht with ht | ⟨s, hs, ht⟩
  · exact types_wd _ ht
  · rw [ht]; exact isIdent_wd (h.structs s hs).1

theorem value_sty {t : AT} (h : ValueTy t) : t.sty.dims = 0 ∧ t.sty.base ∈ valueTypes.map String.toList := by
  obtain ⟨s, hs, rfl⟩ := h
  exact ⟨rfl, List.mem_map.mpr ⟨s, hs, rfl⟩⟩

theorem value_wd {t : AT} (h : ValueTy t) : Wd t.sty.base := by
  refine types_wd _ ?_
  rw [List.map_append]
  exact List.mem_append_left _ (value_sty h).2

theorem plainFun_good {f : HFun} (h : PlainFun f) : f.Good where
  kind := h.kind
  name := h.name
  params p hp := ⟨(h.params p hp).1, value_wd (h.params p hp).2⟩
  mods m hm := by
    have : m ∈ ["pure".toList, "view".toList, "payable".toList, "external".toList] := by
      simp only [HFun.allMods, h.priv, h.entry, List.mem_append, List.mem_map] at hm
      rcases hm with (⟨x, hx, rfl⟩ | hm) | hm
      · have := h.mods.2 x hx
        simp only [mutabilities, List.mem_cons, List.not_mem_nil, or_false] at this
        rcases this with rfl | rfl | rfl <;> simp
      · simp at hm
      · simp only [if_true, List.mem_singleton] at hm
        subst hm
        simp
    clear hm
    revert m
    decide
  rets p hp := by obtain ⟨t, ht, rfl⟩ := h.rets p hp; exact value_wd ht
  tuple := h.tuple

theorem plain_good {A : HAbi} (h : PlainAbi A) : A.Good where
  name := h.name
  functions f hf _ := plainFun_good (h.functions f hf)
  structs s hs := ⟨(h.structs s hs).1, fun p hp => ⟨((h.structs s hs).2.2.2 p hp).1, known_wd h ((h.structs s hs).2.2.2 p hp).2⟩⟩
  enums := h.enums
  events e he := ⟨(h.events e he).1, fun p hp => ⟨((h.events e he).2.2 p hp).1, known_wd h ((h.events e he).2.2 p hp).2⟩⟩
  errors e he := ⟨(h.errors e he).1, fun p hp => ⟨((h.errors e he).2 p hp).1, known_wd h ((h.errors e he).2 p hp).2⟩⟩

/-- The declarations of a contract. -/
def declarations (A : HAbi) : List Item :=
  A.events.map HEvent.item ++ A.errors.map HError.item ++ A.structs.map structItem ++ A.functions.map HFun.item

theorem pieces_perm {A : HAbi} (h : PlainAbi A) : (A.pieces.map (·.item)).Perm (declarations A) := by
  have hf : (sortBy HFun.name A.functions).filter HFun.listed = sortBy HFun.name A.functions := by
    rw [List.filter_eq_self]
    intro f hf
    simp [HFun.listed, (h.functions f (mem_sortBy.mp hf)).entry]
  simp only [HAbi.pieces, List.map_append, List.map_map, declarations, hf]
  exact (((List.mergeSort_perm _ _).map _).append ((List.mergeSort_perm _ _).map _)).append ((List.mergeSort_perm _ _).map _) |>.append ((List.mergeSort_perm _ _).map _)

theorem perm_structs {I : Interface} {A : HAbi} (h : I.items.Perm (declarations A)) : I.structs.Perm (A.structs.map (·.name.toList)) := by
  refine (h.filterMap _).trans ?_
  simp only [declarations, List.filterMap_append, List.filterMap_map]
  rw [List.filterMap_eq_nil_iff.mpr (by intro e _; rfl), List.filterMap_eq_nil_iff.mpr (by intro e _; rfl), List.nil_append, List.nil_append]
  rw [List.filterMap_eq_nil_iff (l := A.functions) |>.mpr (by intro e _; rfl), List.append_nil, ← List.filterMap_eq_map]
  exact .refl _

theorem perm_enums {I : Interface} {A : HAbi} (h : I.items.Perm (declarations A)) : I.enums = [] := by
  have := h.filterMap (fun | .enum n _ => some n | _ => none : Item → Option (List Char))
  rw [show List.filterMap _ (declarations A) = [] from by
    simp [declarations, HEvent.item, HError.item, HFun.item, structItem]] at this
  exact this.eq_nil

theorem knows_of {I : Interface} {A : HAbi} (h : I.items.Perm (declarations A)) {t : AT} (ht : KnownTy A t) : I.knows t.sty := by
  rcases ht with ht | ⟨s, hs, ht⟩
  · exact .inl ht
  · exact .inr (.inl ((perm_structs h).mem_iff.mpr (List.mem_map.mpr ⟨s, hs, ht.symm⟩)))

theorem not_ident_value {w : List Char} (h : w ∈ valueTypes.map String.toList) : isIdent w = false := by
  have : ((keywords ++ valueTypes ++ refTypes).map String.toList).contains w = true := by
    rw [List.contains_iff_mem, List.map_append, List.map_append]
    exact List.mem_append_left _ (List.mem_append_right _ h)
  unfold isIdent
  rw [this, Bool.not_true, Bool.and_false]

theorem value_not_ref {I : Interface} {A : HAbi} (hA : PlainAbi A) (h : I.items.Perm (declarations A)) {t : AT} (ht : ValueTy t) : ¬ I.isRef t.sty := by
  obtain ⟨h1, h2⟩ := value_sty ht
  rintro (h3 | h3 | h3)
  · exact h3 h1
  · revert h3 h2
    generalize t.sty.base = w
    revert w
    decide
  · obtain ⟨s, hs, e⟩ := List.mem_map.mp ((perm_structs h).mem_iff.mp h3)
    have := (hA.structs s hs).1
    rw [e, not_ident_value h2] at this
    exact absurd this (by decide)

theorem value_knows {I : Interface} {t : AT} (ht : ValueTy t) : I.knows t.sty := by
  refine .inl ?_
  rw [List.map_append]
  exact List.mem_append_left _ (value_sty ht).2

theorem toList_inj {s t : String} (h : s.toList = t.toList) : s = t := by
  rw [← String.ofList_toList (s := s), h, String.ofList_toList]

theorem mutability_mods {f : HFun} (h : PlainFun f) :
    f.allMods.filter (· ∈ visibilities.map String.toList) = ["external".toList] ∧
    (f.allMods.filter (· ∈ mutabilities.map String.toList)).length ≤ 1 ∧ ∀ m ∈ f.allMods, m ∈ (visibilities ++ mutabilities).map String.toList := by
  have hm := h.mods
  have e : f.allMods = f.mods.map String.toList ++ ["external".toList] := by simp [HFun.allMods, h.priv, h.entry]
  rw [e]
  rcases hml : f.mods with _ | ⟨m, _ | ⟨m', l⟩⟩
  · decide
  · have : m ∈ mutabilities := hm.2 m (by simp [hml])
    revert m
    simp only [mutabilities, List.mem_cons, List.not_mem_nil, or_false]
    intro m _ hm'
    rcases hm' with rfl | rfl | rfl <;> decide
  · rw [hml] at hm; simp at hm

theorem plain_ok {I : Interface} {A : HAbi} (hA : PlainAbi A) (h : I.items.Perm (declarations A)) : I.Ok where
  items i hi := by
    have := h.mem_iff.mp hi
    simp only [declarations, List.mem_append, List.mem_map] at this
    rcases this with ((⟨e, he, rfl⟩ | ⟨e, he, rfl⟩) | ⟨s, hs, rfl⟩) | ⟨f, hf, rfl⟩
    · refine ⟨fun p hp => ?_, ?_⟩
      · obtain ⟨q, hq, rfl⟩ := List.mem_map.mp hp
        exact ⟨knows_of h ((hA.events e he).2.2 q hq).2, rfl⟩
      · have := (hA.events e he).2.1
        rwa [HEvent.params, List.filter_map, List.length_map]
    · intro p hp
      obtain ⟨q, hq, rfl⟩ := List.mem_map.mp hp
      exact ⟨knows_of h ((hA.errors e he).2 q hq).2, rfl, rfl⟩
    · obtain ⟨_, h2, h3, h4⟩ := hA.structs s hs
      refine ⟨by simpa using h2, ?_, fun p hp => ?_⟩
      · rw [List.map_map]
        refine List.Nodup.map_on (fun x hx y hy e => ?_) (List.Nodup.of_map _ h3)
        have : x.1 = y.1 := toList_inj (Option.some.inj e)
        exact List.inj_on_of_nodup_map h3 hx hy this
      · obtain ⟨q, hq, rfl⟩ := List.mem_map.mp hp
        exact ⟨knows_of h (h4 q hq).2, rfl, rfl, rfl⟩
    · have hp := hA.functions f hf
      refine ⟨fun p hp' => ?_, mutability_mods hp⟩
      rcases List.mem_append.mp hp' with hp' | hp'
      · obtain ⟨q, hq, rfl⟩ := List.mem_map.mp hp'
        have hv := (hp.params q hq).2
        exact ⟨value_knows hv, rfl, by simp [fieldParam, value_not_ref hA h hv], by simp [fieldParam]⟩
      · obtain ⟨t, hv, rfl⟩ := hp.rets p hp'
        exact ⟨value_knows hv, rfl, by simp [resultParam, value_not_ref hA h hv], by simp [resultParam]⟩
  types := by
    rw [perm_enums h, List.append_nil, (perm_structs h).nodup_iff]
    have := hA.structNames
    rw [show (fun s : AStruct => s.name.toList) = String.toList ∘ AStruct.name from rfl, ← List.map_map]
    exact List.Nodup.map (fun a b => toList_inj) this
  overloads := by
    rw [(h.filterMap _).nodup_iff]
    simp only [declarations, List.filterMap_append, List.filterMap_map]
    have e1 : A.events.filterMap (Item.overload ∘ HEvent.item) = [] := by simp [HEvent.item, Item.overload]
    have e2 : A.errors.filterMap (Item.overload ∘ HError.item) = [] := by simp [HError.item, Item.overload]
    have e3 : A.structs.filterMap (Item.overload ∘ structItem) = [] := by simp [structItem, Item.overload]
    have e4 : A.functions.filterMap (Item.overload ∘ HFun.item) = A.functions.map fun f => (f.name.toList, f.params.map (·.2.sty)) := by
      rw [← List.filterMap_eq_map]
      congr 1
      funext f
      simp [HFun.item, Item.overload, Function.comp_def, fieldParam]
    rw [e1, e2, e3, e4]
    simp only [List.nil_append]
    refine List.Nodup.map_on (fun x hx y hy e => ?_) (List.Nodup.of_map _ hA.overloads)
    refine List.inj_on_of_nodup_map hA.overloads hx hy ?_
    simp only [Prod.mk.injEq] at e ⊢
    refine ⟨toList_inj e.1, ?_⟩
    have : (x.params.map (·.2.sty)).map (fun t => String.ofList (t.base ++ dimText t.dims)) = (y.params.map (·.2.sty)).map (fun t => String.ofList (t.base ++ dimText t.dims)) := by rw [e.2]
    simpa only [List.map_map, Function.comp_def, ← AT.name_sty, String.ofList_toList] using this

/-- C107.  The interface written for a contract is accepted by the Solidity compiler, and what it declares is: the events, the errors, the structs and the functions
of the contract.  For contracts that are `PlainAbi`. -/
theorem C107_partial {A : HAbi} (h : PlainAbi A) :
    ∃ I, Accepts (interfaceText A) I ∧ I.name = (genUpperCamel A.name).toList ∧ I.items.Perm (declarations A) :=
  ⟨⟨_, A.pieces.map (·.item)⟩, ⟨readInterface_text (plain_good h), plain_ok h (pieces_perm h)⟩, rfl, pieces_perm h⟩

/-- The types of integers, booleans and addresses. -/
def ElemTy (t : ITy) : Prop := t ∈ [ITy.bool, .u8, .u16, .u32, .u64, .u128, .u256, .address]

theorem elem_param {name : String} {t : ITy} {as : List (String × AT)} {ts : List ITy} {r : Option String} (h : ElemTy (strip t))
    (hp : paramOf name t = some (.params as ts)) (hs : solName t = some r) : ∃ s, as = [(name, .prim s)] ∧ r = some s := by
  rw [solName_strip] at hs
  unfold paramOf at hp
  generalize strip t = u at h hp hs
  simp only [ElemTy, List.mem_cons, List.not_mem_nil, or_false] at h
  rcases h with rfl | rfl | rfl | rfl | rfl | rfl | rfl | rfl <;>
    (simp only [paramOf1, genTy, Option.map_some, Option.some.injEq, Contribution.params.injEq] at hp
     simp only [solName, Option.some.injEq] at hs
     exact ⟨_, hp.1.symm, hs.symm⟩)

theorem prim_text (s : String) : STy.text (AT.sty (.prim s)) = s := by
  simp [STy.text, AT.sty, AT.name]

theorem elem_params : ∀ {ps : List (String × ITy)} {qs : List (String × AT)} {ts : List ITy} {rs : List (Option String)},
    (∀ p ∈ ps, Hidden (strip p.2) ∨ ElemTy (strip p.2)) → paramsOf ps = some (some (qs, ts)) → (ps.map (·.2)).mapM solName = some rs →
    rs.filterMap id = (qs.map fieldParam).map (·.ty.text)
  | [], _, _, _, _, hp, hr => by
    simp only [paramsOf, Option.some.injEq, Prod.mk.injEq] at hp
    obtain ⟨rfl, rfl⟩ := hp
    simp only [List.map_nil, List.mapM_nil, Option.pure_def, Option.some.injEq] at hr
    subst hr
    rfl
  | p :: ps, _, _, _, h, hp, hr => by
    obtain ⟨r, rs', hr', hrs, rfl⟩ := mapM_cons' hr
    rw [paramsOf] at hp
    split at hp
    · cases hp
    · simp at hp
    · rename_i as1 ts1 hp1
      simp only [Option.map_eq_some_iff] at hp
      obtain ⟨o, hps, ⟨as2, ts2⟩, rfl, heq⟩ := hp
      simp only [Prod.mk.injEq] at heq
      obtain ⟨rfl, rfl⟩ := heq
      have ih := elem_params (fun q hq => h q (by simp [hq])) hps hrs
      rcases h p (by simp) with hh | hh
      · obtain rfl := paramOf_hidden hh hp1
        rw [solName_strip] at hr'
        obtain rfl := solName_hidden hh hr'
        simpa using ih
      · obtain ⟨s, rfl, rfl⟩ := elem_param hh hp1 hr'
        rw [List.filterMap_cons_some (f := id) rfl, List.singleton_append, List.map_cons, List.map_cons, ih]
        rw [show (fieldParam (p.1, AT.prim s)).ty.text = s from prim_text s]

/-- C107.  The signature of a declared function, from which a caller in Solidity derives the selector, is the one whose hash the contract compares with the
selector.  `f` is the entry of the function `name` with the parameters `ps` in the ABI.  For functions whose name does not end with an underscore, with
parameters of elementary type and hidden ones. -/
theorem C107_selector_partial {name sig : String} {ps : List (String × ITy)} {f : HFun} {ts : List ITy}
    (h : ∀ p ∈ ps, Hidden (strip p.2) ∨ ElemTy (strip p.2)) (hname : name.toList.tail.getLast? ≠ some '_')
    (hp : paramsOf ps = some (some (f.params, ts))) (hf : f.name = genCamel name) (hs : functionSig name (ps.map (·.2)) = some sig) :
    f.item.signature = some sig := by
  simp only [functionSig, signature, Option.map_eq_some_iff] at hs
  obtain ⟨rs, hr, rfl⟩ := hs
  rw [elem_params h hp hr, HFun.item, Item.signature, hf, camel_eq hname, String.ofList_toList]

/-! ## What the property needs -/

/-- A contract with the private entry function `name` with the given parameters, which returns nothing. -/
def oneFun (name : String) (params : List (String × AT)) : HAbi := ⟨"counter", [⟨.function, name, params, .none, false, [], true⟩], [], [], [], []⟩

theorem oneFun_text (name : String) (params : List (String × AT)) : interfaceText (oneFun name params) =
    header ++ "interface Counter {\n\n".toList ++ HFun.text ⟨.function, name, params, .none, false, [], true⟩ ++ "\n}".toList := by
  have : (genUpperCamel "counter").toList = "Counter".toList := by decide
  simp only [interfaceText, oneFun, this, eventsText, errorsText, structsText, enumsText, functionsText, sortBy, List.mergeSort_nil, List.mergeSort_singleton,
    List.flatMap_nil, List.filter_cons, HFun.listed, Bool.false_or, Bool.true_or, if_true, List.filter_nil, List.flatMap_cons, List.append_nil]
  show (_ : List Char) = _
  krfl

/-- What is read is what is accepted. -/
theorem not_accepts {text : List Char} {I : Interface} (h : readInterface text = some I) (hI : ¬ I.Ok) : ¬ ∃ J, Accepts text J := by
  rintro ⟨J, h1, h2⟩
  rw [h] at h1
  cases h1
  exact hI h2

theorem not_read {text : List Char} (h : readInterface text = none) : ¬ ∃ J, Accepts text J := by
  rintro ⟨J, h1, _⟩
  rw [h] at h1
  cases h1

/-- C107 is false for contracts with enums: a comma follows the last variant. -/
theorem C107_false_enum : ¬ ∃ I, Accepts (interfaceText ⟨"counter", [], [], [⟨"Color", ["Red", "Green"]⟩], [], []⟩) I := by
  have e : interfaceText ⟨"counter", [], [], [⟨"Color", ["Red", "Green"]⟩], [], []⟩ =
      header ++ "interface Counter {\n\n    enum Color {\n        Red,\n        Green,\n    }\n\n\n}".toList := by
    have : (genUpperCamel "counter").toList = "Counter".toList := by decide
    simp only [interfaceText, this, eventsText, errorsText, structsText, enumsText, functionsText, sortBy, List.mergeSort_nil, List.mergeSort_singleton,
      List.flatMap_nil, List.filter_nil, if_true, List.flatMap_cons, List.append_nil]
    show (_ : List Char) = _
    krfl
  rw [e]
  exact not_read (by krfl)

/-- C107 is false for functions that are `public entry`: both `public` and `external` are written. -/
theorem C107_false_public : ¬ ∃ I, Accepts (interfaceText ⟨"counter", [⟨.function, "read", [], .one (.prim "uint64"), true, ["view"], true⟩], [], [], [], []⟩) I := by
  have e : interfaceText ⟨"counter", [⟨.function, "read", [], .one (.prim "uint64"), true, ["view"], true⟩], [], [], [], []⟩ =
      header ++ "interface Counter {\n\n    function read() view public external returns (uint64);\n\n}".toList := by
    have : (genUpperCamel "counter").toList = "Counter".toList := by decide
    simp only [interfaceText, this, eventsText, errorsText, structsText, enumsText, functionsText, sortBy, List.mergeSort_nil, List.mergeSort_singleton,
      List.flatMap_nil, List.filter_cons, HFun.listed, Bool.true_or, List.filter_nil, if_true, List.flatMap_cons, List.append_nil]
    show (_ : List Char) = _
    krfl
  rw [e]
  refine not_accepts (I := ⟨"Counter".toList, [.function "read".toList [] ["view".toList, "public".toList, "external".toList] [⟨⟨"uint64".toList, 0⟩, none, false, none⟩]]⟩) (by krfl) ?_
  intro h
  exact absurd (h.items _ (List.mem_singleton.mpr rfl)).2.1 (by decide)

/-- C107 is false for parameters of types that are passed by reference, as strings and arrays: a data location is not written. -/
theorem C107_false_location : (¬ ∃ I, Accepts (interfaceText (oneFun "setName" [("name", .prim "string")])) I) ∧
    ¬ ∃ I, Accepts (interfaceText (oneFun "sum" [("values", .array (.prim "uint64"))])) I := by
  rw [oneFun_text, oneFun_text]
  constructor
  · refine not_accepts (I := ⟨"Counter".toList, [.function "setName".toList [⟨⟨"string".toList, 0⟩, none, false, some "name".toList⟩] ["external".toList] []]⟩) (by krfl) ?_
    intro h
    have := ((h.items _ (List.mem_singleton.mpr rfl)).1 _ (List.mem_append_left _ (List.mem_singleton.mpr rfl))).2.2.1.mp (.inr (.inl (by decide)))
    simp at this
  · refine not_accepts (I := ⟨"Counter".toList, [.function "sum".toList [⟨⟨"uint64".toList, 1⟩, none, false, some "values".toList⟩] ["external".toList] []]⟩) (by krfl) ?_
    intro h
    have := ((h.items _ (List.mem_singleton.mpr rfl)).1 _ (List.mem_append_left _ (List.mem_singleton.mpr rfl))).2.2.1.mp (.inl (by decide))
    simp at this

/-- The struct `Counter` of the module `counter`, an object with a `UID` and a value. -/
def counterTy : ITy := .struct ⟨7, "counter"⟩ "Counter" [] true [.struct objectMod "UID" [] false [.struct objectMod "ID" [] false [.address] ["bytes"]] ["id"], .u64] ["id", "value"]

/-- C107 is false for functions that take an object: the parameter has the name of the struct, which is not declared, where the contract expects the
identifier of the object. -/
theorem C107_false_object :
    paramsOf [("counter", .mutRef counterTy)] = some (some ([("counter", .struct "Counter" [] ⟨7, "counter"⟩ true)], [])) ∧
    functionSig "increment" [.mutRef counterTy] = some "increment(bytes32)" ∧
    ¬ ∃ I, Accepts (interfaceText (oneFun "increment" [("counter", .struct "Counter" [] ⟨7, "counter"⟩ true)])) I := by
  refine ⟨by rfl, by decide, ?_⟩
  rw [oneFun_text]
  refine not_accepts (I := ⟨"Counter".toList, [.function "increment".toList [⟨⟨"Counter".toList, 0⟩, none, false, some "counter".toList⟩] ["external".toList] []]⟩) (by krfl) ?_
  intro h
  have := ((h.items _ (List.mem_singleton.mpr rfl)).1 _ (List.mem_append_left _ (List.mem_singleton.mpr rfl))).1
  rcases this with this | this | this
  · exact absurd this (by decide)
  · exact absurd this (by decide)
  · exact absurd this (by decide)

/-- C107 is false for names that are words of Solidity but not of Move. -/
theorem C107_false_keyword : (¬ ∃ I, Accepts (interfaceText (oneFun "delete" [])) I) ∧ ¬ ∃ I, Accepts (interfaceText (oneFun "pay" [("from", .prim "address"), ("days", .prim "uint8")])) I := by
  rw [oneFun_text, oneFun_text]
  exact ⟨not_read (by krfl), not_read (by krfl)⟩

/-- C107 is false for generic structs whose argument is a vector: the brackets are part of the name. -/
theorem C107_false_generic :
    AT.name (.struct "Box" [.array (.prim "uint8")] ⟨7, "counter"⟩ false) = "BoxUint8[]" ∧
    ¬ ∃ I, Accepts (interfaceText ⟨"counter", [], [⟨"BoxUint8[]", [("value", .array (.prim "uint8"))]⟩], [], [], []⟩) I := by
  have e : interfaceText ⟨"counter", [], [⟨"BoxUint8[]", [("value", .array (.prim "uint8"))]⟩], [], [], []⟩ =
      header ++ "interface Counter {\n\n    struct BoxUint8[] {\n        uint8[] value;\n    }\n\n\n}".toList := by
    have : (genUpperCamel "counter").toList = "Counter".toList := by decide
    simp only [interfaceText, this, eventsText, errorsText, structsText, enumsText, functionsText, sortBy, List.mergeSort_nil, List.mergeSort_singleton,
      List.flatMap_nil, List.filter_nil, if_true, List.flatMap_cons, List.append_nil]
    show (_ : List Char) = _
    krfl
  rw [e]
  exact ⟨by decide, not_read (by krfl)⟩

/-! ## Examples -/

/-- A contract with two functions, an event, an error and a struct. -/
def bankAbi : HAbi where
  name := "bank"
  functions := [⟨.function, "withdraw", [("amount", .prim "uint256")], .none, false, [], true⟩,
    ⟨.function, "limits", [], .tuple [.prim "uint256", .prim "bool"], false, ["view"], true⟩]
  structs := [⟨"Account", [("owner", .prim "address"), ("notes", .array (.prim "string"))]⟩]
  enums := []
  events := [⟨"Withdrawn", [("account", .struct "Account" [] ⟨7, "bank"⟩ false, false), ("amount", .prim "uint256", true)], false, false⟩]
  errors := [⟨"TooMuch", [("limit", .prim "uint256")], false⟩]

theorem bankAbi_plain : PlainAbi bankAbi where
  name := by decide
  functions f hf := by
    simp only [bankAbi, List.mem_cons, List.not_mem_nil, or_false] at hf
    rcases hf with rfl | rfl
    · refine ⟨rfl, by decide, rfl, rfl, by simp, ?_, by simp [Rets.params], by simp⟩
      simp only [List.mem_singleton, forall_eq]
      exact ⟨by decide, "uint256", by decide, rfl⟩
    · refine ⟨rfl, by decide, rfl, rfl, by simp [mutabilities], by simp, ?_, by simp⟩
      simp only [Rets.params, List.map_cons, List.map_nil, List.mem_cons, List.not_mem_nil, or_false, forall_eq_or_imp, forall_eq]
      exact ⟨⟨_, ⟨"uint256", by decide, rfl⟩, rfl⟩, _, ⟨"bool", by decide, rfl⟩, rfl⟩
  overloads := by simp [bankAbi]
  structs s hs := by
    simp only [bankAbi, List.mem_singleton] at hs
    subst hs
    refine ⟨by decide, by simp, by simp, ?_⟩
    simp only [List.mem_cons, List.not_mem_nil, or_false, forall_eq_or_imp, forall_eq]
    exact ⟨⟨by decide, .inl (by decide)⟩, by decide, .inl (by decide)⟩
  structNames := by simp [bankAbi]
  enums := rfl
  events e he := by
    simp only [bankAbi, List.mem_singleton] at he
    subst he
    refine ⟨by decide, by simp, ?_⟩
    simp only [List.mem_cons, List.not_mem_nil, or_false, forall_eq_or_imp, forall_eq]
    exact ⟨⟨by decide, .inr ⟨_, List.mem_singleton.mpr rfl, rfl⟩⟩, by decide, .inl (by decide)⟩
  errors e he := by
    simp only [bankAbi, List.mem_singleton] at he
    subst he
    refine ⟨by decide, ?_⟩
    simp only [List.mem_singleton, forall_eq]
    exact ⟨by decide, .inl (by decide)⟩

example : ∃ I, Accepts (interfaceText bankAbi) I ∧ I.name = "Bank".toList ∧ I.items.length = 5 := by
  obtain ⟨I, h1, h2, h3⟩ := C107_partial bankAbi_plain
  exact ⟨I, h1, h2.trans (by decide), h3.length_eq⟩

example : (HFun.item ⟨.function, "setLimit", [("amount", .prim "uint256"), ("until", .prim "uint64")], .none, false, [], true⟩).signature = some "setLimit(uint256,uint64)" :=
  C107_selector_partial (name := "set_limit") (ps := [("caller", .signer), ("amount", .u256), ("until", .ref .u64)]) (ts := [])
    (by
      simp only [List.mem_cons, List.not_mem_nil, or_false, forall_eq_or_imp, forall_eq]
      exact ⟨.inl trivial, .inr (by simp [ElemTy, strip]), .inr (by simp [ElemTy, strip])⟩) (by decide) rfl (by decide) (by decide)

end Props
