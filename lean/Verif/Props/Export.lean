import Verif.Proof.Export2

/-!
# C80, C81, C82: the exported ABI names what the contract answers to

The compiler derives the selector of a function, the first topic of an event and the selector of an error from a signature
text; the ABI generator writes a JSON file from which clients derive the same texts.
-/

namespace Props
open Export Abi

variable {same : ITy → ITy → Bool} {ord : List ITy → List ITy} {fuel : Nat} {src : Source} {ex : Exported}

/-- C80.  The signature a client derives from the entry of a function in the exported ABI is the one whose hash the contract
compares with the selector.  For functions whose name does not end with an underscore and whose visible parameters are
`Plain`, when no two structs of the interface have the same name in the ABI. -/
theorem C80_partial (hex : src.export same ord fuel = some ex) (hord : ∀ ts, ord ts ⊆ ts) (hd : NamesDiffer src.Occ)
    {i : Nat} {name : String} {ps : List (String × ITy)} {e : String × List J} {sig : String}
    (hf : src.functions[i]? = some (name, ps)) (he : ex.functions[i]? = some (some e))
    (hname : name.toList.tail.getLast? ≠ some '_')
    (hplain : ∀ p ∈ ps, Hidden (strip p.2) ∨ ∀ t, Shown (strip p.2) t → Plain t)
    (hs : functionSig name (ps.map (·.2)) = some sig) : entrySig e = sig := by
  obtain ⟨ss, es, js, rs, ks, qs, fs, hss, _, _, _, _, hqs, hfs, hexf, _, _⟩ := Source.export_parts hex hord
  obtain ⟨q, hq, hpq⟩ := mapM_getElem hqs hf
  obtain ⟨o, ho, hoq⟩ := mapM_getElem hfs hq
  rw [hexf] at he
  simp only [List.getElem?_map, List.getElem?_zip_eq_some, Option.map_eq_some_iff, Prod.exists] at he
  obtain ⟨n', ps', o', ⟨hf', ho'⟩, he⟩ := he
  rw [hf] at hf'
  rw [ho] at ho'
  cases hf'
  cases ho'
  obtain ⟨j, rfl, rfl⟩ := he
  cases q with
  | none => simp at hoq
  | some q =>
    simp only [Option.map_eq_some_iff, Option.some.injEq, exists_eq_right] at hoq
    simp only [functionSig, signature, Option.map_eq_some_iff] at hs
    obtain ⟨r, hr, rfl⟩ := hs
    have hn : Nice src.Occ (fun t => src.Occ t ∧ ∃ p ∈ ps, ¬ Hidden (strip p.2) ∧ Shown (strip p.2) t) :=
      { closed := fun {t u} ⟨⟨v, hv, hvo⟩, p, hp, hh, hsh⟩ h' => ⟨⟨v, hv, hvo.trans h'.occurs⟩, p, hp, hh, hsh.trans h'⟩
        plain := fun {t} ⟨_, p, hp, hh, hsh⟩ => ((hplain p hp).resolve_left hh) t hsh
        occ := fun h => h.1 }
    have hv : ∀ p ∈ ps, Hidden (strip p.2) ∨
        (src.Occ (strip p.2) ∧ ∃ q ∈ ps, ¬ Hidden (strip q.2) ∧ Shown (strip q.2) (strip p.2)) := by
      intro p hp
      by_cases hh : Hidden (strip p.2)
      · exact .inl hh
      · refine .inr ⟨⟨p.2, ?_, ?_⟩, p, hp, hh, .refl _⟩
        · simp only [Source.types, List.mem_append, List.mem_flatMap]
          exact .inl (.inl (.inl ⟨_, List.mem_of_getElem? hf, List.mem_map.2 ⟨p, hp, rfl⟩⟩))
        · cases hp2 : p.2 <;> first | exact .refl _ | exact .ref (.refl _) | exact .mutRef (.refl _)
    have := params_names hd hn hss ps q.1 q.2 j r hv hpq hoq hr
    simp only [entrySig, this, camel_eq hname]

/-- Only generic functions, which the contract does not answer to, are left out. -/
theorem C80_complete (hex : src.export same ord fuel = some ex) (hord : ∀ ts, ord ts ⊆ ts)
    {i : Nat} {name : String} {ps : List (String × ITy)} (hf : src.functions[i]? = some (name, ps)) :
    (∃ e, ex.functions[i]? = some (some e)) ∨ (ex.functions[i]? = some none ∧ ∃ p ∈ ps, ∃ k, strip p.2 = .param k) := by
  obtain ⟨ss, es, js, rs, ks, qs, fs, hss, _, _, _, _, hqs, hfs, hexf, _, _⟩ := Source.export_parts hex hord
  obtain ⟨q, hq, hpq⟩ := mapM_getElem hqs hf
  obtain ⟨o, ho, hoq⟩ := mapM_getElem hfs hq
  have hz : ex.functions[i]? = some (o.map (genCamel name, ·)) := by
    rw [hexf]
    simp only [List.getElem?_map]
    have : (src.functions.zip fs)[i]? = some ((name, ps), o) := List.getElem?_zip_eq_some.2 ⟨hf, ho⟩
    rw [this]
    rfl
  cases o with
  | some j => exact .inl ⟨_, hz⟩
  | none =>
    refine .inr ⟨hz, ?_⟩
    cases q with
    | some q => simp at hoq
    | none =>
      clear hf hq hz
      induction ps with
      | nil => simp [paramsOf] at hpq
      | cons p ps ih =>
        rw [paramsOf] at hpq
        split at hpq
        · cases hpq
        · rename_i hp
          refine ⟨p, by simp, ?_⟩
          unfold paramOf paramOf1 at hp
          cases hst : strip p.2 <;> simp only [hst] at hp <;> first | exact ⟨_, rfl⟩ | skip
          all_goals (repeat' split at hp)
          all_goals simp [Option.map_eq_some_iff] at hp
        · simp only [Option.map_eq_some_iff] at hpq
          obtain ⟨o, hps, ho⟩ := hpq
          cases o with
          | some o => simp at ho
          | none =>
            obtain ⟨p', hp', hk⟩ := ih hps
            exact ⟨p', by simp [hp'], hk⟩

theorem decl_sig (hd : NamesDiffer src.Occ) {ss : List AStruct} (hss : FromTypes src.Occ ss) {d : Decl} {j : List J}
    {fs : List (String × AT)} {r : List (Option String)} (hmem : ∀ t ∈ d.fields, t ∈ src.types)
    (hf : fieldsOf d = some fs) (hj : processIO ss fuel fs = some j) (hl : d.fields.length ≤ d.names.length)
    (hplain : ∀ t ∈ d.fields, ∀ u, Shown t u → Plain u) (hr : d.fields.mapM solName = some r) :
    r.filterMap id = canons j := by
  have hn : Nice src.Occ (fun u => ∃ t ∈ d.fields, Shown t u) :=
    { closed := fun {t u} ⟨v, hv, h⟩ h' => ⟨v, hv, h.trans h'⟩
      plain := fun {u} ⟨t, ht, h⟩ => hplain t ht u h
      occ := fun {u} ⟨t, ht, h⟩ => ⟨t, hmem t ht, h.occurs⟩ }
  exact fields_names hd hn hss d.fields d.names fs j r (fun t ht => ⟨t, ht, .refl _⟩) hl hf hj hr

/-- C81.  The signature a client derives from the entry of an event is the one whose hash is its first topic.  For events whose
fields are `Plain` and whose structs contain no other structs. -/
theorem C81_partial (hex : src.export same ord fuel = some ex) (hord : ∀ ts, ord ts ⊆ ts) (hd : NamesDiffer src.Occ)
    {i : Nat} {d : Decl} {e : String × List J} {sig : String}
    (hf : src.events[i]? = some d) (he : ex.events[i]? = some e) (hl : d.fields.length ≤ d.names.length)
    (hplain : ∀ t ∈ d.fields, ∀ u, Shown t u → Plain u) (hflat : ∀ t ∈ d.fields, FlatEvent t)
    (hs : eventSig d.name d.fields = some sig) : entrySig e = sig := by
  obtain ⟨ss, es, js, rs, ks, qs, fs, hss, hes, hjs, _, _, _, _, _, hexe, _⟩ := Source.export_parts hex hord
  obtain ⟨q, hq, hpq⟩ := mapM_getElem hes hf
  obtain ⟨j, hj, hjq⟩ := mapM_getElem hjs hq
  rw [hexe] at he
  simp only [List.getElem?_map, List.getElem?_zip_eq_some, Option.map_eq_some_iff, Prod.exists] at he
  obtain ⟨d', j', ⟨hd', hj'⟩, rfl⟩ := he
  rw [hf] at hd'
  rw [hj] at hj'
  cases hd'
  cases hj'
  simp only [eventSig, mapM_evName hflat, Option.map_eq_some_iff] at hs
  obtain ⟨r, hr, rfl⟩ := hs
  have hmem : ∀ t ∈ d.fields, t ∈ src.types := by
    intro t ht
    simp only [Source.types, List.mem_append, List.mem_flatMap]
    exact .inl (.inr ⟨d, List.mem_of_getElem? hf, ht⟩)
  rw [decl_sig hd hss hmem hpq hjq hl hplain hr]
  rfl

/-- C82.  The signature a client derives from the entry of an error is the one whose hash starts the revert data.  For errors
whose fields are `Plain` and whose names are written without underscores. -/
theorem C82_partial (hex : src.export same ord fuel = some ex) (hord : ∀ ts, ord ts ⊆ ts) (hd : NamesDiffer src.Occ)
    {i : Nat} {d : Decl} {e : String × List J} {sig : String} {c : Char} {cs : List Char}
    (hf : src.errors[i]? = some d) (he : ex.errors[i]? = some e) (hl : d.fields.length ≤ d.names.length)
    (hplain : ∀ t ∈ d.fields, ∀ u, Shown t u → Plain u)
    (hname : d.name.toList = c :: cs) (hc : c.isUpper = true) (hu : '_' ∉ cs)
    (hs : errorSig d.name d.fields = some sig) : entrySig e = sig := by
  obtain ⟨ss, es, js, rs, ks, qs, fs, hss, _, _, hrs, hks, _, _, _, _, hexe⟩ := Source.export_parts hex hord
  obtain ⟨q, hq, hpq⟩ := mapM_getElem hrs hf
  obtain ⟨j, hj, hjq⟩ := mapM_getElem hks hq
  rw [hexe] at he
  simp only [List.getElem?_map, List.getElem?_zip_eq_some, Option.map_eq_some_iff, Prod.exists] at he
  obtain ⟨d', j', ⟨hd', hj'⟩, rfl⟩ := he
  rw [hf] at hd'
  rw [hj] at hj'
  cases hd'
  cases hj'
  simp only [errorSig, signature, upperCamel_plain hname hc hu, Option.map_eq_some_iff] at hs
  obtain ⟨r, hr, rfl⟩ := hs
  have hmem : ∀ t ∈ d.fields, t ∈ src.types := by
    intro t ht
    simp only [Source.types, List.mem_append, List.mem_flatMap]
    exact .inr ⟨d, List.mem_of_getElem? hf, ht⟩
  rw [decl_sig hd hss hmem hpq hjq hl hplain hr]
  rfl

/-! ### An interface that meets the hypotheses -/

/-- A module of the user. -/
def modU : Mod := ⟨100, "shop"⟩

/-- `struct Item has copy, drop { price: u64, tags: vector<String> }` -/
def tyString : ITy := .struct ⟨1, "string"⟩ "String" [] false [.vec .u8] ["bytes"]
def tyItem : ITy := .struct modU "Item" [] false [.u64, .vec tyString] ["price", "tags"]
def tyUID : ITy := .struct objectMod "UID" [] false [.struct objectMod "ID" [] false [.address] ["bytes"]] ["id"]
/-- `struct Shop has key { id: UID, open: bool }` -/
def tyShop : ITy := .struct modU "Shop" [] true [tyUID, .bool] ["id", "open"]

def srcShop : Source where
  functions := [("add_item", [("s", .mutRef tyShop), ("item", tyItem), ("n", .u256)])]
  results := [.ref tyItem]
  events := [⟨"Added", [.address, tyItem], ["by", "item"]⟩]
  errors := [⟨"NoSuchItem", [.u64], ["price"]⟩]

mutual
/-- Equality of `IntermediateType` (translation/intermediate_types.rs 59): structs are compared by module, name and arguments. -/
def sameTy : ITy → ITy → Bool
  | .bool, .bool | .u8, .u8 | .u16, .u16 | .u32, .u32 | .u64, .u64 | .u128, .u128 | .u256, .u256 | .address, .address
  | .signer, .signer => true
  | .param i, .param j => i = j
  | .vec t, .vec u | .ref t, .ref u | .mutRef t, .mutRef u => sameTy t u
  | .enum m n _ _, .enum m' n' _ _ => m = m' ∧ n = n'
  | .struct m n as _ _ _, .struct m' n' as' _ _ _ => m = m' && n = n' && sameTys as as'
  | _, _ => false
def sameTys : List ITy → List ITy → Bool
  | [], [] => true
  | t :: ts, u :: us => sameTy t u && sameTys ts us
  | _, _ => false
end

/-- The signatures in the file. -/
def Exported.sigs (ex : Exported) : List (Option String) × List String × List String :=
  (ex.functions.map (Option.map entrySig), ex.events.map entrySig, ex.errors.map entrySig)

mutual
/-- The types that occur in a type. -/
def occList : ITy → List ITy
  | .vec t => .vec t :: occList t
  | .ref t => .ref t :: occList t
  | .mutRef t => .mutRef t :: occList t
  | .struct m n args key fields names => .struct m n args key fields names :: occLists fields
  | t => [t]
def occLists : List ITy → List ITy
  | [] => []
  | t :: ts => occList t ++ occLists ts
end

theorem mem_occLists {f u : ITy} {fs : List ITy} (h : u ∈ occList f) (hf : f ∈ fs) : u ∈ occLists fs := by
  induction fs with
  | nil => cases hf
  | cons x xs ih =>
    simp only [occLists, List.mem_append]
    rcases List.mem_cons.1 hf with rfl | hf
    · exact .inl h
    · exact .inr (ih hf)

theorem mem_occList {t u : ITy} (h : Occurs t u) : u ∈ occList t := by
  induction h with
  | refl t => cases t <;> simp [occList]
  | vec _ ih => simp [occList, ih]
  | ref _ ih => simp [occList, ih]
  | mutRef _ ih => simp [occList, ih]
  | field hf _ ih => simp [occList, mem_occLists ih hf]

theorem namesDiffer_shop : NamesDiffer srcShop.Occ := by
  have key : ∀ t, srcShop.Occ t → IsStruct t → t = tyShop ∨ t = tyItem := by
    rintro t ⟨u, hu, ho⟩ hs
    have := mem_occList ho
    simp only [Source.types, srcShop, List.flatMap_cons, List.flatMap_nil, List.map_cons, List.map_nil, List.append_nil,
      List.cons_append, List.nil_append, List.mem_cons, List.not_mem_nil, or_false] at hu
    rcases hu with rfl | rfl | rfl | rfl | rfl | rfl | rfl <;>
      simp only [tyShop, tyItem, tyUID, tyString, occList, occLists, List.cons_append, List.nil_append, List.append_nil,
        List.mem_cons, List.not_mem_nil, or_false] at this
    all_goals
      (repeat' (rcases this with this | this)) <;>
        first
        | exact .inl rfl
        | exact .inr rfl
        | exact hs.elim
        | (exfalso; revert hs; simp [IsStruct, genTy, genReserved, stringMods, objectMod])
  intro t u s ht hu hst hsu h h'
  rcases key t ht hst with rfl | rfl <;> rcases key u hu hsu with rfl | rfl
  · rfl
  · rw [← h'] at h; exact absurd h (by decide +kernel)
  · rw [← h'] at h; exact absurd h (by decide +kernel)
  · rfl

/-- What the generator writes for the shop. -/
def exShop : Exported := (srcShop.export sameTy id 10).getD ⟨[], [], []⟩

theorem exShop_eq : srcShop.export sameTy id 10 = some exShop := by rfl

theorem plain_item : ∀ t, Shown tyItem t → Plain t := by
  intro t h
  have := mem_occList h.occurs
  simp only [tyItem, tyString, occList, occLists, List.cons_append, List.nil_append, List.append_nil,
    List.mem_cons, List.not_mem_nil, or_false] at this
  rcases this with rfl | rfl | rfl | rfl | rfl | rfl <;> simp [Plain, modU, txMod, objectMod]

theorem plain_base {t : ITy} (h : occList t = [t]) (hp : Plain t) : ∀ u, Shown t u → Plain u := by
  intro u hu
  have := mem_occList hu.occurs
  rw [h] at this
  simp only [List.mem_singleton] at this
  exact this ▸ hp

theorem plain_shop : ∀ t, Shown tyShop t → Plain t := by
  intro t h
  cases h
  simp [Plain, tyShop, modU, txMod, objectMod, namedFirst, tyUID]

example : ∃ e sig, exShop.functions[0]? = some (some e) ∧ functionSig "add_item" [.mutRef tyShop, tyItem, .u256] = some sig ∧
    entrySig e = sig ∧ sig = "addItem(bytes32,(uint64,string[]),uint256)" := by
  refine ⟨_, _, rfl, (by decide +kernel : _ = some "addItem(bytes32,(uint64,string[]),uint256)"), ?_, rfl⟩
  refine C80_partial exShop_eq (fun ts => List.Subset.refl _) namesDiffer_shop (i := 0) rfl rfl (by decide) ?_
    (by decide +kernel)
  intro p hp
  simp only [List.mem_cons, List.not_mem_nil, or_false] at hp
  rcases hp with rfl | rfl | rfl
  · exact .inr plain_shop
  · exact .inr plain_item
  · exact .inr (plain_base (by rfl) trivial)

example : ∃ e sig, exShop.events[0]? = some e ∧ eventSig "Added" [.address, tyItem] = some sig ∧
    entrySig e = sig ∧ sig = "Added(address,(uint64,string[]))" := by
  refine ⟨_, _, rfl, (by decide +kernel : _ = some "Added(address,(uint64,string[]))"), ?_, rfl⟩
  refine C81_partial exShop_eq (fun ts => List.Subset.refl _) namesDiffer_shop (i := 0) rfl rfl (by decide) ?_ ?_
    (by decide +kernel) <;> intro t ht <;> simp only [List.mem_cons, List.not_mem_nil, or_false] at ht <;>
    rcases ht with rfl | rfl
  · exact plain_base (by rfl) trivial
  · exact plain_item
  · trivial
  · simp [FlatEvent, tyItem, FlatField, tyString]

example : ∃ e sig, exShop.errors[0]? = some e ∧ errorSig "NoSuchItem" [.u64] = some sig ∧
    entrySig e = sig ∧ sig = "NoSuchItem(uint64)" := by
  refine ⟨_, _, rfl, (by decide +kernel : _ = some "NoSuchItem(uint64)"), ?_, rfl⟩
  refine C82_partial exShop_eq (fun ts => List.Subset.refl _) namesDiffer_shop (i := 0) rfl rfl (by decide) ?_
    (c := 'N') (cs := "oSuchItem".toList) (by decide) (by decide) (by decide) (by decide +kernel)
  intro t ht
  simp only [List.mem_cons, List.not_mem_nil, or_false] at ht
  subst ht
  exact plain_base (by rfl) trivial

/-! ### Interfaces of which the exported ABI is wrong -/

/-- A module with one function. -/
def oneFn (name : String) (ps : List (String × ITy)) : Source := ⟨[(name, ps)], [], [], []⟩

/-- The ABI says `f()`, the contract answers to `f_()`. -/
theorem C80_false_name : ((oneFn "f_" []).export sameTy id 10).map Exported.sigs = some ([some "f()"], [], []) ∧
    functionSig "f_" [] = some "f_()" := by decide +kernel

/-- `enum Kind<T> { A, B }`: the ABI says `f(uint8)`, the contract answers to `f()`. -/
theorem C80_false_enum :
    ((oneFn "f" [("k", .enum modU "Kind" true true)]).export sameTy id 10).map Exported.sigs = some ([some "f(uint8)"], [], []) ∧
    functionSig "f" [.enum modU "Kind" true true] = some "f()" := by decide +kernel

/-- `struct Unit {}`, which has a field of type `bool` in the bytecode: the ABI says `f(())`, the contract answers to
`f((bool))`. -/
def tyUnit : ITy := .struct modU "Unit" [] false [.bool] []
theorem C80_false_empty :
    ((oneFn "f" [("u", tyUnit)]).export sameTy id 10).map Exported.sigs = some ([some "f(())"], [], []) ∧
    functionSig "f" [tyUnit] = some "f((bool))" := by decide +kernel

/-- Two structs `Point` in different modules: whichever is found first, the ABI is wrong for one of the functions. -/
def tyPoint (m : String) (t : ITy) : ITy := .struct ⟨100, m⟩ "Point" [] false [t, t] ["x", "y"]
def srcPoints : Source := ⟨[("f", [("p", tyPoint "a" .u8)]), ("g", [("p", tyPoint "b" .u64)])], [], [], []⟩
theorem C80_false_names :
    (srcPoints.export sameTy id 10).map Exported.sigs = some ([some "f((uint8,uint8))", some "g((uint8,uint8))"], [], []) ∧
    (srcPoints.export sameTy List.reverse 10).map Exported.sigs =
      some ([some "f((uint64,uint64))", some "g((uint64,uint64))"], [], []) ∧
    functionSig "f" [tyPoint "a" .u8] = some "f((uint8,uint8))" ∧ functionSig "g" [tyPoint "b" .u64] = some "g((uint64,uint64))" := by
  decide +kernel

/-- `Box<u8>` and `BoxUint8` have the same name in the ABI. -/
def tyBox : ITy := .struct modU "Box" [.u8] false [.u8] ["v"]
def tyBoxUint8 : ITy := .struct modU "BoxUint8" [] false [.u64] ["w"]
def srcBoxes : Source := ⟨[("f", [("p", tyBox)]), ("g", [("p", tyBoxUint8)])], [], [], []⟩
theorem C80_false_instance :
    (srcBoxes.export sameTy id 10).map Exported.sigs = some ([some "f((uint8))", some "g((uint8))"], [], []) ∧
    functionSig "g" [tyBoxUint8] = some "g((uint64))" := by decide +kernel

/-- A `NamedId` as a parameter: the ABI says `bytes32`, the contract answers to `(bytes32)`. -/
def tyNamed : ITy := .struct objectMod "NamedId" [.struct modU "KEY" [] false [.bool] []] false
  [.struct objectMod "ID" [] false [.address] ["bytes"]] ["id"]
theorem C80_false_named :
    ((oneFn "f" [("i", tyNamed)]).export sameTy id 10).map Exported.sigs = some ([some "f(bytes32)"], [], []) ∧
    functionSig "f" [tyNamed] = some "f((bytes32))" := by decide +kernel

/-- A struct in a struct in an event: the ABI lists the field, the topic is computed without it. -/
def tyOrder : ITy := .struct modU "Order" [] false [.u8, tyItem] ["n", "item"]
theorem C81_false :
    ((⟨[], [], [⟨"Sold", [.u256, tyOrder], ["id", "order"]⟩], []⟩ : Source).export sameTy id 10).map Exported.sigs =
      some ([], ["Sold(uint256,(uint8,(uint64,string[])))"], []) ∧
    eventSig "Sold" [.u256, tyOrder] = some "Sold(uint256)" := by decide +kernel

/-- An error with an underscore in its name: the ABI has the name as in the source, the selector is that of another name. -/
theorem C82_false :
    ((⟨[], [], [], [⟨"My_Error", [.u8], ["n"]⟩]⟩ : Source).export sameTy id 10).map Exported.sigs =
      some ([], [], ["My_Error(uint8)"]) ∧
    errorSig "My_Error" [.u8] = some "MyError(uint8)" := by decide +kernel

end Props
