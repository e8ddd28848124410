import Verif.Rt.WasmIface

/-!
# C118: the interface of a compiled module

Statements about `WasmIface.validate` and `WasmIface.compiled`.
-/

namespace Props.Iface

open WasmIface

/-- What Stylus asks of a module, by name, wherever it is in the module. -/
structure Interface (m : WMod) : Prop where
  entry : ∃ i, ("user_entrypoint", Item.func i) ∈ m.exports ∧ m.funcs[i]? = some ⟨[.i32], [.i32]⟩
  memory : ∃ i, ("memory", Item.mem i) ∈ m.exports ∧ m.mems[i]? = some ⟨false, false, 1, none, none⟩
  grow : ∃ i, ⟨"vm_hooks", "pay_for_memory_grow", .func i⟩ ∈ m.imports ∧ m.funcs[i]? = some ⟨[.i32], []⟩

theorem find_key {β : Type} (k : String) : ∀ (l : List (String × β)) (b : β), (l.map Prod.fst).Nodup →
    (l.find? (fun e => e.1 == k) = some (k, b) ↔ (k, b) ∈ l) := by
  intro l b hd
  induction l with
  | nil => simp
  | cons a l ih =>
    obtain ⟨x, y⟩ := a
    simp only [List.map_cons, List.nodup_cons] at hd
    by_cases hx : x = k
    · subst hx
      have : (x, b) ∉ l := fun h => hd.1 (List.mem_map.mpr ⟨_, h, rfl⟩)
      simp [this, eq_comm]
    · have : (x == k) = false := by simpa using hx
      rw [List.find?_cons]
      simp only [this, ih hd.2, List.mem_cons, Prod.mk.injEq]
      constructor
      · exact Or.inr
      · rintro (⟨h, -⟩ | h)
        · exact absurd h.symm hx
        · exact h

theorem find_fst {β : Type} {k : String} {l : List (String × β)} {a : String × β}
    (h : l.find? (fun e => e.1 == k) = some a) : a.1 = k := by
  have := List.find?_some h
  simpa using this

theorem checkEntry_iff (m : WMod) (hd : (m.exports.map Prod.fst).Nodup) : checkEntry m = .ok () ↔
    ∃ i, ("user_entrypoint", Item.func i) ∈ m.exports ∧ m.funcs[i]? = some ⟨[.i32], [.i32]⟩ := by
  have key := find_key (β := Item) "user_entrypoint" m.exports
  unfold checkEntry
  split
  · rename_i h
    simp only [reduceCtorEq, false_iff, not_exists, not_and]
    intro i hi
    rw [← key _ hd, h] at hi; cases hi
  · rename_i s i h
    have hs : s = "user_entrypoint" := find_fst h
    subst hs
    have hi := (key _ hd).mp h
    have hu : ∀ j, ("user_entrypoint", Item.func j) ∈ m.exports → j = i := by
      intro j hj
      rw [← key _ hd, h] at hj; cases hj; rfl
    split
    · rename_i h'
      simp only [reduceCtorEq, false_iff, not_exists, not_and]
      intro j hj; rw [hu j hj, h']; simp
    · rename_i t h'
      obtain ⟨p, r⟩ := t
      split
      · rename_i hc
        simp only [true_iff]
        exact ⟨i, hi, by rw [h']; exact congrArg some (by rw [FTy.mk.injEq]; exact hc)⟩
      · rename_i hc
        simp only [reduceCtorEq, false_iff, not_exists, not_and]
        intro j hj; rw [hu j hj, h']
        simpa using hc
  · rename_i a h1 h2
    simp only [reduceCtorEq, false_iff, not_exists, not_and]
    intro j hj
    rw [← key _ hd, h2] at hj
    exact absurd (Option.some.inj hj) (h1 _ _)

theorem checkMemory_iff (m : WMod) (hd : (m.exports.map Prod.fst).Nodup) : checkMemory m = .ok () ↔
    ∃ i, ("memory", Item.mem i) ∈ m.exports ∧ m.mems[i]? = some ⟨false, false, 1, none, none⟩ := by
  have key := find_key (β := Item) "memory" m.exports
  unfold checkMemory
  split
  · rename_i h
    simp only [reduceCtorEq, false_iff, not_exists, not_and]
    intro i hi
    rw [← key _ hd, h] at hi; cases hi
  · rename_i s i h
    have hs : s = "memory" := find_fst h
    subst hs
    have hi := (key _ hd).mp h
    have hu : ∀ j, ("memory", Item.mem j) ∈ m.exports → j = i := by
      intro j hj
      rw [← key _ hd, h] at hj; cases hj; rfl
    split
    · rename_i h'
      simp only [reduceCtorEq, false_iff, not_exists, not_and]
      intro j hj; rw [hu j hj, h']; simp
    · rename_i t h'
      obtain ⟨a, b, c, d, e⟩ := t
      dsimp only
      split
      · rename_i hc
        obtain ⟨h1, h2, h3, h4, h5⟩ := hc
        subst h1 h2 h3 h4 h5
        simp only [true_iff]
        exact ⟨i, hi, h'⟩
      · rename_i hc
        simp only [reduceCtorEq, false_iff, not_exists, not_and]
        intro j hj; rw [hu j hj, h']
        intro he
        simp only [Option.some.injEq, MemDef.mk.injEq] at he
        exact hc ⟨he.1, he.2.1, he.2.2.2.2, he.2.2.1, he.2.2.2.1⟩
  · rename_i a h1 h2
    simp only [reduceCtorEq, false_iff, not_exists, not_and]
    intro j hj
    rw [← key _ hd, h2] at hj
    exact absurd (Option.some.inj hj) (h1 _ _)

/-- At most one import has that name. -/
def OneGrow (m : WMod) : Prop :=
  ∀ i ∈ m.imports, ∀ j ∈ m.imports, i.name = "pay_for_memory_grow" → j.name = "pay_for_memory_grow" → i = j

theorem checkGrow_iff (m : WMod) (hd : OneGrow m) : checkGrow m = .ok () ↔
    ∃ i, ⟨"vm_hooks", "pay_for_memory_grow", .func i⟩ ∈ m.imports ∧ m.funcs[i]? = some ⟨[.i32], []⟩ := by
  unfold checkGrow
  split
  · rename_i h
    simp only [reduceCtorEq, false_iff, not_exists, not_and]
    intro i hi
    have := List.find?_eq_none.mp h _ hi
    simp at this
  · rename_i mn n k h
    have hn : n = "pay_for_memory_grow" := by simpa using List.find?_some h
    subst hn
    have hm := List.mem_of_find?_eq_some h
    have hu : ∀ i, ⟨"vm_hooks", "pay_for_memory_grow", Kind.func i⟩ ∈ m.imports →
        (⟨mn, "pay_for_memory_grow", k⟩ : Imp) = ⟨"vm_hooks", "pay_for_memory_grow", .func i⟩ :=
      fun i hi => hd _ hm _ hi rfl rfl
    split
    · rename_i hmn
      subst hmn
      split
      · rename_i i
        have hu' : ∀ j, ⟨"vm_hooks", "pay_for_memory_grow", Kind.func j⟩ ∈ m.imports → j = i := by
          intro j hj; have := hu j hj; simp at this; exact this.symm
        split
        · rename_i h'
          simp only [reduceCtorEq, false_iff, not_exists, not_and]
          intro j hj; rw [hu' j hj, h']; simp
        · rename_i t h'
          obtain ⟨p, r⟩ := t
          split
          · rename_i hc
            simp only [true_iff]
            exact ⟨i, hm, by rw [h']; exact congrArg some (by rw [FTy.mk.injEq]; exact hc.symm)⟩
          · rename_i hc
            simp only [reduceCtorEq, false_iff, not_exists, not_and]
            intro j hj; rw [hu' j hj, h']
            intro he
            simp only [Option.some.injEq, FTy.mk.injEq] at he
            exact hc ⟨he.2, he.1⟩
      · simp only [reduceCtorEq, false_iff, not_exists, not_and]
        intro j hj; have := hu j hj; simp at this
    · rename_i hmn
      simp only [reduceCtorEq, false_iff, not_exists, not_and]
      intro j hj; have := hu j hj; simp at this; exact absurd this.1 hmn

/-- C118, the check: a module whose exports have different names (as in every valid module) and that imports
`pay_for_memory_grow` once at most is accepted if and only if it is valid and has the interface. -/
theorem C118_check (wasmOk : WMod → Bool) (m : WMod) (hd : (m.exports.map Prod.fst).Nodup) (hg : OneGrow m) :
    validate wasmOk m = .ok () ↔ wasmOk m = true ∧ Interface m := by
  unfold validate
  have h1 := checkEntry_iff m hd
  have h2 := checkMemory_iff m hd
  have h3 := checkGrow_iff m hg
  by_cases hw : wasmOk m = true
  · rw [if_pos hw]
    constructor
    · intro h
      split at h
      · cases h
      · rename_i he
        split at h
        · cases h
        · rename_i hm
          exact ⟨hw, h1.mp he, h2.mp hm, h3.mp h⟩
    · rintro ⟨-, he, hm, hgr⟩
      rw [h1.mpr he]
      dsimp only
      rw [h2.mpr hm]
      dsimp only
      exact h3.mpr hgr
  · rw [if_neg hw]
    simp [hw]

/-! ## What the compiler makes -/

/-- Kept by every step. -/
structure Inv (sig testSig : String → FTy) (m : WMod) : Prop where
  exports : m.exports = [("memory", .mem 0), ("pfmg", .func 1)]
  mems : m.mems = [⟨false, false, 1, none, none⟩]
  types : ∀ i ∈ m.imports, ∃ f, i.kind = .func f ∧
    ((i.modName = "vm_hooks" ∧ m.funcs[f]? = some (sig i.name)) ∨
      (i.modName = "vm_test_hooks" ∧ m.funcs[f]? = some (testSig i.name)))
  once : (m.imports.map fun i => (i.modName, i.name)).Nodup
  first : ∃ r, m.imports = ⟨"vm_hooks", "pay_for_memory_grow", .func 1⟩ :: r

theorem getFunc_none {m : WMod} {mn n : String} (h : getFunc m mn n = none)
    (ht : ∀ i ∈ m.imports, ∃ f, i.kind = .func f) : ∀ i ∈ m.imports, (i.modName, i.name) ≠ (mn, n) := by
  intro i hi he
  unfold getFunc at h
  rw [List.findSome?_eq_none_iff] at h
  have := h i hi
  obtain ⟨f, hf⟩ := ht i hi
  simp only [Prod.mk.injEq] at he
  rw [if_pos he, hf] at this
  cases this

theorem getFunc_some {m : WMod} {mn n : String} {f : Nat} (h : getFunc m mn n = some f) :
    ⟨mn, n, .func f⟩ ∈ m.imports := by
  unfold getFunc at h
  obtain ⟨i, hi, hf⟩ := List.exists_of_findSome?_eq_some h
  obtain ⟨a, b, k⟩ := i
  dsimp only at hf
  split at hf
  · rename_i hc
    obtain ⟨rfl, rfl⟩ := hc
    split at hf
    · cases hf; exact hi
    · cases hf
  · cases hf

theorem getElem?_app {l : List FTy} {f : Nat} {x t : FTy} (h : l[f]? = some x) : (l ++ [t])[f]? = some x := by
  rw [List.getElem?_append_left (List.getElem?_eq_some_iff.mp h).1]; exact h

theorem inv_import {sig testSig : String → FTy} {m : WMod} (hm : Inv sig testSig m) (mn n : String) (t : FTy)
    (ht : (mn = "vm_hooks" ∧ t = sig n) ∨ (mn = "vm_test_hooks" ∧ t = testSig n)) :
    Inv sig testSig (getOrInsert m mn n t).1 := by
  unfold getOrInsert
  split
  · exact hm
  · rename_i h
    have hn := getFunc_none h (fun i hi => by obtain ⟨f, hf, -⟩ := hm.types i hi; exact ⟨f, hf⟩)
    refine ⟨hm.exports, hm.mems, ?_, ?_, ?_⟩
    · intro i hi
      simp only [addImport, List.mem_append, List.mem_singleton] at hi
      rcases hi with hi | rfl
      · obtain ⟨f, h1, h2⟩ := hm.types i hi
        exact ⟨f, h1, h2.imp (fun x => ⟨x.1, getElem?_app x.2⟩) (fun x => ⟨x.1, getElem?_app x.2⟩)⟩
      · refine ⟨_, rfl, ?_⟩
        rcases ht with ⟨h1, h2⟩ | ⟨h1, h2⟩
        · exact .inl ⟨h1, by simp [addImport, h2]⟩
        · exact .inr ⟨h1, by simp [addImport, h2]⟩
    · simp only [addImport, List.map_append, List.map_cons, List.map_nil]
      rw [List.nodup_append]
      refine ⟨hm.once, by simp, ?_⟩
      intro a ha b hb
      simp only [List.mem_singleton] at hb
      subst hb
      obtain ⟨i, hi, rfl⟩ := List.mem_map.mp ha
      exact hn i hi
    · obtain ⟨r, hr⟩ := hm.first
      exact ⟨r ++ [⟨mn, n, .func m.funcs.length⟩], by simp [addImport, hr]⟩

theorem inv_step {sig testSig : String → FTy} {m : WMod} (hm : Inv sig testSig m) (s : Step) :
    Inv sig testSig (step sig testSig m s) := by
  cases s with
  | host n => exact inv_import hm _ _ _ (.inl ⟨rfl, rfl⟩)
  | testHost n => exact inv_import hm _ _ _ (.inr ⟨rfl, rfl⟩)
  | fn t =>
    refine ⟨hm.exports, hm.mems, ?_, hm.once, hm.first⟩
    intro i hi
    obtain ⟨f, h1, h2⟩ := hm.types i hi
    exact ⟨f, h1, h2.imp (fun x => ⟨x.1, getElem?_app x.2⟩) (fun x => ⟨x.1, getElem?_app x.2⟩)⟩

theorem inv_new {sig testSig : String → FTy} (hs : sig "pay_for_memory_grow" = ⟨[.i32], []⟩) :
    Inv sig testSig newModule := by
  refine ⟨by decide, by decide, ?_, by decide, ⟨[], by decide⟩⟩
  intro i hi
  have : newModule.imports = [⟨"vm_hooks", "pay_for_memory_grow", .func 1⟩] := by decide
  rw [this, List.mem_singleton] at hi
  subst hi
  exact ⟨1, rfl, .inl ⟨rfl, by rw [hs]; decide⟩⟩

theorem inv_steps {sig testSig : String → FTy} (hs : sig "pay_for_memory_grow" = ⟨[.i32], []⟩)
    (steps : List Step) : Inv sig testSig (steps.foldl (step sig testSig) newModule) := by
  have : ∀ (steps : List Step) (m : WMod), Inv sig testSig m →
      Inv sig testSig (steps.foldl (step sig testSig) m) := by
    intro steps
    induction steps with
    | nil => exact fun m h => h
    | cons s ss ih => exact fun m h => ih _ (inv_step h s)
  exact this steps _ (inv_new hs)

theorem no_test {sig testSig : String → FTy} (steps : List Step) (hnt : ∀ n, Step.testHost n ∉ steps) :
    ∀ i ∈ (steps.foldl (step sig testSig) newModule).imports, i.modName = "vm_hooks" := by
  have : ∀ (steps : List Step) (m : WMod), (∀ n, Step.testHost n ∉ steps) →
      (∀ i ∈ m.imports, i.modName = "vm_hooks") →
      ∀ i ∈ (steps.foldl (step sig testSig) m).imports, i.modName = "vm_hooks" := by
    intro steps
    induction steps with
    | nil => exact fun m _ h => h
    | cons s ss ih =>
      intro m hn h
      refine ih _ (fun n hm => hn n (List.mem_cons_of_mem _ hm)) ?_
      cases s with
      | host n =>
        intro i hi
        simp only [step, getOrInsert] at hi
        split at hi
        · exact h i hi
        · simp only [addImport, List.mem_append, List.mem_singleton] at hi
          rcases hi with hi | rfl
          · exact h i hi
          · rfl
      | testHost n => exact absurd (List.mem_cons_self ..) (hn n)
      | fn t => exact h
  refine this steps _ hnt ?_
  decide

/-- C118 (partial): whatever functions and host functions the translation adds, a module the compiler makes has
the interface and is refused only if it is not valid; its exports are `memory`, `pfmg` and `user_entrypoint`;
its imports are functions with the types of the host, each imported once; and they are all from `vm_hooks` unless
the program calls functions of `test_scenario`.  Missing: the last case, which the check does not refuse
(`C118_false_imports`). -/
theorem C118_partial (wasmOk : WMod → Bool) (sig testSig : String → FTy)
    (hs : sig "pay_for_memory_grow" = ⟨[.i32], []⟩) (steps : List Step) :
    let m := compiled sig testSig steps
    Interface m ∧ (validate wasmOk m = .ok () ↔ wasmOk m = true) ∧
    m.exports.map Prod.fst = ["memory", "pfmg", "user_entrypoint"] ∧
    (∀ i ∈ m.imports, ∃ f, i.kind = .func f ∧
      ((i.modName = "vm_hooks" ∧ m.funcs[f]? = some (sig i.name)) ∨
        (i.modName = "vm_test_hooks" ∧ m.funcs[f]? = some (testSig i.name)))) ∧
    (m.imports.map fun i => (i.modName, i.name)).Nodup ∧
    ((∀ n, Step.testHost n ∉ steps) → ∀ i ∈ m.imports, i.modName = "vm_hooks") := by
  have hinv := inv_steps (testSig := testSig) hs steps
  have hnt := no_test (sig := sig) (testSig := testSig) steps
  unfold compiled
  generalize steps.foldl (step sig testSig) newModule = b at hinv hnt
  obtain ⟨r, hr⟩ := hinv.first
  have hexp : (addRouter b).exports = [("memory", .mem 0), ("pfmg", .func 1),
      ("user_entrypoint", .func b.funcs.length)] := by
    simp [addRouter, addExport, addFunc, hinv.exports]
  have hfun : (addRouter b).funcs = b.funcs ++ [⟨[.i32], [.i32]⟩] := rfl
  have hmem : (addRouter b).mems = [⟨false, false, 1, none, none⟩] := hinv.mems
  have himp : (addRouter b).imports = b.imports := rfl
  have htypes : ∀ i ∈ (addRouter b).imports, ∃ f, i.kind = .func f ∧
      ((i.modName = "vm_hooks" ∧ (addRouter b).funcs[f]? = some (sig i.name)) ∨
        (i.modName = "vm_test_hooks" ∧ (addRouter b).funcs[f]? = some (testSig i.name))) := by
    intro i hi
    obtain ⟨f, h1, h2⟩ := hinv.types i hi
    exact ⟨f, h1, h2.imp (fun x => ⟨x.1, getElem?_app x.2⟩) (fun x => ⟨x.1, getElem?_app x.2⟩)⟩
  have hgrow : (addRouter b).funcs[1]? = some ⟨[.i32], []⟩ := by
    obtain ⟨f, h1, h2⟩ := htypes ⟨"vm_hooks", "pay_for_memory_grow", .func 1⟩ (by rw [himp, hr]; simp)
    cases h1
    rcases h2 with h2 | h2
    · rw [h2.2, hs]
    · exact absurd h2.1 (by decide)
  have hI : Interface (addRouter b) := by
    refine ⟨⟨b.funcs.length, by simp [hexp], by simp [hfun]⟩, ⟨0, by simp [hexp], by simp [hmem]⟩,
      ⟨1, by simp [himp, hr], hgrow⟩⟩
  refine ⟨hI, ?_, by simp [hexp], htypes, hinv.once, hnt⟩
  have hd : ((addRouter b).exports.map Prod.fst).Nodup := by rw [hexp]; simp
  have hck : checkGrow (addRouter b) = .ok () := by
    unfold checkGrow
    rw [himp, hr]
    simp only [List.find?_cons, beq_self_eq_true, if_true]
    rw [hgrow]
    rfl
  unfold validate
  rw [(checkEntry_iff _ hd).mpr hI.entry]
  dsimp only
  rw [(checkMemory_iff _ hd).mpr hI.memory]
  dsimp only
  rw [hck]
  by_cases hw : wasmOk (addRouter b) = true
  · simp [hw]
  · rw [if_neg hw]; simp [hw]

/-- C118, host calls: whenever the translation asks for a function of the host (or of the test host), it gets the
function imported under that name from that host, with its type. -/
theorem C118_host (sig testSig : String → FTy) (hs : sig "pay_for_memory_grow" = ⟨[.i32], []⟩)
    (steps : List Step) (n : String) (test : Bool) :
    let m := steps.foldl (step sig testSig) newModule
    let host := if test then "vm_test_hooks" else "vm_hooks"
    let t := if test then testSig n else sig n
    let g := getOrInsert m host n t
    ⟨host, n, .func g.2⟩ ∈ g.1.imports ∧ g.1.funcs[g.2]? = some t := by
  dsimp only
  have hinv := inv_steps (testSig := testSig) hs steps
  generalize steps.foldl (step sig testSig) newModule = m at hinv
  unfold getOrInsert
  split
  · rename_i f h
    have hm := getFunc_some h
    refine ⟨hm, ?_⟩
    obtain ⟨f', h1, h2⟩ := hinv.types _ hm
    cases h1
    cases test <;> simpa using h2
  · exact ⟨by simp [addImport], by simp [addImport]⟩

/-- The types of two functions of the host. -/
def sigs (n : String) : FTy :=
  if n = "msg_reentrant" then ⟨[], [.i32]⟩ else ⟨[.i32], []⟩

/-- The hypotheses are met: a program that reads its arguments twice. -/
example : (compiled sigs sigs [.host "read_args", .fn ⟨[], []⟩, .host "read_args"]).imports =
    [⟨"vm_hooks", "pay_for_memory_grow", .func 1⟩, ⟨"vm_hooks", "read_args", .func 2⟩] := by decide

example : validate (fun _ => true) (compiled sigs sigs [.host "read_args"]) = .ok () :=
  (C118_partial (fun _ => true) sigs sigs (by decide) [.host "read_args"]).2.1.mpr rfl

example : validate (fun _ => true) newModule = .error .noEntry := by rfl

example : (getOrInsert (compiled sigs sigs [.host "read_args"]) "vm_hooks" "read_args" ⟨[.i32], []⟩).2 = 2 := by
  decide

/-- C118 is false: a module with imports the chain does not have is accepted; the check looks at one import. -/
theorem C118_false_imports : ∃ m, Interface m ∧ validate (fun _ => true) m = .ok () ∧
    m = compiled sigs sigs [.testHost "set_sender_address"] ∧ ∃ i ∈ m.imports, i.modName ≠ "vm_hooks" :=
  ⟨_, (C118_partial (fun _ => true) sigs sigs (by decide) [.testHost "set_sender_address"]).1,
    (C118_partial (fun _ => true) sigs sigs (by decide) [.testHost "set_sender_address"]).2.1.mpr rfl, rfl,
    ⟨"vm_test_hooks", "set_sender_address", .func 2⟩, by decide, by decide⟩

end Props.Iface
