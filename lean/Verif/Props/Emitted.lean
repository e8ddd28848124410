import Verif.Proof.Emitted

/-!
# C108: the ABI lists the events and errors of the contract

The ABI generator looks for calls of `emit` and `revert` in the bytecode.  `Emits` and `Reverts` are about executions: a function of the contract is called, it calls others,
of its module or of others, with type arguments, and in the end `emit` or `revert` is called.
-/

namespace Props
open Emitted Export

variable {p : Pkg} {root : CMod} {fuel : Nat} {es : List EventStruct} {rs : List SName} {done : List Mod}

/-- C108 for errors: every error with which an execution of the contract may revert is listed. -/
theorem C108_error (hroot : p.module root.id = some root) (hne : root.id ≠ errorMod) (h : process p fuel root [] = some (es, rs, done)) {t : RTy}
    (ht : Reverts p root.id t) : ∃ n ∈ rs, t = .struct n [] := by
  obtain ⟨ts, hr⟩ := ht
  obtain ⟨c, tys, ts', bs, a, b, d, hc, hi, hres, has, hs, ha, hb⟩ := reach_generic hroot h hr (fun e => hne e.symm) (by simp)
  unfold scanIns at hs
  dsimp only at hs
  rw [if_neg (by decide), if_pos ⟨rfl, rfl, rfl⟩] at hs
  cases tys with
  | nil => cases hs
  | cons tk tks =>
    simp only [Option.map_eq_some_iff] at hs
    obtain ⟨n, hn, hs⟩ := hs
    cases hs
    cases tk <;> simp only [parseError] at hn <;> try cases hn
    rename_i hh
    rw [Tok.resolves, Tok.resolve, hn] at hres
    simp only [Option.map_some, Option.bind_some, Option.map_eq_some_iff] at hres
    obtain ⟨us, _, rfl⟩ := hres
    rw [RTy.substs, RTy.subst, RTy.substs] at has
    exact ⟨n, hb (by simp), (List.cons.inj has).1⟩

/-- The token with which the module calls `emit`. -/
def EmitToken (p : Pkg) (c : CMod) (tk : Tok) : Prop := p.module c.id = some c ∧ ∃ tks, .callGeneric eventMod "emit" (tk :: tks) ∈ c.code

theorem emit_parts (hroot : p.module root.id = some root) (hne : root.id ≠ eventMod) (h : process p fuel root [] = some (es, rs, done)) {t : RTy}
    (ht : Emits p root.id t) :
    ∃ c tk r bs e, EmitToken p c tk ∧ tk.resolve c.handles = some r ∧ t = r.subst bs ∧ parseEvent p c tk = some e ∧ e ∈ es := by
  obtain ⟨ts, hr⟩ := ht
  obtain ⟨c, tys, ts', bs, a, b, d, hc, hi, hres, has, hs, ha, hb⟩ := reach_generic hroot h hr (fun e => hne e.symm) (by simp)
  unfold scanIns at hs
  dsimp only at hs
  rw [if_pos ⟨rfl, rfl, rfl⟩] at hs
  cases tys with
  | nil => cases hs
  | cons tk tks =>
    simp only [Option.map_eq_some_iff] at hs
    obtain ⟨e, he, hs⟩ := hs
    cases hs
    rw [Tok.resolves, Option.bind_eq_some_iff] at hres
    obtain ⟨r, hr', hres⟩ := hres
    simp only [Option.map_eq_some_iff] at hres
    obtain ⟨us, _, rfl⟩ := hres
    rw [RTy.substs] at has
    exact ⟨c, tk, r, bs, e, ⟨hc, tks, hi⟩, hr', (List.cons.inj has).1, he, ha (by simp)⟩

/-- C108 for events: the struct of every event an execution of the contract may emit is listed. -/
theorem C108_event_partial (hroot : p.module root.id = some root) (hne : root.id ≠ eventMod) (h : process p fuel root [] = some (es, rs, done)) {t : RTy}
    (ht : Emits p root.id t) : ∃ e ∈ es, ∃ args, t = .struct e.name args ∧ (e.params = none → args = []) := by
  obtain ⟨c, tk, r, bs, e, -, hr, rfl, hp, he⟩ := emit_parts hroot hne h ht
  refine ⟨e, he, ?_⟩
  cases tk <;> simp only [parseEvent] at hp <;> try cases hp
  · simp only [Option.map_eq_some_iff] at hp
    obtain ⟨n, hn, rfl⟩ := hp
    rw [Tok.resolve, hn] at hr
    cases hr
    exact ⟨[], rfl, fun _ => rfl⟩
  · simp only [Option.bind_eq_bind, Option.bind_eq_some_iff] at hp
    obtain ⟨n, hn, m, hm, ts, hts, hp⟩ := hp
    cases hp
    rw [Tok.resolve, hn, Option.bind_some, Option.map_eq_some_iff] at hr
    obtain ⟨us, _, rfl⟩ := hr
    exact ⟨_, rfl, fun h => by cases h⟩

/-- C108 for generic events: listed with their type arguments, if generic events are only emitted by the module that declares them and not with parameters of a
generic function. -/
theorem C108_args_partial (hroot : p.module root.id = some root) (hne : root.id ≠ eventMod) (h : process p fuel root [] = some (es, rs, done))
    (hl : ∀ c k args, EmitToken p c (.inst k args) → ∃ n us, c.handles[k]? = some n ∧ n.mod = c.id ∧ Tok.resolves c.handles args = some us ∧ (RTy.struct n us).closed = true)
    {t : RTy} (ht : Emits p root.id t) : ∃ e ∈ es, ∃ args, t = .struct e.name args ∧ (e.params = some args ∨ (e.params = none ∧ args = [])) := by
  obtain ⟨c, tk, r, bs, e, htk, hr, rfl, hp, he⟩ := emit_parts hroot hne h ht
  refine ⟨e, he, ?_⟩
  cases tk <;> simp only [parseEvent] at hp <;> try cases hp
  · simp only [Option.map_eq_some_iff] at hp
    obtain ⟨n, hn, rfl⟩ := hp
    rw [Tok.resolve, hn] at hr
    cases hr
    exact ⟨[], rfl, .inr ⟨rfl, rfl⟩⟩
  · obtain ⟨n, us, h1, h2, h3, h4⟩ := hl c _ _ htk
    have hc := htk.1
    simp only [Option.bind_eq_bind, Option.bind_eq_some_iff] at hp
    obtain ⟨n', hn, m, hm, ts, hts, hp⟩ := hp
    cases hp
    rw [h1] at hn
    cases hn
    rw [h2, hc] at hm
    cases hm
    rw [h3] at hts
    cases hts
    rw [Tok.resolve, h1, Option.bind_some, h3] at hr
    cases hr
    exact ⟨us, subst_closed bs h4, .inl rfl⟩

/-- C108: the list is found, whatever modules call each other. -/
theorem C108_ends (hp : Complete p) (hroot : p.module root.id = some root) (hf : p.length ≤ fuel) : ∃ r, process p fuel root [] = some r :=
  process_some hp fuel root [] hroot (by simp) (by
    refine Nat.le_trans ?_ hf
    exact List.length_filter_le _ _)

/-! ## Where it fails -/

def logMod : Mod := ⟨7, "log"⟩
def shopMod : Mod := ⟨7, "shop"⟩

/-- A module with the event `Logged<T>`, a struct `Inner` and a function that makes a `Logged<T>`, and one that emits `Logged<Order>`. -/
def otherPkg : Pkg :=
  [⟨eventMod, [], [⟨"emit", none⟩]⟩,
   ⟨logMod, [⟨logMod, "Inner"⟩, ⟨logMod, "Logged"⟩], [⟨"wrap", some [.other]⟩]⟩,
   ⟨shopMod, [⟨shopMod, "Order"⟩, ⟨logMod, "Logged"⟩], [⟨"buy", some [.other, .callGeneric logMod "wrap" [.datatype 0], .callGeneric eventMod "emit" [.inst 1 [.datatype 0]]]⟩]⟩]

/-- C108 is false for a generic event of another module: its arguments are looked up in the wrong module, here `Logged<Inner>` is listed and `Logged<Order>`, which is
emitted, is not. -/
theorem C108_false_module : ∃ c, otherPkg.module shopMod = some c ∧ Emits otherPkg shopMod (.struct ⟨logMod, "Logged"⟩ [.struct ⟨shopMod, "Order"⟩ []]) ∧
    ∃ done, process otherPkg 3 c [] = some ([⟨⟨logMod, "Logged"⟩, some [.struct ⟨logMod, "Inner"⟩ []]⟩], [], done) := by
  refine ⟨_, rfl, ⟨[], ?_⟩, ?_⟩
  · exact Reach.callGeneric (tys := [.inst 1 [.datatype 0]]) (ts := [.struct ⟨logMod, "Logged"⟩ [.struct ⟨shopMod, "Order"⟩ []]]) (.start "buy" []) rfl
      (List.mem_singleton.mpr rfl) rfl rfl (.tail _ (.tail _ (.head _))) rfl
  · exact ⟨[eventMod, logMod, shopMod], by simp [process, children, otherPkg, CMod.code, scanAll, scanIns, eventMod, logMod, shopMod, parseEvent, Pkg.module, Tok.resolves, Tok.resolve]⟩

/-- A module with the event `Logged<T>` and a generic function that emits it. -/
def paramPkg : Pkg :=
  [⟨eventMod, [], [⟨"emit", none⟩]⟩,
   ⟨logMod, [⟨logMod, "Logged"⟩], [⟨"log", some [.callGeneric eventMod "emit" [.inst 0 [.param 0]]]⟩, ⟨"run", some [.callGeneric logMod "log" [.prim "u64"]]⟩]⟩]

/-- C108 is false for a generic event emitted by a generic function: what is listed is `Logged<T>`. -/
theorem C108_false_generic : ∃ c, paramPkg.module logMod = some c ∧ Emits paramPkg logMod (.struct ⟨logMod, "Logged"⟩ [.prim "u64"]) ∧
    ∃ done, process paramPkg 2 c [] = some ([⟨⟨logMod, "Logged"⟩, some [.param 0]⟩], [], done) := by
  refine ⟨_, rfl, ⟨[], ?_⟩, ?_⟩
  · have h : Reach paramPkg logMod logMod "log" [.prim "u64"] :=
      Reach.callGeneric (tys := [.prim "u64"]) (ts := [.prim "u64"]) (.start "run" []) rfl (.tail _ (.head _)) rfl rfl (.head _) rfl
    exact Reach.callGeneric (tys := [.inst 0 [.param 0]]) (ts := [.struct ⟨logMod, "Logged"⟩ [.param 0]]) h rfl (.head _) rfl rfl (.head _) rfl
  · exact ⟨[eventMod, logMod], by simp [process, children, paramPkg, CMod.code, scanAll, scanIns, eventMod, logMod, parseEvent, Pkg.module, Tok.resolves, Tok.resolve]⟩

/-! ## Examples -/

def bankMod : Mod := ⟨7, "bank"⟩
def utilMod : Mod := ⟨7, "util"⟩

/-- Two modules that call each other, an event and an error. -/
def bankPkg : Pkg :=
  [⟨eventMod, [], [⟨"emit", none⟩]⟩, ⟨errorMod, [], [⟨"revert", none⟩]⟩,
   ⟨utilMod, [⟨utilMod, "TooMuch"⟩], [⟨"check", some [.other, .callGeneric errorMod "revert" [.datatype 0]]⟩, ⟨"back", some [.call bankMod "pay"]⟩]⟩,
   ⟨bankMod, [⟨bankMod, "Paid"⟩], [⟨"pay", some [.call utilMod "check", .callGeneric eventMod "emit" [.inst 0 [.prim "u64"]]]⟩]⟩]

example : ∃ c es rs done, bankPkg.module bankMod = some c ∧ process bankPkg 4 c [] = some (es, rs, done) ∧
    (∃ n ∈ rs, RTy.struct ⟨utilMod, "TooMuch"⟩ [] = .struct n []) ∧ ∃ e ∈ es, ∃ args, RTy.struct ⟨bankMod, "Paid"⟩ [.prim "u64"] = .struct e.name args ∧ (e.params = some args ∨ (e.params = none ∧ args = [])) := by
  have hc : Complete bankPkg := by
    intro c hc
    simp only [bankPkg, List.mem_cons, List.not_mem_nil, or_false] at hc
    rcases hc with rfl | rfl | rfl | rfl
    · exact ⟨[], [], [], rfl, by simp⟩
    · exact ⟨[], [], [], rfl, by simp⟩
    · exact ⟨[], [⟨utilMod, "TooMuch"⟩], [errorMod, bankMod], rfl, by simp only [List.mem_cons, List.not_mem_nil, or_false, forall_eq_or_imp, forall_eq]; exact ⟨⟨_, rfl⟩, _, rfl⟩⟩
    · exact ⟨[⟨⟨bankMod, "Paid"⟩, some [.prim "u64"]⟩], [], [utilMod, eventMod], rfl, by simp only [List.mem_cons, List.not_mem_nil, or_false, forall_eq_or_imp, forall_eq]; exact ⟨⟨_, rfl⟩, _, rfl⟩⟩
  have hroot : bankPkg.module bankMod = some ⟨bankMod, [⟨bankMod, "Paid"⟩], [⟨"pay", some [.call utilMod "check", .callGeneric eventMod "emit" [.inst 0 [.prim "u64"]]]⟩]⟩ := rfl
  obtain ⟨⟨es, rs, done⟩, h⟩ := C108_ends (fuel := 4) hc (root := ⟨bankMod, _, _⟩) hroot (by decide)
  refine ⟨_, es, rs, done, hroot, h, C108_error hroot (by decide) h ⟨[], ?_⟩, C108_args_partial hroot (by decide) h ?_ ⟨[], ?_⟩⟩
  · have h : Reach bankPkg bankMod utilMod "check" [] := .call (.start "pay" []) rfl (.head _) rfl rfl (.head _)
    exact Reach.callGeneric (tys := [.datatype 0]) (ts := [.struct ⟨utilMod, "TooMuch"⟩ []]) h rfl (.head _) rfl rfl (.tail _ (.head _)) rfl
  · rintro c k args ⟨hm, tks, hi⟩
    have := module_mem hm
    simp only [bankPkg, List.mem_cons, List.not_mem_nil, or_false] at this
    rcases this with rfl | rfl | rfl | rfl
    · simp [CMod.code] at hi
    · simp [CMod.code] at hi
    · simp [CMod.code, eventMod, errorMod] at hi
    · simp only [CMod.code, List.flatMap_cons, List.flatMap_nil, List.append_nil, Option.getD_some, List.mem_cons, List.not_mem_nil, or_false, reduceCtorEq, false_or,
        Ins.callGeneric.injEq, List.cons.injEq, Tok.inst.injEq] at hi
      obtain ⟨-, -, ⟨rfl, rfl⟩, -⟩ := hi
      exact ⟨_, [.prim "u64"], rfl, rfl, rfl, by simp [RTy.closed]⟩
  · exact Reach.callGeneric (tys := [.inst 0 [.prim "u64"]]) (ts := [.struct ⟨bankMod, "Paid"⟩ [.prim "u64"]]) (.start "pay" []) rfl (.head _) rfl rfl (.tail _ (.head _)) rfl

end Props
