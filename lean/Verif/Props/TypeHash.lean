import Verif.Proof.TypeHash

/-!
# Types are told apart by their hashes

C87 is about different types, C88 about the same type seen from different contracts.
-/

namespace TyHash

/-- Two type lists among these that are hashed differently have different hashes. -/
def NoCollision {K : Type} (C : Ctx) (rs : List (K × List ITy)) : Prop :=
  ∀ a ∈ rs, ∀ b ∈ rs, pWs C a.2 ≠ pWs C b.2 → fx (pWs C a.2) ≠ fx (pWs C b.2)

mutual
theorem Same.refl (C : Ctx) : ∀ t, Same C t t := by
  intro t
  cases t with
  | struct m i vm => exact ⟨rfl, rfl⟩
  | gstruct m i ts vm => exact ⟨rfl, rfl, Sames.refl C ts⟩
  | _ => exact rfl
theorem Sames.refl (C : Ctx) : ∀ ts, Sames C ts ts := by
  intro ts
  cases ts with
  | nil => trivial
  | cons t ts => exact ⟨Same.refl C t, Sames.refl C ts⟩
end

/-- What a registry contains: functions generated for the requests made so far. -/
def RegOk {K F : Type} (C : Ctx) (gen : K → List ITy → F) (past : List (K × List ITy)) (reg : List ((K × Nat) × F)) : Prop :=
  ∀ e ∈ reg, ∃ p ∈ past, e = (fnName C p.1 p.2, gen p.1 p.2)

theorem lookup_mem {K F : Type} [BEq K] [LawfulBEq K] {k : K} {f : F} : ∀ {reg : List (K × F)}, reg.lookup k = some f → (k, f) ∈ reg
  | [], h => by simp at h
  | (a, b) :: reg, h => by
    rw [List.lookup_cons] at h
    split at h
    · rename_i e
      have : k = a := by simpa using e
      cases this; cases h
      exact List.mem_cons_self
    · exact List.mem_cons_of_mem _ (lookup_mem h)

theorem request_ok {K F : Type} [DecidableEq K] {C : Ctx} {gen : K → List ITy → F} {past : List (K × List ITy)}
    {reg : List ((K × Nat) × F)} {k : K} {ts : List ITy} (hr : RegOk C gen past reg)
    (ho : ∀ p ∈ (k, ts) :: past, Oks C p.2) (hn : NoCollision C ((k, ts) :: past)) :
    (∃ us, (k, us) ∈ (k, ts) :: past ∧ Sames C ts us ∧ (request C gen reg k ts).1 = gen k us) ∧
    RegOk C gen ((k, ts) :: past) (request C gen reg k ts).2 := by
  unfold request
  cases h : reg.lookup (fnName C k ts) with
  | none =>
    refine ⟨⟨ts, List.mem_cons_self, Sames.refl C ts, rfl⟩, ?_⟩
    intro e he
    rcases List.mem_cons.mp he with rfl | he
    · exact ⟨(k, ts), List.mem_cons_self, rfl⟩
    · obtain ⟨p, hp, e⟩ := hr e he
      exact ⟨p, List.mem_cons_of_mem _ hp, e⟩
  | some f =>
    obtain ⟨p, hp, e⟩ := hr _ (lookup_mem h)
    constructor
    · simp only [Prod.mk.injEq, fnName] at e
      obtain ⟨⟨e1, e2⟩, e3⟩ := e
      refine ⟨p.2, ?_, ?_, ?_⟩
      · rw [e1]; exact List.mem_cons_of_mem _ hp
      · refine pWs_end (ho _ List.mem_cons_self) (ho p (List.mem_cons_of_mem _ hp)) ?_
        by_contra h5
        exact hn (k, ts) List.mem_cons_self p (List.mem_cons_of_mem _ hp) h5 e2
      · show f = _
        rw [e3, e1]
    · intro e he
      obtain ⟨p, hp, e⟩ := hr e he
      exact ⟨p, List.mem_cons_of_mem _ hp, e⟩

theorem requests_ok {K F : Type} [DecidableEq K] {C : Ctx} {gen : K → List ITy → F} :
    ∀ {rs past : List (K × List ITy)} {reg : List ((K × Nat) × F)}, RegOk C gen past reg →
    (∀ p ∈ past ++ rs, Oks C p.2) → NoCollision C (past ++ rs) →
    List.Forall₂ (fun (p : K × List ITy) f => ∃ us, (p.1, us) ∈ past ++ rs ∧ Sames C p.2 us ∧ f = gen p.1 us) rs
      (requests C gen reg rs)
  | [], _, _, _, _, _ => List.Forall₂.nil
  | (k, ts) :: rs, past, reg, hr, ho, hn => by
    have sub : ∀ p ∈ (k, ts) :: past, p ∈ past ++ (k, ts) :: rs := by
      intro p hp; rcases List.mem_cons.mp hp with rfl | hp <;> simp [*]
    have sub2 : ∀ p, p ∈ ((k, ts) :: past) ++ rs ↔ p ∈ past ++ (k, ts) :: rs := by
      intro p; simp; tauto
    obtain ⟨⟨us, h1, h2, h3⟩, h4⟩ := request_ok hr (fun p hp => ho p (sub p hp))
      (fun a ha b hb => hn a (sub a ha) b (sub b hb))
    refine List.Forall₂.cons ⟨us, sub _ h1, h2, h3⟩ ?_
    have := requests_ok (rs := rs) h4 (fun p hp => ho p ((sub2 p).mp hp))
      (fun a ha b hb => hn a ((sub2 a).mp ha) b ((sub2 b).mp hb))
    refine this.imp ?_
    rintro a b ⟨us, h5, h6⟩
    exact ⟨us, (sub2 _).mp h5, h6⟩

mutual
/-- The program uses the attribute `external_struct` on no struct in the type. -/
def Own (C : Ctx) : ITy → Prop
  | .struct m i _ => C.ext m (C.name m i) = none
  | .gstruct m i ts _ => C.ext m (C.name m i) = none ∧ Owns C ts
  | _ => True
def Owns (C : Ctx) : List ITy → Prop
  | [] => True
  | t :: ts => Own C t ∧ Owns C ts
end

mutual
/-- The type without the mark of the structs known to the compiler (it is determined by module and index). -/
def bare : ITy → ITy
  | .struct m i _ => .struct m i .none
  | .gstruct m i ts _ => .gstruct m i (bares ts) .none
  | t => t
def bares : List ITy → List ITy
  | [] => []
  | t :: ts => bare t :: bares ts
end

mutual
theorem Same.eq {C : Ctx} (hC : ∀ m i j, C.name m i = C.name m j → i = j) : ∀ {a b : ITy}, Own C a → Own C b → Same C a b → bare a = bare b := by
  intro a b ha hb h
  cases a with
  | struct m i vm =>
    cases b with
    | struct n j vm' =>
      obtain ⟨h1, h2⟩ := h
      simp only [Own] at ha hb
      simp only [Ctx.home, ha, hb, Option.getD_none] at h1
      subst h1
      rw [bare, bare, hC _ _ _ h2]
    | _ => exact absurd h (by simp [Same])
  | gstruct m i ts vm =>
    cases b with
    | gstruct n j us vm' =>
      obtain ⟨h1, h2, h3⟩ := h
      simp only [Own] at ha hb
      simp only [Ctx.home, ha.1, hb.1, Option.getD_none] at h1
      subst h1
      rw [bare, bare, hC _ _ _ h2, Sames.eq hC ha.2 hb.2 h3]
    | _ => exact absurd h (by simp [Same])
  | _ =>
    cases b with
    | struct n j vm' => exact absurd h (by simp [Same])
    | gstruct n j us vm' => exact absurd h (by simp [Same])
    | _ => exact congrArg bare h
theorem Sames.eq {C : Ctx} (hC : ∀ m i j, C.name m i = C.name m j → i = j) : ∀ {as bs : List ITy}, Owns C as → Owns C bs →
    Sames C as bs → bares as = bares bs := by
  intro as bs ha hb h
  cases as with
  | nil => cases bs with
    | nil => rfl
    | cons b bs => exact absurd h (by simp [Sames])
  | cons a as => cases bs with
    | nil => exact absurd h (by simp [Sames])
    | cons b bs => rw [bares, bares, Same.eq hC ha.1 hb.1 h.1, Sames.eq hC ha.2 hb.2 h.2]
end

/-- **C87 (in part).**  In a program whose structs have different names in each module, take types as they occur in
programs.  If two of them are stored under the same tag, they are the same type, or the 64-bit hashes of different
sequences of words are equal.  If the latter does not happen among the types for which functions are requested, every
request is answered with the function generated for exactly that kind and those types, whatever was requested before.
Missing: collisions of the hash do occur (`C87_false`). -/
theorem _root_.Props.C87_partial (C : Ctx) (hC : ∀ m i j, C.name m i = C.name m j → i = j) :
    (∀ t u, Ok C t → Ok C u → Own C t → Own C u → tag C t = tag C u →
      bare t = bare u ∨ (pW C t ≠ pW C u ∧ fx (pW C t) = fx (pW C u))) ∧
    (∀ t u, Ok C t → Ok C u → tag C t = tag C u →
      Same C t u ∨ (pW C t ≠ pW C u ∧ fx (pW C t) = fx (pW C u))) ∧
    (∀ {K F : Type} [DecidableEq K] (gen : K → List ITy → F) (rs : List (K × List ITy)), (∀ p ∈ rs, Oks C p.2) →
      (∀ p ∈ rs, Owns C p.2) → NoCollision C rs →
      List.Forall₂ (fun (p : K × List ITy) f => ∃ us, bares us = bares p.2 ∧ f = gen p.1 us) rs (requests C gen [] rs)) := by
  have key : ∀ t u, Ok C t → Ok C u → tag C t = tag C u → Same C t u ∨ (pW C t ≠ pW C u ∧ fx (pW C t) = fx (pW C u)) := by
    intro t u ht hu h
    by_cases e : pW C t = pW C u
    · exact .inl (pW_inj (r := []) (q := []) ht hu (by rw [e])).1
    · exact .inr ⟨e, h⟩
  refine ⟨fun t u ht hu ot ou h => (key t u ht hu h).imp_left (Same.eq hC ot ou), key, ?_⟩
  intro K F _ gen rs ho hw hn
  have h1 := requests_ok (past := []) (reg := []) (gen := gen) (rs := rs) (by intro e he; cases he) ho hn
  rw [List.forall₂_iff_get] at h1 ⊢
  refine ⟨h1.1, fun i hi hj => ?_⟩
  obtain ⟨us, h2, h3, h4⟩ := h1.2 i hi hj
  exact ⟨us, (Sames.eq hC (hw _ (List.get_mem _ _)) (hw _ h2) h3).symm, h4⟩

/-- The module `bank` of the package. -/
def bank : ModId := ⟨List.replicate 32 0, "bank".toUTF8.toList⟩

/-- Its structs are called `Treasury0aA0a010` and `ContractSwiXvkAt`; other numbers have other names. -/
def bankCtx : Ctx where
  name _ i := if i = 0 then "Treasury0aA0a010".toUTF8.toList else if i = 1 then "ContractSwiXvkAt".toUTF8.toList else
    List.replicate (i + 20) 65
  ext _ _ := none

theorem bankCtx_inj : ∀ m i j, bankCtx.name m i = bankCtx.name m j → i = j := by
  intro m i j h
  have e0 : "Treasury0aA0a010".toUTF8.toList.length = 16 := by decide +kernel
  have e1 : "ContractSwiXvkAt".toUTF8.toList.length = 16 := by decide +kernel
  have e2 : "Treasury0aA0a010".toUTF8.toList ≠ "ContractSwiXvkAt".toUTF8.toList := by decide +kernel
  unfold bankCtx at h
  simp only at h
  have h2 := congrArg List.length h
  split_ifs at h h2 <;> first
    | omega
    | exact (e2 h).elim
    | exact (e2 h.symm).elim
    | (simp only [e0, e1, List.length_replicate] at h2; omega)

example : ∃ t u, Ok bankCtx t ∧ Ok bankCtx u ∧ Own bankCtx t ∧ tag bankCtx t ≠ tag bankCtx u :=
  ⟨.gstruct bank 0 [.vec .u64, .struct bank 1 .none] .none, .struct bank 0 .none, by
    simp only [Ok, Oks, OkD]; exact ⟨by decide +kernel, by decide +kernel, by simp, trivial, ⟨by decide +kernel, by decide +kernel⟩, trivial⟩,
    ⟨by decide +kernel, by decide +kernel⟩, ⟨rfl, trivial, rfl, trivial⟩, by decide +kernel⟩

/-- **C87 is false.**  There are two structs of one module, with ordinary names, whose objects are stored under the same
tag, so either can be read as the other, and for the second of which the compiler uses the functions (decoders, encoders,
…) it generated for the first. -/
theorem _root_.Props.C87_false : ∃ (C : Ctx) (t u : ITy), (∀ m i j, C.name m i = C.name m j → i = j) ∧ Ok C t ∧ Ok C u ∧ Own C t ∧ Own C u ∧
    bare t ≠ bare u ∧ tag C t = tag C u ∧
    ∀ (F : Type) (gen : Nat → List ITy → F), requests C gen [] [(0, [t]), (0, [u])] = [gen 0 [t], gen 0 [t]] := by
  refine ⟨bankCtx, .struct bank 0 .none, .struct bank 1 .none, bankCtx_inj, ⟨by decide +kernel, by decide +kernel⟩,
    ⟨by decide +kernel, by decide +kernel⟩, rfl, rfl, by simp [bare], by decide +kernel, ?_⟩
  intro F gen
  have e : fnName bankCtx 0 [ITy.struct bank 1 .none] = fnName bankCtx 0 [ITy.struct bank 0 .none] := by
    unfold fnName; exact Prod.ext rfl (by decide +kernel)
  simp [requests, request, e]

/-- Two modules that both bind the struct `Coin` of module `bank` with `external_struct`. -/
def modA : ModId := ⟨List.replicate 32 0, [97]⟩
def modB : ModId := ⟨List.replicate 32 0, [98]⟩

def boundCtx : Ctx where
  name _ i := if i = 0 then [67, 111, 105, 110] else List.replicate (i + 4) 65
  ext m n := if (m = modA ∨ m = modB) ∧ n = [67, 111, 105, 110] then some bank else none

/-- **C87 is false**, without any collision: two structs of different modules, each bound to the same foreign struct, possibly
with different fields, share the generated functions. -/
theorem _root_.Props.C87_false_bound : ∃ (C : Ctx) (t u : ITy), (∀ m i j, C.name m i = C.name m j → i = j) ∧ Ok C t ∧ Ok C u ∧
    bare t ≠ bare u ∧ NoCollision C [(0, [t]), (0, [u])] ∧
    ∀ (F : Type) (gen : Nat → List ITy → F), requests C gen [] [(0, [t]), (0, [u])] = [gen 0 [t], gen 0 [t]] := by
  refine ⟨boundCtx, .struct modA 0 .none, .struct modB 0 .none, ?_, ⟨by decide +kernel, by decide +kernel⟩,
    ⟨by decide +kernel, by decide +kernel⟩, by simp [bare, modA, modB], ?_, ?_⟩
  · intro m i j h
    have h2 := congrArg List.length h
    unfold boundCtx at h2
    simp only at h2
    split_ifs at h2 <;> first | omega | (simp at h2; omega)
  · have e : pWs boundCtx [ITy.struct modA 0 .none] = pWs boundCtx [ITy.struct modB 0 .none] := by decide +kernel
    intro a ha b hb h
    simp only [List.mem_cons, List.not_mem_nil, or_false] at ha hb
    exfalso
    rcases ha with rfl | rfl <;> rcases hb with rfl | rfl <;> simp only [e, ne_eq, not_true_eq_false] at h
  · intro F gen
    have e : fnName boundCtx 0 [ITy.struct modB 0 .none] = fnName boundCtx 0 [ITy.struct modA 0 .none] := by
      unfold fnName; exact Prod.ext rfl (by decide +kernel)
    simp [requests, request, e]

mutual
/-- The same type as two programs see it: structs are declared for the same module (by themselves or by `external_struct`)
under the same name; other types are equal, so that structs and enums in them have the same module and number. -/
def Agree (C D : Ctx) : ITy → ITy → Prop
  | .struct m i _, .struct n j _ => C.home m i = D.home n j ∧ C.name m i = D.name n j
  | .gstruct m i ts _, .gstruct n j us _ => C.home m i = D.home n j ∧ C.name m i = D.name n j ∧ Agrees C D ts us
  | a, b => a = b
def Agrees (C D : Ctx) : List ITy → List ITy → Prop
  | [], [] => True
  | t :: ts, u :: us => Agree C D t u ∧ Agrees C D ts us
  | _, _ => False
end

mutual
theorem Agree.pW {C D : Ctx} : ∀ {a b : ITy}, Agree C D a b → pW C a = pW D b := by
  intro a b h
  cases a with
  | struct m i vm =>
    cases b with
    | struct n j vm' => rw [TyHash.pW, TyHash.pW, h.1, h.2]
    | _ => exact absurd h (by simp [Agree])
  | gstruct m i ts vm =>
    cases b with
    | gstruct n j us vm' => rw [TyHash.pW, TyHash.pW, h.1, h.2.1, Agrees.pWs h.2.2]
    | _ => exact absurd h (by simp [Agree])
  | _ =>
    cases b with
    | struct n j vm' => exact absurd h (by simp [Agree])
    | gstruct n j us vm' => exact absurd h (by simp [Agree])
    | _ => cases h <;> rfl
theorem Agrees.pWs {C D : Ctx} : ∀ {as bs : List ITy}, Agrees C D as bs → pWs C as = pWs D bs := by
  intro as bs h
  cases as with
  | nil => cases bs with
    | nil => rfl
    | cons b bs => exact absurd h (by simp [Agrees])
  | cons a as => cases bs with
    | nil => exact absurd h (by simp [Agrees])
    | cons b bs => rw [TyHash.pWs, TyHash.pWs, Agree.pW h.1, Agrees.pWs h.2]
end

/-- **C88 (in part).**  A struct, or an instance of a generic struct with such arguments, has the same tag in all programs
in which it is declared for the same module under the same name: the order of the declarations does not matter, nor whether
it is declared by the module itself or bound with `external_struct`.  Missing: arguments that are vectors of structs, or
enums (`C88_false`). -/
theorem _root_.Props.C88_partial (C D : Ctx) {t u : ITy} (h : Agree C D t u) : tag C t = tag D u := by
  unfold tag
  rw [Agree.pW h]

/-- The program of the owner: module `bank` with `Box<T>` and `Foo`. -/
def ownerCtx : Ctx where
  name _ i := if i = 0 then "Box".toUTF8.toList else "Foo".toUTF8.toList
  ext _ _ := none

/-- A program that binds both in its module `client`. -/
def client : ModId := ⟨List.replicate 32 0, "client".toUTF8.toList⟩

def clientCtx : Ctx where
  name _ i := if i = 0 then "Box".toUTF8.toList else "Foo".toUTF8.toList
  ext m _ := if m = client then some bank else none

example : Agree ownerCtx clientCtx (.gstruct bank 0 [.struct bank 1 .none, .vec .u64] .none)
    (.gstruct client 0 [.struct client 1 .none, .vec .u64] .none) :=
  ⟨by decide +kernel, rfl, ⟨by decide +kernel, rfl⟩, rfl, trivial⟩

/-- **C88 is false.**  `Box<vector<Foo>>` has one tag in the program that declares `Box` and `Foo`, and another in a program
that binds them with `external_struct`: it cannot read the objects of the other. -/
theorem _root_.Props.C88_false : ∃ (C D : Ctx) (m n : ModId) (i j : Nat), C.home m i = D.home n i ∧ C.name m i = D.name n i ∧
    C.home m j = D.home n j ∧ C.name m j = D.name n j ∧ tag C (.struct m j .none) = tag D (.struct n j .none) ∧
    tag C (.gstruct m i [.vec (.struct m j .none)] .none) ≠ tag D (.gstruct n i [.vec (.struct n j .none)] .none) :=
  ⟨ownerCtx, clientCtx, bank, client, 0, 1, by decide +kernel, rfl, by decide +kernel, rfl, by decide +kernel, by decide +kernel⟩

end TyHash
