import Verif.Props.Link
import Verif.Props.Enums
import Verif.Proof.Generic

/-! Generic structs and enums in generic functions (C97). -/

namespace Props
open TyHash (ITy Vm)
open Link Wasm Rt

/-- Type parameter `i` occurs in the type. -/
inductive Mentions (i : Nat) : ITy → Prop
  | param : Mentions i (.param i)
  | vec {t} : Mentions i t → Mentions i (.vec t)
  | ref {t} : Mentions i t → Mentions i (.ref t)
  | mref {t} : Mentions i t → Mentions i (.mref t)
  | gstruct {m k ts vm t} : t ∈ ts → Mentions i t → Mentions i (.gstruct m k ts vm)
  | genum {m k ts t} : t ∈ ts → Mentions i t → Mentions i (.genum m k ts)

mutual
theorem hasP_iff {i : Nat} : ∀ {t : ITy}, hasP i t = true ↔ Mentions i t
  | .bool | .u8 | .u16 | .u32 | .u64 | .u128 | .u256 | .address | .signer | .struct _ _ _ | .enum _ _ => by
    simp only [hasP, Bool.false_eq_true, false_iff]
    intro h
    cases h
  | .vec t => by
    rw [hasP, hasP_iff (t := t)]
    exact ⟨.vec, fun h => by cases h; assumption⟩
  | .ref t => by
    rw [hasP, hasP_iff (t := t)]
    exact ⟨.ref, fun h => by cases h; assumption⟩
  | .mref t => by
    rw [hasP, hasP_iff (t := t)]
    exact ⟨.mref, fun h => by cases h; assumption⟩
  | .param j => by
    simp only [hasP, beq_iff_eq]
    exact ⟨fun h => h ▸ .param, fun h => by cases h; rfl⟩
  | .gstruct m k ts vm => by
    rw [hasP, hasPs_iff (ts := ts)]
    exact ⟨fun ⟨t, h1, h2⟩ => .gstruct h1 h2, fun h => by cases h with | gstruct h1 h2 => exact ⟨_, h1, h2⟩⟩
  | .genum m k ts => by
    rw [hasP, hasPs_iff (ts := ts)]
    exact ⟨fun ⟨t, h1, h2⟩ => .genum h1 h2, fun h => by cases h with | genum h1 h2 => exact ⟨_, h1, h2⟩⟩
theorem hasPs_iff {i : Nat} : ∀ {ts : List ITy}, hasPs i ts = true ↔ ∃ t ∈ ts, Mentions i t
  | [] => by simp [hasPs]
  | t :: ts => by
    rw [hasPs, Bool.or_eq_true, hasP_iff (t := t), hasPs_iff (ts := ts)]
    simp
end

variable {fs ts us vs inst right : List ITy}

/-- **C97 (partial)** The fields of a generic struct or enum have the types they should have: those of the definition, with the type arguments
for the parameters of the datatype and, in these, the types the function is instantiated with for its own parameters.  It is so if the
type arguments mention no type parameters of the function, or are the type parameters of the function in their order (all, or the first ones).

Missing: other type arguments, for which it is false in general (`C97_false_*`); `C97_pack_iff`, `C97_unpack_iff` and
`C97_borrow_iff` say for which exactly it is true. -/
theorem C97_partial (hu : ∀ u ∈ us, ¬ Occurs u) (hfs : ∀ i, (∃ f ∈ fs, Mentions i f) → i < ts.length)
    (hus : ∀ i, (∃ t ∈ ts, Mentions i t) → i < us.length) (h : (∀ t ∈ ts, ¬ Occurs t) ∨ ts = (List.range ts.length).map ITy.param) :
    ∃ vs right, Insts us ts vs ∧ Insts vs fs right ∧ packTys fs ts us = some (right, vs) ∧ unpackTys fs ts us = some (right, vs) ∧
      ∀ k (hk : k < fs.length) (hk' : k < right.length), ∀ known, borrowTy fs[k] ts vs known = some right[k] := by
  obtain ⟨inst, hi⟩ := substs_total (us := ts) (ts := fs) fun i h => hfs i (hasPs_iff.1 h)
  obtain ⟨vs, hv⟩ := substs_total (us := us) (ts := ts) fun i h => hus i (hasPs_iff.1 h)
  obtain ⟨right, hr⟩ := substs_total (us := vs) (ts := fs) fun i h => by
    rw [substs_length hv]
    exact hfs i (hasPs_iff.1 h)
  have hu' : hasParams us = false := by
    rw [← Bool.not_eq_true, hasParams_iff]
    exact fun ⟨t, ht, ho⟩ => hu t ht ho
  have hown : hasParams ts = true → ts = (List.range ts.length).map ITy.param := fun hp => by
    refine h.resolve_left fun hn => ?_
    obtain ⟨t, ht, ho⟩ := hasParams_iff.1 hp
    exact hn t ht ho
  refine ⟨vs, right, substs_iff.1 hv, substs_iff.1 hr, generic_right hu' hi hv hr (fun hp => ?_) fun hp => ?_⟩
  · refine (second_iff hv hi hr).2 fun i h => ?_
    have h' := hasPs_substs hi h
    rw [hown hp] at h' hv
    exact own_get hv (hasPs_own h')
  · have := hown hp
    rw [this] at hv ⊢
    rw [List.range_eq_range'] at hv ⊢
    exact bareArgs_own _ _ hv

/-- When packing is right: every type parameter of the function that the fields of the instance mention has to be, if it is number `i`, also the `i`-th
among those type arguments that are just a type parameter. -/
theorem C97_pack_iff (hv : Insts us ts vs) (hi : Insts ts fs inst) (hr : Insts vs fs right) (hp : ∃ t ∈ ts, Occurs t) :
    packTys fs ts us = some (right, vs) ↔ ∀ i, (∃ g ∈ inst, Mentions i g) → (bareArgs ts vs)[i]? = us[i]? := by
  have hv := substs_iff.2 hv
  have hi := substs_iff.2 hi
  simp only [packTys, hi, hasParams_iff.2 hp, if_true, hv, ← hasPs_iff, ← second_iff hv hi (substs_iff.2 hr)]
  simp

/-- When taking apart is right: every type parameter of the function that the fields of the instance mention has to be, if it is number `i`, also (the type of) the
`i`-th type argument. -/
theorem C97_unpack_iff (hv : Insts us ts vs) (hi : Insts ts fs inst) (hr : Insts vs fs right) (hp : ∃ t ∈ ts, Occurs t) :
    unpackTys fs ts us = some (right, vs) ↔ ∀ i, (∃ g ∈ inst, Mentions i g) → vs[i]? = us[i]? := by
  have hv := substs_iff.2 hv
  have hi := substs_iff.2 hi
  simp only [unpackTys, hi, hasParams_iff.2 hp, if_true, hv, ← hasPs_iff, ← second_iff hv hi (substs_iff.2 hr)]
  simp

/-- When borrowing a field is right: always if the module does not build or take apart such structs, otherwise as for taking apart. -/
theorem C97_borrow_iff {f g r : ITy} (hu : ∀ u ∈ us, ¬ Occurs u) (hv : Insts us ts vs) (hi : Inst ts f g) (hr : Inst vs f r) (hp : ∃ t ∈ ts, Occurs t) :
    borrowTy f ts vs false = some r ∧ (borrowTy f ts vs true = some r ↔ ∀ i, Mentions i g → vs[i]? = us[i]?) := by
  have hv := substs_iff.2 hv
  have hi := subst_iff.2 hi
  have hr := subst_iff.2 hr
  have hu' : hasParams us = false := by
    rw [← Bool.not_eq_true, hasParams_iff]
    exact fun ⟨t, ht, ho⟩ => hu t ht ho
  have hi' : substs ts [f] = some [g] := by simp [substs, hi]
  have hr' : substs vs [f] = some [r] := by simp [substs, hr]
  have hc : substs vs [r] = some [r] := substs_closed (substs_closes (substs_closes hu' hv) hr')
  have one : ∀ {l : List ITy} {a b : ITy}, substs l [a] = some [b] ↔ subst l a = some b := by
    intro l a b
    cases h : subst l a <;> simp [substs, h]
  have h2 := second_iff (l := vs) hv hi' hr'
  rw [one] at h2
  simp only [hasPs, Bool.or_false, hasP_iff] at h2
  refine ⟨?_, ?_⟩
  · simp only [borrowTy, hasParams_iff.2 hp, if_true, Bool.false_eq_true, if_false, hr, Option.bind_some]
    exact one.1 hc
  · simp only [borrowTy, hasParams_iff.2 hp, if_true, hi, Option.bind_some]
    exact h2

/-- `struct Pair<A, B> { a: A, b: vector<B>, c: u64 }` in `fun f<S, T, U>` as `Pair<S, T>`, instantiated with `u8`, `vector<u64>`, `bool`. -/
example : ∃ vs right, Insts [.u8, .vec .u64, .bool] [.param 0, .param 1] vs ∧ Insts vs [.param 0, .vec (.param 1), .u64] right ∧
    packTys [.param 0, .vec (.param 1), .u64] [.param 0, .param 1] [.u8, .vec .u64, .bool] = some (right, vs) ∧ right = [.u8, .vec (.vec .u64), .u64] := by
  obtain ⟨vs, right, h1, h2, h3, -⟩ := C97_partial (fs := [.param 0, .vec (.param 1), .u64]) (ts := [.param 0, .param 1]) (us := [.u8, .vec .u64, .bool])
    (fun u hu => by
      have : hasParams [ITy.u8, .vec .u64, .bool] = false := by decide +kernel
      intro ho
      rw [hasParams_iff.2 ⟨u, hu, ho⟩] at this
      cases this)
    (fun i h => by
      rcases h with ⟨f, hf, hm⟩
      simp only [List.mem_cons, List.not_mem_nil, or_false] at hf
      rcases hf with rfl | rfl | rfl
      · cases hm; decide
      · cases hm with | vec h => cases h; decide
      · cases hm)
    (fun i h => by
      rcases h with ⟨f, hf, hm⟩
      simp only [List.mem_cons, List.not_mem_nil, or_false] at hf
      rcases hf with rfl | rfl <;> cases hm <;> decide)
    (.inr rfl)
  refine ⟨vs, right, h1, h2, h3, ?_⟩
  have : packTys [.param 0, .vec (.param 1), .u64] [.param 0, .param 1] [.u8, .vec .u64, .bool] =
    some ([.u8, .vec (.vec .u64), .u64], [.u8, .vec .u64]) := by decide +kernel
  rw [this] at h3
  cases h3
  rfl

/-- Building `W<u8, T>`, of `struct W<phantom A, B> { v: B }`, in `fun f<T>` is right, although `T` is its second argument; taking it apart is not. -/
example : packTys [.param 1] [.u8, .param 0] [.u32] = some ([.u32], [.u8, .u32]) ∧ unpackTys [.param 1] [.u8, .param 0] [.u32] ≠ some ([.u32], [.u8, .u32]) ∧
    borrowTy (.param 1) [.u8, .param 0] [.u8, .u32] true ≠ some .u32 := by
  have hp : ∃ t ∈ [ITy.u8, .param 0], Occurs t := ⟨_, by simp, .param 0⟩
  have hg : ∀ i, (∃ g ∈ [ITy.param 0], Mentions i g) ↔ i = 0 := fun i => by
    simp only [List.mem_singleton, exists_eq_left]
    exact ⟨fun h => by cases h; rfl, fun h => h ▸ .param⟩
  refine ⟨(C97_pack_iff (insts_of rfl) (insts_of rfl) (insts_of rfl) hp).2 fun i hi => ?_,
    fun h => ?_, fun h => ?_⟩
  · rw [(hg i).1 hi]
    rfl
  · have := (C97_unpack_iff (us := [.u32]) (insts_of rfl) (insts_of rfl) (insts_of rfl) hp).1 h 0 ((hg 0).2 rfl)
    simp at this
  · have := (C97_borrow_iff (us := [.u32]) (fun u hu => by simp at hu; subst hu; exact fun h => by cases h) (insts_of rfl) (subst_iff.1 rfl)
      (subst_iff.1 rfl) hp).2.1 h 0 .param
    simp at this

/-- **C97 is false**: type arguments in another order.  `struct Pair<A, B> { a: A, b: B }` built as `Pair<T, S>` in `fun f<S, T>`, instantiated with `u8`
and `u64`: the fields have to be a `u64` and a `u8`, but the generator expects a `u8` and a `u64` (and refuses to compile). -/
theorem C97_false_order : Insts [.u8, .u64] [.param 1, .param 0] [.u64, .u8] ∧ Insts [.u64, .u8] [.param 0, .param 1] [.u64, .u8] ∧
    packTys [.param 0, .param 1] [.param 1, .param 0] [.u8, .u64] = some ([.u8, .u64], [.u64, .u8]) :=
  ⟨insts_of rfl, insts_of rfl, by decide +kernel⟩

/-- **C97 is false**: type arguments made of type parameters.  `struct Box<A> { a: A }` built as `Box<vector<T>>` in `fun f<T>`, instantiated with `u64`: the compiler panics. -/
theorem C97_false_panic : Insts [.u64] [.vec (.param 0)] [.vec .u64] ∧ Insts [.vec .u64] [.param 0] [.vec .u64] ∧
    packTys [.param 0] [.vec (.param 0)] [.u64] = none :=
  ⟨insts_of rfl, insts_of rfl, by decide +kernel⟩

/-- **C97 is false** of taking apart: `struct W<phantom A, B> { v: B }` taken apart as `W<u8, T>` in `fun f<T>`, instantiated with `u32`: the generator
takes the field for a `u8`. -/
theorem C97_false_unpack : Insts [.u32] [.u8, .param 0] [.u8, .u32] ∧ Insts [.u8, .u32] [.param 1] [.u32] ∧
    unpackTys [.param 1] [.u8, .param 0] [.u32] = some ([.u8], [.u8, .u32]) :=
  ⟨insts_of rfl, insts_of rfl, by decide +kernel⟩

/-- Two structs `W<u8, u32>` with the values 256 and 512, and references to them. -/
def wsGen : List (Nat × Nat) := [(500, 600), (504, 604), (600, 700), (604, 704), (700, 256), (704, 512)]

/-- **C97 is false** of borrowing fields, and what comes of it: `fun same<T>(x: &W<u8, T>, y: &W<u8, T>): bool { x.v == y.v }` instantiated with `u32`
in a module that also builds `W<u8, T>`.  The generator takes the fields for `u8`s, and the code says that 256 and 512 are equal. -/
theorem C97_false_borrow : ∃ t t', Inst [.u8, .u32] (.param 1) t ∧ borrowTy (.param 1) [.u8, .param 0] [.u8, .u32] true = some t' ∧
    t = .u32 ∧ t' = .u8 ∧ ∃ m, ITy.mv t' = some m ∧
    Mv.RepFs (storeW wsGen).mem (Between 500 900) [.u32] [.num 256] 600 ∧ Mv.RepFs (storeW wsGen).mem (Between 500 900) [.u32] [.num 512] 604 ∧
    (sameField m).Calls [500, 504] (storeW wsGen) (fun r _ => r = [1]) := by
  have e1 : leNat (storeW wsGen).mem 600 4 = 700 := by decide +kernel
  have e2 : leNat (storeW wsGen).mem 700 4 = 256 := by decide +kernel
  have e3 : leNat (storeW wsGen).mem 604 4 = 704 := by decide +kernel
  have e4 : leNat (storeW wsGen).mem 704 4 = 512 := by decide +kernel
  refine ⟨_, _, subst_iff.1 rfl, by decide +kernel, rfl, rfl, .u8, rfl, ?_, ?_, ?_⟩
  · simp only [Mv.RepFs, e1, Mv.Ty.scalar, Mv.Ty.size, e2, if_true, Mv.Rep]
    exact ⟨_, _, rfl, fun x h1 h2 => ⟨by omega, by omega⟩, fun _ x h1 h2 => ⟨by omega, by omega⟩, ⟨rfl, by norm_num⟩, rfl⟩
  · simp only [Mv.RepFs, e3, Mv.Ty.scalar, Mv.Ty.size, e4, if_true, Mv.Rep]
    exact ⟨_, _, rfl, fun x h1 h2 => ⟨by omega, by omega⟩, fun _ x h1 h2 => ⟨by omega, by omega⟩, ⟨rfl, by norm_num⟩, rfl⟩
  · exact Fn.Calls.mono (calls_of_run (f := sameField .u8) (args := [500, 504]) (σ := storeW wsGen) 40 [1] (fun _ => True) rfl (by decide +kernel)
    fun _ _ _ _ => trivial) fun r σ' h => h.1

/-- With the right type the code compares the fields. -/
example : (sameField .u32).Calls [500, 504] (storeW wsGen) (fun r _ => r = [0]) :=
  Fn.Calls.mono (calls_of_run (f := sameField .u32) (args := [500, 504]) (σ := storeW wsGen) 40 [0] (fun _ => True) rfl (by decide +kernel)
    fun _ _ _ _ => trivial) fun r σ' h => h.1

end Props
