import Verif.Proof.Link
import Mathlib.Data.List.Induction

/-!
# C90, C91: linking
-/

namespace Props
open Link TyHash

/-! ### Notions of Move, independent of the code -/

mutual
/-- `t` with the types `us` put in for its type parameters. -/
inductive Inst (us : List ITy) : ITy → ITy → Prop
  | prim {t} : t ∈ [.bool, .u8, .u16, .u32, .u64, .u128, .u256, .address, .signer] → Inst us t t
  | struct {m i vm} : Inst us (.struct m i vm) (.struct m i vm)
  | enum {m i} : Inst us (.enum m i) (.enum m i)
  | param {i u} : us[i]? = some u → Inst us (.param i) u
  | vec {t t'} : Inst us t t' → Inst us (.vec t) (.vec t')
  | ref {t t'} : Inst us t t' → Inst us (.ref t) (.ref t')
  | mref {t t'} : Inst us t t' → Inst us (.mref t) (.mref t')
  | gstruct {m i vm ts ts'} : Insts us ts ts' → Inst us (.gstruct m i ts vm) (.gstruct m i ts' vm)
  | genum {m i ts ts'} : Insts us ts ts' → Inst us (.genum m i ts) (.genum m i ts')
inductive Insts (us : List ITy) : List ITy → List ITy → Prop
  | nil : Insts us [] []
  | cons {t t' ts ts'} : Inst us t t' → Insts us ts ts' → Insts us (t :: ts) (t' :: ts')
end

/-- A type parameter occurs in the type. -/
inductive Occurs : ITy → Prop
  | param (i) : Occurs (.param i)
  | vec {t} : Occurs t → Occurs (.vec t)
  | ref {t} : Occurs t → Occurs (.ref t)
  | mref {t} : Occurs t → Occurs (.mref t)
  | gstruct {m i ts vm t} : t ∈ ts → Occurs t → Occurs (.gstruct m i ts vm)
  | genum {m i ts t} : t ∈ ts → Occurs t → Occurs (.genum m i ts)

/-- The function that a call in the body of `caller` calls: that with the name given, with the types given, in which the
type parameters are those of the caller. -/
def Named (caller : Fid) (c : Site) (t : Fid) : Prop :=
  t.fn = c.fn ∧ ((c.tys = none ∧ t.tys = none) ∨ ∃ ts vs, c.tys = some ts ∧ t.tys = some vs ∧ Insts (caller.tys.getD []) ts vs)

/-- The signature of the function `id`. -/
def Signature (P : Prog) (id : Fid) (args rets : List ITy) : Prop :=
  ∃ I, P[id.fn]? = some I ∧ ((id.tys = none ∧ args = I.args ∧ rets = I.rets) ∨
    ∃ us, id.tys = some us ∧ Insts us I.args args ∧ Insts us I.rets rets)

/-- The WebAssembly type of a function: an i64 for each u64, an i32 for every other argument (`none`: there is no such type), and an
i32 if there are results. -/
def WasmTy (args rets : List ITy) (s : Sig) : Prop :=
  List.Forall₂ (fun t b => (∀ i, t ≠ .param i) ∧ (b = true ↔ t = .u64)) args s.params ∧ (s.res = true ↔ rets ≠ [])

/-- A call of a function that is not native. -/
def UserCall (P : Prog) (c : Site) : Bool :=
  match P[c.fn]? with
  | some I => !I.native
  | none => true

mutual
theorem subst_iff {us : List ITy} : ∀ {t t' : ITy}, subst us t = some t' ↔ Inst us t t'
  | .bool, t' | .u8, t' | .u16, t' | .u32, t' | .u64, t' | .u128, t' | .u256, t' | .address, t' | .signer, t' => by
    constructor
    · intro h; cases h; exact .prim (by simp)
    · intro h; cases h; rfl
  | .struct _ _ _, t' => by
    constructor
    · intro h; cases h; exact .struct
    · intro h
      cases h with
      | prim h => simp at h
      | struct => rfl
  | .enum _ _, t' => by
    constructor
    · intro h; cases h; exact .enum
    · intro h
      cases h with
      | prim h => simp at h
      | enum => rfl
  | .param i, t' => by
    constructor
    · intro h; exact .param h
    · intro h
      cases h with
      | prim h => simp at h
      | param h => exact h
  | .vec t, t' => by
    constructor
    · intro h
      obtain ⟨u, h1, rfl⟩ := Option.map_eq_some_iff.mp h
      exact .vec (subst_iff.mp h1)
    · intro h
      cases h with
      | prim h => simp at h
      | vec h => rw [subst, subst_iff.mpr h]; rfl
  | .ref t, t' => by
    constructor
    · intro h
      obtain ⟨u, h1, rfl⟩ := Option.map_eq_some_iff.mp h
      exact .ref (subst_iff.mp h1)
    · intro h
      cases h with
      | prim h => simp at h
      | ref h => rw [subst, subst_iff.mpr h]; rfl
  | .mref t, t' => by
    constructor
    · intro h
      obtain ⟨u, h1, rfl⟩ := Option.map_eq_some_iff.mp h
      exact .mref (subst_iff.mp h1)
    · intro h
      cases h with
      | prim h => simp at h
      | mref h => rw [subst, subst_iff.mpr h]; rfl
  | .gstruct m i ts vm, t' => by
    constructor
    · intro h
      obtain ⟨u, h1, rfl⟩ := Option.map_eq_some_iff.mp h
      exact .gstruct (substs_iff.mp h1)
    · intro h
      cases h with
      | prim h => simp at h
      | gstruct h => rw [subst, substs_iff.mpr h]; rfl
  | .genum m i ts, t' => by
    constructor
    · intro h
      obtain ⟨u, h1, rfl⟩ := Option.map_eq_some_iff.mp h
      exact .genum (substs_iff.mp h1)
    · intro h
      cases h with
      | prim h => simp at h
      | genum h => rw [subst, substs_iff.mpr h]; rfl
theorem substs_iff {us : List ITy} : ∀ {ts ts' : List ITy}, substs us ts = some ts' ↔ Insts us ts ts'
  | [], ts' => by
    constructor
    · intro h; cases h; exact .nil
    · intro h; cases h; rfl
  | t :: ts, ts' => by
    constructor
    · intro h
      rw [substs] at h
      split at h
      · rename_i h1 h2
        cases h
        exact .cons (subst_iff.mp h1) (substs_iff.mp h2)
      · cases h
    · intro h
      cases h with
      | cons h1 h2 => rw [substs, subst_iff.mpr h1, substs_iff.mpr h2]
end

theorem named_iff {cl : Fid} {c : Site} {t : Fid} : Target cl c t ↔ Named cl c t := by
  unfold Target Named
  refine and_congr_right fun _ => ?_
  cases hc : c.tys with
  | none => simp
  | some ts =>
    simp only [reduceCtorEq, false_and, false_or, Option.some.injEq]
    constructor
    · rintro ⟨vs, h1, h2⟩
      exact ⟨ts, vs, rfl, h2, substs_iff.mp h1⟩
    · rintro ⟨_, vs, rfl, h2, h1⟩
      exact ⟨vs, substs_iff.mpr h1, h2⟩

theorem valTys_iff : ∀ {ts : List ITy} {bs : List Bool}, valTys ts = some bs ↔
    List.Forall₂ (fun t b => (∀ i, t ≠ .param i) ∧ (b = true ↔ t = .u64)) ts bs
  | [], bs => by
    constructor
    · intro h; cases h; exact .nil
    · intro h; cases h; rfl
  | t :: ts, bs => by
    have ht : ∀ b, valTy t = some b ↔ (∀ i, t ≠ .param i) ∧ (b = true ↔ t = .u64) := by
      intro b
      cases t <;> cases b <;> simp [valTy]
    constructor
    · intro h
      rw [valTys] at h
      split at h
      · rename_i h1 h2
        cases h
        exact .cons ((ht _).mp h1) (valTys_iff.mp h2)
      · cases h
    · intro h
      cases h with
      | cons h1 h2 => rw [valTys, (ht _).mpr h1, valTys_iff.mpr h2]

theorem sig_iff {I : Info} {s : Sig} : I.sig = some s ↔ WasmTy I.args I.rets s := by
  obtain ⟨ps, r⟩ := s
  unfold Info.sig WasmTy
  rw [Option.map_eq_some_iff]
  constructor
  · rintro ⟨bs, h1, h2⟩
    cases h2
    refine ⟨valTys_iff.mp h1, ?_⟩
    cases I.rets <;> simp
  · rintro ⟨h1, h2⟩
    refine ⟨ps, valTys_iff.mpr h1, ?_⟩
    dsimp only at h2
    cases hI : I.rets <;> cases r <;> simp_all

theorem inst_iff {I J : Info} {us : List ITy} : I.inst us = some J ↔
    Insts us I.args J.args ∧ Insts us I.rets J.rets ∧ J.nty = I.nty ∧ J.native = I.native ∧ J.calls = I.calls := by
  obtain ⟨n, as, rs, nat, cs⟩ := J
  unfold Info.inst
  constructor
  · intro h
    split at h
    · rename_i h1 h2
      cases h
      exact ⟨substs_iff.mp h1, substs_iff.mp h2, rfl, rfl, rfl⟩
    · cases h
  · rintro ⟨h1, h2, h3, h4, h5⟩
    dsimp only at h1 h2 h3 h4 h5
    subst h3 h4 h5
    rw [substs_iff.mpr h1, substs_iff.mpr h2]

theorem sigOf_iff {P : Prog} {id : Fid} {s : Sig} : SigOf P id s ↔ ∃ as rs, Signature P id as rs ∧ WasmTy as rs s := by
  unfold SigOf Signature
  constructor
  · rintro ⟨I, h1, h2⟩
    split at h2
    · rename_i h0
      exact ⟨I.args, I.rets, ⟨I, h1, .inl ⟨h0, rfl, rfl⟩⟩, sig_iff.mp h2⟩
    · rename_i us h0
      obtain ⟨J, h3, h4⟩ := h2
      obtain ⟨q1, q2, -⟩ := inst_iff.mp h3
      exact ⟨J.args, J.rets, ⟨I, h1, .inr ⟨us, h0, q1, q2⟩⟩, sig_iff.mp h4⟩
  · rintro ⟨as, rs, ⟨I, h1, ⟨h0, rfl, rfl⟩ | ⟨us, h0, h2, h3⟩⟩, h4⟩
    · exact ⟨I, h1, by rw [h0]; exact sig_iff.mpr h4⟩
    · exact ⟨I, h1, by rw [h0]; exact ⟨{ I with args := as, rets := rs }, inst_iff.mpr ⟨h2, h3, rfl, rfl, rfl⟩, sig_iff.mpr h4⟩⟩

theorem userSites_eq {P : Prog} {cs : List Site} : userSites P cs = cs.filter (UserCall P) := by
  unfold userSites
  congr 1
  funext c
  unfold UserCall
  cases P[c.fn]? <;> rfl

mutual
theorem hasParam_iff : ∀ {t : ITy}, hasParam t = true ↔ Occurs t
  | .bool | .u8 | .u16 | .u32 | .u64 | .u128 | .u256 | .address | .signer | .struct _ _ _ | .enum _ _ =>
    ⟨fun h => (by cases h), fun h => (by cases h)⟩
  | .param i => ⟨fun _ => .param i, fun _ => rfl⟩
  | .vec t => ⟨fun h => .vec (hasParam_iff (t := t) |>.mp h), fun h => by cases h with | vec h => exact (hasParam_iff (t := t)).mpr h⟩
  | .ref t => ⟨fun h => .ref (hasParam_iff (t := t) |>.mp h), fun h => by cases h with | ref h => exact (hasParam_iff (t := t)).mpr h⟩
  | .mref t => ⟨fun h => .mref (hasParam_iff (t := t) |>.mp h), fun h => by cases h with | mref h => exact (hasParam_iff (t := t)).mpr h⟩
  | .gstruct m i ts vm => ⟨fun h => by
      obtain ⟨t, h1, h2⟩ := (hasParams_iff (ts := ts)).mp h
      exact .gstruct h1 h2, fun h => by cases h with | gstruct h1 h2 => exact (hasParams_iff (ts := ts)).mpr ⟨_, h1, h2⟩⟩
  | .genum m i ts => ⟨fun h => by
      obtain ⟨t, h1, h2⟩ := (hasParams_iff (ts := ts)).mp h
      exact .genum h1 h2, fun h => by cases h with | genum h1 h2 => exact (hasParams_iff (ts := ts)).mpr ⟨_, h1, h2⟩⟩
theorem hasParams_iff : ∀ {ts : List ITy}, hasParams ts = true ↔ ∃ t ∈ ts, Occurs t
  | [] => ⟨fun h => (by cases h), fun ⟨_, h, _⟩ => (by cases h)⟩
  | t :: ts => by
    rw [hasParams, Bool.or_eq_true, hasParam_iff, hasParams_iff]
    simp
end

/-- **C90** If linking succeeds, then every entry function of the module is the code translated from it; every function, with every
list of types it is called with, is translated exactly once; and every call of a function in translated code reaches, through the
table and without a trap, the code translated from the function that the Move code names, with the types it names, those of
the caller put in for its type parameters.  `ord` is the order in which a set is listed. -/
theorem C90 {P : Prog} {ord : List Fid → List Fid} {n : Nat} {roots : List Nat} {st : St} (hw : WF P) (hord : ∀ l, (ord l).Perm l)
    (hr : ∀ f ∈ roots, ∀ I, P[f]? = some I → I.native = false) (h : linkAll P ord n roots = some st) :
    (∀ f ∈ roots, ∃ c, entryCode st f = some c ∧ c ∈ st.segs.map (·.2) ∧ c.id = ⟨f, none⟩) ∧
    (st.segs.map (·.2.id)).Nodup ∧
    ∀ c ∈ st.segs.map (·.2), (∃ as rs, Signature P c.id as rs ∧ WasmTy as rs c.ty) ∧ ∃ I, P[c.id.fn]? = some I ∧
      List.Forall₂ (fun site k => ∃ c', callIndirect st.segs k = some c' ∧ Named c.id site c'.id ∧ c' ∈ st.segs.map (·.2))
        (I.calls.filter (UserCall P)) c.calls := by
  obtain ⟨hg, hu, hc⟩ := linkAll_good hw (fun l => (hord l).subset) hr h
  have hseg : ∀ (i : Nat) e c, st.entries[i]? = some e → e.code = some c → c ∈ st.segs.map (·.2) := by
    intro i e c he hec
    have ht := (hg.code i e c he hec).2.2.1
    have : ∀ (l : List (Nat × Code)), table l i = some c → c ∈ l.map (·.2) := by
      intro l
      induction l using List.reverseRecOn with
      | nil => intro h; cases h
      | append_singleton l s ih =>
        intro h
        rw [table_append] at h
        by_cases hi : i = s.1
        · subst hi
          rw [Function.update_self] at h
          cases h
          simp
        · rw [Function.update_of_ne hi] at h
          have := ih h
          simp only [List.map_append, List.mem_append]
          exact .inl this
    exact this _ ht
  refine ⟨fun f hf => ?_, ?_, fun c hcm => ?_⟩
  · cases hfind : find st.entries ⟨f, none⟩ with
    | none => exact absurd (linkAll_mem h hf) (find_none hfind)
    | some e =>
      obtain ⟨i, h1, h2, -⟩ := find_some hfind
      obtain ⟨c, hcc⟩ := Option.isSome_iff_exists.mp (hc e (List.mem_of_getElem? h1))
      exact ⟨c, by simp only [entryCode, hfind, Option.bind_some, hcc], hseg i e c h1 hcc, ((hg.code i e c h1 hcc).1).trans h2⟩
  · have : ∀ (l : List (Nat × Code)), (∀ s ∈ l, s ∈ st.segs) → (l.map (·.1)).Nodup → (l.map (·.2.id)).Nodup := by
      intro l
      induction l with
      | nil => intro _ _; exact List.nodup_nil
      | cons s l ih =>
        intro hs hn
        rw [List.map_cons, List.nodup_cons] at hn ⊢
        refine ⟨fun hm => hn.1 ?_, ih (fun s hl => hs s (List.mem_cons_of_mem _ hl)) hn.2⟩
        obtain ⟨s', hs', hid⟩ := List.mem_map.mp hm
        obtain ⟨e, he1, he2⟩ := hg.seg s.1 s.2 (hs s List.mem_cons_self)
        obtain ⟨e', he1', he2'⟩ := hg.seg s'.1 s'.2 (hs s' (List.mem_cons_of_mem _ hs'))
        have h1 : (ids st.entries)[s.1]? = some s.2.id := by
          simp only [ids, List.getElem?_map, he1, Option.map_some, (hg.code _ _ _ he1 he2).1]
        have h2 : (ids st.entries)[s'.1]? = some s.2.id := by
          simp only [ids, List.getElem?_map, he1', Option.map_some, ← (hg.code _ _ _ he1' he2').1, hid]
        rw [(List.getElem?_inj (List.getElem?_eq_some_iff.mp h1).1 hu).mp (h1.trans h2.symm)]
        exact List.mem_map_of_mem hs'
    exact this _ (fun _ hs => hs) hg.once
  · obtain ⟨⟨i, c'⟩, hs, rfl⟩ := List.mem_map.mp hcm
    obtain ⟨e, he, hec⟩ := hg.seg _ _ hs
    obtain ⟨h1, h2, -, h4⟩ := hg.code i e c' he hec
    dsimp only
    have hsig : SigOf P c'.id c'.ty := by rw [h1, h2]; exact hg.sig e (List.mem_of_getElem? he)
    obtain ⟨I, hI, -⟩ := id hsig
    refine ⟨sigOf_iff.mp hsig, I, hI, ?_⟩
    rw [← userSites_eq]
    refine (h4 I hI).imp ?_
    rintro site k ⟨t, a, q1, q2, q3, q4⟩
    obtain ⟨d, hd⟩ := Option.isSome_iff_exists.mp (hc a (List.mem_of_getElem? q2))
    obtain ⟨r1, r2, r3, -⟩ := hg.code _ _ _ q2 hd
    refine ⟨d, ?_, by rw [r1, q3]; exact named_iff.mp q1, hseg _ _ _ q2 hd⟩
    simp only [callIndirect, r3, r2, q4, if_true]

/-- `S` contains the functions called from the functions in `S`, with the types they are called with; all of them exist and are called with
as many types as they have type parameters. -/
structure WellCalled (P : Prog) (S : List Fid) : Prop where
  exist : ∀ id ∈ S, ∃ I as rs s, P[id.fn]? = some I ∧ I.native = false ∧ (id.tys = none ↔ I.nty = 0) ∧ Signature P id as rs ∧ WasmTy as rs s
  calls : ∀ id ∈ S, ∀ I, P[id.fn]? = some I → ∀ c ∈ I.calls, ∃ t as rs, Named id c t ∧ Signature P t as rs ∧ (UserCall P c = true → t ∈ S)

theorem WellCalled.closed {P : Prog} {S : List Fid} (h : WellCalled P S) : Closed P S := by
  refine ⟨fun id hid => ?_, fun id hid => ?_, fun id hid I hI c hc => ?_⟩
  · obtain ⟨I, as, rs, s, -, -, -, h1, h2⟩ := h.exist id hid
    exact ⟨s, sigOf_iff.mpr ⟨as, rs, h1, h2⟩⟩
  · obtain ⟨I, as, rs, s, h1, h2, h3, -⟩ := h.exist id hid
    exact ⟨I, h1, h2, h3⟩
  · obtain ⟨t, as, rs, h1, ⟨I', h2, h3⟩, h4⟩ := h.calls id hid I hI c hc
    rw [h1.1] at h2
    refine ⟨t, I', named_iff.mpr h1, h2, fun ts hts => ?_, fun hn => h4 (by unfold UserCall; rw [h2]; simp [hn])⟩
    rcases h3 with ⟨h3, -⟩ | ⟨us, h3, h5, h6⟩
    · rw [h3] at hts; cases hts
    · rw [h3] at hts; cases hts
      exact ⟨{ I' with args := as, rets := rs }, inst_iff.mpr ⟨h5, h6, rfl, rfl, rfl⟩⟩

/-- **C91 (partial)** Every program links in which all functions called exist and are called with the right types (there being finitely many
with their types), if every function with type parameters has one in its signature.  Missing: functions with type
parameters that occur only in the body (`C91_false`). -/
theorem C91_partial {P : Prog} {S : List Fid} (hS : WellCalled P S) (hg : ∀ I ∈ P, (∃ t ∈ I.args ++ I.rets, Occurs t) ↔ I.nty ≠ 0)
    {ord : List Fid → List Fid} (hord : ∀ l, (ord l).Perm l) {roots : List Nat} (hr : ∀ f ∈ roots, ⟨f, none⟩ ∈ S) {n : Nat} (hn : S.length < n) :
    ∃ st, linkAll P ord n roots = some st := by
  refine linkAll_total hS.closed (fun I hI => ?_) hord hr hn
  rw [← hg I hI, Info.generic, Bool.or_eq_true, hasParams_iff, hasParams_iff]
  simp only [List.mem_append, or_and_right, exists_or]

/-! ### A program with generic functions and recursion

```move
fun id<T>(x: T): T { x }
fun wrap<T>(x: T): vector<T> { id(vector[x]) }
fun main(n: u64): u64 { wrap(n); wrap(true); other(n) }
fun other(n: u64): u64 { if (n == 0) 0 else main(n - 1) }
``` -/

def linkProg : Link.Prog :=
  [⟨1, [.param 0], [.param 0], false, []⟩,
   ⟨1, [.param 0], [.vec (.param 0)], false, [⟨0, some [.vec (.param 0)]⟩]⟩,
   ⟨0, [.u64], [.u64], false, [⟨1, some [.u64]⟩, ⟨1, some [.bool]⟩, ⟨3, none⟩]⟩,
   ⟨0, [.u64], [.u64], false, [⟨2, none⟩]⟩]

/-- All functions that are called. -/
def linkSet : List Fid :=
  [⟨2, none⟩, ⟨3, none⟩, ⟨1, some [.u64]⟩, ⟨1, some [.bool]⟩, ⟨0, some [.vec .u64]⟩, ⟨0, some [.vec .bool]⟩]

theorem linkProg_wf : WF linkProg := by
  intro I hI c hc J hJ
  simp only [linkProg, List.mem_cons, List.not_mem_nil, or_false] at hI
  rcases hI with rfl | rfl | rfl | rfl <;> simp at hc
  · subst hc; simp [linkProg] at hJ; subst hJ; simp
  · rcases hc with rfl | rfl | rfl <;> simp [linkProg] at hJ <;> subst hJ <;> simp
  · subst hc; simp [linkProg] at hJ; subst hJ; simp

theorem linkProg_roots : ∀ f ∈ [2, 3], ∀ I, linkProg[f]? = some I → I.native = false := by
  intro f hf I hI
  have : f = 2 ∨ f = 3 := by simpa using hf
  rcases this with rfl | rfl <;> simp [linkProg] at hI <;> subst hI <;> rfl

/-- The functions are translated in this order, each once. -/
theorem linkProg_links : ∃ st, linkAll linkProg (fun l => l) 9 [2, 3] = some st ∧ st.segs.map (·.2.id) =
    [⟨2, none⟩, ⟨1, some [.u64]⟩, ⟨0, some [.vec .u64]⟩, ⟨1, some [.bool]⟩, ⟨0, some [.vec .bool]⟩, ⟨3, none⟩] := ⟨_, rfl, rfl⟩

example : ∃ st, linkAll linkProg (fun l => l) 9 [2, 3] = some st ∧ ∃ c, entryCode st 2 = some c ∧ c.id = ⟨2, none⟩ := by
  obtain ⟨st, h, -⟩ := linkProg_links
  obtain ⟨c, h1, -, h2⟩ := (C90 linkProg_wf (fun l => List.Perm.refl l) linkProg_roots h).1 2 (by simp)
  exact ⟨st, h, c, h1, h2⟩

theorem insts_of {us ts ts' : List ITy} (h : substs us ts = some ts') : Insts us ts ts' := substs_iff.mp h
theorem wasm_of {I : Info} {s : Sig} (h : I.sig = some s) : WasmTy I.args I.rets s := sig_iff.mp h

theorem linkProg_called : WellCalled linkProg linkSet := by
  have hx : ∀ {id : Fid}, id ∈ linkSet → id = ⟨2, none⟩ ∨ id = ⟨3, none⟩ ∨ id = ⟨1, some [.u64]⟩ ∨ id = ⟨1, some [.bool]⟩ ∨
      id = ⟨0, some [.vec .u64]⟩ ∨ id = ⟨0, some [.vec .bool]⟩ := by
    intro id h; simpa [linkSet] using h
  have w1 : WasmTy [.u64] [.u64] ⟨[true], true⟩ := wasm_of (I := ⟨0, [.u64], [.u64], false, []⟩) rfl
  have w2 : ∀ t, WasmTy [.u64] [t] ⟨[true], true⟩ := fun t => wasm_of (I := ⟨0, [.u64], [t], false, []⟩) rfl
  have w3 : ∀ t, WasmTy [.bool] [t] ⟨[false], true⟩ := fun t => wasm_of (I := ⟨0, [.bool], [t], false, []⟩) rfl
  have w4 : ∀ a t, WasmTy [.vec a] [t] ⟨[false], true⟩ := fun a t => wasm_of (I := ⟨0, [.vec a], [t], false, []⟩) rfl
  refine ⟨fun id hid => ?_, fun id hid I hI c hc => ?_⟩
  · rcases hx hid with rfl | rfl | rfl | rfl | rfl | rfl
    · exact ⟨_, _, _, _, rfl, rfl, by simp, ⟨_, rfl, .inl ⟨rfl, rfl, rfl⟩⟩, w1⟩
    · exact ⟨_, _, _, _, rfl, rfl, by simp, ⟨_, rfl, .inl ⟨rfl, rfl, rfl⟩⟩, w1⟩
    · exact ⟨_, _, _, _, rfl, rfl, by simp, ⟨_, rfl, .inr ⟨_, rfl, insts_of rfl, insts_of rfl⟩⟩, w2 _⟩
    · exact ⟨_, _, _, _, rfl, rfl, by simp, ⟨_, rfl, .inr ⟨_, rfl, insts_of rfl, insts_of rfl⟩⟩, w3 _⟩
    · exact ⟨_, _, _, _, rfl, rfl, by simp, ⟨_, rfl, .inr ⟨_, rfl, insts_of rfl, insts_of rfl⟩⟩, w4 _ _⟩
    · exact ⟨_, _, _, _, rfl, rfl, by simp, ⟨_, rfl, .inr ⟨_, rfl, insts_of rfl, insts_of rfl⟩⟩, w4 _ _⟩
  · rcases hx hid with rfl | rfl | rfl | rfl | rfl | rfl <;> cases hI <;> simp at hc
    · rcases hc with rfl | rfl | rfl
      · exact ⟨⟨1, some [.u64]⟩, _, _, ⟨rfl, .inr ⟨_, _, rfl, rfl, insts_of rfl⟩⟩, ⟨_, rfl, .inr ⟨_, rfl, insts_of rfl, insts_of rfl⟩⟩, fun _ => by simp [linkSet]⟩
      · exact ⟨⟨1, some [.bool]⟩, _, _, ⟨rfl, .inr ⟨_, _, rfl, rfl, insts_of rfl⟩⟩, ⟨_, rfl, .inr ⟨_, rfl, insts_of rfl, insts_of rfl⟩⟩, fun _ => by simp [linkSet]⟩
      · exact ⟨⟨3, none⟩, _, _, ⟨rfl, .inl ⟨rfl, rfl⟩⟩, ⟨_, rfl, .inl ⟨rfl, rfl, rfl⟩⟩, fun _ => by simp [linkSet]⟩
    · subst hc
      exact ⟨⟨2, none⟩, _, _, ⟨rfl, .inl ⟨rfl, rfl⟩⟩, ⟨_, rfl, .inl ⟨rfl, rfl, rfl⟩⟩, fun _ => by simp [linkSet]⟩
    · subst hc
      exact ⟨⟨0, some [.vec .u64]⟩, _, _, ⟨rfl, .inr ⟨_, _, rfl, rfl, insts_of rfl⟩⟩, ⟨_, rfl, .inr ⟨_, rfl, insts_of rfl, insts_of rfl⟩⟩, fun _ => by simp [linkSet]⟩
    · subst hc
      exact ⟨⟨0, some [.vec .bool]⟩, _, _, ⟨rfl, .inr ⟨_, _, rfl, rfl, insts_of rfl⟩⟩, ⟨_, rfl, .inr ⟨_, rfl, insts_of rfl, insts_of rfl⟩⟩, fun _ => by simp [linkSet]⟩

theorem linkProg_generic : ∀ I ∈ linkProg, (∃ t ∈ I.args ++ I.rets, Occurs t) ↔ I.nty ≠ 0 := by
  intro I hI
  rw [show (∃ t ∈ I.args ++ I.rets, Occurs t) ↔ hasParams (I.args ++ I.rets) = true from hasParams_iff.symm]
  simp only [linkProg, List.mem_cons, List.not_mem_nil, or_false] at hI
  rcases hI with rfl | rfl | rfl | rfl <;> simp [hasParams, hasParam]

example : ∃ st, linkAll linkProg List.reverse 7 [2, 3] = some st :=
  C91_partial linkProg_called linkProg_generic List.reverse_perm (by simp [linkSet]) (by decide)

/-! ### A type parameter that does not occur in the signature

```move
fun answer<T>(): u64 { 42 }
entry fun main(): u64 { answer<u8>() }
``` -/

def answerProg : Link.Prog := [⟨1, [], [.u64], false, []⟩, ⟨0, [], [.u64], false, [⟨0, some [.u8]⟩]⟩]

/-- **C91 is false** of functions whose type parameters do not occur in the signature: `is_generic` does not see them, so such a
function is looked up without its types when it is to be translated, and the entry made for the call stays empty.  The program
is rejected with an internal error, in whichever order the functions come and whether `answer` is in the same module (`roots` has
0) or in another. -/
theorem C91_false : WF answerProg ∧ WellCalled answerProg [⟨1, none⟩, ⟨0, some [.u8]⟩] ∧
    ∀ ord : List Fid → List Fid, (∀ l, (ord l).Perm l) → ∀ n, ∀ roots ∈ [[0, 1], [1, 0], [1]], linkAll answerProg ord n roots = none := by
  have w1 : WasmTy [] [.u64] ⟨[], true⟩ := wasm_of (I := ⟨0, [], [.u64], false, []⟩) rfl
  refine ⟨?_, ⟨fun id hid => ?_, fun id hid I hI c hc => ?_⟩, ?_⟩
  · intro I hI c hc J hJ
    simp only [answerProg, List.mem_cons, List.not_mem_nil, or_false] at hI
    rcases hI with rfl | rfl <;> simp at hc
    subst hc; simp [answerProg] at hJ; subst hJ; simp
  · have : id = ⟨1, none⟩ ∨ id = ⟨0, some [.u8]⟩ := by simpa using hid
    rcases this with rfl | rfl
    · exact ⟨_, _, _, _, rfl, rfl, by simp, ⟨_, rfl, .inl ⟨rfl, rfl, rfl⟩⟩, w1⟩
    · exact ⟨_, _, _, _, rfl, rfl, by simp, ⟨_, rfl, .inr ⟨_, rfl, insts_of rfl, insts_of rfl⟩⟩, w1⟩
  · have : id = ⟨1, none⟩ ∨ id = ⟨0, some [.u8]⟩ := by simpa using hid
    rcases this with rfl | rfl <;> cases hI <;> simp at hc
    subst hc
    exact ⟨⟨0, some [.u8]⟩, _, _, ⟨rfl, .inr ⟨_, _, rfl, rfl, insts_of rfl⟩⟩, ⟨_, rfl, .inr ⟨_, rfl, insts_of rfl, insts_of rfl⟩⟩, fun _ => by simp⟩
  · intro ord hord n roots hroots
    have h0 : ord [] = [] := (hord []).eq_nil
    have h1 : ∀ x, ord [x] = [x] := fun x => List.perm_singleton.mp (hord [x])
    have hroots : roots = [0, 1] ∨ roots = [1, 0] ∨ roots = [1] := by simpa using hroots
    match n with
    | 0 => rcases hroots with rfl | rfl | rfl <;> rfl
    | 1 =>
      rcases hroots with rfl | rfl | rfl <;>
        simp [linkAll, link, instance?, answerProg, Info.generic, hasParams, hasParam, enter, find, translate, callSites, resolve, Info.inst,
          substs, subst, Info.sig, valTys, addToTable, fill, h0, h1]
    | n + 2 =>
      rcases hroots with rfl | rfl | rfl <;>
        simp [linkAll, link, instance?, answerProg, Info.generic, hasParams, hasParam, enter, find, translate, callSites, resolve, Info.inst,
          substs, subst, Info.sig, valTys, addToTable, fill, h0, h1]

end Props
