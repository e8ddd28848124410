import Verif.Proof.Unpack3

/-! ABI unpacking of structs, and of all types. -/

namespace Rt
open Wasm Abi

variable {σ σ' σ'' : Store} {E : ErrPtrs}

/-- Specification of the code unpacking the fields `ts`, the first of them being field `i`, of a
struct at `sp`; `σ0` is the store before the struct was allocated. -/
def UnpackFsOk (ts : List MTy) (i : Nat) (code : List Instr) : Prop :=
  ∀ (vs : List Val) (lim p0 b0 d B sp fp : Nat) (xs : List Nat) (σ0 σ : Store) (is : List Instr)
    (Q : Res → Prop),
    Heap σ0 → Grows σ0 σ → lim ≤ σ0.nextFree → σ0.nextFree ≤ sp → sp + 4 * (i + ts.length) ≤ σ.nextFree →
    i + ts.length ≤ xs.length → DecFs σ.mem lim ts vs B d → Room σ (needFs ts vs) →
    FitsFs σ.size ts vs σ.nextFree →
    (∀ (fp' : Nat) (xs' : List Nat) (σ' : Store), Grows σ0 σ' →
      σ'.nextFree = σ.nextFree + needFs ts vs →
      (∀ x, x < σ.nextFree → x < sp + 4 * i ∨ sp + 4 * (i + ts.length) ≤ x → σ'.mem x = σ.mem x) →
      (∀ g : Bytes, (∀ x, (sp + 4 * i ≤ x ∧ x < sp + 4 * (i + ts.length)) ∨
          (σ.nextFree ≤ x ∧ x < σ'.nextFree) → g x = σ'.mem x) →
        RepFs g σ'.nextFree ts vs (sp + 4 * i) ∧ LaidFs g ts vs (sp + 4 * i) σ.nextFree) →
      wp is [] (p0 :: b0 :: (d + MTy.encSizeFs ts) :: B :: sp :: fp' :: xs') σ' Q) →
    wp (code ++ is) [] (p0 :: b0 :: d :: B :: sp :: fp :: xs) σ Q

theorem unpackFs_nil {i : Nat} : UnpackFsOk [] i [] := by
  intro vs lim p0 b0 d B sp fp xs σ0 σ is Q h1 h2 h3 h4 h5 h6 hd hroom hfit hQ
  cases vs with
  | cons => rw [DecFs] at hd; exact absurd hd id; all_goals simp
  | nil =>
    have := hQ fp xs σ h2 (by simp [needFs]) (fun _ _ _ => rfl) 
      (fun g _ => ⟨by rw [RepFs]; trivial, by simp [LaidFs]⟩)
    rw [MTy.encSizeFs] at this
    exact this

theorem need_scalar {t : MTy} {v : Val} (h : t.isScalar = true) : need t v = 0 := by
  cases t <;> simp [MTy.isScalar] at h <;> rw [need] <;> simp

theorem isScalar_size {t : MTy} (h : t.isScalar = false) : t.size = 4 := by
  cases t <;> simp [MTy.isScalar] at h <;> rfl

set_option maxHeartbeats 4000000 in
theorem unpackFs_cons {t : MTy} {ts : List MTy} {i : Nat} {c1 c2 : List Instr}
    (ht : UnpackOk t c1 2 3) (hts : UnpackFsOk ts (i + 1) c2) :
    UnpackFsOk (t :: ts) i (c1 ++ storeField t i ++ c2) := by
  intro vs lim p0 b0 d B sp fp xs σ0 σ is Q h1 h2 h3 h4 h5 h6 hd hroom hfit hQ
  cases vs with
  | nil => rw [DecFs] at hd; exact absurd hd id; all_goals simp
  | cons v vs =>
  rw [DecFs] at hd
  rw [needFs] at hroom
  rw [FitsFs] at hfit
  rw [List.length_cons] at h5 h6
  have hσ := h2.heap h1
  have hg0 : σ0.nextFree ≤ σ.nextFree := h2.nextFree
  have hr1 := hroom.1
  have hneed : need t v ≤ (if t.isScalar then t.size else need t v) := by
    split_ifs with hs
    · rw [need_scalar hs]; omega
    · exact Nat.le_refl _
  have hbd := hd.1.bound
  have hbd2 := hd.2.bound
  have hsz := hσ.alloc.nextFree_le
  have hsl := hσ.alloc.size_lt
  have hts' := t.size_pos
  -- after the pointer to the field has been stored
  have key : ∀ (σ2 : Store) (w fp' : Nat) (xs' : List Nat), xs'.length = xs.length → fp' < 2 ^ 32 →
      Grows σ0 σ2 → σ2.nextFree = σ.nextFree + (if t.isScalar then t.size else need t v) →
      σ.size ≤ σ2.size →
      (∀ x, x < σ.nextFree → σ2.mem x = σ.mem x) →
      (∀ g : Bytes, (∀ x, σ.nextFree ≤ x → x < σ2.nextFree → g x = σ2.mem x) →
        (t.isScalar = true → fp' + t.size ≤ σ2.nextFree) ∧
        Rep g σ2.nextFree t v (if t.isScalar then leNat g fp' t.size else fp')) →
      (t.plain = true → fp' = σ.nextFree ∧
        ∀ g : Bytes, (∀ x, σ.nextFree ≤ x → x < σ2.nextFree → g x = σ2.mem x) → Laid g t v fp') →
      wp (c2 ++ is) [] (p0 :: b0 :: (d + t.headSize) :: B :: sp :: fp' :: xs')
        (σ2.setMem (putLe σ2.mem (sp + 4 * i) 4 fp')) Q := by
    intro σ2 w fp' xs' hxs hfp hg2 hn2 hsz2 hm2 hrep2 hlaid2
    have hg3 : Grows σ0 (σ2.setMem (putLe σ2.mem (sp + 4 * i) 4 fp')) := by
      refine Extends.putLe hg2 ?_ ?_
      · show σ0.nextFree ≤ _; omega
      · omega
    refine hts vs lim p0 b0 (d + t.headSize) B sp fp' xs' σ0 _ is Q h1 hg3 h3 h4 ?_ ?_ ?_ ?_ ?_ ?_
    · rw [setMem_nextFree]; omega
    · omega
    · refine DecFs.congr ?_ ts hd.2
      intro x hx
      rw [setMem_mem, putLe_out (by omega)]
      exact hm2 x (by omega)
    · refine Room.after hroom ?_ ?_
      · rw [setMem_nextFree, hn2]
      · exact hg2.maxPages.trans h2.maxPages.symm
    · have := FitsFs.mono hsz2 ts hfit.2
      rw [← hn2] at this
      exact this
    · intro fp3 xs3 σ3 g3 n3 m3 r3
      have hmem3 : ∀ x, x < σ2.nextFree → x < sp + 4 * (i + 1) ∨ sp + 4 * (i + 1 + ts.length) ≤ x →
          σ3.mem x = putLe σ2.mem (sp + 4 * i) 4 fp' x := fun x hx hx' => m3 x hx hx'
      replace n3 : σ3.nextFree = σ2.nextFree + needFs ts vs := n3
      have hfin := hQ fp3 xs3 σ3 g3 ?_ ?_ ?_
      · rw [MTy.encSizeFs_cons, ← Nat.add_assoc] at hfin; exact hfin
      · rw [n3, hn2, needFs, Nat.add_assoc]
      · intro x hx hx'
        rw [List.length_cons] at hx'
        rw [hmem3 x (by omega) (by omega), putLe_out (by omega), hm2 x hx]
      · intro g hg
        rw [List.length_cons] at hg
        have hg' : ∀ x, σ.nextFree ≤ x → x < σ2.nextFree → g x = σ2.mem x := by
          intro x hx1 hx2
          rw [hg x (by omega), hmem3 x hx2 (by omega), putLe_out (by omega)]
        have hp : leNat g (sp + 4 * i) 4 = fp' := by
          rw [leNat_congr (g := putLe σ2.mem (sp + 4 * i) 4 fp') (fun x hx1 hx2 => by
            rw [hg x (by omega), hmem3 x (by omega) (by omega)]), leNat_putLe_same,
            Nat.mod_eq_of_lt (by simpa using hfp)]
        obtain ⟨q1, q2⟩ := hrep2 g hg'
        rw [RepFs, LaidFs, hp]
        have := r3 g (fun x hx => ?_)
        · rw [show sp + 4 * (i + 1) = sp + 4 * i + 4 by omega] at this
          refine ⟨⟨by omega, fun hs => by have := q1 hs; omega, Rep.mono (by omega) t q2, this.1⟩, ?_, ?_⟩
          · intro hpl
            have := hlaid2 hpl
            rw [← this.1]
            exact ⟨rfl, this.2 g hg'⟩
          · have := this.2
            rw [setMem_nextFree, hn2] at this
            exact this
        · rcases hx with hx | hx
          · exact hg x (by omega)
          · replace hx : σ2.nextFree ≤ x ∧ x < σ3.nextFree := hx
            exact hg x (by omega)
  simp only [List.append_assoc]
  refine ht v lim σ _ _ _ _ ⟨hσ, by omega, hd.1, hroom.mono (by omega), hfit.1⟩ (by simp) ?_
  intro w σ1 hu
  simp only [lget_zero, lget_succ, lset_zero, lset_succ] at hu ⊢
  have hn1 := hu.nextFree
  have hg1 := h2.trans hu.grows
  have hh1 := hg1.heap h1
  have hs1 := hh1.alloc.nextFree_le
  have hsl1 := hh1.alloc.size_lt
  have hsz1 : σ.size ≤ σ1.size := hu.grows.size
  have hw : w < 256 ^ t.size := (hu.rep σ1.mem (fun _ _ _ => rfl)).lt (by omega)
  have hm1 : ∀ x, x < σ.nextFree → σ1.mem x = σ.mem x := fun x hx => hu.grows.mem x hx
  unfold storeField
  cases hsc : t.isScalar with
  | false =>
    simp only [hsc, List.append_assoc, List.cons_append, List.nil_append, Bool.false_eq_true, if_false]
    wstep
    refine key σ1 w w xs rfl ?_ hg1 (by rw [hn1, hsc]; simp) hsz1 hm1 ?_ (fun hp => ⟨hu.at_ hp hsc, hu.laid hp⟩)
    · rw [isScalar_size hsc] at hw; exact hw
    · intro g hg
      rw [hsc]
      exact ⟨fun h => absurd h (by simp), by simpa using hu.rep g hg⟩
  | true =>
    rw [need_scalar hsc] at hn1
    rw [hsc, if_pos rfl] at hroom
    have hc : CanAlloc σ1 t.size := by
      refine (Room.after (k := 0) (n := t.size) (σ := σ) (hroom.mono (by omega)) (by omega) ?_).canAlloc hh1.alloc (Nat.le_refl _)
      exact hu.grows.maxPages
    have hb := hh1.block (v := w) hc
    have hain := allocated_inside hh1.alloc hc
    have hm := hh1.allocated_mem (n := t.size)
    have hnf : (allocated σ1 t.size).nextFree = σ1.nextFree + t.size := allocated_nextFree
    have hx := hh1.allocated hc
    have hsl2 := hx.alloc.size_lt
    have hsz2 := hx.size
    simp only [hsc, List.append_assoc, List.cons_append, List.nil_append, if_true]
    rw [Nat.add_comm 6 i]
    wstep
    refine wp_alloc hh1 hc ?_
    generalize allocated σ1 t.size = σ2 at *
    wstep
    rw [hm]
    refine key (σ2.setMem (putLe σ1.mem σ1.nextFree t.size w)) w σ1.nextFree _ (by rw [lset_length]) (by omega)
      (hg1.trans hb.grows) ?_ ?_ ?_ ?_ (fun _ => ⟨hn1, fun g _ => by
        cases t <;> simp [MTy.isScalar] at hsc <;> simp [Laid]⟩)
    · rw [hsc]; show σ2.nextFree = _; rw [if_pos rfl]; omega
    · show σ.size ≤ σ2.size; omega
    · intro x hx
      show putLe _ _ _ _ x = _
      rw [putLe_out (by omega), hm1 x hx]
    · intro g hg
      replace hg : ∀ x, σ.nextFree ≤ x → x < σ2.nextFree → g x = putLe σ1.mem σ1.nextFree t.size w x := hg
      refine ⟨fun _ => by show _ ≤ σ2.nextFree; omega, ?_⟩
      rw [hsc, if_pos rfl]
      show Rep g σ2.nextFree t v _
      have e1 : leNat g σ1.nextFree t.size = w := by
        rw [leNat_congr (g := putLe σ1.mem σ1.nextFree t.size w) (fun x hx1 hx2 => hg x (by omega) (by omega)),
          leNat_putLe_same, Nat.mod_eq_of_lt hw]
      rw [e1]
      refine Rep.mono (by omega) t (hu.rep g fun x hx1 hx2 => absurd hx2 (by omega))

set_option maxHeartbeats 4000000 in
theorem unpackStruct_spec {ts : List MTy} {fields : List Instr} (hE : E.Valid)
    (hf : UnpackFsOk ts 0 fields) :
    UnpackFnOk (.struct ts) (unpackStruct E ts.length (MTy.encSizeFs ts) (MTy.dynFs ts) fields) := by
  intro v lim b p σ hpre
  obtain ⟨hσ, hlim, hd, hroom, hfit⟩ := hpre
  have hbd := hd.bound
  cases v with
  | word => rw [Dec] at hd; exact absurd hd id; all_goals simp
  | bytes => rw [Dec] at hd; exact absurd hd id; all_goals simp
  | array => rw [Dec] at hd; exact absurd hd id; all_goals simp
  | tuple vs =>
  rw [Dec] at hd
  rw [need] at hroom
  rw [Fits] at hfit
  have hr1 := hroom.1
  have h1 := hσ.alloc.nextFree_le
  have h2 := hσ.alloc.size_lt
  have h3 := hσ.alloc.first
  have hc : CanAlloc σ (4 * ts.length) := hroom.canAlloc hσ.alloc (by omega)
  have hx := hσ.allocated hc
  have hm := hσ.allocated_mem (n := 4 * ts.length)
  have hnf : (allocated σ (4 * ts.length)).nextFree = σ.nextFree + 4 * ts.length := allocated_nextFree
  have hmx : (allocated σ (4 * ts.length)).maxPages = σ.maxPages := allocated_maxPages
  have hsz := hx.size
  have hrl : (List.replicate (4 + ts.length) 0 : List Nat) = 0 :: 0 :: 0 :: 0 :: List.replicate ts.length 0 := by
    rw [Nat.add_comm]; rfl
  -- from the allocation on
  have main : ∀ (q B h : Nat), h = MTy.headSize (.struct ts) → DecFs σ.mem lim ts vs B q →
      wp (code[Op.c32 (4 * ts.length), alloc.call, Op.lset 4] ++ (fields ++
        code[Op.lget 0, Op.c32 h, Op.bin .w32 .add, Op.gset .reader, Op.lget 4])) []
        (p :: b :: q :: B :: 0 :: 0 :: List.replicate ts.length 0) σ
        (retK 1 (fun r σ' => ∃ w, r = [w] ∧ Unpacked σ σ' (.struct ts) (.tuple vs) w (p + MTy.headSize (.struct ts)))) := by
    intro q B h hh hd
    simp only [List.cons_append, List.nil_append]
    wstep
    refine wp_alloc hσ hc ?_
    generalize allocated σ (4 * ts.length) = σ1 at *
    wstep
    refine hf vs lim p b q B σ.nextFree 0 _ σ σ1 _ _ hσ hx.grows hlim (Nat.le_refl _) (by omega)
      (by simp) (by rw [hm]; exact hd) (Room.after hroom (by omega) hmx) ?_ ?_
    · have := FitsFs.mono hsz ts hfit
      rwa [← hnf] at this
    · intro fp' xs' σ' g n m r
      wstep
      rw [hh]
      refine ⟨_, rfl, g.setReader, rfl, ?_, ?_, fun _ _ => rfl, ?_⟩
      · show σ'.nextFree = _; rw [n, hnf, need]; omega
      · intro g' hg'
        show Rep g' σ'.nextFree _ _ _
        rw [Rep]
        refine ⟨by show σ.nextFree ≤ σ'.nextFree; omega, ?_⟩
        exact (r g' (fun x hx => hg' x (by omega) (by show x < σ'.nextFree; omega))).1
      · intro _ g' hg'
        rw [Laid]
        have := (r g' (fun x hx => hg' x (by omega) (by show x < σ'.nextFree; omega))).2
        rw [hnf] at this
        exact this
  refine ⟨rfl, ?_⟩
  unfold unpackStruct
  rw [hrl]
  cases hdyn : MTy.dynFs ts with
  | false =>
    rw [hdyn] at hd
    simp only [Bool.false_eq_true, if_false, List.append_assoc, List.cons_append, List.nil_append] at hd ⊢
    rw [wp_lget, wp_lset, wp_lget, wp_lset]
    simp only [lget_zero, lget_succ, lset_zero, lset_succ]
    refine main p b _ ?_ hd
    unfold MTy.headSize; rw [MTy.dyn, hdyn, MTy.encSize]; simp
  | true =>
    rw [hdyn] at hd
    simp only [if_true, List.append_assoc, List.cons_append, List.nil_append] at hd ⊢
    obtain ⟨q, ⟨hp, hq⟩, hd⟩ := hd
    have hb2 := hd.bound
    have e1 : beNat σ.mem (p + 28) 4 = beNat σ.mem p 32 := beNat_low rfl rfl (by
      have : (256 : Nat) ^ 4 = 2 ^ 32 := rfl
      omega)
    rw [wp_lget]
    refine wp_validate hE h3 (by wstep; omega) hσ.ready.noErr ?_
    rw [IfP.pos (by wstep; omega)]
    rw [wp_lget, wp_load (by wstep; omega)]
    refine wp_eval1 swap32_spec ?_
    simp only [lget_zero, lget_succ, lset_zero, lset_succ]
    rw [bswap_leNat, e1, wp_lget, wp_add, wp_ltee, wp_lset]
    simp only [lget_zero, lget_succ, lset_zero, lset_succ]
    rw [W.mod32, Nat.add_comm _ b, hq, Nat.mod_eq_of_lt (by omega)]
    refine main q q _ ?_ hd
    unfold MTy.headSize; rw [MTy.dyn, hdyn]; simp

/-! ### All types -/

theorem unpackCode1 {t : MTy} {f : Fn} {r b : Nat} (h : ∀ (v : Val) (lim b p : Nat) (σ : Store),
    UnpackPre σ t v lim b p →
    f.Calls [p] σ (fun r σ' => ∃ w, r = [w] ∧ Unpacked σ σ' t v w (p + t.headSize))) :
    UnpackOk t code[Op.lget r, f.call, Op.gget .reader, Op.lset r] r b := by
  intro v lim σ l s is Q hpre hr hQ
  simp only [List.cons_append, List.nil_append]
  rw [wp_lget]
  refine wp_call1 (h v lim _ _ σ hpre) ?_
  rintro rs σ' ⟨w, rfl, hu⟩
  rw [List.cons_append, List.nil_append, wp_gget, wp_lset, getGlob_reader, hu.reader]
  exact hQ w σ' hu

theorem unpackCode2 {t : MTy} {f : Fn} {r b : Nat} (h : UnpackFnOk t f) :
    UnpackOk t code[Op.lget r, Op.lget b, f.call, Op.gget .reader, Op.lset r] r b := by
  intro v lim σ l s is Q hpre hr hQ
  simp only [List.cons_append, List.nil_append]
  rw [wp_lget, wp_lget]
  refine wp_call2 (h v lim _ _ σ hpre) ?_
  rintro rs σ' ⟨w, rfl, hu⟩
  rw [List.cons_append, List.nil_append, wp_gget, wp_lset, getGlob_reader, hu.reader]
  exact hQ w σ' hu

theorem unpackCode3 {t : MTy} {f : Fn} {r b : Nat} {pc : Instr} (hpc : PropOk pc) (h : UnpackFnOk t f) :
    UnpackOk t code[Op.lget r, Op.lget b, f.call, pc, Op.gget .reader, Op.lset r] r b := by
  intro v lim σ l s is Q hpre hr hQ
  simp only [List.cons_append, List.nil_append]
  rw [wp_lget, wp_lget]
  refine wp_call2 (h v lim _ _ σ hpre) ?_
  rintro rs σ' ⟨w, rfl, hu⟩
  have hh := hu.grows.heap hpre.heap
  have := hh.ready.size
  refine hpc _ _ _ _ _ (by omega) hh.ready.noErr ?_
  rw [List.cons_append, List.nil_append, wp_gget, wp_lset, getGlob_reader, hu.reader]
  exact hQ w σ' hu

theorem Unpacked.scalar {t : MTy} {v : Val} {w r : Nat} (hσ : Heap σ) (ht : t.isScalar = true)
    (h : ∀ g lim, Rep g lim t v w) : Unpacked σ { σ with reader := r } t v w r :=
  ⟨hσ.grows.setReader, rfl, by rw [need_scalar ht]; rfl, fun g _ => h g _, fun _ h => absurd ht (by simp [h]),
    fun _ g _ => by cases t <;> simp [MTy.isScalar] at ht <;> simp [Laid]⟩

/-- Types read by `unpackU32`. -/
theorem unpackU32_ok {t : MTy} {r b : Nat} {k : Nat} (hk : k ≤ 2 ^ 32) (ht : t.isScalar = true)
    (hs : t.headSize = 32)
    (hd : ∀ {f lim v b p}, Dec f lim t v b p → ∃ n, v = .word n ∧ p + 32 ≤ lim ∧ beNat f p 32 = n ∧ n < k)
    (hr : ∀ g lim n, n < k → Rep g lim t (.word n) n) :
    UnpackOk t code[Op.lget r, Op.c32 32, unpackU32.call, Op.gget .reader, Op.lset r] r b := by
  intro v lim σ l s is Q hpre hrl hQ
  obtain ⟨n, rfl, h1, h2, h3⟩ := hd hpre.dec
  have h4 := hpre.heap.alloc.nextFree_le
  have h5 := hpre.heap.alloc.size_lt
  have h6 := hpre.le
  simp only [List.cons_append, List.nil_append]
  rw [wp_lget, wp_c32]
  refine wp_call2 (unpackU32_spec (by omega)) ?_
  rintro rs σ' ⟨rfl, rfl⟩
  rw [List.cons_append, List.nil_append, wp_gget, wp_lset, getGlob_reader]
  have e : beNat σ.mem (lget l r + 28) 4 = n := beNat_low rfl h2 (by
    have : (256 : Nat) ^ 4 = 2 ^ 32 := rfl
    omega)
  rw [e, show 32 % 4294967296 = 32 from rfl, Nat.mod_eq_of_lt (by omega), ← hs]
  exact hQ n _ (Unpacked.scalar hpre.heap ht (fun g lim => hr g lim n h3))

/-- Types other than structs, vectors and strings. -/
def MTy.flat : MTy → Bool
  | .struct _ | .vec _ | .string => false
  | _ => true

/-- Values allocated in one block. -/
theorem Unpacked.block {t : MTy} {v : Val} {n r : Nat} (hg : Grows σ σ') (hr : σ'.reader = r)
    (hn : σ'.nextFree = σ.nextFree + n) (hneed : need t v = n) (ht : t.flat = true)
    (h : ∀ g : Bytes, (∀ x, σ.nextFree ≤ x → x < σ.nextFree + n → g x = σ'.mem x) →
      Rep g (σ.nextFree + n) t v σ.nextFree) : Unpacked σ σ' t v σ.nextFree r :=
  ⟨hg, hr, by rw [hneed]; exact hn, fun g hg' => by rw [hn] at hg' ⊢; exact h g hg', fun _ _ => rfl,
    fun _ g _ => by cases t <;> simp [MTy.flat] at ht <;> simp [Laid]⟩

theorem unpackU64_ok {r b : Nat} :
    UnpackOk .u64 code[Op.lget r, unpackU64.call, Op.gget .reader, Op.lset r] r b := by
  refine unpackCode1 fun v lim b p σ hpre => ?_
  have hd := hpre.dec
  have h4 := hpre.heap.alloc.nextFree_le
  have h5 := hpre.heap.alloc.size_lt
  have h6 := hpre.le
  cases v with
  | bytes => rw [Dec] at hd; exact absurd hd id; all_goals simp
  | array => rw [Dec] at hd; exact absurd hd id; all_goals simp
  | tuple => rw [Dec] at hd; exact absurd hd id; all_goals simp
  | word n =>
    rw [Dec] at hd
    refine (unpackU64_spec (by omega) h5).mono ?_
    rintro rs σ' ⟨rfl, rfl⟩
    refine ⟨_, rfl, ?_⟩
    rw [beNat_low (n := n) rfl hd.2.1 (by
      have : (256 : Nat) ^ 8 = 2 ^ 64 := rfl
      omega)]
    exact Unpacked.scalar hpre.heap rfl (fun g lim => by rw [Rep]; exact ⟨rfl, hd.2.2⟩)

theorem unpackU128_ok {r b : Nat} :
    UnpackOk .u128 code[Op.lget r, unpackU128.call, Op.gget .reader, Op.lset r] r b := by
  refine unpackCode1 fun v lim b p σ hpre => ?_
  have hd := hpre.dec
  have h6 := hpre.le
  cases v with
  | bytes => rw [Dec] at hd; exact absurd hd id; all_goals simp
  | array => rw [Dec] at hd; exact absurd hd id; all_goals simp
  | tuple => rw [Dec] at hd; exact absurd hd id; all_goals simp
  | word n =>
    rw [Dec] at hd
    have hneed : need .u128 (.word n) = 16 := by simp [need]
    have hroom := hpre.room
    rw [hneed] at hroom
    refine (unpackU128_spec hpre.heap (by omega) (hroom.canAlloc hpre.heap.alloc (Nat.le_refl _))).mono ?_
    rintro rs σ' ⟨rfl, hg, hr, hn, hm⟩
    have e16 : (256 : Nat) ^ 16 = 2 ^ 128 := rfl
    refine ⟨_, rfl, Unpacked.block hg hr hn hneed rfl fun g hgx => ?_⟩
    rw [Rep, leNat_congr (fun x h1 h2 => hgx x h1 h2), hm, leNat_putLe_same,
      beNat_low (n := n) rfl hd.2.1 (by omega), Nat.mod_eq_of_lt (by omega)]
    exact ⟨Nat.le_refl _, rfl⟩

theorem unpackU256_ok {r b : Nat} :
    UnpackOk .u256 code[Op.lget r, unpackU256.call, Op.gget .reader, Op.lset r] r b := by
  refine unpackCode1 fun v lim b p σ hpre => ?_
  have hd := hpre.dec
  have h6 := hpre.le
  cases v with
  | bytes => rw [Dec] at hd; exact absurd hd id; all_goals simp
  | array => rw [Dec] at hd; exact absurd hd id; all_goals simp
  | tuple => rw [Dec] at hd; exact absurd hd id; all_goals simp
  | word n =>
    rw [Dec] at hd
    have hneed : need .u256 (.word n) = 32 := by simp [need]
    have hroom := hpre.room
    rw [hneed] at hroom
    refine (unpackU256_spec hpre.heap (by omega) (hroom.canAlloc hpre.heap.alloc (Nat.le_refl _))).mono ?_
    rintro rs σ' ⟨rfl, hg, hr, hn, hm⟩
    refine ⟨_, rfl, Unpacked.block hg hr hn hneed rfl fun g hgx => ?_⟩
    rw [Rep, leNat_congr (fun x h1 h2 => hgx x h1 h2), hm, leNat_putLe_same,
      Nat.mod_eq_of_lt (beNat_lt _ _ _), hd.2]
    exact ⟨Nat.le_refl _, rfl⟩

theorem unpackAddress_ok {r b : Nat} :
    UnpackOk .address code[Op.lget r, unpackAddress.call, Op.gget .reader, Op.lset r] r b := by
  refine unpackCode1 fun v lim b p σ hpre => ?_
  have hd := hpre.dec
  have h6 := hpre.le
  cases v with
  | bytes => rw [Dec] at hd; exact absurd hd id; all_goals simp
  | array => rw [Dec] at hd; exact absurd hd id; all_goals simp
  | tuple => rw [Dec] at hd; exact absurd hd id; all_goals simp
  | word n =>
    rw [Dec] at hd
    have hneed : need .address (.word n) = 32 := by simp [need]
    have hroom := hpre.room
    rw [hneed] at hroom
    refine (unpackAddress_spec hpre.heap (by omega) (hroom.canAlloc hpre.heap.alloc (Nat.le_refl _))).mono ?_
    rintro rs σ' ⟨rfl, hg, hr, hn, hm⟩
    refine ⟨_, rfl, Unpacked.block hg hr hn hneed rfl fun g hgx => ?_⟩
    rw [Rep, beNat_congr (fun x h1 h2 => hgx x h1 h2), hm, ← hd.2]
    refine ⟨Nat.le_refl _, beNat_ext fun i hi => ?_⟩
    rw [copyBytes_in (by omega) (by omega), Nat.add_sub_cancel_left]

theorem unpackEnum_ok {r b k : Nat} (hk : k ≤ 2 ^ 32) :
    UnpackOk (.enum k) code[Op.lget r, (unpackEnum E k).call, Op.gget .reader, Op.lset r] r b := by
  refine unpackCode1 fun v lim b p σ hpre => ?_
  have hd := hpre.dec
  have h6 := hpre.le
  cases v with
  | bytes => rw [Dec] at hd; exact absurd hd id; all_goals simp
  | array => rw [Dec] at hd; exact absurd hd id; all_goals simp
  | tuple => rw [Dec] at hd; exact absurd hd id; all_goals simp
  | word n =>
    rw [Dec] at hd
    have hneed : need (.enum k) (.word n) = 4 := by simp [need]
    have hroom := hpre.room
    rw [hneed] at hroom
    have e4 : (256 : Nat) ^ 4 = 2 ^ 32 := rfl
    have e := beNat_low (n := n) (f := σ.mem) (p := p) (m := 28) (k := 4) rfl hd.2.1 (by omega)
    refine (unpackEnum_spec hpre.heap ⟨by omega, hk⟩ (by omega) (by omega)
      (hroom.canAlloc hpre.heap.alloc (Nat.le_refl _))).mono ?_
    rintro rs σ' ⟨rfl, hg, hr, hn, hm⟩
    refine ⟨_, rfl, Unpacked.block hg hr hn hneed rfl fun g hgx => ?_⟩
    rw [Rep, leNat_congr (fun x h1 h2 => hgx x h1 h2), hm, leNat_putLe_same, e, Nat.mod_eq_of_lt (by omega)]
    exact ⟨Nat.le_refl _, rfl, hd.2.2⟩

theorem unpackString_ok {r b : Nat} (hE : E.Valid) :
    UnpackOk .string code[Op.lget r, Op.lget b, (unpackString E).call, Op.gget .reader, Op.lset r] r b := by
  refine unpackCode2 fun v lim b p σ hpre => ?_
  have hd := hpre.dec
  cases v with
  | word => rw [Dec] at hd; exact absurd hd id; all_goals simp
  | array => rw [Dec] at hd; exact absurd hd id; all_goals simp
  | tuple => rw [Dec] at hd; exact absurd hd id; all_goals simp
  | bytes bs => exact unpackString_spec hE hpre.heap hd hpre.le hpre.room hpre.fits

mutual
/-- Number of variants of all enums in a type is 32-bit (Move allows at most 127). -/
def EnumsOk : MTy → Prop
  | .enum k => k ≤ 2 ^ 32
  | .vec t => EnumsOk t
  | .struct fs => EnumsOkFs fs
  | _ => True
def EnumsOkFs : List MTy → Prop
  | [] => True
  | t :: ts => EnumsOk t ∧ EnumsOkFs ts
end

mutual
theorem unpackT_ok (hE : E.Valid) {pc : Instr} (hpc : PropOk pc) (r b : Nat) (t : MTy) (ht : EnumsOk t) :
    UnpackOk t (unpackT E pc r b t) r b := by
  match t with
  | .bool =>
    refine unpackU32_ok (k := 2) (by omega) rfl rfl (fun {f lim v b p} hd => ?_) (fun g lim n hn => ?_)
    · cases v <;> simp only [Dec] at hd
      exact ⟨_, rfl, hd⟩
    · rw [Rep]; exact ⟨rfl, hn⟩
  | .u8 =>
    refine unpackU32_ok (k := 2 ^ 8) (by omega) rfl rfl (fun {f lim v b p} hd => ?_) (fun g lim n hn => ?_)
    · cases v <;> simp only [Dec] at hd
      exact ⟨_, rfl, hd⟩
    · rw [Rep]; exact ⟨rfl, hn⟩
  | .u16 =>
    refine unpackU32_ok (k := 2 ^ 16) (by omega) rfl rfl (fun {f lim v b p} hd => ?_) (fun g lim n hn => ?_)
    · cases v <;> simp only [Dec] at hd
      exact ⟨_, rfl, hd⟩
    · rw [Rep]; exact ⟨rfl, hn⟩
  | .u32 =>
    refine unpackU32_ok (k := 2 ^ 32) (by omega) rfl rfl (fun {f lim v b p} hd => ?_) (fun g lim n hn => ?_)
    · cases v <;> simp only [Dec] at hd
      exact ⟨_, rfl, hd⟩
    · rw [Rep]; exact ⟨rfl, hn⟩
  | .u64 => exact unpackU64_ok
  | .u128 => exact unpackU128_ok
  | .u256 => exact unpackU256_ok
  | .address => exact unpackAddress_ok
  | .vec t =>
    rw [EnumsOk] at ht
    rw [unpackT]
    exact unpackCode3 hpc (unpackVec_spec hE (unpackT_ok hE (propagate_ok _) 2 7 t ht))
  | .struct ts =>
    rw [EnumsOk] at ht
    rw [unpackT]
    exact unpackCode3 hpc (unpackStruct_spec hE (unpackFs_ok hE 0 ts ht))
  | .enum k =>
    rw [EnumsOk] at ht
    exact unpackEnum_ok ht
  | .string => exact unpackString_ok hE
theorem unpackFs_ok (hE : E.Valid) (i : Nat) (ts : List MTy) (ht : EnumsOkFs ts) :
    UnpackFsOk ts i (unpackFs E i ts) := by
  match ts with
  | [] => rw [unpackFs]; exact unpackFs_nil
  | t :: ts =>
    rw [EnumsOkFs] at ht
    rw [unpackFs]
    exact unpackFs_cons (unpackT_ok hE (propagate_ok _) 2 3 t ht.1) (unpackFs_ok hE (i + 1) ts ht.2)
end

end Rt
