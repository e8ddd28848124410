import Verif.Proof.Router4
import Verif.Wlp

/-! The entry point with arbitrary functions. -/

namespace Rt
open Wasm Abi

variable {σ σ' σ'' : Store} {E : ErrPtrs}

/-! ### The ABI code makes no host calls -/

theorem propagate_noHost (ty : RetTy) : (propagate ty).noHost = true := by cases ty <;> rfl
theorem propagateTo_noHost (ty : RetTy) (d : Nat) : (propagateTo ty d).noHost = true := by cases ty <;> rfl
theorem alloc_noHost : noHostL alloc.body = true := rfl
theorem unpackU32_noHost : noHostL unpackU32.body = true := rfl
theorem unpackU64_noHost : noHostL unpackU64.body = true := rfl
theorem unpackU128_noHost : noHostL unpackU128.body = true := rfl
theorem unpackU256_noHost : noHostL unpackU256.body = true := rfl
theorem unpackAddress_noHost : noHostL unpackAddress.body = true := rfl
theorem unpackEnum_noHost (n : Nat) : noHostL (unpackEnum E n).body = true := rfl
theorem unpackString_noHost : noHostL (unpackString E).body = true := rfl
theorem packU32_noHost : noHostL packU32.body = true := rfl
theorem packU64_noHost : noHostL packU64.body = true := rfl
theorem packU128_noHost : noHostL packU128.body = true := rfl
theorem packU256_noHost : noHostL packU256.body = true := rfl
theorem packAddress_noHost : noHostL packAddress.body = true := rfl
theorem packEnum_noHost : noHostL (packEnum E).body = true := rfl
theorem packString_noHost : noHostL packString.body = true := rfl

theorem unpackVec_noHost {n : Nat} {inner : List Instr} (h : noHostL inner = true) :
    noHostL (unpackVec E n inner).body = true := by
  have h1 : noHostL (findData E) = true := rfl
  have h2 : noHostL allocVec.body = true := rfl
  simp [unpackVec, noHostL, noHostL_append, h, h1, h2, Instr.noHost, Op.noHost, Fn.call, skipVecHeader]

theorem unpackStruct_noHost {n k : Nat} {d : Bool} {inner : List Instr} (h : noHostL inner = true) :
    noHostL (unpackStruct E n k d inner).body = true := by
  have h1 : noHostL (validatePtr E).body = true := rfl
  have h3 : noHostL swap32.body = true := rfl
  cases d <;>
  simp [unpackStruct, noHostL, noHostL_append, h, h1, h3, alloc_noHost, propagate_noHost, Instr.noHost, Op.noHost, Fn.call]

mutual
theorem unpackT_noHost {pc : Instr} (hpc : pc.noHost = true) {r b : Nat} : (t : MTy) →
    noHostL (unpackT E pc r b t) = true
  | .bool | .u8 | .u16 | .u32 | .u64 | .u128 | .u256 | .address | .enum _ | .string => by
    rw [unpackT]; rfl
  | .vec t => by
    have := unpackVec_noHost (E := E) (n := t.size) (unpackT_noHost (propagate_noHost .i32) (r := 2) (b := 7) t)
    rw [unpackT]
    simp [noHostL, Instr.noHost, Op.noHost, Fn.call, this, hpc]
  | .struct fs => by
    have := unpackStruct_noHost (E := E) (n := fs.length) (k := MTy.encSizeFs fs) (d := MTy.dynFs fs)
      (unpackFs_noHost 0 fs)
    rw [unpackT]
    simp [noHostL, Instr.noHost, Op.noHost, Fn.call, this, hpc]
theorem unpackFs_noHost (i : Nat) : (ts : List MTy) → noHostL (unpackFs E i ts) = true
  | [] => by rw [unpackFs]; rfl
  | t :: ts => by
    have h1 := unpackT_noHost (propagate_noHost .i32) (r := 2) (b := 3) t
    have h2 := unpackFs_noHost (i + 1) ts
    have h3 : noHostL (storeField t i) = true := by
      unfold storeField; split <;> rfl
    rw [unpackFs, noHostL_append, noHostL_append, h1, h2, h3]; rfl
end

theorem unpackA_noHost {pc : Instr} (hpc : pc.noHost = true) {r b : Nat} (t : ATy) :
    noHostL (unpackA E pc r b t) = true := by
  cases t with
  | txCtx => rfl
  | val t =>
    cases t with
    | val t => exact unpackT_noHost hpc t
    | ref t =>
      rw [unpackA, unpackP]
      split
      · have := unpackT_noHost (E := E) (propagate_noHost .i32) (r := 0) (b := 1) t
        simp [noHostL, noHostL_append, Instr.noHost, Op.noHost, Fn.call, this, hpc, unpackRef, alloc_noHost]
      · rw [noHostL_append, unpackT_noHost hpc t]; rfl

theorem unpackActs_noHost {pc : Instr} (hpc : pc.noHost = true) {a r : Nat} (ts : List ATy) :
    noHostL (unpackActs E pc a r ts) = true := by
  unfold unpackActs
  rw [noHostL_append]
  have : ∀ ts : List ATy, noHostL (ts.flatMap (unpackA E pc r (r + 1))) = true := by
    intro ts
    induction ts with
    | nil => rfl
    | cons t ts ih => rw [List.flatMap_cons, noHostL_append, ih, unpackA_noHost hpc]; rfl
  rw [this]; rfl

theorem packVec_noHost {n k : Nat} {inner : List Instr} (h : noHostL inner = true) :
    noHostL (packVec n k inner).body = true := by
  simp [packVec, noHostL, noHostL_append, h, alloc_noHost, packU32_noHost, Instr.noHost, Op.noHost, Fn.call, skipVecHeader]

theorem packStruct_noHost {n : Nat} {inner : List Instr} (h : noHostL inner = true) :
    noHostL (packStruct n inner).body = true := by
  simp [packStruct, noHostL, h, alloc_noHost, packU32_noHost, Instr.noHost, Op.noHost, Fn.call]

mutual
theorem packT_noHost {pv pc : Instr} (hpv : pv.noHost = true) (hpc : pc.noHost = true) {l w b : Nat} : (t : MTy) →
    noHostL (packT E pv pc l w b t) = true
  | .bool | .u8 | .u16 | .u32 | .u64 | .u128 | .u256 | .address | .string => by
    rw [packT]; rfl
  | .enum _ => by
    rw [packT]
    simp [noHostL, Instr.noHost, Op.noHost, Fn.call, packEnum_noHost, hpc]
  | .vec t => by
    have := packVec_noHost (n := t.size) (k := t.headSize) (packT_noHost (propagate_noHost .none)
      (propagate_noHost .none) (l := 8) (w := 3) (b := 4) t)
    rw [packT]
    simp [noHostL, Instr.noHost, Op.noHost, Fn.call, this, hpv]
  | .struct fs => by
    have := packStruct_noHost (n := MTy.encSizeFs fs) (packFs_noHost 0 fs)
    rw [packT]
    simp [noHostL, Instr.noHost, Op.noHost, Fn.call, this, hpc]
theorem packFs_noHost (i : Nat) : (ts : List MTy) → noHostL (packFs E i ts) = true
  | [] => by rw [packFs]; rfl
  | t :: ts => by
    have h1 := packT_noHost (propagate_noHost .none) (propagate_noHost .none) (l := t.fieldLocal) (w := 7) (b := 8) t
    have h2 := packFs_noHost (i + 1) ts
    have h3 : noHostL (loadField t i) = true := by
      unfold loadField; split <;> rfl
    rw [packFs]
    simp [noHostL, noHostL_append, Instr.noHost, Op.noHost, h1, h2, h3]
end

theorem packP_noHost {pv pc : Instr} (hpv : pv.noHost = true) (hpc : pc.noHost = true) {l w b : Nat} (t : PTy) :
    noHostL (packP E pv pc l w b t) = true := by
  cases t with
  | val t => exact packT_noHost hpv hpc t
  | ref t =>
    rw [packP]
    split
    · rw [noHostL_append, packT_noHost hpv hpc t]; rfl
    · have : noHostL (packRef E t).body = true := by
        unfold packRef
        split
        · simp [noHostL, Instr.noHost, Op.noHost, packT_noHost, propagate_noHost]
        · simp [noHostL, Instr.noHost, Op.noHost, packT_noHost, propagate_noHost]
      simp [noHostL, Instr.noHost, Op.noHost, Fn.call, this, hpc]

theorem packAll_noHost {pv pc : Instr} (hpv : pv.noHost = true) (hpc : pc.noHost = true) {k : Nat} (ts : List PTy) :
    noHostL (packAll E pv pc k ts) = true := by
  have h1 : ∀ (ts : List PTy) (top j : Nat), noHostL (packEach E pv pc top j ts) = true := by
    intro ts
    induction ts with
    | nil => intro top j; rfl
    | cons t ts ih =>
      intro top j
      rw [packEach]
      simp [noHostL, noHostL_append, Instr.noHost, Op.noHost, ih, packP_noHost hpv hpc]
  have h2 : ∀ xs : List Nat, noHostL (xs.map (fun i => (Op.lset (k + i) : Instr))) = true := by
    intro xs
    induction xs with
    | nil => rfl
    | cons x xs ih => rw [List.map_cons, noHostL, ih]; rfl
  unfold packAll
  simp [noHostL, noHostL_append, Instr.noHost, Op.noHost, h1, h2, alloc_noHost, Fn.call]

theorem loadRets_noHost {k : Nat} : ∀ (ts : List PTy) (off : Nat), noHostL (loadRets k off ts) = true := by
  intro ts
  induction ts with
  | nil => intro off; rfl
  | cons t ts ih => intro off; rw [loadRets, noHostL_append, ih]; rfl

/-! ### Values returned -/

theorem unpackT_rets {r b d : Nat} {ty : RetTy} (t : MTy) : retsL false (unpackT E (propagateTo ty d) r b t) = true := by
  cases t <;> rw [unpackT] <;> cases ty <;> rfl

theorem unpackA_rets {r b d : Nat} {ty : RetTy} (t : ATy) : retsL false (unpackA E (propagateTo ty d) r b t) = true := by
  cases t with
  | txCtx => rfl
  | val t =>
    cases t with
    | val t => exact unpackT_rets t
    | ref t =>
      rw [unpackA, unpackP]
      split
      · cases ty <;> rfl
      · exact retsL_append (unpackT_rets t) rfl

theorem unpackActs_rets {a r d : Nat} {ty : RetTy} (ts : List ATy) :
    retsL false (unpackActs E (propagateTo ty d) a r ts) = true := by
  unfold unpackActs
  refine retsL_append rfl ?_
  induction ts with
  | nil => rfl
  | cons t ts ih => rw [List.flatMap_cons]; exact retsL_append (unpackA_rets t) ih

theorem packT_rets {l w b d : Nat} {ty : RetTy} (t : MTy) :
    retsL false (packT E (propagate .i32) (propagateTo ty d) l w b t) = true := by
  cases t <;> rw [packT] <;> cases ty <;> rfl

theorem packP_rets {l w b d : Nat} {ty : RetTy} (t : PTy) :
    retsL false (packP E (propagate .i32) (propagateTo ty d) l w b t) = true := by
  cases t with
  | val t => exact packT_rets t
  | ref t =>
    rw [packP]
    split
    · exact retsL_append rfl (packT_rets t)
    · cases ty <;> rfl

theorem packAll_rets {k d : Nat} {ty : RetTy} (ts : List PTy) :
    retsL false (packAll E (propagate .i32) (propagateTo ty d) k ts) = true := by
  have h1 : ∀ (ts : List PTy) (top j : Nat), retsL false (packEach E (propagate .i32) (propagateTo ty d) top j ts) = true := by
    intro ts
    induction ts with
    | nil => intro top j; rfl
    | cons t ts ih =>
      intro top j
      rw [packEach]
      exact retsL_append (retsL_append (retsL_append rfl (packP_rets t)) rfl) (ih _ _)
  have h2 : ∀ xs : List Nat, retsL false (xs.map (fun i => (Op.lset (k + i) : Instr))) = true := by
    intro xs
    induction xs with
    | nil => rfl
    | cons x xs ih => rw [List.map_cons, retsL]; exact ih
  unfold packAll
  exact retsL_append (retsL_append (retsL_append (h2 _) rfl) (h1 _ _ _)) rfl

theorem loadRets_rets {k : Nat} : ∀ (ts : List PTy) (off : Nat), retsL false (loadRets k off ts) = true := by
  intro ts
  induction ts with
  | nil => intro off; rfl
  | cons t ts ih => intro off; rw [loadRets]; exact retsL_append rfl (ih _)

theorem wrap_rets {d k : Nat} {f : PubFn} : retsL false (wrap E d k f) = true := by
  unfold wrap
  refine retsL_append (retsL_append (unpackActs_rets _) rfl) ?_
  split
  · rfl
  · exact retsL_append (retsL_append (retsL_append rfl (loadRets_rets _ _)) (packAll_rets _)) rfl

theorem routerBlocks_rets : ∀ (fs : List PubFn) (k : Nat), retsL false (routerBlocks E k fs) = true := by
  intro fs
  induction fs with
  | nil => intro k; rfl
  | cons f fs ih =>
    intro k
    rw [routerBlocks, retsL, Bool.and_eq_true]
    refine ⟨?_, ih _⟩
    unfold routerBlock
    rw [Instr.rets]
    exact retsL_append (retsL_append rfl wrap_rets) rfl

theorem routerBody_rets {C : Contract} : retsL false (routerBody C) = true := by
  unfold routerBody
  refine retsL_append (retsL_append (retsL_append ?_ (routerBlocks_rets _ _)) ?_) ?_
  · unfold routerSelect; split <;> rfl
  · unfold routerFallback
    split
    · exact retsL_append (retsL_append rfl wrap_rets) rfl
    · rfl
  · rfl

/-! ### Branches -/

theorem propagateTo_brs {ty : RetTy} {d : Nat} : (propagateTo ty (d + 1)).brs (d + 1) = true := by
  cases ty <;> simp [propagateTo, badPush, Instr.brs, brsL]

theorem unpackT_brs {r b d : Nat} {ty : RetTy} (t : MTy) :
    brsL (d + 1) (unpackT E (propagateTo ty (d + 1)) r b t) = true := by
  cases t <;> rw [unpackT] <;> first | rfl | simp [brsL, Instr.brs, propagateTo_brs, Fn.call]

theorem unpackA_brs {r b d : Nat} {ty : RetTy} (t : ATy) :
    brsL (d + 1) (unpackA E (propagateTo ty (d + 1)) r b t) = true := by
  cases t with
  | txCtx => rfl
  | val t =>
    cases t with
    | val t => exact unpackT_brs t
    | ref t =>
      rw [unpackA, unpackP]
      split
      · simp [brsL, Instr.brs, propagateTo_brs, Fn.call]
      · exact brsL_append (unpackT_brs t) rfl

theorem unpackActs_brs {a r d : Nat} {ty : RetTy} (ts : List ATy) :
    brsL (d + 1) (unpackActs E (propagateTo ty (d + 1)) a r ts) = true := by
  unfold unpackActs
  refine brsL_append rfl ?_
  induction ts with
  | nil => rfl
  | cons t ts ih => rw [List.flatMap_cons]; exact brsL_append (unpackA_brs t) ih

theorem propagate_brs {ty : RetTy} {d : Nat} : (propagate ty).brs d = true := by
  cases ty <;> rfl

theorem packT_brs {l w b d : Nat} {ty : RetTy} (t : MTy) :
    brsL (d + 1) (packT E (propagate .i32) (propagateTo ty (d + 1)) l w b t) = true := by
  cases t <;> rw [packT] <;> first | rfl | simp [brsL, Instr.brs, propagateTo_brs, Fn.call]

theorem packP_brs {l w b d : Nat} {ty : RetTy} (t : PTy) :
    brsL (d + 1) (packP E (propagate .i32) (propagateTo ty (d + 1)) l w b t) = true := by
  cases t with
  | val t => exact packT_brs t
  | ref t =>
    rw [packP]
    split
    · exact brsL_append rfl (packT_brs t)
    · simp [brsL, Instr.brs, propagateTo_brs, Fn.call]

theorem packAll_brs {k d : Nat} {ty : RetTy} (ts : List PTy) :
    brsL (d + 1) (packAll E (propagate .i32) (propagateTo ty (d + 1)) k ts) = true := by
  have h1 : ∀ (ts : List PTy) (top j : Nat),
      brsL (d + 1) (packEach E (propagate .i32) (propagateTo ty (d + 1)) top j ts) = true := by
    intro ts
    induction ts with
    | nil => intro top j; rfl
    | cons t ts ih =>
      intro top j
      rw [packEach]
      exact brsL_append (brsL_append (brsL_append rfl (packP_brs t)) rfl) (ih _ _)
  have h2 : ∀ xs : List Nat, brsL (d + 1) (xs.map (fun i => (Op.lset (k + i) : Instr))) = true := by
    intro xs
    induction xs with
    | nil => rfl
    | cons x xs ih => rw [List.map_cons, brsL]; exact ih
  unfold packAll
  exact brsL_append (brsL_append (brsL_append (h2 _) rfl) (h1 _ _ _)) rfl

theorem loadRets_brs {k d : Nat} : ∀ (ts : List PTy) (off : Nat), brsL d (loadRets k off ts) = true := by
  intro ts
  induction ts with
  | nil => intro off; rfl
  | cons t ts ih => intro off; rw [loadRets]; exact brsL_append rfl (ih _)

theorem wrap_brs {d k : Nat} {f : PubFn} : brsL (d + 1) (wrap E d k f) = true := by
  unfold wrap
  refine brsL_append (brsL_append (unpackActs_brs _) ?_) ?_
  · simp [brsL, Instr.brs, propagateTo_brs, Fn.call]
  · split
    · rfl
    · exact brsL_append (brsL_append (brsL_append rfl (loadRets_brs _ _)) (packAll_brs _)) rfl

theorem routerBlocks_brs : ∀ (fs : List PubFn) (k : Nat), brsL 1 (routerBlocks E k fs) = true := by
  intro fs
  induction fs with
  | nil => intro k; rfl
  | cons f fs ih =>
    intro k
    rw [routerBlocks, brsL, Bool.and_eq_true]
    refine ⟨?_, ih _⟩
    unfold routerBlock
    rw [Instr.brs]
    exact brsL_append (brsL_append rfl wrap_brs) rfl

theorem routerBody_brs {C : Contract} : brsL 1 (routerBody C) = true := by
  unfold routerBody
  refine brsL_append (brsL_append (brsL_append ?_ (routerBlocks_brs _ _)) ?_) ?_
  · unfold routerSelect; split <;> rfl
  · unfold routerFallback
    split
    · exact brsL_append (brsL_append rfl wrap_brs) rfl
    · rfl
  · rfl

/-! ### Storage is not committed -/

/-- The function never commits storage itself. -/
def NoFlush (f : Fn) : Prop :=
  ∀ args σ r σ', f.Returns args σ r σ' → σ'.host.committed = σ.host.committed

/-- Committed storage is `c`. -/
def Committed (c : Nat → Nat) (σ : Store) : Prop := σ.host.committed = c

theorem onHost_committed {c : Nat → Nat} : OnHost (Committed c) := by
  intro σ σ' h hc
  unfold Committed at hc ⊢
  rw [h, hc]

theorem wrap_keeps {c : Nat → Nat} {d k : Nat} {f : PubFn} (hf : NoFlush f.fn) : Keeps (Committed c) (wrap E d k f) := by
  unfold wrap
  refine Keeps.append (Keeps.append (Keeps.noHost onHost_committed _ (unpackActs_noHost (propagateTo_noHost _ _) _)) ?_)
    (Keeps.noHost onHost_committed _ ?_)
  · refine Keeps.cons (Keeps.call fun args σ r σ' hk hr => ?_) (Keeps.noHost onHost_committed _ ?_)
    · exact (hf args σ r σ' hr).trans hk
    · simp [noHostL, propagateTo_noHost]
  · split
    · rfl
    · simp [noHostL, noHostL_append, loadRets_noHost, packAll_noHost, propagate_noHost, propagateTo_noHost,
        Instr.noHost, Op.noHost]

theorem routerBlocks_keeps {c : Nat → Nat} : ∀ (fs : List PubFn) (k : Nat), (∀ f ∈ fs, NoFlush f.fn) →
    Keeps (Committed c) (routerBlocks E k fs) := by
  intro fs
  induction fs with
  | nil => intro k _; exact Keeps.nil
  | cons f fs ih =>
    intro k h
    rw [routerBlocks]
    refine Keeps.cons ?_ (ih _ fun g hg => h g (by simp [hg]))
    unfold routerBlock
    exact Keeps.block (Keeps.append (Keeps.append (Keeps.noHost onHost_committed _ rfl)
      (wrap_keeps (h f (by simp)))) (Keeps.noHost onHost_committed _ rfl))

theorem named_mem {C : Contract} {n : String} {f : PubFn} (h : C.named n = some f) : f ∈ C.fns :=
  List.mem_of_find?_eq_some h

theorem routerBody_keeps {C : Contract} {c : Nat → Nat} (h : ∀ f ∈ C.fns, NoFlush f.fn) :
    Keeps (Committed c) (routerBody C) := by
  unfold routerBody
  refine Keeps.append (Keeps.append (Keeps.append ?_ (routerBlocks_keeps _ _ h)) ?_) (Keeps.noHost onHost_committed _ rfl)
  · refine Keeps.noHost onHost_committed _ ?_
    unfold routerSelect; split <;> rfl
  · unfold routerFallback
    split
    · next f hf =>
      exact Keeps.append (Keeps.append (Keeps.noHost onHost_committed _ rfl) (wrap_keeps (h f (named_mem hf))))
        (Keeps.noHost onHost_committed _ rfl)
    · exact Keeps.nil

/-! ### The number of locals -/

/-- The outcome has `n` locals. -/
def Locals (n : Nat) : Res → Prop
  | .ok _ l _ => l.length = n
  | .br _ _ l _ => l.length = n
  | _ => True

theorem Op.exec_length {o : Op} {s l s' l' : List Nat} (h : o.exec s l σ = some (s', l', σ')) : l'.length = l.length := by
  unfold Op.exec at h
  split at h
  all_goals first
    | (simp only [Option.some.injEq, Prod.mk.injEq] at h; obtain ⟨-, rfl, -⟩ := h; first | rfl | exact lset_length)
    | (simp at h; done)
    | skip
  all_goals
    split at h
    all_goals first
      | (simp only [Option.some.injEq, Prod.mk.injEq] at h; obtain ⟨-, rfl, -⟩ := h; rfl)
      | (simp at h; done)

theorem run_locals : ∀ (n : Nat) (is : List Instr) (s l : List Nat) (σ : Store), Locals l.length (run n is s l σ) := by
  intro n
  induction n with
  | zero => intro is s l σ; simp [run, Locals]
  | succ n ih =>
    intro is s l σ
    cases is with
    | nil => simp [run, Locals]
    | cons i is =>
      cases i with
      | op o =>
        simp only [run]
        cases ho : o.exec s l σ with
        | none => exact trivial
        | some r =>
          obtain ⟨s', l', σ'⟩ := r
          have := ih is s' l' σ'
          rw [Op.exec_length ho] at this
          exact this
      | block ar b =>
        simp only [run]
        have hb := ih b [] l σ
        cases hr : run n b [] l σ with
        | ok s' l' σ' =>
          rw [hr] at hb
          have := ih is (s'.take ar ++ s) l' σ'
          rw [show l'.length = l.length from hb] at this
          exact this
        | br k s' l' σ' =>
          rw [hr] at hb
          cases k with
          | zero =>
            have := ih is (s'.take ar ++ s) l' σ'
            rw [show l'.length = l.length from hb] at this
            exact this
          | succ k => exact hb
        | ret => exact trivial
        | trap => exact trivial
        | oof => exact trivial
      | loop ar b =>
        simp only [run]
        have hb := ih b [] l σ
        cases hr : run n b [] l σ with
        | ok s' l' σ' =>
          rw [hr] at hb
          have := ih is (s'.take ar ++ s) l' σ'
          rw [show l'.length = l.length from hb] at this
          exact this
        | br k s' l' σ' =>
          rw [hr] at hb
          cases k with
          | zero =>
            have := ih (.loop ar b :: is) s l' σ'
            rw [show l'.length = l.length from hb] at this
            exact this
          | succ k => exact hb
        | ret => exact trivial
        | trap => exact trivial
        | oof => exact trivial
      | ite ar t e =>
        cases s with
        | nil => simp [run, Locals]
        | cons c s =>
          simp only [run]
          have hb := ih (if c ≠ 0 then t else e) [] l σ
          cases hr : run n (if c ≠ 0 then t else e) [] l σ with
          | ok s' l' σ' =>
            rw [hr] at hb
            have := ih is (s'.take ar ++ s) l' σ'
            rw [show l'.length = l.length from hb] at this
            exact this
          | br k s' l' σ' =>
            rw [hr] at hb
            cases k with
            | zero =>
              have := ih is (s'.take ar ++ s) l' σ'
              rw [show l'.length = l.length from hb] at this
              exact this
            | succ k => exact hb
          | ret => exact trivial
          | trap => exact trivial
          | oof => exact trivial
      | br k => simp [run, Locals]
      | ret => simp [run, Locals]
      | brIf k =>
        cases s with
        | nil => simp [run, Locals]
        | cons c s =>
          simp only [run]
          by_cases hc : c = 0
          · rw [if_neg (by simpa using hc)]; exact ih _ _ _ _
          · rw [if_pos hc]; rfl
      | call na nr nl b =>
        simp only [run]
        by_cases hl : s.length < na
        · rw [if_pos hl]; exact trivial
        · rw [if_neg hl]
          cases hr : run n b [] ((s.take na).reverse ++ List.replicate nl 0) σ with
          | ok => exact ih _ _ _ _
          | br k =>
            cases k with
            | zero => exact ih _ _ _ _
            | succ k => exact trivial
          | ret => exact ih _ _ _ _
          | trap => exact trivial
          | oof => exact trivial

theorem wlp_locals {is : List Instr} {s l : List Nat} : wlp is s l σ (Locals l.length) :=
  fun n _ => run_locals n is s l σ

theorem wlp_and {is : List Instr} {s l : List Nat} {Q Q' : Res → Prop} (h : wlp is s l σ Q) (h' : wlp is s l σ Q') :
    wlp is s l σ (fun r => Q r ∧ Q' r) := fun n hn => ⟨h n hn, h' n hn⟩

/-! ### Outcomes of the entry point -/

/-- How the entry point can end.

* `ok`: status 0.  No abort was pending, the result was handed to the host, dynamic fields were saved
  and storage was committed, in this order.
* `abort`: an abort was pending; status 1 and its message.
* `other`: another failure (no function found): the status is not zero.
* `early`: a failure while packing results: the status is not zero and no result is set.

`K` holds of the state before the result is handed over. -/
inductive Outcome (C : Contract) (K : Store → Prop) : List Nat → Store → Prop
  | ok {σ1 σ2 : Store} {bs : List UInt8} {r : List Nat} : K σ1 → errWord σ1 = 0 →
      C.save.Returns [] (withResult σ1 bs) r σ2 → Outcome C K [0] (flushed σ2)
  | abort {σ1 : Store} : K σ1 → errWord σ1 ≠ 0 → Outcome C K [1] (withResult σ1
      (rdBytes σ1.mem ((errWord σ1 + 4) % 4294967296) (leNat σ1.mem (errWord σ1) 4)))
  | other {σ1 : Store} {st : Nat} {bs : List UInt8} : K σ1 → st ≠ 0 → Outcome C K [st] (withResult σ1 bs)
  | early {σ1 : Store} {st : Nat} : K σ1 → st ≠ 0 → Outcome C K [st] σ1

/-- The outcome of code, as the outcome of the entry point. -/
def EndsIn (C : Contract) (K : Store → Prop) : Res → Prop
  | .ret s τ => Outcome C K (s.take 1) τ
  | .ok _ _ _ => False
  | .br _ _ _ _ => False
  | .trap => True
  | .oof => True

theorem wlp_of_exec {o : Op} {is : List Instr} {s l : List Nat} {Q : Res → Prop} (ht : Q .trap)
    (h : ∀ s' l' σ', o.exec s l σ = some (s', l', σ') → wlp is s' l' σ' Q) : wlp (.op o :: is) s l σ Q := by
  refine wlp_op ?_
  cases ho : o.exec s l σ with
  | none => exact ht
  | some r => exact h _ _ _ ho

theorem wlp_store_of {k off a v : Nat} {is : List Instr} {s l : List Nat} {Q : Res → Prop} (ht : Q .trap)
    (h : wlp is s l (σ.setMem (putLe σ.mem (a + off) k v)) Q) : wlp (.op (.store k off) :: is) (v :: a :: s) l σ Q := by
  refine wlp_op ?_
  simp only [Op.exec]
  by_cases hs : a + off + k ≤ σ.size
  · rw [if_pos hs]; exact h
  · rw [if_neg hs]; exact ht

theorem wlp_load {k off a : Nat} {is : List Instr} {s l : List Nat} {Q : Res → Prop} (ht : Q .trap)
    (h : wlp is (leNat σ.mem (a + off) k :: s) l σ Q) : wlp (.op (.load k off) :: is) (a :: s) l σ Q := by
  refine wlp_op ?_
  simp only [Op.exec]
  by_cases hs : a + off + k ≤ σ.size
  · rw [if_pos hs]; exact h
  · rw [if_neg hs]; exact ht

theorem wlp_writeResult {p n : Nat} {is : List Instr} {s l : List Nat} {Q : Res → Prop} (ht : Q .trap)
    (h : wlp is s l (withResult σ (rdBytes σ.mem p n)) Q) :
    wlp (.op (.host .writeResult) :: is) (n :: p :: s) l σ Q := by
  refine wlp_op ?_
  simp only [Op.exec, HostFn.eval]
  by_cases hs : p + n ≤ σ.size
  · rw [if_pos hs]; exact h
  · rw [if_neg hs]; exact ht

theorem save_returns {save : Fn} {args r : List Nat} (h : (commitFn save).Returns args σ r σ')  :
    r = [] ∧ ∃ r2 σ2, save.Returns [] σ r2 σ2 ∧ σ' = flushed σ2 := by
  obtain ⟨hl, h⟩ := h
  have hw : wlp (commitFn save).body [] (args ++ List.replicate 0 0) σ (fun q =>
      match q with
      | .ok s _ τ => ∃ r2 σ2, save.Returns [] σ r2 σ2 ∧ τ = flushed σ2
      | .trap => True
      | .oof => True
      | _ => False) := by
    unfold commitFn
    refine wlp_call trivial ?_
    intro args s' r σ2 hs hr
    rw [eq_comm, List.append_eq_nil_iff] at hs
    obtain ⟨ha, rfl⟩ := hs
    rw [List.reverse_eq_nil_iff] at ha
    subst ha
    refine wlp_op ?_
    simp only [Op.exec]
    refine wlp_op ?_
    simp only [Op.exec, HostFn.eval]
    exact wlp_nil ⟨r, σ2, hr, rfl⟩
  obtain ⟨n, h1, h2, h3⟩ := wp_wlp h hw
  dsimp only [commitFn] at h1 h2 h3
  cases hq : run n code[save.call, Op.c32 1, Op.host .storageFlush] [] (args ++ List.replicate 0 0) σ with
  | ok s l τ =>
    rw [hq] at h2 h3
    obtain ⟨h2, h4⟩ := h2
    subst h4
    exact ⟨by rw [← h2]; simp, h3⟩
  | br => rw [hq] at h3; exact absurd h3 id
  | ret => rw [hq] at h3; exact absurd h3 id
  | trap => rw [hq] at h2; exact absurd h2 id
  | oof => rw [hq] at h2; exact absurd h2 id


theorem exit_wlp {C : Contract} {K : Store → Prop} {s l : List Nat} (hk : K σ) (hl : 10 ≤ l.length) :
    wlp (routerExit C) s l σ (EndsIn C K) := by
  unfold routerExit abortPtr
  have fin : ∀ l' : List Nat, 10 ≤ l'.length → (errWord σ = 0 ∨ lget l' 3 = 1 ∧
      lget l' 1 = (errWord σ + 4) % 4294967296 ∧ lget l' 0 = leNat σ.mem (errWord σ) 4) →
      wlp code[Op.lget 1, Op.lget 0, Op.host .writeResult,
        Op.lget 3, Op.un .eqz, .ite 0 code[(commitFn C.save).call] code[], Op.lget 3, .ret] s l' σ (EndsIn C K) := by
    intro l' hl' h
    refine wlp_op ?_; dsimp only [Op.exec]
    refine wlp_op ?_; dsimp only [Op.exec]
    refine wlp_writeResult trivial ?_
    refine wlp_op ?_; dsimp only [Op.exec]
    refine wlp_op ?_; dsimp only [Op.exec]
    refine wlp_ite ?_
    rw [eval_eqz]
    by_cases h3 : lget l' 3 = 0
    · rw [if_pos (by simp [b2n, h3])]
      have he : errWord σ = 0 := by
        rcases h with h | ⟨h, -, -⟩
        · exact h
        · omega
      refine wlp_call trivial ?_
      intro args s' r σ2 hs hr
      obtain ⟨rfl, r2, σ3, hr2, rfl⟩ := save_returns hr
      refine wlp_nil ?_
      refine wlp_op ?_; dsimp only [Op.exec]
      refine wlp_ret ?_
      rw [h3]
      exact .ok hk he hr2
    · rw [if_neg (by simp [b2n, h3])]
      refine wlp_nil ?_
      refine wlp_op ?_; dsimp only [Op.exec]
      refine wlp_ret ?_
      by_cases he : errWord σ = 0
      · exact .other hk h3
      · rcases h with h | ⟨h1, h2, h4⟩
        · exact absurd h he
        · have := Outcome.abort (C := C) hk he
          rw [← h2, ← h4] at this
          show Outcome C K [lget l' 3] _
          rw [h1]; exact this
  refine wlp_block ?_
  refine wlp_op ?_; dsimp only [Op.exec]
  refine wlp_load trivial ?_
  refine wlp_op ?_; dsimp only [Op.exec]
  refine wlp_op ?_; dsimp only [Op.exec]
  have he : leNat σ.mem (256 % 4294967296 + 0) 4 = errWord σ := rfl
  rw [he]
  refine wlp_brIf (fun h => ?_) (fun h => ?_)
  · rw [eval_eqz] at h
    refine fin _ (by rw [lset_length]; exact hl) (.inl ?_)
    by_contra hc
    simp [b2n, hc] at h
  · refine wlp_op ?_; dsimp only [Op.exec]
    rw [lget_lset_same (by omega)]
    refine wlp_load trivial ?_
    refine wlp_op ?_; dsimp only [Op.exec]
    refine wlp_op ?_; dsimp only [Op.exec]
    rw [lget_lset_ne (by omega), lget_lset_same (by omega)]
    refine wlp_op ?_; dsimp only [Op.exec]
    refine wlp_op ?_; dsimp only [Op.exec, BinOp.eval]
    refine wlp_op ?_; dsimp only [Op.exec]
    refine wlp_op ?_; dsimp only [Op.exec]
    refine wlp_op ?_; dsimp only [Op.exec]
    refine wlp_nil ?_
    refine fin _ (by simp only [lset_length]; exact hl) (.inr ⟨?_, ?_, ?_⟩)
    · rw [lget_lset_same (by simp only [lset_length]; omega)]
    · rw [lget_lset_ne (by omega), lget_lset_same (by simp only [lset_length]; omega)]; rfl
    · rw [lget_lset_ne (by omega), lget_lset_ne (by omega), lget_lset_same (by simp only [lset_length]; omega)]; rfl

theorem enter_keeps {c : Nat → Nat} : Keeps (Committed c) routerEnter := by
  unfold routerEnter
  refine Keeps.append (a := code[Op.lget 0, alloc.call, Op.ltee 1]) (Keeps.noHost onHost_committed _ rfl)
    (Keeps.cons ?_ (Keeps.noHost onHost_committed _ rfl))
  intro s l σ hk
  refine wlp_of_exec trivial fun s' l' σ' h => wlp_nil ?_
  cases s with
  | nil => simp [Op.exec, HostFn.eval] at h
  | cons p s =>
    simp only [Op.exec, HostFn.eval] at h
    split at h
    · next r s2 σ2 hr =>
      split at hr
      · simp only [Option.some.injEq, Prod.mk.injEq] at h hr
        obtain ⟨-, -, rfl⟩ := h
        obtain ⟨-, rfl⟩ := hr
        exact hk
      · simp at hr
    · simp at h

theorem rets_outcome {C : Contract} {K : Store → Prop} {s : List Nat} (h : TopNz s) (hk : K σ) :
    Outcome C K (s.take 1) σ := by
  obtain ⟨v, t, rfl, hv⟩ := h
  exact .early hk hv

theorem enter_rets : retsL false routerEnter = true := rfl
theorem enter_brs : brsL 0 routerEnter = true := rfl

theorem router_wlp {C : Contract} {K : Store → Prop} {args : List Nat}
    (h1 : Keeps K routerEnter) (h2 : Keeps K (routerBody C)) (hk : K σ) (hc : args.length = 1) :
    wlp (router C).body [] (args ++ List.replicate (router C).nl 0) σ (EndsIn C K) := by
  have hbody : (router C).body = routerEnter ++ (.block 0 (routerBody C)) :: routerExit C := rfl
  obtain ⟨m, hN⟩ : ∃ m, (router C).nl = 9 + totalLocals C.fns + m := ⟨_, rfl⟩
  have hlen : 10 ≤ (args ++ List.replicate (router C).nl 0).length := by
    rw [List.length_append, List.length_replicate, hN]; omega
  rw [hbody]
  generalize args ++ List.replicate (router C).nl 0 = l at *
  refine wlp_append (wlp_mono (wlp_and (wlp_and (h1 _ _ _ hk) (retsL_wlp _ enter_rets _ _ _ (by simp)))
    (wlp_and wlp_locals (brsL_wlp _ enter_brs _ _ _))) ?_)
  rintro r ⟨⟨ha, hr⟩, hl, hd⟩
  cases r with
  | ok s' l' σ' =>
    have hl' : l'.length = l.length := hl
    refine wlp_block (wlp_mono (wlp_and (wlp_and (h2 [] l' σ' ha) (retsL_wlp _ routerBody_rets _ _ _ (by simp)))
      (wlp_and wlp_locals (brsL_wlp _ routerBody_brs _ _ _))) ?_)
    rintro r ⟨⟨ha2, hr2⟩, hl2, hd2⟩
    cases r with
    | ok s2 l2 σ2 =>
      have : l2.length = l'.length := hl2
      exact exit_wlp ha2 (by omega)
    | br k s2 l2 σ2 =>
      cases k with
      | zero =>
        have : l2.length = l'.length := hl2
        exact exit_wlp ha2 (by omega)
      | succ k => exact absurd hd2 (by unfold BrLt; omega)
    | ret s2 σ2 => exact rets_outcome hr2 ha2
    | trap => exact trivial
    | oof => exact trivial
  | br k s' l' σ' => exact absurd hd (by unfold BrLt; omega)
  | ret s' σ' => exact rets_outcome hr ha
  | trap => exact trivial
  | oof => exact trivial

/-- Whatever the functions do, if the entry point returns then in one of four ways. -/
theorem router_outcome {C : Contract} {K : Store → Prop} {args r : List Nat}
    (h1 : Keeps K routerEnter) (h2 : Keeps K (routerBody C)) (hk : K σ) (hr : (router C).Returns args σ r σ') :
    Outcome C K r σ' := by
  obtain ⟨hl, h⟩ := hr
  obtain ⟨n, -, h4, h5⟩ := wp_wlp h (router_wlp h1 h2 hk hl)
  cases hq : run n (router C).body [] (args ++ List.replicate (router C).nl 0) σ with
  | ret s τ =>
    rw [hq] at h4 h5
    obtain ⟨rfl, rfl⟩ := h4
    exact h5
  | ok => rw [hq] at h5; exact absurd h5 id
  | br => rw [hq] at h5; exact absurd h5 id
  | trap => rw [hq] at h4; exact absurd h4 id
  | oof => rw [hq] at h4; exact absurd h4 id

theorem keeps_true (is : List Instr) : Keeps (fun _ => True) is := by
  intro s l σ _ n _
  cases run n is s l σ <;> exact trivial

end Rt
