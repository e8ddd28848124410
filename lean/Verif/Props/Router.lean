import Verif.Proof.RouterSafe
import Verif.Props.Unpack
import Verif.Props.Errors

/-!
# The entry point: C28, C29, C30, C33

The functions of the contract are arbitrary WebAssembly functions.
-/

namespace Props
open Wasm Rt Abi

variable {σ σ' : Store} {E : ErrPtrs}

/-! ### C28: outcomes, for arbitrary functions -/

/-- Status 0: no abort is pending when the result is handed over, and storage is committed as the last
action.  If the functions do not commit storage themselves, nothing was committed before. -/
theorem C28_success {C : Contract} {args : List Nat} (hr : (router C).Returns args σ [0] σ') :
    ∃ σ1 bs r σ2, errWord σ1 = 0 ∧ C.save.Returns [] (withResult σ1 bs) r σ2 ∧ σ' = flushed σ2 ∧
      ((∀ f ∈ C.fns, NoFlush f.fn) → σ1.host.committed = σ.host.committed) := by
  by_cases h : ∀ f ∈ C.fns, NoFlush f.fn
  · have := router_outcome (K := Committed σ.host.committed) enter_keeps (routerBody_keeps h) rfl hr
    generalize hq : [0] = q at this
    cases this with
    | ok hk he hs => exact ⟨_, _, _, _, he, hs, rfl, fun _ => hk⟩
    | abort => simp at hq
    | other _ hst => simp at hq; exact absurd hq.symm hst
    | early _ hst => simp at hq; exact absurd hq.symm hst
  · have := router_outcome (K := fun _ => True) (keeps_true _) (keeps_true _) trivial hr
    generalize hq : [0] = q at this
    cases this with
    | ok hk he hs => exact ⟨_, _, _, _, he, hs, rfl, fun h' => absurd h' h⟩
    | abort => simp at hq
    | other _ hst => simp at hq; exact absurd hq.symm hst
    | early _ hst => simp at hq; exact absurd hq.symm hst

/-- Any other status: storage is not committed, unless a function committed it itself. -/
theorem C28_failure {C : Contract} {args r : List Nat} (hr : (router C).Returns args σ r σ') (h0 : r ≠ [0])
    (hf : ∀ f ∈ C.fns, NoFlush f.fn) : σ'.host.committed = σ.host.committed := by
  have := router_outcome (K := Committed σ.host.committed) enter_keeps (routerBody_keeps hf) rfl hr
  cases this with
  | ok => exact absurd rfl h0
  | abort hk _ => exact hk
  | other hk _ => exact hk
  | early hk _ => exact hk

/-- The entry point returns exactly one number. -/
theorem C28_status {C : Contract} {args r : List Nat} (hr : (router C).Returns args σ r σ') : ∃ st, r = [st] := by
  have := router_outcome (K := fun _ => True) (keeps_true _) (keeps_true _) trivial hr
  cases this with
  | ok => exact ⟨_, rfl⟩
  | abort => exact ⟨_, rfl⟩
  | other => exact ⟨_, rfl⟩
  | early => exact ⟨_, rfl⟩

/-! ### C29: dispatch -/

theorem noSave_calls {P : List Nat → Store → Prop} (h : P [] σ) : noSave.Calls [] σ P := by
  refine ⟨rfl, ?_⟩
  unfold noSave
  rw [wp_nil]
  exact h

theorem needActs_ge : ∀ (ts : List ATy) (vs : List Val), needArgs (ATy.vals ts) vs ≤ needActs ts vs := by
  intro ts
  induction ts with
  | nil => intro vs; cases vs <;> simp [ATy.vals, needArgs]
  | cons t ts ih =>
    intro vs
    cases t with
    | txCtx => rw [ATy.vals, needActs]; have := ih vs; omega
    | val t =>
      rw [ATy.vals]
      cases vs with
      | nil => simp [needArgs]
      | cons v vs => rw [needArgs, needActs]; have := ih vs; omega

theorem rdBytes_part {f : Bytes} {a : Nat} {x y z : List UInt8} (h : rdBytes f a (x ++ y ++ z).length = x ++ y ++ z) :
    rdBytes f (a + x.length) y.length = y := by
  have hl : (x ++ y ++ z).length = x.length + (y.length + z.length) := by simp
  rw [hl, rdBytes_append, rdBytes_append, List.append_assoc] at h
  have h1 := List.append_inj_right h (by rw [rdBytes_length])
  exact List.append_inj_left h1 (by rw [rdBytes_length])

/-- A well-formed call of `f` with the arguments `vs`: the calldata are `pre`, the ABI encoding of the
arguments and possibly more. -/
structure ValidCall (C : Contract) (σ : Store) (f : PubFn) (pre : List UInt8) (vs : List Val) : Prop where
  errs : C.E.Valid
  heap : Heap σ
  sels : ∀ g ∈ C.fns, g.selector.length = 4
  data : ∃ extra, σ.host.calldata = pre ++ encTuple vs ++ extra
  types : HasTys ((ATy.vals f.args).map PTy.ty) vs
  enums : EnumsOkArgs (ATy.vals f.args)
  room : Room σ (4 + σ.host.calldata.length + needActs f.args vs)
  fits : FitsActs σ.size f.args vs (σ.nextFree + max 4 σ.host.calldata.length)

theorem ValidCall.decodes {C : Contract} {f : PubFn} {pre : List UInt8} {vs : List Val}
    (h : ValidCall C σ f pre vs) {σ1 : Store} (hst : Started σ σ1)
    (hn : σ1.nextFree = σ.nextFree + max 4 σ.host.calldata.length) :
    Decodes σ1 f vs (σ.nextFree + pre.length) := by
  obtain ⟨extra, hcd⟩ := h.data
  have h1 := h.room.1
  have h2 := h.room.2
  have h3 := needActs_ge f.args vs
  have hlen : σ.host.calldata.length = pre.length + (encTuple vs).length + extra.length := by
    rw [hcd]; simp; omega
  have hd := hst.data
  rw [hcd] at hd
  have hroom : Room σ1 (needActs f.args vs) := ⟨by omega, by rw [hst.maxPages]; omega⟩
  refine ⟨hst.heap, h.enums, ?_, hroom, ?_⟩
  · exact dec_canonical hst.heap h.types (by omega) (rdBytes_part hd) (hroom.mono h3)
  · rw [hn]; exact FitsActs.mono hst.size _ h.fits

/-- The outcome of a successful call: status 0, the results, storage committed. -/
def Succeeds (C : Contract) (σ : Store) (rs : List Val) (I : Store → Prop) : Prop :=
  (router C).Calls [σ.host.calldata.length] σ (fun r σ' => r = [0] ∧ ∃ σ2, I σ2 ∧
    σ'.host = { σ2.host with result := some (encTuple rs), committed := σ2.host.storage })

/-- The outcome of a call that aborted: status 1, the message, nothing committed since the abort. -/
def Reverts (C : Contract) (σ : Store) (msg : List UInt8) (I : Store → Prop) : Prop :=
  (router C).Calls [σ.host.calldata.length] σ (fun r σ' => r = [1] ∧ ∃ σ2, I σ2 ∧
    σ'.host = { σ2.host with result := some msg })

/-- The function `f` runs with the arguments `vs` and returns `rs`, in any state in which the entry
point can call it; `I` is whatever else is known then. -/
def Runs (σ : Store) (f : PubFn) (vs rs : List Val) (I : Store → Prop) : Prop :=
  ∀ ws σ1, Started σ σ1 → σ1.nextFree = σ.nextFree + max 4 σ.host.calldata.length + needActs f.args vs →
    RepActs σ1.mem σ1.nextFree f.args vs ws →
    LaidActs σ1.mem f.args vs ws (σ.nextFree + max 4 σ.host.calldata.length) → f.fn.Calls ws σ1 (fun r σ2 =>
    Heap σ2 ∧ Returned σ2 f.rets rs r ∧ Room σ2 (encTuple rs).length ∧ I σ2)

/-- The function `f` aborts with the message `msg`. -/
def Aborts (σ : Store) (f : PubFn) (vs : List Val) (msg : List UInt8) (I : Store → Prop) : Prop :=
  ∀ ws σ1, Started σ σ1 → σ1.nextFree = σ.nextFree + max 4 σ.host.calldata.length + needActs f.args vs →
    RepActs σ1.mem σ1.nextFree f.args vs ws →
    LaidActs σ1.mem f.args vs ws (σ.nextFree + max 4 σ.host.calldata.length) → f.fn.Calls ws σ1 (fun _ σ2 =>
    260 ≤ σ2.size ∧ σ2.size < 2 ^ 32 ∧ errWord σ2 ≠ 0 ∧ errWord σ2 + 4 + msg.length ≤ σ2.size ∧
    leNat σ2.mem (errWord σ2) 4 = msg.length ∧ rdBytes σ2.mem (errWord σ2 + 4) msg.length = msg ∧ I σ2)

/-- The selector `sel` is that of `f`, and of no earlier function. -/
structure Finds (C : Contract) (sel : List UInt8) (f : PubFn) : Prop where
  pos : ∃ pre post, C.fns = pre ++ f :: post ∧ ∀ g ∈ pre, g.selector ≠ sel
  hit : f.selector = sel

theorem Finds.first {C : Contract} {sel : List UInt8} {f : PubFn} (h : Finds C sel f)
    (hl : ∀ g ∈ C.fns, g.selector.length = 4) : ∃ pre post, First C sel pre f post := by
  obtain ⟨pre, post, h1, h2⟩ := h.pos
  exact ⟨pre, post, ⟨h1, h.hit, hl, h2⟩⟩

theorem run_ok {C : Contract} {sel : List UInt8} {f : PubFn} {vs rs : List Val} {I : Store → Prop}
    (hsel : Selects C σ.host.calldata sel) (hf : Finds C sel f) (hv : C.save = noSave)
    (hE : C.E.Valid) (hσ : Heap σ) (hl : ∀ g ∈ C.fns, g.selector.length = 4)
    (hroom : Room σ (4 + σ.host.calldata.length))
    (hdec : ∀ σ1, Started σ σ1 → σ1.nextFree = σ.nextFree + max 4 σ.host.calldata.length →
      Decodes σ1 f vs (σ.nextFree + 4))
    (hrun : Runs σ f vs rs I) : Succeeds C σ rs I := by
  obtain ⟨pre, post, hfst⟩ := hf.first hl
  refine (router_ok (P := fun r σ2 => Heap σ2 ∧ Returned σ2 f.rets rs r ∧ Room σ2 (encTuple rs).length ∧ I σ2)
    (S := fun σ4 => ∃ σ2 σ3, I σ2 ∧ Extends σ2 σ3 ∧ σ4 = withResult σ3 (encTuple rs))
    hE hσ hsel hfst hroom hdec hrun (fun r σ2 h => ⟨h.1, h.2.1, h.2.2.1⟩) ?_).mono ?_
  · intro r σ2 σ3 hp hx
    rw [hv]
    exact noSave_calls ⟨rfl, σ2, σ3, hp.2.2.2, hx, rfl⟩
  · rintro r σ' ⟨rfl, σ4, ⟨σ2, σ3, hI, hx, rfl⟩, rfl⟩
    refine ⟨rfl, σ2, hI, ?_⟩
    rw [← hx.host]; rfl

theorem run_abort {C : Contract} {sel msg : List UInt8} {f : PubFn} {vs : List Val} {I : Store → Prop}
    (hsel : Selects C σ.host.calldata sel) (hf : Finds C sel f)
    (hE : C.E.Valid) (hσ : Heap σ) (hl : ∀ g ∈ C.fns, g.selector.length = 4)
    (hroom : Room σ (4 + σ.host.calldata.length))
    (hdec : ∀ σ1, Started σ σ1 → σ1.nextFree = σ.nextFree + max 4 σ.host.calldata.length →
      Decodes σ1 f vs (σ.nextFree + 4))
    (hrun : Aborts σ f vs msg I) : Reverts C σ msg I := by
  obtain ⟨pre, post, hfst⟩ := hf.first hl
  refine (router_abort hE hσ hsel hfst hroom hdec hrun
    (fun r σ2 ⟨h1, h2, h3, h4, h5, _, _⟩ => ⟨h1, h2, h3, by rw [h5]; exact h4⟩)).mono ?_
  rintro r σ' ⟨rfl, r2, σ2, ⟨h1, h2, h3, h4, h5, h6, h7⟩, rfl⟩
  refine ⟨rfl, σ2, h7, ?_⟩
  rw [h5, h6]; rfl

theorem ValidCall.selects {C : Contract} {f g : PubFn} {vs : List Val}
    (h : ValidCall C σ f g.selector vs) (hg : g ∈ C.fns) : Selects C σ.host.calldata g.selector := by
  obtain ⟨extra, hcd⟩ := h.data
  have h4 := h.sels g hg
  rw [List.append_assoc] at hcd
  have := Selects.data (C := C) (cd := σ.host.calldata) (by rw [hcd]; simp; omega)
  rw [hcd, List.take_append_of_le_length (by omega), List.take_of_length_le (by omega)] at this
  rw [hcd]; exact this

theorem Finds.mem {C : Contract} {sel : List UInt8} {f : PubFn} (h : Finds C sel f) : f ∈ C.fns := by
  obtain ⟨pre, post, h1, -⟩ := h.pos
  rw [h1]; simp

/-- Calldata made of a selector and encoded arguments: the first function with this selector runs with
these arguments, and its results are returned. -/
theorem C29_dispatch {C : Contract} {f : PubFn} {vs rs : List Val} {I : Store → Prop}
    (h : ValidCall C σ f f.selector vs) (hf : Finds C f.selector f) (hv : C.save = noSave)
    (hrun : Runs σ f vs rs I) : Succeeds C σ rs I := by
  have h4 := h.sels f hf.mem
  refine run_ok (h.selects hf.mem) hf hv h.errs h.heap h.sels (h.room.mono (by omega)) ?_ hrun
  intro σ1 hst hn
  have := h.decodes hst hn
  rwa [h4] at this

/-- The same for a function that aborts: status 1 and its message. -/
theorem C29_abort {C : Contract} {f : PubFn} {vs : List Val} {msg : List UInt8} {I : Store → Prop}
    (h : ValidCall C σ f f.selector vs) (hf : Finds C f.selector f)
    (hrun : Aborts σ f vs msg I) : Reverts C σ msg I := by
  have h4 := h.sels f hf.mem
  refine run_abort (h.selects hf.mem) hf h.errs h.heap h.sels (h.room.mono (by omega)) ?_ hrun
  intro σ1 hst hn
  have := h.decodes hst hn
  rwa [h4] at this

/-- No function has the selector and there is no fallback function: the call reverts with the message
"100". -/
theorem C29_noMatch {C : Contract} (hσ : Heap σ) (hl : ∀ g ∈ C.fns, g.selector.length = 4)
    (h4 : 4 ≤ σ.host.calldata.length) (hn : ∀ g ∈ C.fns, g.selector ≠ σ.host.calldata.take 4)
    (hfb : ∀ g ∈ C.fns, g.name ≠ "fallback") (hroom : Room σ (204 + σ.host.calldata.length)) :
    Reverts C σ (errorString (text "100")) (fun σ2 => σ2.host = σ.host) := by
  have hnone : C.named "fallback" = none := by
    unfold Contract.named; rw [List.find?_eq_none]; simpa using hfb
  refine (router_noMatch hσ (.data h4) (by rw [List.length_take]; omega) hl hn hnone hroom).mono ?_
  rintro r σ' ⟨rfl, σ2, hst, rfl⟩
  exact ⟨rfl, σ2, hst.host, rfl⟩

/-- No function has the selector: the fallback function runs; its arguments are decoded from the whole
calldata. -/
theorem C29_fallback {C : Contract} {f : PubFn} {vs rs : List Val} {I : Store → Prop}
    (h : ValidCall C σ f [] vs) (h4 : 4 ≤ σ.host.calldata.length)
    (hn : ∀ g ∈ C.fns, g.selector ≠ σ.host.calldata.take 4)
    (hfb : C.named "fallback" = some f) (hv : C.save = noSave) (hrun : Runs σ f vs rs I) :
    Succeeds C σ rs I := by
  refine (fallback_ok (P := fun r σ2 => Heap σ2 ∧ Returned σ2 f.rets rs r ∧ Room σ2 (encTuple rs).length ∧ I σ2)
    (S := fun σ4 => ∃ σ2 σ3, I σ2 ∧ Extends σ2 σ3 ∧ σ4 = withResult σ3 (encTuple rs))
    h.errs h.heap (.data h4) (by rw [List.length_take]; omega) h.sels hn hfb (h.room.mono (by omega))
    (fun σ1 hst hn => h.decodes hst hn) hrun (fun r σ2 h => ⟨h.1, h.2.1, h.2.2.1⟩) ?_).mono ?_
  · intro r σ2 σ3 hp hx
    rw [hv]
    exact noSave_calls ⟨rfl, σ2, σ3, hp.2.2.2, hx, rfl⟩
  · rintro r σ' ⟨rfl, σ4, ⟨σ2, σ3, hI, hx, rfl⟩, rfl⟩
    refine ⟨rfl, σ2, hI, ?_⟩
    rw [← hx.host]; rfl

/-- An abort of the fallback function. -/
theorem C29_fallback_abort {C : Contract} {f : PubFn} {vs : List Val} {msg : List UInt8} {I : Store → Prop}
    (h : ValidCall C σ f [] vs) (h4 : 4 ≤ σ.host.calldata.length)
    (hn : ∀ g ∈ C.fns, g.selector ≠ σ.host.calldata.take 4)
    (hfb : C.named "fallback" = some f) (hrun : Aborts σ f vs msg I) : Reverts C σ msg I := by
  refine (fallback_abort h.errs h.heap (.data h4) (by rw [List.length_take]; omega) h.sels hn hfb
    (h.room.mono (by omega)) (fun σ1 hst hn => h.decodes hst hn) hrun
    (fun r σ2 ⟨h1, h2, h3, h4, h5, _, _⟩ => ⟨h1, h2, h3, by rw [h5]; exact h4⟩)).mono ?_
  rintro r σ' ⟨rfl, r2, σ2, ⟨h1, h2, h3, h4, h5, h6, h7⟩, rfl⟩
  refine ⟨rfl, σ2, h7, ?_⟩
  rw [h5, h6]; rfl

/-! ### C30: empty calldata -/

theorem decodes_none {f : PubFn} {σ1 : Store} {p : Nat} (hp : p ≤ σ1.nextFree) (ha : ATy.vals f.args = []) (hst : Heap σ1)
    (hroom : Room σ1 (needActs f.args [])) : Decodes σ1 f [] p := by
  have hfit : ∀ (ts : List ATy) (a : Nat), FitsActs σ1.size ts [] a := by
    intro ts
    induction ts with
    | nil => intro a; simp [FitsActs]
    | cons t ts ih =>
      intro a
      cases t with
      | txCtx => rw [FitsActs]; exact ih _
      | val t => simp [FitsActs]
  exact ⟨hst, by rw [ha]; intro t ht; simp at ht, by rw [ha, List.map_nil, DecFs]; exact hp, hroom, hfit _ _⟩

/-- Empty calldata run the receive function. -/
theorem C30_receive {C : Contract} {f : PubFn} {rs : List Val} {I : Store → Prop}
    (hE : C.E.Valid) (hσ : Heap σ) (hl : ∀ g ∈ C.fns, g.selector.length = 4) (hcd : σ.host.calldata = [])
    (hr : C.named "receive" = some f) (ha : ATy.vals f.args = [])
    (hf : Finds C f.selector f) (hroom : Room σ (4 + needActs f.args [])) (hv : C.save = noSave)
    (hrun : Runs σ f [] rs I) : Succeeds C σ rs I := by
  refine run_ok (sel := f.selector) (vs := []) (by rw [hcd]; exact .receive hr) hf hv hE hσ hl
    (hroom.mono (by rw [hcd]; simp)) ?_ hrun
  intro σ1 hst hn
  rw [hcd] at hn
  have h1 := hroom.1
  have h2 := hroom.2
  exact decodes_none (by rw [hn]; simp) ha hst.heap ⟨by omega, by rw [hst.maxPages]; simp at hn; omega⟩

/-- A contract with neither receive nor fallback function rejects empty calldata.  Missing: this fails
if a function has the selector zero (`C30_false`), which is excluded here. -/
theorem C30_empty_partial {C : Contract} (hσ : Heap σ) (hl : ∀ g ∈ C.fns, g.selector.length = 4)
    (hcd : σ.host.calldata = []) (hrc : ∀ g ∈ C.fns, g.name ≠ "receive")
    (hn : ∀ g ∈ C.fns, g.selector ≠ [0, 0, 0, 0])
    (hfb : ∀ g ∈ C.fns, g.name ≠ "fallback") (hroom : Room σ 204) :
    Reverts C σ (errorString (text "100")) (fun σ2 => σ2.host = σ.host) := by
  have hnone : C.named "fallback" = none := by
    unfold Contract.named; rw [List.find?_eq_none]; simpa using hfb
  have hnone' : C.named "receive" = none := by
    unfold Contract.named; rw [List.find?_eq_none]; simpa using hrc
  refine (router_noMatch (sel := [0, 0, 0, 0]) hσ (by rw [hcd]; exact .zero hnone') rfl hl hn hnone
    (hroom.mono (by rw [hcd]; simp))).mono ?_
  rintro r σ' ⟨rfl, σ2, hst, rfl⟩
  exact ⟨rfl, σ2, hst.host, rfl⟩

/-- A contract without receive function runs the function whose selector is zero when the calldata are
empty. -/
theorem C30_zero_selector {C : Contract} {f : PubFn} {rs : List Val} {I : Store → Prop}
    (hE : C.E.Valid) (hσ : Heap σ) (hl : ∀ g ∈ C.fns, g.selector.length = 4) (hcd : σ.host.calldata = [])
    (hrc : ∀ g ∈ C.fns, g.name ≠ "receive") (ha : ATy.vals f.args = []) (hf : Finds C [0, 0, 0, 0] f)
    (hroom : Room σ (4 + needActs f.args [])) (hv : C.save = noSave)
    (hrun : Runs σ f [] rs I) : Succeeds C σ rs I := by
  have hnone' : C.named "receive" = none := by
    unfold Contract.named; rw [List.find?_eq_none]; simpa using hrc
  refine run_ok (sel := [0, 0, 0, 0]) (vs := []) (by rw [hcd]; exact .zero hnone') hf hv hE hσ hl
    (hroom.mono (by rw [hcd]; simp)) ?_ hrun
  intro σ1 hst hn
  rw [hcd] at hn
  have h1 := hroom.1
  have h2 := hroom.2
  exact decodes_none (by rw [hn]; simp) ha hst.heap ⟨by omega, by rw [hst.maxPages]; simp at hn; omega⟩


/-! ### C33: checked calls -/

/-- A checked call of any function: if it returns, the caller continues with the results when no abort is
pending, and otherwise returns at once, the state (and so the abort) unchanged. -/
theorem C33_checked_call {f : Fn} {args r s l : List Nat} {ty : RetTy} {is : List Instr} {Q : Res → Prop}
    (hr : f.Returns args σ r σ') (hs : 260 ≤ σ'.size) :
    wp (callF f ty ++ is) (args.reverse ++ s) l σ Q ↔
      (if errWord σ' = 0 then wp is (r ++ s) l σ' Q else Q (.ret (badStk ty) σ')) := by
  have key : wp (callF f ty ++ is) (args.reverse ++ s) l σ Q ↔ wp (propagate ty :: is) (r ++ s) l σ' Q := by
    constructor
    · intro h
      obtain ⟨hl, k, hk1, hk2⟩ := hr
      obtain ⟨n, h1, h2⟩ := h
      unfold callF at h1 h2
      cases n with
      | zero => simp [run] at h1
      | succ n =>
        have e1 : (args.reverse ++ s).take f.na = args.reverse := by
          rw [List.take_append_of_le_length (by simp [hl]), List.take_of_length_le (by simp [hl])]
        have e2 : (args.reverse ++ s).drop f.na = s := by
          rw [List.drop_append_of_le_length (by simp [hl]), List.drop_of_length_le (by simp [hl]), List.nil_append]
        have e3 : ¬ (args.reverse ++ s).length < f.na := by simp [hl]
        simp only [Fn.call, List.cons_append, List.nil_append, run, e1, e2, e3, if_false, List.reverse_reverse] at h1 h2
        have hd : run n f.body [] (args ++ List.replicate f.nl 0) σ ≠ .oof := by
          intro hc; rw [hc] at h1; exact h1 rfl
        rw [run_det hk1 hd] at hk2
        cases hq : run n f.body [] (args ++ List.replicate f.nl 0) σ with
        | ok s' l' τ =>
          rw [hq] at h1 h2 hk2
          obtain ⟨rfl, rfl⟩ := hk2
          exact ⟨n, h1, h2⟩
        | ret s' τ =>
          rw [hq] at h1 h2 hk2
          obtain ⟨rfl, rfl⟩ := hk2
          exact ⟨n, h1, h2⟩
        | br j s' l' τ =>
          cases j with
          | zero =>
            rw [hq] at h1 h2 hk2
            obtain ⟨rfl, rfl⟩ := hk2
            exact ⟨n, h1, h2⟩
          | succ j => rw [hq] at hk2; exact absurd hk2 id
        | trap => rw [hq] at hk2; exact absurd hk2 id
        | oof => exact absurd hq hd
    · intro h
      unfold callF
      refine wp_call hr ?_
      rintro r' τ ⟨rfl, rfl⟩
      exact h
  rw [key, wp_propagate hs]
  unfold IfP
  split_ifs with h <;> simp [h]

/-! ### Concrete contracts -/

/-- A contract with one function, `f(u64): u64`, of selector 1, 2, 3, 4: it returns its argument (in a
tuple of eight bytes, as compiled functions do). -/
def idFn : PubFn := ⟨"f", [1, 2, 3, 4], [.val (.val .u64)], [.val .u64],
  ⟨1, 1, 1, code[Op.c32 8, alloc.call, Op.ltee 1, Op.lget 0, Op.store 8 0, Op.lget 1]⟩⟩

def idContract : Contract := ⟨E0, [idFn], noSave⟩

/-- A state with calldata `cd`. -/
def storeC (cd : List UInt8) : Store := store0.setHost { host0 with calldata := cd }

theorem storeC_heap (cd : List UInt8) : Heap (storeC cd) :=
  ⟨⟨store0_heap.ready.size, store0_heap.ready.size_lt, store0_heap.ready.noErr⟩,
    ⟨store0_alloc.1, store0_alloc.2, store0_alloc.3, store0_alloc.4, store0_alloc.5, store0_alloc.6⟩,
    store0_heap.base, store0_heap.fresh⟩
theorem storeC_room {cd : List UInt8} {n : Nat} (h : n ≤ 1000000) : Room (storeC cd) n :=
  ⟨by omega, by show 1000 + n + 65536 ≤ 128 * 65536; omega⟩

theorem idFn_runs {x : Nat} (hlt : x < 2 ^ 64) {cd : List UInt8} (hcd : cd.length ≤ 1000) :
    Runs (storeC cd) idFn [.word x] [.word x] (fun _ => True) := by
  intro ws σ1 hst hn hrep _
  have hn : σ1.nextFree = 1000 + max 4 cd.length + 0 := hn
  have hm : σ1.maxPages = 128 := hst.maxPages
  have hσ := hst.heap
  obtain ⟨w, rfl⟩ : ∃ w, ws = [w] := by
    have := hrep.length
    exact List.length_eq_one_iff.mp this
  have hw : w = x := by
    simp only [idFn, RepActs, RepA, Rep] at hrep
    exact hrep.1.1
  subst hw
  refine ⟨rfl, ?_⟩
  have hroom : Room σ1 8 := ⟨by omega, by omega⟩
  have hc : CanAlloc σ1 8 := hroom.canAlloc hσ.alloc (by omega)
  have hx := hσ.allocated hc
  have hn' : (allocated σ1 8).nextFree = σ1.nextFree + 8 := allocated_nextFree
  dsimp only [idFn]
  rw [wp_c32]
  refine wp_alloc hσ hc ?_
  have hh := hx.heap hσ
  have h1 := hh.alloc.nextFree_le
  generalize allocated σ1 8 = σ2 at *
  wstep
  have hx2 : Extends σ1 (σ2.setMem (putLe σ2.mem σ1.nextFree 8 w)) := hx.putLe (by omega) (by omega)
  refine ⟨hx2.heap hσ, ?_, ?_⟩
  · unfold Returned
    rw [if_neg (by simp)]
    refine ⟨σ1.nextFree, [w], rfl, ?_, ?_⟩
    · simp only [RetTuple, PTy.size, MTy.size]
      refine ⟨?_, by rw [setMem_nextFree]; omega⟩
      rw [setMem_mem, leNat_putLe_same]
      exact Nat.mod_eq_of_lt (by simpa using hlt)
    · simp only [RepAll, RepP, Rep]
      exact ⟨⟨trivial, hlt⟩, trivial⟩
  · have : (encTuple [.word w]).length = 32 := by simp [encTuple, enc, heads, tails, dyn, word_length]
    rw [this]
    exact ⟨by omega, by rw [setMem_nextFree, setMem_maxPages, hx.maxPages]; omega⟩

/-- Calling `f(7)`. -/
example : Succeeds idContract (storeC ([1, 2, 3, 4] ++ encTuple [.word 7])) [.word 7] (fun _ => True) := by
  have hl : ([1, 2, 3, 4] ++ encTuple [.word 7] : List UInt8).length = 36 := by
    simp [encTuple, enc, heads, tails, dyn, word_length]
  refine C29_dispatch (f := idFn) (vs := [.word 7]) ?_ ⟨⟨[], [], rfl, by simp⟩, rfl⟩ rfl (idFn_runs (by decide) (by omega))
  refine ⟨E0_valid, storeC_heap _, ?_, ⟨[], by simp [storeC, idFn, Store.setHost]⟩, ?_, ?_, storeC_room ?_, ?_⟩
  · simp [idContract, idFn]
  · simp [idFn, ATy.vals, HasTys, HasTy, PTy.ty]
  · simp [idFn, ATy.vals, EnumsOkArgs, EnumsOk, PTy.ty]
  · simp [needActs, idFn, needA, need, storeC, Store.setHost, encTuple, enc, heads, tails, dyn, word_length]
  · simp [FitsActs, idFn, Fits, PTy.ty]

/-- Another selector. -/
example : Reverts idContract (storeC ([1, 2, 3, 5] ++ encTuple [.word 7])) (errorString (text "100"))
    (fun σ2 => σ2.host = (storeC ([1, 2, 3, 5] ++ encTuple [.word 7])).host) := by
  refine C29_noMatch (storeC_heap _) (by simp [idContract, idFn]) ?_ ?_ (by simp [idContract, idFn]) (storeC_room ?_)
  · simp [storeC, Store.setHost]
  · simp [storeC, Store.setHost, idContract, idFn]
  · simp [storeC, Store.setHost, encTuple, enc, heads, tails, dyn, word_length]

/-- A contract without receive function whose only function has the selector zero. -/
def zeroContract : Contract := ⟨E0, [⟨"f", [0, 0, 0, 0], [], [], ⟨0, 0, 0, []⟩⟩], noSave⟩

/-- Without receive function, empty calldata can run an ordinary function: the selector is then zero. -/
theorem C30_false : (∀ g ∈ zeroContract.fns, g.name ≠ "receive" ∧ g.name ≠ "fallback") ∧
    (storeC []).host.calldata = [] ∧ Succeeds zeroContract (storeC []) [] (fun _ => True) := by
  refine ⟨by simp [zeroContract], rfl, ?_⟩
  refine C30_zero_selector (f := ⟨"f", [0, 0, 0, 0], [], [], ⟨0, 0, 0, []⟩⟩) E0_valid (storeC_heap _)
    (by simp [zeroContract]) rfl (by simp [zeroContract]) rfl ⟨⟨[], [], rfl, by simp⟩, rfl⟩ (storeC_room (by simp [needActs])) rfl ?_
  intro ws σ1 hst hn hrep _
  have hn : σ1.nextFree = 1000 + 4 + 0 := hn
  have hm : σ1.maxPages = 128 := hst.maxPages
  cases ws with
  | cons => simp [RepActs] at hrep
  | nil =>
    refine ⟨rfl, ?_⟩
    rw [wp_nil]
    exact ⟨hst.heap, by simp [Returned], ⟨by decide, by
      rw [hn, hm]; decide⟩, trivial⟩

theorem Fn.Calls.returns {f : Fn} {args : List Nat} {P : List Nat → Store → Prop} (h : f.Calls args σ P) :
    ∃ r σ', f.Returns args σ r σ' ∧ P r σ' := by
  obtain ⟨n, r, σ', h1, h2⟩ := (Fn.calls_iff h.1).mp h
  exact ⟨r, σ', (Fn.calls_iff h.1).mpr ⟨n, r, σ', h1, rfl, rfl⟩, h2⟩

/-- A call that returns status 0 (`C28_success`). -/
example : ∃ σ', (router zeroContract).Returns [0] (storeC []) [0] σ' := by
  obtain ⟨r, σ', h1, h2, -⟩ := Fn.Calls.returns C30_false.2.2
  subst h2
  exact ⟨σ', h1⟩

/-- A call that returns another status (`C28_failure`). -/
example : ∃ σ', (router ⟨E0, [], noSave⟩).Returns [4] (storeC [1, 2, 3, 4]) [1] σ' ∧
    σ'.host.committed = (storeC [1, 2, 3, 4]).host.committed := by
  have h : Reverts ⟨E0, [], noSave⟩ (storeC [1, 2, 3, 4]) _ _ :=
    C29_noMatch (storeC_heap _) (by simp) (by simp [storeC, Store.setHost]) (by simp) (by simp)
      (storeC_room (by simp [storeC, Store.setHost]))
  obtain ⟨r, σ', h1, h2, -⟩ := Fn.Calls.returns h
  subst h2
  exact ⟨σ', h1, C28_failure h1 (by simp) (by simp)⟩

/-- A function that writes nothing, as receive or fallback function. -/
def nopFn (name : String) : PubFn := ⟨name, [1, 2, 3, 4], [.txCtx], [], ⟨1, 0, 0, []⟩⟩

theorem nopFn_runs {name : String} {cd : List UInt8} (hcd : cd.length ≤ 1000) :
    Runs (storeC cd) (nopFn name) [] [] (fun _ => True) := by
  intro ws σ1 hst hn hrep _
  have hn : σ1.nextFree = 1000 + max 4 cd.length + 4 := hn
  have hm : σ1.maxPages = 128 := hst.maxPages
  refine ⟨hrep.length, ?_⟩
  dsimp only [nopFn]
  rw [wp_nil]
  refine ⟨hst.heap, by simp [Returned], ⟨by decide, ?_⟩, trivial⟩
  rw [hn, hm]
  show 1000 + max 4 cd.length + 4 + 0 + 65536 ≤ 128 * 65536
  omega

example : Succeeds ⟨E0, [nopFn "receive"], noSave⟩ (storeC []) [] (fun _ => True) :=
  C30_receive (f := nopFn "receive") E0_valid (storeC_heap _) (by simp [nopFn]) rfl rfl rfl
    ⟨⟨[], [], rfl, by simp⟩, rfl⟩ (storeC_room (by simp [needActs, nopFn])) rfl (nopFn_runs (by simp))

example : Succeeds ⟨E0, [nopFn "fallback"], noSave⟩ (storeC [4, 3, 2, 1, 0]) [] (fun _ => True) := by
  refine C29_fallback (f := nopFn "fallback") (vs := []) ?_ (by simp [storeC, Store.setHost])
    (by simp [nopFn, storeC, Store.setHost]) rfl rfl (nopFn_runs (by simp))
  refine ⟨E0_valid, storeC_heap _, by simp [nopFn], ⟨[4, 3, 2, 1, 0], rfl⟩, ?_, ?_, storeC_room ?_, ?_⟩
  · simp [nopFn, ATy.vals, HasTys]
  · simp [nopFn, ATy.vals, EnumsOkArgs]
  · simp [needActs, nopFn, storeC, Store.setHost]
  · simp [FitsActs, nopFn]

/-- Empty calldata are rejected by a contract without functions. -/
example : Reverts ⟨E0, [idFn], noSave⟩ (storeC []) (errorString (text "100"))
    (fun σ2 => σ2.host = (storeC []).host) :=
  C30_empty_partial (storeC_heap _) (by simp [idFn]) rfl (by simp [idFn]) (by simp [idFn]) (by simp [idFn])
    (storeC_room (by decide))

/-- A function that aborts with its argument as abort code. -/
def abortingFn : PubFn := ⟨"g", [9, 9, 9, 9], [.val (.val .u64)], [], abortFn .none⟩

/-- Calling `g(42)` reverts with the message "42". -/
example : Reverts ⟨E0, [idFn, abortingFn], noSave⟩ (storeC ([9, 9, 9, 9] ++ encTuple [.word 42]))
    (errorString (text "42")) (fun _ => True) := by
  have hl : ([9, 9, 9, 9] ++ encTuple [.word 42] : List UInt8).length = 36 := by
    simp [encTuple, enc, heads, tails, dyn, word_length]
  refine C29_abort (f := abortingFn) (vs := [.word 42]) ?_ ⟨⟨[idFn], [], rfl, by simp [idFn, abortingFn]⟩, rfl⟩ ?_
  · refine ⟨E0_valid, storeC_heap _, ?_, ⟨[], by simp [storeC, abortingFn, Store.setHost]⟩, ?_, ?_, storeC_room ?_, ?_⟩
    · simp [idFn, abortingFn]
    · simp [abortingFn, ATy.vals, HasTys, HasTy, PTy.ty]
    · simp [abortingFn, ATy.vals, EnumsOkArgs, EnumsOk, PTy.ty]
    · simp [needActs, abortingFn, needA, need, storeC, Store.setHost, encTuple, enc, heads, tails, dyn, word_length]
    · simp [FitsActs, abortingFn, Fits, PTy.ty]
  · intro ws σ1 hst hn hrep _
    have hn : σ1.nextFree = 1000 + max 4 (([9, 9, 9, 9] ++ encTuple [.word 42] : List UInt8)).length + 0 := hn
    rw [hl] at hn
    have hm : σ1.maxPages = 128 := hst.maxPages
    have hσ := hst.heap
    obtain ⟨w, rfl⟩ : ∃ w, ws = [w] := by
      have := hrep.length
      exact List.length_eq_one_iff.mp this
    have hw : w = 42 := by
      simp only [abortingFn, RepActs, RepA, Rep] at hrep
      exact hrep.1.1
    subst hw
    refine (C31_abort_code .none (n := 42) (by decide) hσ ⟨by decide, by rw [hn, hm]; decide⟩).mono ?_
    rintro r σ2 ⟨h1, h2, ⟨h3, h4⟩, hx⟩
    have hb := hσ.base
    have h5 := hx.alloc.nextFree_le
    have h6 := hx.alloc.size_lt
    have h7 := hσ.ready.size
    have h8 := hx.size
    unfold reserved at hb
    refine ⟨?_, by omega, by omega, ?_, h3, h4, trivial⟩
    · have : (errStore σ1 (errWord σ2)).size = σ1.size := rfl
      omega
    · have : errWord σ2 + 4 + (errorString (text "42")).length ≤ σ2.nextFree := h2
      omega

/-- An addition that overflows, called through the checked path (`C33_checked_call`). -/
example : ∃ r, (addU64 E0).Returns [2 ^ 64 - 1, 1] store0 r (errStore store0 468) ∧
    errWord (errStore store0 468) = 468 := by
  have h := addU64_spec E0 (a := 2 ^ 64 - 1) (b := 1) (σ := store0) (by decide) (by decide) (by decide)
  have e : Spec.add 64 (2 ^ 64 - 1) 1 = none := by decide
  rw [e] at h
  obtain ⟨r, σ', h1, rfl⟩ := Fn.Calls.returns h
  exact ⟨r, h1, rfl⟩

end Props
