import Verif.Proof.Transaction
import Verif.Props.Recursion
import Verif.Props.Router

/-!
# C95: transactions that call a Move function

From the calldata to the result: the entry point, the wrapper of the public function and the compiled
function together do what the Move function does.
-/

namespace Props
open Wasm Rt Abi Move

variable {E : ErrPtrs} {P : Prog} {U n : Nat} {flows : List Flow} {C : Contract} {F : MFun} {f : PubFn} {As : List Arg}
  {es : List RtErr} {ps : List Nat} {t : ErrTable} {maxPages : Nat} {host : Host}

/-- `fn` is the function compiled from `F`, a function of the program `P`.  If functions of `P` call each other
recursively, calls are unrolled as often as the work `n` of the execution requires (`Verif.Rt.Unroll`). -/
inductive IsCompiled (E : ErrPtrs) (P : Prog) (flows : List Flow) (F : MFun) (fn : Fn) (n : Nat) : Prop
  | straight {i : Nat} {tbl : List (MFun × Fn)} : compileProg E P flows = some tbl → tbl[i]? = some (F, fn) → IsCompiled E P flows F fn n
  | unrolled {i k : Nat} {tbl : List (MFun × Fn)} : compileProg E (P.unroll (k + 1)) (copyFlows P flows (k + 1)) = some tbl →
      P.funs[i]? = some F → tbl[(k + 1) * P.funs.length + i]? = some (F.shift (k * P.funs.length), fn) → n ≤ k + 1 →
      IsCompiled E P flows F fn n

/-- A transaction that calls the public function `f`, compiled from the Move function `F`, with the
arguments `As`, on a contract that has just been instantiated. -/
structure Tx (C : Contract) (P : Prog) (flows : List Flow) (U : Nat) (F : MFun) (f : PubFn) (As : List Arg) (n : Nat)
    (es : List RtErr) (ps : List Nat) (t : ErrTable) (maxPages : Nat) (host : Host) : Prop where
  /-- The messages the compiler has put into the data segment. -/
  table : ErrTable.new.gets es = some (ps, t)
  ptrs : ∀ q ∈ es.zip ps, C.E q.1 = q.2
  errs : C.E.Valid
  unit : 400 ≤ U
  funs : ∀ F ∈ P.funs, 64 * F.args.length ≤ U ∧ tupleSize F.rets ≤ U
  flow : flows.length = P.funs.length
  fit : ∀ z ∈ P.funs.zip flows, z.2.fits z.1 = true
  comp : IsCompiled C.E P flows F f.fn n
  /-- The signature. -/
  args : f.args = As.map Arg.aty
  rets : f.rets = F.rets.map Ty.pty
  types : (Arg.start As []).1.map (·.ty) = F.args
  wf : ∀ A ∈ As, A.wf
  /-- The contract and the calldata. -/
  found : Finds C f.selector f
  sels : ∀ g ∈ C.fns, g.selector.length = 4
  data : ∃ extra, host.calldata = f.selector ++ encTuple (Arg.vals As) ++ extra
  pages : 1 ≤ maxPages ∧ maxPages ≤ 65535
  /-- What the program learns from native functions is what the host says. -/
  told : Truthful P host

/-- The execution of the Move function. -/
def MoveRuns (P : Prog) (F : MFun) (As : List Arg) (n : Nat) (h : Halt) : Prop :=
  Move.Runs P (fun F c => ¬ Excluded F c) F (F.start (Arg.start As []).1 (Arg.start As []).2) n h

/-- The memory that is enough for the transaction: the calldata, the decoded arguments, the execution. -/
def txRoom (f : PubFn) (As : List Arg) (U n : Nat) (host : Host) : Nat :=
  4 + host.calldata.length + needActs f.args (Arg.vals As) + U * (n + 1)

theorem Tx.heap (T : Tx C P flows U F f As n es ps t maxPages host) : Heap (initStore t maxPages host) :=
  (C48_start host T.table T.pages.1 T.pages.2).2.2.1

theorem IsCompiled.ends {fn : Fn} (hc : IsCompiled E P flows F fn n) (hE : E.Valid) (hU : 400 ≤ U)
    (hF : ∀ F ∈ P.funs, 64 * F.args.length ≤ U ∧ tupleSize F.rets ≤ U) (hl : flows.length = P.funs.length)
    (hfit : ∀ z ∈ P.funs.zip flows, z.2.fits z.1 = true) {σ : Store} {args : List Opd} {ws : List Nat} {h : Halt} {M : Mem}
    {ρ : List Nat} {m fr : Nat → Nat} (hW : World σ ρ M (Own ρ M m fr)) (ht : args.map (·.ty) = F.args)
    (ha : ArgsRep σ (Frozen σ (Own ρ M m fr)) ρ args ws m)
    (hr : Move.Runs P (fun F c => ¬ Excluded F c) F (F.start args M) n h) (hroom : Room σ (U * (n + 1)))
    (ht' : Truthful P σ.host) : Ends E P.consts fn ws σ (U * (n + 1)) ρ (Own ρ M m fr) fr h := by
  cases hc with
  | straight hc hi =>
    exact (compileProg_ok hE hU hF (fun _ _ h => h) hfit hc).2 _ _ fn hi _ _ _ _ _ _ _ _ _ hW ht ha hr hroom ht'
  | unrolled hc hf hi hk =>
    exact (compileProg_ok (A := fun F c => ¬ Excluded F c) hE hU (unit_copies hF _) (fun _ _ h => h) (fits_copies hl hfit _) hc).2 _ _ fn hi
      _ _ _ _ _ _ _ _ _ hW ht ha (runs_unroll excluded_copy hr (Nat.lt_succ_self _) hk) hroom ht'

theorem Tx.valid (T : Tx C P flows U F f As n es ps t maxPages host)
    (hroom : Room (initStore t maxPages host) (txRoom f As U n host)) :
    ValidCall C (initStore t maxPages host) f f.selector (Arg.vals As) where
  errs := T.errs
  heap := T.heap
  sels := T.sels
  data := T.data
  types := by rw [T.args]; exact Arg.hasTys As T.wf
  enums := by rw [T.args]; exact Arg.enums As
  room := hroom.mono (by unfold txRoom; show 4 + host.calldata.length + _ ≤ _; omega)
  fits := by rw [T.args]; exact Arg.fits _ As _

/-- The compiled function, called by the wrapper. -/
theorem Tx.ends (T : Tx C P flows U F f As n es ps t maxPages host) {h : Halt} (hr : MoveRuns P F As n h)
    {σ1 : Store} {ws : List Nat} (hst : Started (initStore t maxPages host) σ1) {k : Nat} (hk : U * (n + 1) ≤ k)
    (hroom : Room (initStore t maxPages host) (4 + host.calldata.length + needActs f.args (Arg.vals As) + k))
    (hn : σ1.nextFree = t.next + max 4 host.calldata.length + needActs f.args (Arg.vals As))
    (hrep : RepActs σ1.mem σ1.nextFree f.args (Arg.vals As) ws)
    (hlaid : LaidActs σ1.mem f.args (Arg.vals As) ws (t.next + max 4 host.calldata.length)) :
    Room σ1 k ∧ ∃ ρ m, let own := Own ρ (Arg.start As []).2 m (fun _ => 0)
      (∀ x, own x ≠ 0 → t.next ≤ x) ∧
      Ends C.E P.consts f.fn ws σ1 (U * (n + 1)) ρ own (fun _ => 0) h := by
  have hb := T.heap.base
  rw [T.args] at hrep hlaid hn hroom
  rw [Arg.needActs] at hn hroom
  have hR : Room σ1 k := by
    have h1 := hroom.1
    have h2 := hroom.2
    rw [← hst.maxPages, show (initStore t maxPages host).nextFree = t.next from rfl] at h2
    exact ⟨by omega, by omega⟩
  refine ⟨hR, ?_⟩
  have hb' : reserved ≤ t.next := hb
  obtain ⟨ρ, m, hW, hlow, ha⟩ := Arg.world hst.heap (by omega) hn T.wf hrep hlaid
  exact ⟨ρ, m, fun x hx => by have := hlow x hx; omega,
    T.comp.ends T.errs T.unit T.funs T.flow T.fit hW T.types ha hr (hR.mono hk) (by rw [hst.host]; exact T.told)⟩

/-- **C95 (partial)** A transaction whose calldata are the selector of a public function and the ABI encoding of the
arguments, possibly followed by more.  If the Move function returns with these arguments, the transaction succeeds; what
it returns is the ABI encoding of the results of the Move function, references standing for what they refer to when the
function ends; storage, logs and the rest of the chain's state are as before.

Missing: parameters and results with vectors, strings, enums or objects in storage; signers; the rest as for C66. -/
theorem C95_return_partial (T : Tx C P flows U F f As n es ps t maxPages host) (hs : C.save = noSave) {vs : List Opd} {M' : Mem}
    {rs : List Data} (hr : MoveRuns P F As n (.ret vs M')) (hv : values M' vs = some rs)
    (hroom : Room (initStore t maxPages host) (txRoom f As U n host + (encTuple (rs.map Data.val)).length)) :
    (router C).Calls [host.calldata.length] (initStore t maxPages host) (fun r σ' => r = [0] ∧
      σ'.host = { host with result := some (encTuple (rs.map Data.val)), committed := host.storage }) := by
  have hty : vs.map (·.ty) = F.rets := hr.ret_ty vs M' rfl
  have := C29_dispatch (rs := rs.map Data.val) (I := fun σ2 => σ2.host = host) (T.valid (hroom.mono (by omega))) T.found hs ?_
  · refine Fn.Calls.mono this ?_
    rintro r σ' ⟨rfl, σ2, h1, h2⟩
    exact ⟨rfl, by rw [h2, h1]⟩
  intro ws σ1 hst hn hrep hlaid
  unfold txRoom at hroom
  rw [Nat.add_assoc _ (U * (n + 1))] at hroom
  obtain ⟨hR, ρ, m, hlow, he⟩ := T.ends hr hst (Nat.le_add_right _ _) hroom hn hrep hlaid
  refine Fn.Calls.mono he ?_
  rintro r σ2 ⟨ρ', m', -, hW, hG, hnf, hres⟩
  refine ⟨hW.heap, ?_, ?_, ?_⟩
  · have := hres.returned (M := M') (fun x hx => hx.1) hW.cells hv
    rwa [hty, ← T.rets] at this
  · exact hR.after (by omega) hG.alters.maxPages
  · show σ2.host = host
    rw [hG.alters.host, hst.host]; rfl

theorem Tx.first (T : Tx C P flows U F f As n es ps t maxPages host) : ∃ pre post, First C f.selector pre f post :=
  T.found.first T.sels

/-- **C95, aborts (partial)** If the Move function aborts with the code `c`, however deep in the calls, the transaction
fails; what it returns is the revert message for `c`: its decimal digits, or the text of a clever error; storage is not
committed, nor is the state of the chain changed in any other way.  Missing: as for `C95_return_partial`. -/
theorem C95_abort_partial (T : Tx C P flows U F f As n es ps t maxPages host) {c : Nat} (hr : MoveRuns P F As n (.abort c))
    (hroom : Room (initStore t maxPages host) (txRoom f As U n host)) :
    (router C).Calls [host.calldata.length] (initStore t maxPages host) (fun r σ' => r = [1] ∧
      ∃ text, AbortText P.consts c text ∧ σ'.host = { host with result := some (errorString text) }) := by
  obtain ⟨pre, post, hfst⟩ := T.first
  have hV := T.valid hroom
  have hb : reserved ≤ t.next := T.heap.base
  refine Fn.Calls.mono (router_abort (P := fun _ σ2 => σ2.host = host ∧ 260 ≤ σ2.size ∧ σ2.size < 2 ^ 32 ∧ errWord σ2 ≠ 0 ∧
      ∃ text, AbortText P.consts c text ∧ errWord σ2 + 4 + (errorString text).length ≤ σ2.size ∧
        IsRevert σ2.mem (errWord σ2) text)
    T.errs T.heap (hV.selects T.found.mem) hfst (hV.room.mono (by omega)) (vs := Arg.vals As) ?_ ?_ ?_) ?_
  · intro σ1 hst hn
    have h4 := T.sels f T.found.mem
    have := hV.decodes hst hn
    rwa [h4] at this
  · intro ws σ1 hst hn hrep hlaid
    obtain ⟨hR, ρ, m, hlow, he⟩ := T.ends hr hst (Nat.le_refl _) hroom hn hrep hlaid
    refine Fn.Calls.mono he ?_
    intro r σ2 hf
    have hRes : ∀ x, (Own ρ (Arg.start As []).2 m (fun _ => 0) x ≠ 0 ∧ (0 : Nat) = 0) → reserved ≤ x :=
      fun x hx => by have := hlow x hx.1; omega
    obtain ⟨h260, hne⟩ := Failed.err T.errs hst.heap hRes hf
    obtain ⟨p, text, h0, h1, hx, htext, hle, hlen, hbytes⟩ := hf
    have e : errWord σ2 = p := alters_errWord hx hst.heap h1 hRes
    have hsz := hx.alloc.nextFree_le
    refine ⟨by rw [hx.host]; exact hst.host, h260, hx.alloc.size_lt, hne, text, htext, by rw [e]; omega, ?_⟩
    rw [e]
    refine ⟨hlen, ?_⟩
    refine List.ext_getElem (by rw [rdBytes_length]) fun i g1 g2 => ?_
    rw [← hbytes i g2, rdBytes_getElem]
  · rintro r σ2 ⟨-, h1, h2, h3, text, -, h4, h5⟩
    exact ⟨h1, h2, h3, by rw [h5.1]; exact h4⟩
  · rintro r σ' ⟨rfl, r2, σ2, ⟨h0, h1, h2, h3, text, ht, h4, h5⟩, rfl⟩
    refine ⟨rfl, text, ht, ?_⟩
    rw [h5.1, h5.2, ← h0]
    rfl

/-- **C95, failed operations (partial)** If an operation of the Move function fails (an overflow, a cast or a shift out
of range), the transaction fails and returns the message of that error; storage is not committed.  The error is among
those the compiler has put into the data segment.  Missing: as for `C95_return_partial`. -/
theorem C95_fault_partial (T : Tx C P flows U F f As n es ps t maxPages host) {o : Fault} (hr : MoveRuns P F As n (.arith o))
    (hes : ∀ e, FaultErr o e → e ∈ es)
    (hroom : Room (initStore t maxPages host) (txRoom f As U n host)) :
    (router C).Calls [host.calldata.length] (initStore t maxPages host) (fun r σ' => r = [1] ∧
      ∃ e, FaultErr o e ∧ σ'.host = { host with result := some (errorString e.msg) }) := by
  obtain ⟨pre, post, hfst⟩ := T.first
  have hV := T.valid hroom
  have hb : reserved ≤ t.next := T.heap.base
  refine Fn.Calls.mono (router_abort (P := fun _ σ2 => σ2.host = host ∧ 260 ≤ σ2.size ∧ σ2.size < 2 ^ 32 ∧ errWord σ2 ≠ 0 ∧
      ∃ e, FaultErr o e ∧ errWord σ2 + 4 + (errorString e.msg).length ≤ σ2.size ∧
        IsRevert σ2.mem (errWord σ2) e.msg)
    T.errs T.heap (hV.selects T.found.mem) hfst (hV.room.mono (by omega)) (vs := Arg.vals As) ?_ ?_ ?_) ?_
  · intro σ1 hst hn
    have h4 := T.sels f T.found.mem
    have := hV.decodes hst hn
    rwa [h4] at this
  · intro ws σ1 hst hn hrep hlaid
    obtain ⟨hR, ρ, m, hlow, he⟩ := T.ends hr hst (Nat.le_refl _) hroom hn hrep hlaid
    refine Fn.Calls.mono he ?_
    intro r σ2 hf
    have hRes : ∀ x, (Own ρ (Arg.start As []).2 m (fun _ => 0) x ≠ 0 ∧ (0 : Nat) = 0) → reserved ≤ x :=
      fun x hx => by have := hlow x hx.1; omega
    obtain ⟨h260, hne⟩ := Failed.err T.errs hst.heap hRes hf
    obtain ⟨e, hfe, hx⟩ := hf
    have ee : errWord σ2 = C.E e := alters_errWord hx hst.heap (T.errs e).2 hRes
    obtain ⟨ps', t', h', hok, hlen, hm, -⟩ := ErrTable.new_ok.gets es
    rw [T.table] at h'
    obtain ⟨rfl, rfl⟩ := Prod.mk.inj (Option.some.inj h')
    obtain ⟨q, hq, rfl⟩ : ∃ q ∈ es.zip ps, q.1 = e := by
      obtain ⟨i, hi, rfl⟩ := List.mem_iff_getElem.mp (hes e hfe)
      exact ⟨(es[i], ps[i]'(by omega)), List.mem_iff_getElem.mpr ⟨i, by simp; omega, by simp⟩, rfl⟩
    have hrev := C31_runtime_errors (maxPages := maxPages) host T.table q hq
    have hq2 := T.ptrs q hq
    have hlow2 := hok.low _ _ (hm q hq)
    have hml := msg_len q.1
    rw [encodeError_length (by omega)] at hlow2
    have hsz := hx.alloc.nextFree_le
    have hnf : σ1.nextFree ≤ σ2.nextFree := hx.nextFree
    refine ⟨by rw [hx.host]; exact hst.host, h260, hx.alloc.size_lt, hne, q.1, hfe, ?_, ?_⟩
    · rw [ee, hq2, errorString_length]
      have : t.next ≤ σ1.nextFree := by have := hst.nextFree; show t.next ≤ _; exact Nat.le_trans (Nat.le_add_right _ _) this
      omega
    · rw [ee, hq2]
      refine hrev.congr fun x g1 g2 => ?_
      rw [errorString_length] at g2
      have hnx : t.next ≤ σ1.nextFree := by
        have := hst.nextFree
        exact Nat.le_trans (Nat.le_add_right _ _) this
      rw [hx.mem x (by show x < σ1.nextFree; omega) fun hxR => by have := hlow x hxR.1; omega]
      show putLe σ1.mem abortPtr 4 _ x = _
      have : abortPtr = 256 := rfl
      rw [putLe_out (by omega), hst.mem x (by show x < t.next; omega) (by omega)]
  · rintro r σ2 ⟨-, h1, h2, h3, e, -, h4, h5⟩
    exact ⟨h1, h2, h3, by rw [h5.1]; exact h4⟩
  · rintro r σ' ⟨rfl, r2, σ2, ⟨h0, h1, h2, h3, e, ht, h4, h5⟩, rfl⟩
    refine ⟨rfl, e, ht, ?_⟩
    rw [h5.1, h5.2, ← h0]
    rfl

/-- **C95, divisions by zero (partial)** If the Move function divides by zero, the transaction traps: it fails without
any message.  Missing: as for `C95_return_partial`. -/
theorem C95_divZero_partial (T : Tx C P flows U F f As n es ps t maxPages host) (hr : MoveRuns P F As n .divZero)
    (hroom : Room (initStore t maxPages host) (txRoom f As U n host)) :
    (router C).Traps [host.calldata.length] (initStore t maxPages host) := by
  obtain ⟨pre, post, hfst⟩ := T.first
  have hV := T.valid hroom
  refine router_trap T.errs T.heap (hV.selects T.found.mem) hfst (hV.room.mono (by omega)) (vs := Arg.vals As) ?_ ?_
  · intro σ1 hst hn
    have h4 := T.sels f T.found.mem
    have := hV.decodes hst hn
    rwa [h4] at this
  · intro ws σ1 hst hn hrep hlaid
    obtain ⟨hR, ρ, m, hlow, he⟩ := T.ends hr hst (Nat.le_refl _) hroom hn hrep hlaid
    exact he

/-! ### Examples

The contract of `fact` and `check` (`Verif.Props.Compile`) and of

```move
fun half(n: u64): u64 { 100 / n }
fun pred(n: u64): u64 { n - 1 }
``` -/

def predFun : MFun := ⟨[tU64], [tU64], [], [.moveLoc 0, .ldInt u64 1, .bin (.arith .sub), .ret]⟩
def halfFun : MFun := ⟨[tU64], [tU64], [], [.ldInt u64 100, .moveLoc 0, .bin (.arith .div), .ret]⟩

def txProg : Prog := ⟨[], [mulFun, factFun, checkFun, predFun, halfFun], mute⟩
def txFlows : List Flow := factFlows ++ [lineFlow 4, lineFlow 4]

theorem txFlows_fit : ∀ z ∈ txProg.funs.zip txFlows, z.2.fits z.1 = true := by decide +kernel
theorem tx_compiles : (compileProg E0 txProg txFlows).isSome = true := by decide +kernel
theorem tx_unit : ∀ F ∈ txProg.funs, 64 * F.args.length ≤ 400 ∧ tupleSize F.rets ≤ 400 := by decide

/-- The compiled functions. -/
def txTbl : List (MFun × Fn) := (compileProg E0 txProg txFlows).getD []

/-- The public function made of function `i`, with the selector 9, 9, 9, `i`. -/
def txPub (i : Nat) (F : MFun) : PubFn :=
  ⟨"f", [9, 9, 9, UInt8.ofNat i], [.val (.val .u64)], F.rets.map Ty.pty, ((txTbl[i]?).map (·.2)).getD ⟨0, 0, 0, []⟩⟩

def txContract : Contract := ⟨E0, [txPub 1 factFun, txPub 2 checkFun, txPub 3 predFun, txPub 4 halfFun], noSave⟩

def txTable : ErrTable := ⟨572, [(.overflow, 468)], baseSegs ++ [(468, encodeError (RtErr.msg .overflow))]⟩

def txHost (i n : Nat) : Host := { host0 with calldata := [9, 9, 9, UInt8.ofNat i] ++ encTuple [.word n] }

theorem txHost_length (i n : Nat) : (txHost i n).calldata.length = 36 := by
  simp [txHost, encTuple, enc, heads, tails, dyn, word_length]

theorem tx_call {i v n : Nat} {F : MFun} (hi : i = 1 ∨ i = 2 ∨ i = 3 ∨ i = 4) (hF : txProg.funs[i]? = some F) (hv : v < 2 ^ 64)
    (ha : F.args = [tU64]) :
    Tx txContract txProg txFlows 400 F (txPub i F) [.val (.num ⟨.int u64, v⟩)] n [.overflow] [468] txTable 128 (txHost i v) where
  table := rfl
  ptrs := by intro q hq; simp at hq; subst hq; rfl
  errs := E0_valid
  unit := Nat.le_refl _
  funs := tx_unit
  flow := rfl
  fit := txFlows_fit
  comp := by
    obtain ⟨tbl, hc⟩ := Option.isSome_iff_exists.mp tx_compiles
    obtain ⟨fn, h1, -⟩ := C66_partial E0_valid (Nat.le_refl 400) tx_unit txFlows_fit hc hF
    have : txTbl = tbl := by unfold txTbl; rw [hc]; rfl
    refine .straight hc (i := i) ?_
    rw [h1, txPub, this, h1]
    rfl
  args := rfl
  rets := rfl
  types := by rw [ha]; rfl
  wf := by intro A hA; simp at hA; subst hA; exact hv
  found := by
    rcases hi with rfl | rfl | rfl | rfl <;> cases hF
    · exact ⟨⟨[], _, rfl, by simp⟩, rfl⟩
    · exact ⟨⟨[txPub 1 factFun], _, rfl, by simp [txPub]⟩, rfl⟩
    · exact ⟨⟨[txPub 1 factFun, txPub 2 checkFun], _, rfl, by simp [txPub]⟩, rfl⟩
    · exact ⟨⟨[txPub 1 factFun, txPub 2 checkFun, txPub 3 predFun], _, rfl, by simp [txPub]⟩, rfl⟩
  sels := by simp [txContract, txPub]
  data := ⟨[], by simp [txHost, txPub, Arg.vals, Data.val]⟩
  pages := by decide
  told := truthful_mute

theorem tx_room {i v n k : Nat} {F : MFun} (hn : 400 * (n + 1) + k ≤ 1000000) :
    Room (initStore txTable 128 (txHost i v)) (txRoom (txPub i F) [.val (.num ⟨.int u64, v⟩)] 400 n (txHost i v) + k) := by
  unfold txRoom
  rw [txHost_length, show needActs (txPub i F).args (Arg.vals [.val (.num ⟨.int u64, v⟩)]) = 0 from rfl]
  refine ⟨by omega, ?_⟩
  show 572 + _ + 65536 ≤ 128 * 65536
  omega

theorem tx_room0 {i v n : Nat} {F : MFun} (hn : 400 * (n + 1) ≤ 1000000) :
    Room (initStore txTable 128 (txHost i v)) (txRoom (txPub i F) [.val (.num ⟨.int u64, v⟩)] 400 n (txHost i v)) :=
  (tx_room (k := 0) (by omega)).mono (Nat.le_add_right _ _)

/-- The transaction `fact(5)` returns 120. -/
example : (router txContract).Calls [36] (initStore txTable 128 (txHost 1 5)) (fun r σ' => r = [0] ∧
    σ'.host = { txHost 1 5 with result := some (encTuple [.word 120]), committed := (txHost 1 5).storage }) := by
  obtain ⟨M, hM⟩ : ∃ M, Move.Runs txProg (fun F c => ¬ Excluded F c) factFun (factFun.start [nU64 5] []) 124
    (.ret [nU64 120] M) := runMove_ret 200 (by decide +kernel)
  exact txHost_length 1 5 ▸ C95_return_partial (rs := [.num ⟨.int u64, 120⟩]) (tx_call (i := 1) (by decide) rfl (by decide) rfl) rfl
    hM rfl (tx_room (by simp [encTuple, enc, heads, tails, dyn, word_length, Data.val]))

/-- The transaction `check(5)` reverts with "7". -/
example : (router txContract).Calls [36] (initStore txTable 128 (txHost 2 5)) (fun r σ' => r = [1] ∧
    σ'.host = { txHost 2 5 with result := some (errorString (text "7")) }) := by
  have hM : MoveRuns txProg checkFun [.val (.num ⟨.int u64, 5⟩)] 131 (.abort 7) := runMove_sound (k := 200) (by decide +kernel)
  have := C95_abort_partial (tx_call (i := 2) (by decide) rfl (by decide) rfl) hM (tx_room0 (by omega))
  rw [txHost_length] at this
  refine this.mono ?_
  rintro r σ' ⟨rfl, text, h1, h2⟩
  rw [abortText_plain h1 (by decide)] at h2
  exact ⟨rfl, h2⟩

/-- The transaction `pred(0)` reverts with "Overflow". -/
example : (router txContract).Calls [36] (initStore txTable 128 (txHost 3 0)) (fun r σ' => r = [1] ∧
    σ'.host = { txHost 3 0 with result := some (errorString (ascii8 "Overflow")) }) := by
  have hM : MoveRuns txProg predFun [.val (.num ⟨.int u64, 0⟩)] 3 (.arith .sub) := runMove_sound (k := 200) (by decide +kernel)
  have := C95_fault_partial (tx_call (i := 3) (by decide) rfl (by decide) rfl)
    hM (fun e he => by simp [FaultErr] at he; simp [he]) (tx_room0 (by omega))
  rw [txHost_length] at this
  refine this.mono ?_
  rintro r σ' ⟨rfl, e, rfl, h2⟩
  exact ⟨rfl, h2⟩

/-- The transaction `half(0)` traps. -/
example : (router txContract).Traps [36] (initStore txTable 128 (txHost 4 0)) := by
  have hM : MoveRuns txProg halfFun [.val (.num ⟨.int u64, 0⟩)] 3 .divZero := runMove_sound (k := 200) (by decide +kernel)
  have := C95_divZero_partial (tx_call (i := 4) (by decide) rfl (by decide) rfl) hM (tx_room0 (by omega))
  rwa [txHost_length] at this

/-! Structs, references and the transaction context:

```move
struct P { x: u64, y: u64 }
fun inc(p: &mut P) { let r = &mut p.x; *r = *r + 1 }
public fun bump(p: &mut P, _: &TxContext): (P, &u64) { inc(p); (*p, &p.x) }
``` -/

def tCtx : Ty := .struct 9 []

def bumpFun : MFun := ⟨[.ref true tP, .ref false tCtx], [tP, .ref true tU64], [],
  [.copyLoc 0, .call 0, .copyLoc 0, .readRef, .moveLoc 0, .borrowField true 0 [tU64, tU64] 0, .ret]⟩

def bumpProg : Prog := ⟨[], [incFun, bumpFun], mute⟩
def bumpFlows : List Flow := [lineFlow 10, lineFlow 7]

theorem bumpFlows_fit : ∀ z ∈ bumpProg.funs.zip bumpFlows, z.2.fits z.1 = true := by decide +kernel
theorem bump_compiles : (compileProg E0 bumpProg bumpFlows).isSome = true := by decide +kernel
theorem bump_unit : ∀ F ∈ bumpProg.funs, 64 * F.args.length ≤ 400 ∧ tupleSize F.rets ≤ 400 := by decide

def bumpTbl : List (MFun × Fn) := (compileProg E0 bumpProg bumpFlows).getD []

def bumpPub : PubFn :=
  ⟨"bump", [1, 2, 3, 4], [.val (.ref (.struct [.u64, .u64])), .txCtx], [.val (.struct [.u64, .u64]), .ref .u64],
    ((bumpTbl[1]?).map (·.2)).getD ⟨0, 0, 0, []⟩⟩

def dataP (x : Nat) : Data := .struct 0 [.num ⟨.int u64, x⟩, .num ⟨.int u64, 2⟩]

def bumpHost : Host := { host0 with calldata := [1, 2, 3, 4] ++ encTuple [.tuple [.word 1, .word 2]] }

theorem bumpHost_length : bumpHost.calldata.length = 68 := by
  simp [bumpHost, encTuple, enc, heads, tails, dyn, anyDyn, word_length]

theorem bump_tx : Tx ⟨E0, [bumpPub], noSave⟩ bumpProg bumpFlows 400 bumpFun bumpPub [.ref true (dataP 1), .ctx false 9] 21
    [.overflow] [468] txTable 128 bumpHost where
  table := rfl
  ptrs := by intro q hq; simp at hq; subst hq; rfl
  errs := E0_valid
  unit := Nat.le_refl _
  funs := bump_unit
  flow := rfl
  fit := bumpFlows_fit
  comp := by
    obtain ⟨tbl, hc⟩ := Option.isSome_iff_exists.mp bump_compiles
    obtain ⟨fn, h1, -⟩ := C66_partial E0_valid (Nat.le_refl 400) bump_unit bumpFlows_fit hc (f := 1) rfl
    have : bumpTbl = tbl := by unfold bumpTbl; rw [hc]; rfl
    refine .straight hc (i := 1) ?_
    rw [h1, bumpPub, this, h1]
    rfl
  args := rfl
  rets := rfl
  types := rfl
  wf := by
    intro A hA
    simp only [List.mem_cons, List.not_mem_nil, or_false] at hA
    rcases hA with rfl | rfl
    · exact ⟨(by decide : (1 : Nat) < 2 ^ 64), (by decide : (2 : Nat) < 2 ^ 64), trivial⟩
    · trivial
  found := ⟨⟨[], _, rfl, by simp⟩, rfl⟩
  sels := by simp [bumpPub]
  data := ⟨[], by simp [bumpHost, bumpPub, Arg.vals, Data.val, Data.vals, dataP]⟩
  pages := by decide
  told := truthful_mute

/-- The transaction `bump(P { x: 1, y: 2 })` returns `(P { x: 2, y: 2 }, 2)`. -/
example : (router ⟨E0, [bumpPub], noSave⟩).Calls [68] (initStore txTable 128 bumpHost) (fun r σ' => r = [0] ∧
    σ'.host = { bumpHost with result := some (encTuple [.tuple [.word 2, .word 2], .word 2]), committed := bumpHost.storage }) := by
  have hM : MoveRuns bumpProg bumpFun [.ref true (dataP 1), .ctx false 9] 21
    (.ret [.data (dataP 2), .ref ⟨true, tU64, .leaf 0⟩] (memP 2)) := runMove_sound (k := 200) (by decide +kernel)
  refine bumpHost_length ▸ C95_return_partial (rs := [dataP 2, .num ⟨.int u64, 2⟩]) bump_tx rfl hM rfl ?_
  unfold txRoom
  rw [bumpHost_length]
  refine ⟨?_, ?_⟩ <;> simp [needActs, needA, need, needFs, MTy.isScalar, MTy.size, initStore, txTable, bumpPub, Arg.vals, Data.val, Data.vals, dataP,
    encTuple, enc, heads, tails, dyn, anyDyn, word_length]

/-! Native functions: the sender of the transaction and the number of the block.

```move
module stylus::tx_context {
    public fun sender(_self: &TxContext): address { native_sender() }
    public fun block_number(_self: &TxContext): u64 { native_block_number() }
}
public fun owned(ctx: &TxContext): u64 {
    assert!(tx_context::sender(ctx) == @0x5, 3);
    tx_context::block_number(ctx)
}
``` -/

def tellFun (q : Query) : MFun := ⟨[.ref false tCtx], [.sc q.res], [], [.query q, .ret]⟩

def ownedFun : MFun := ⟨[.ref false tCtx], [tU64], [],
  [.copyLoc 0, .call 0, .ldConst 0, .bin .eq, .brFalse 8, .moveLoc 0, .call 1, .ret, .ldInt u64 3, .abort]⟩

/-- The program when the transaction is sent by `s` in block `b`. -/
def ownedProg (s b : Nat) : Prog := ⟨[⟨some .addr, List.replicate 31 0 ++ [5]⟩], [tellFun .sender, tellFun .number, ownedFun],
  fun q _ => match q with | .sender => some s | .number => some b | _ => none⟩
def ownedFlows : List Flow := [lineFlow 2, lineFlow 2,
  .simple 0 5 [] (.ifElse (.simple 5 3 [] .empty .empty) (.simple 8 2 [] .empty .empty)) .empty]

theorem ownedFlows_fit : ∀ z ∈ (ownedProg 0 0).funs.zip ownedFlows, z.2.fits z.1 = true := by decide +kernel
theorem owned_compiles : (compileProg E0 (ownedProg 0 0) ownedFlows).isSome = true := by decide +kernel
theorem owned_unit : ∀ F ∈ (ownedProg 0 0).funs, 64 * F.args.length ≤ 400 ∧ tupleSize F.rets ≤ 400 := by decide

def ownedTbl : List (MFun × Fn) := (compileProg E0 (ownedProg 0 0) ownedFlows).getD []

def ownedPub : PubFn := ⟨"owned", [1, 2, 3, 4], [.txCtx], [.val .u64], ((ownedTbl[2]?).map (·.2)).getD ⟨0, 0, 0, []⟩⟩

def ownedHost (s b : Nat) : Host := { host0 with calldata := [1, 2, 3, 4], sender := s, env := { number := b } }

theorem owned_tx {s b n : Nat} (hs : s < 2 ^ 160) (hb : b < 2 ^ 64) : Tx ⟨E0, [ownedPub], noSave⟩ (ownedProg s b) ownedFlows 400 ownedFun ownedPub [.ctx false 9] n
    [.overflow] [468] txTable 128 (ownedHost s b) where
  table := rfl
  ptrs := by intro q hq; simp at hq; subst hq; rfl
  errs := E0_valid
  unit := Nat.le_refl _
  funs := owned_unit
  flow := rfl
  fit := ownedFlows_fit
  comp := by
    obtain ⟨tbl, hc⟩ := Option.isSome_iff_exists.mp owned_compiles
    obtain ⟨fn, h1, -⟩ := C66_partial E0_valid (Nat.le_refl 400) owned_unit ownedFlows_fit hc (f := 2) rfl
    have : ownedTbl = tbl := by unfold ownedTbl; rw [hc]; rfl
    refine .straight (P := ownedProg s b) (tbl := tbl) hc (i := 2) ?_
    rw [h1, ownedPub, this, h1]
    rfl
  args := rfl
  rets := rfl
  types := rfl
  wf := by intro A hA; simp at hA; subst hA; trivial
  found := ⟨⟨[], _, rfl, by simp⟩, rfl⟩
  sels := by simp [ownedPub]
  data := ⟨[], by simp [ownedHost, ownedPub, Arg.vals, encTuple, enc, heads, tails]⟩
  pages := by decide
  told := by
    intro q a n hq
    cases q <;> simp [ownedProg] at hq <;> subst hq
    · exact ⟨rfl, by show s < 2 ^ 256; omega, fun _ => hs, by simp⟩
    · exact ⟨rfl, hb, by simp, by simp⟩


/-- The owner gets the number of the block. -/
theorem owned_ok {b : Nat} : MoveRuns (ownedProg 5 b) ownedFun [.ctx false 9] 12 (.ret [nU64 b] []) := runMove_sound (k := 200) rfl

/-- Everybody else is turned away. -/
theorem owned_abort {s b : Nat} (h : s ≠ 5) : MoveRuns (ownedProg s b) ownedFun [.ctx false 9] 9 (.abort 3) := by
  match s, h with
  | 0, _ | 1, _ | 2, _ | 3, _ | 4, _ => exact runMove_sound (k := 200) rfl
  | s + 6, _ => exact runMove_sound (k := 200) rfl


theorem owned_room {s b n k : Nat} (hn : 400 * (n + 1) + k ≤ 1000000) :
    Room (initStore txTable 128 (ownedHost s b)) (txRoom ownedPub [.ctx false 9] 400 n (ownedHost s b) + k) := by
  unfold txRoom
  rw [show needActs ownedPub.args (Arg.vals [.ctx false 9]) = 4 from rfl, show (ownedHost s b).calldata.length = 4 from rfl]
  refine ⟨by omega, ?_⟩
  show 572 + _ + 65536 ≤ 128 * 65536
  omega

/-- A transaction of the owner returns the number of the block; a transaction of anybody else reverts with "3". -/
example {s b : Nat} (hs : s < 2 ^ 160) (hb : b < 2 ^ 64) :
    (router ⟨E0, [ownedPub], noSave⟩).Calls [4] (initStore txTable 128 (ownedHost s b)) (fun r σ' =>
      if s = 5 then r = [0] ∧
        σ'.host = { ownedHost s b with result := some (encTuple [.word b]), committed := (ownedHost s b).storage }
      else r = [1] ∧ σ'.host = { ownedHost s b with result := some (errorString (text "3")) }) := by
  by_cases h : s = 5
  · subst h
    refine Fn.Calls.mono (C95_return_partial (rs := [.num ⟨.int u64, b⟩]) (owned_tx hs hb) rfl owned_ok rfl
      (owned_room (by simp [encTuple, enc, heads, tails, dyn, word_length, Data.val]))) ?_
    rintro r σ' h
    rw [if_pos rfl]; exact h
  · refine Fn.Calls.mono (C95_abort_partial (owned_tx hs hb) (owned_abort h) ((owned_room (k := 0) (by omega)).mono (Nat.le_add_right _ _))) ?_
    rintro r σ' ⟨rfl, text, h1, h2⟩
    rw [abortText_plain h1 (by norm_num)] at h2
    rw [if_neg h]
    exact ⟨rfl, h2⟩


/-- Recursive functions: `down` (`Verif.Props.Recursion`), which calls itself. -/
example : ∃ fn, IsCompiled E0 drainProg drainFlows downFun fn 14 := by
  obtain ⟨tbl, hc⟩ := Option.isSome_iff_exists.mp drain_compiles
  obtain ⟨fn, h1, -⟩ := C67_recursion_partial (k := 39) E0_valid (Nat.le_refl 400) drain_unit rfl drain_fit hc (f := 1) rfl
  exact ⟨fn, .unrolled hc rfl h1 (by decide)⟩

end Props
