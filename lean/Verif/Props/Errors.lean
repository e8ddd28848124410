import Verif.Proof.Errors
import Verif.Props.Base

/-! Properties C19, C20, C31, C32, C48: allocation, abort messages, static data. -/

namespace Props
open Wasm Rt

/-! ### C19 -/

/-- A stretch of execution seen by the allocator: calls of the allocator, and in between arbitrary
changes of memory contents, argument reader and host state.  The list collects the blocks
`(address, size)` handed out, latest first. -/
inductive History (σ : Store) : List (Nat × Nat) → Store → Prop
  | start : History σ [] σ
  | other {bs σ1 m r h} : History σ bs σ1 →
      History σ bs { σ1 with mem := m, reader := r, host := h }
  | alloc {bs σ1 σ2 n p} : History σ bs σ1 →
      alloc.Calls [n] σ1 (fun res τ => res = [p] ∧ τ = σ2) → History σ ((p, n) :: bs) σ2

/-- Blocks do not overlap. -/
def Apart (b c : Nat × Nat) : Prop := b.1 + b.2 ≤ c.1 ∨ c.1 + c.2 ≤ b.1

/-- Requests below 2 GiB: the blocks handed out during any stretch of execution lie inside linear
memory, above everything in use at the beginning, and do not overlap each other.
Missing for the full claim: requests of 2 GiB or more (`C19_false`). -/
theorem C19_alloc_partial {σ σ' : Store} {bs : List (Nat × Nat)} (h : AllocOk σ)
    (hist : History σ bs σ') (hn : ∀ b ∈ bs, b.2 < 2 ^ 31) :
    AllocOk σ' ∧ σ.nextFree ≤ σ'.nextFree ∧
      (∀ b ∈ bs, σ.nextFree ≤ b.1 ∧ b.1 + b.2 ≤ σ'.nextFree ∧ b.1 + b.2 ≤ σ'.size) ∧
      bs.Pairwise Apart := by
  induction hist with
  | start => exact ⟨h, Nat.le_refl _, by simp, List.Pairwise.nil⟩
  | other _ ih =>
    obtain ⟨h1, h0, h2, h3⟩ := ih hn
    exact ⟨⟨h1.sum, h1.page, h1.first, h1.limit, h1.max, h1.small⟩, h0, h2, h3⟩
  | @alloc bs σ1 σ2 n p _ hc ih =>
    obtain ⟨h1, hle, h2, h3⟩ := ih (fun b hb => hn b (List.mem_cons_of_mem _ hb))
    have hn' : n < 2 ^ 31 := hn _ (List.mem_cons_self ..)
    by_cases hca : CanAlloc σ1 n
    · obtain ⟨r, τ, ⟨rfl, rfl⟩, h4, h5⟩ := hc.unique (alloc_calls h1 hca)
      simp only [List.cons.injEq, and_true] at h4
      subst h4; subst h5
      have hin := allocated_inside h1 hca
      have hsz := allocated_size_le (σ := σ1) (n := n)
      refine ⟨allocated_ok h1 hca, by rw [allocated_nextFree]; omega, ?_, ?_⟩
      · intro b hb
        rcases List.mem_cons.mp hb with rfl | hb
        · exact ⟨hle, by rw [allocated_nextFree], hin⟩
        · obtain ⟨h6, h7, h8⟩ := h2 b hb
          rw [allocated_nextFree]; exact ⟨h6, by omega, by omega⟩
      · refine List.pairwise_cons.mpr ⟨fun b hb => .inr ?_, h3⟩
        exact (h2 b hb).2.1
    · exact absurd (alloc_traps h1 hn' hca) hc.not_traps

/-- One request below 2 GiB either yields a block, with the contents of memory unchanged and
memory grown only as needed, or stops the contract because memory may not grow that far. -/
theorem C19_step {σ : Store} {n : Nat} (h : AllocOk σ) (hn : n < 2 ^ 31) :
    (alloc.Calls [n] σ (fun r σ' => r = [σ.nextFree] ∧ AllocOk σ' ∧ σ'.nextFree = σ.nextFree + n ∧
      σ.nextFree + n ≤ σ'.size ∧ σ'.size ≤ max σ.size (σ.nextFree + n + 65536) ∧
      ∀ x, x < σ.size → σ'.mem x = σ.mem x)) ∨
    (alloc.Traps [n] σ ∧ σ.maxPages * 65536 < σ.nextFree + n + 65536) := by
  by_cases hc : CanAlloc σ n
  · refine .inl ((alloc_calls h hc).mono ?_)
    rintro r _ ⟨rfl, rfl⟩
    refine ⟨rfl, allocated_ok h hc, allocated_nextFree, allocated_inside h hc, ?_, fun x hx => allocated_mem_lt hx⟩
    have hs := h.sum
    unfold allocated
    split_ifs
    · exact Nat.le_max_left ..
    · dsimp only; omega
  · refine .inr ⟨alloc_traps h hn hc, ?_⟩
    have hs := h.sum; have hp := h.page
    unfold CanAlloc at hc
    omega

set_option maxHeartbeats 1000000 in
/-- The claim is false for larger requests: the size check is signed, so a request exceeding the
free memory by 2 GiB or more is granted without growing memory. -/
theorem C19_false {σ : Store} {n : Nat} (h : AllocOk σ) (h1 : σ.avail + 2 ^ 31 ≤ n) (h2 : n < 2 ^ 32) :
    alloc.Calls [n] σ (fun r σ' => r = [σ.nextFree] ∧ σ'.size = σ.size ∧ σ'.size < σ.nextFree + n) := by
  have hs := h.sum
  have hm := h.small
  have e : W.sub .w32 n σ.avail = n - σ.avail := W.sub32 (by omega) h2
  have hs1 : toSigned .w32 (n - σ.avail) ≤ toSigned .w32 0 := by
    rw [toSigned32_nonneg (a := 0) (by omega), toSigned32_neg (by omega)]; omega
  refine ⟨rfl, ?_⟩
  unfold alloc
  wstep
  omega

/-- Three requests, the second of which makes memory grow. -/
example : ∃ bs σ', History store0 bs σ' ∧ bs.map Prod.snd = [8, 70000, 100] ∧ (∀ b ∈ bs, b.2 < 2 ^ 31) := by
  have h0 := store0_alloc
  have c1 : CanAlloc store0 100 := ⟨by decide, by decide⟩
  have h1 := allocated_ok h0 c1
  have c2 : CanAlloc (allocated store0 100) 70000 := ⟨by decide, by decide⟩
  have h2 := allocated_ok h1 c2
  have c3 : CanAlloc (allocated (allocated store0 100) 70000) 8 := ⟨by decide, by decide⟩
  exact ⟨_, _, .alloc (.alloc (.alloc .start (alloc_calls h0 c1)) (alloc_calls h1 c2)) (alloc_calls h2 c3),
    rfl, by decide⟩

example : AllocOk store0 ∧ store0.avail + 2 ^ 31 ≤ 2 ^ 31 + 65536 := ⟨store0_alloc, by decide⟩

/-! ### C20 -/

/-- Rendering a number in decimal. -/
theorem C20_decimal {σ : Store} {n : Nat} (hn : n < 2 ^ 64) (hσ : Heap σ) (hr : Room σ 21) :
    ascii.Calls [n] σ (fun r σ' => ∃ p, r = [p] ∧ σ.nextFree ≤ p ∧
      (σ'.mem p).toNat = (Abi.text (toString n)).length ∧
      rdBytes σ'.mem (p + 1) (Abi.text (toString n)).length = Abi.text (toString n) ∧
      p + 1 + (Abi.text (toString n)).length ≤ σ'.nextFree ∧ Extends σ σ') := by
  refine (ascii_spec hn hσ hr).mono ?_
  rintro r σ' ⟨rfl, hx, L, hL, hnf, hlen, hdig⟩
  have hlenL : (Abi.text (toString n)).length = L := by rw [← decText_eq hL]; simp [decText]
  refine ⟨_, rfl, Nat.le_refl _, by rw [hlenL, hlen], ?_, by rw [hlenL]; omega, hx⟩
  apply rdBytes_eq
  intro i hi
  rw [hlenL] at hi
  apply UInt8.toNat_inj.mp
  rw [hdig i hi]
  have hd : (Abi.text (toString n)) = decText n L := (decText_eq hL).symm
  simp only [hd, decText, List.getElem_map, List.getElem_range]
  rw [UInt8.toNat_ofNat', Nat.mod_eq_of_lt]
  unfold decDigit; omega

/-- The hypotheses can be met, and the text is what one expects. -/
example : Heap store0 ∧ Room store0 21 ∧ Abi.text (toString 18446744073709551615) =
    [49, 56, 52, 52, 54, 55, 52, 52, 48, 55, 51, 55, 48, 57, 53, 53, 49, 54, 49, 53] :=
  ⟨store0_heap, by unfold Room; decide, by decide⟩

/-! ### C31 -/

theorem revert_end {p n : Nat} {msg : List UInt8} (h : p + 72 + padded msg.length ≤ n) :
    p + 4 + (Abi.errorString msg).length ≤ n := by rw [errorString_length]; omega

/-- A Move `abort code` leaves the abort pointer designating, in newly allocated memory, an
`Error(string)` whose text is the decimal representation of the code; memory in use is otherwise
unchanged. -/
theorem C31_abort_code {σ : Store} {n : Nat} (ty : RetTy) (hn : n < 2 ^ 64) (hσ : Heap σ)
    (hr : Room σ 200) :
    (abortFn ty).Calls [n] σ (fun _ σ' => σ.nextFree ≤ errWord σ' ∧
      errWord σ' + 4 + (Abi.errorString (Abi.text (toString n))).length ≤ σ'.nextFree ∧
      IsRevert σ'.mem (errWord σ') (Abi.text (toString n)) ∧
      Extends (errStore σ (errWord σ')) σ') := by
  refine (abortFn_spec hn hσ hr).mono ?_
  rintro r σ' ⟨p, L, hL, hp, hq, hb, hx⟩
  have hlt := hx.alloc.size_lt
  have hnf := hx.alloc.nextFree_le
  have e : errWord σ' = p := hx.errWord hσ.base (by omega)
  rw [decText_eq hL] at hb
  have hlen : (Abi.text (toString n)).length = L := by rw [← decText_eq hL]; simp [decText]
  rw [e]
  exact ⟨hp, revert_end (by rw [hlen]; exact hq), hb.isRevert, hx⟩

/-- A clever error does the same with its message. -/
theorem C31_abort_message {σ : Store} {n : Nat} {msg : List UInt8} (ty : RetTy) (hn : n < 2 ^ 64)
    (hm : msg.length < 256) (hσ : Heap σ) (hr : Room σ 400) :
    (abortConstFn n msg ty).Calls [n] σ (fun _ σ' => σ.nextFree ≤ errWord σ' ∧
      errWord σ' + 4 + (Abi.errorString msg).length ≤ σ'.nextFree ∧
      IsRevert σ'.mem (errWord σ') msg ∧ Extends (errStore σ (errWord σ')) σ') := by
  refine (abortConstFn_spec hn hm hσ hr).mono ?_
  rintro r σ' ⟨p, hp, hq, hb, hx⟩
  have hlt := hx.alloc.size_lt
  have hnf := hx.alloc.nextFree_le
  have e : errWord σ' = p := hx.errWord hσ.base (by omega)
  rw [e]
  exact ⟨hp, revert_end hq, hb.isRevert, hx⟩

/-- Runtime errors: whatever errors were requested while compiling, in whatever order, the
contract's initial memory holds a valid `Error(string)` at each pointer handed out. -/
theorem C31_runtime_errors {es : List RtErr} {ps : List Nat} {t : ErrTable} {maxPages : Nat} (host : Host)
    (h : ErrTable.new.gets es = some (ps, t)) :
    ∀ q ∈ es.zip ps, IsRevert (initStore t maxPages host).mem q.2 q.1.msg := by
  obtain ⟨ps', t', h', hok, -, hm, -⟩ := ErrTable.new_ok.gets es
  rw [h] at h'
  obtain ⟨rfl, rfl⟩ := Prod.mk.inj (Option.some.inj h')
  intro q hq
  exact (hok.blob _ _ (hm q hq)).isRevert

/-- Raising such an error, in any later state that has not written below the allocator's initial
free byte except for the reserved area, leaves the abort pointer designating its message. -/
theorem C31_raised {es : List RtErr} {ps : List Nat} {t : ErrTable} {maxPages : Nat} {host : Host}
    {σ σ' : Store} {q : RtErr × Nat} (h : ErrTable.new.gets es = some (ps, t)) (hq : q ∈ es.zip ps)
    (hσ : Heap σ) (hn : t.next ≤ σ.nextFree)
    (hmem : ∀ x, 468 ≤ x → x < t.next → σ.mem x = (initStore t maxPages host).mem x)
    (hx : Extends (errStore σ q.2) σ') : IsRevert σ'.mem (errWord σ') q.1.msg := by
  have hr := C31_runtime_errors (maxPages := maxPages) host h q hq
  obtain ⟨ps', t', h', hok, -, hm, -⟩ := ErrTable.new_ok.gets es
  rw [h] at h'
  obtain ⟨rfl, rfl⟩ := Prod.mk.inj (Option.some.inj h')
  have hl := hok.low _ _ (hm q hq)
  have hml := msg_len q.1
  rw [encodeError_length (by omega)] at hl
  have hnl := hok.next_le
  have e : errWord σ' = q.2 := hx.errWord hσ.base (by omega)
  rw [e]
  refine hr.congr fun x h1 h2 => ?_
  rw [errorString_length] at h2
  rw [hx.mem x (by show x < σ.nextFree; omega)]
  show putLe σ.mem abortPtr 4 q.2 x = _
  have : abortPtr = 256 := rfl
  rw [putLe_out (by omega), hmem x (by omega) (by omega)]

example : Heap store0 ∧ Room store0 400 := ⟨store0_heap, by unfold Room; decide⟩

/-- A table with three requests, one repeated. -/
example : ∃ ps t, ErrTable.new.gets [.overflow, .objectNotFound, .overflow] = some (ps, t) ∧
    ps = [468, 572, 468] ∧ t.next = 676 := by
  refine ⟨_, _, rfl, ?_, ?_⟩ <;> decide

example : Abi.errorString (RtErr.msg .overflow) = [0x08, 0xc3, 0x79, 0xa0] ++
    List.replicate 31 0 ++ [32] ++ List.replicate 31 0 ++ [8] ++
    [79, 118, 101, 114, 102, 108, 111, 119] ++ List.replicate 24 0 := by decide

/-! ### C32 -/

/-- Any sequence of requests succeeds (the compiler does not panic); every pointer lies after the
reserved area; equal errors get equal pointers; different errors get disjoint regions. -/
theorem C32_error_table (es : List RtErr) : ∃ ps t, ErrTable.new.gets es = some (ps, t) ∧
    ps.length = es.length ∧
    (∀ q ∈ es.zip ps, 468 ≤ q.2 ∧ q.2 + 4 + (Abi.errorString q.1.msg).length ≤ t.next) ∧
    (∀ q ∈ es.zip ps, ∀ q' ∈ es.zip ps, q.1 = q'.1 → q.2 = q'.2) ∧
    (∀ q ∈ es.zip ps, ∀ q' ∈ es.zip ps, q.1 ≠ q'.1 →
      q.2 + 4 + (Abi.errorString q.1.msg).length ≤ q'.2 ∨
      q'.2 + 4 + (Abi.errorString q'.1.msg).length ≤ q.2) := by
  obtain ⟨ps, t, h, hok, hl, hm, -⟩ := ErrTable.new_ok.gets es
  have hlen : ∀ e : RtErr, 4 + (Abi.errorString e.msg).length = (encodeError e.msg).length := by
    intro e
    have := msg_len e
    rw [errorString_length, encodeError_length (by omega)]; omega
  refine ⟨ps, t, h, hl, ?_, ?_, ?_⟩
  · intro q hq
    have := hok.low _ _ (hm q hq); have := hlen q.1
    omega
  · intro q hq q' hq' he
    have h1 := hm q hq; have h2 := hm q' hq'
    have hk := hok.keys
    obtain ⟨e, p⟩ := q; obtain ⟨e', p'⟩ := q'
    obtain rfl : e = e' := he
    have := List.inj_on_of_nodup_map hk h1 h2 rfl
    exact (Prod.mk.inj this).2
  · intro q hq q' hq' he
    have := hok.apart _ _ _ _ (hm q hq) (hm q' hq') he
    have := hlen q.1; have := hlen q'.1
    omega

/-! ### C48 -/

/-- At the entry point the allocator's first free byte lies after the reserved area and every error
message, and the allocator's view of memory is right. -/
theorem C48_start {es : List RtErr} {ps : List Nat} {t : ErrTable} {maxPages : Nat} (host : Host)
    (h : ErrTable.new.gets es = some (ps, t)) (h1 : 1 ≤ maxPages) (h2 : maxPages ≤ 65535) :
    let σ := initStore t maxPages host
    468 ≤ σ.nextFree ∧ σ.nextFree + σ.avail = σ.size ∧ Heap σ ∧
      ∀ q ∈ es.zip ps, q.2 + 4 + (Abi.errorString q.1.msg).length ≤ σ.nextFree := by
  obtain ⟨ps', t', h', hok, -, hm, -⟩ := ErrTable.new_ok.gets es
  rw [h] at h'
  obtain ⟨rfl, rfl⟩ := Prod.mk.inj (Option.some.inj h')
  have hh := initStore_heap hok h1 h2 host
  refine ⟨hok.base, hh.alloc.sum, hh, fun q hq => ?_⟩
  have hl := hok.low _ _ (hm q hq)
  have := msg_len q.1
  rw [encodeError_length (by omega)] at hl
  rw [errorString_length]
  show _ ≤ t.next
  omega

/-- Hence no block handed out during the call overlaps the reserved area or an error message. -/
theorem C48_no_overlap_partial {es : List RtErr} {ps : List Nat} {t : ErrTable} {maxPages : Nat} {host : Host}
    {bs : List (Nat × Nat)} {σ' : Store}
    (h : ErrTable.new.gets es = some (ps, t)) (h1 : 1 ≤ maxPages) (h2 : maxPages ≤ 65535)
    (hist : History (initStore t maxPages host) bs σ') (hn : ∀ b ∈ bs, b.2 < 2 ^ 31) :
    ∀ b ∈ bs, 468 ≤ b.1 ∧
      ∀ q ∈ es.zip ps, q.2 + 4 + (Abi.errorString q.1.msg).length ≤ b.1 := by
  obtain ⟨k1, -, k3, k4⟩ := C48_start (maxPages := maxPages) host h h1 h2
  obtain ⟨-, -, h5, -⟩ := C19_alloc_partial k3.alloc hist hn
  intro b hb
  have := (h5 b hb).1
  exact ⟨by omega, fun q hq => by have := k4 q hq; omega⟩

set_option maxHeartbeats 1000000 in
/-- Without the bound the conclusion is false: a request of 4 GiB minus the bytes in use wraps the
allocator around, and the next block starts at address 0, on top of the static data. -/
theorem C48_false {σ : Store} (h : AllocOk σ) (hb : 468 ≤ σ.nextFree) (hn : σ.nextFree < 2 ^ 30) :
    ∃ σ', History σ [(0, 100), (σ.nextFree, 2 ^ 32 - σ.nextFree)] σ' := by
  have hs := h.sum
  have hm := h.small
  have hf := h.first
  have hlim := h.limit
  have hmx := h.max
  obtain ⟨n, hn'⟩ : ∃ n, n = 4294967296 - σ.nextFree := ⟨_, rfl⟩
  have e : W.sub .w32 n σ.avail = n - σ.avail := W.sub32 (by omega) (by omega)
  have hs1 : toSigned .w32 (n - σ.avail) ≤ toSigned .w32 0 := by
    rw [toSigned32_nonneg (a := 0) (by omega), toSigned32_neg (by omega)]; omega
  have e2 : W.sub .w32 σ.avail n = σ.size := by rw [W.sub32_def]; omega
  have h1 : alloc.Calls [n] σ (fun r τ => r = [σ.nextFree] ∧ τ = { σ with nextFree := 0, avail := σ.size }) := by
    refine ⟨rfl, ?_⟩
    unfold alloc
    wstep
    rw [e2, show (σ.nextFree + n) % 4294967296 = 0 by omega]
  have h2 : alloc.Calls [100] { σ with nextFree := 0, avail := σ.size } (fun r τ => r = [0] ∧
      τ = { σ with nextFree := 100, avail := σ.size - 100 }) := by
    have e : W.sub .w32 100 σ.size = 4294967296 + 100 - σ.size := by rw [W.sub32_def]; omega
    have hs1 : toSigned .w32 (4294967296 + 100 - σ.size) ≤ toSigned .w32 0 := by
      rw [toSigned32_nonneg (a := 0) (by omega), toSigned32_neg (by omega)]; omega
    refine ⟨rfl, ?_⟩
    unfold alloc
    wstep
    rw [e, IfP.pos hs1]
    wstep
  rw [show 2 ^ 32 - σ.nextFree = n from hn'.symm]
  exact ⟨_, .alloc (.alloc .start h1) h2⟩

example : AllocOk store0 ∧ 468 ≤ store0.nextFree ∧ store0.nextFree < 2 ^ 30 :=
  ⟨store0_alloc, by decide, by decide⟩

set_option maxRecDepth 10000 in
example : ∃ ps t, ErrTable.new.gets [.overflow, .typeMismatch] = some (ps, t) ∧
    (initStore t 128 host0).nextFree = 676 ∧ (initStore t 128 host0).avail = 64860 := by
  refine ⟨_, _, rfl, ?_, ?_⟩ <;> decide

end Props
