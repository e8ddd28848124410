import Verif.Proof.Router3

/-! Runs of the entry point when no function matches. -/

namespace Rt
open Wasm Abi

variable {σ σ' σ'' : Store} {E : ErrPtrs}

set_option maxHeartbeats 2000000 in
/-- Building the message of an abort code. -/
theorem wp_abortMessage {n k : Nat} {loc s : List Nat} {is : List Instr} {Q : Res → Prop} (hn : n < 2 ^ 64)
    (hσ : Heap σ) (hr : Room σ 200) (hk : k + 5 ≤ loc.length)
    (hQ : ∀ σ' loc', Extends σ σ' → IsRevert σ'.mem (lget loc' (k + 2)) (text (toString n)) →
      σ.nextFree ≤ lget loc' (k + 2) → lget loc' (k + 2) + 4 + (errorString (text (toString n))).length ≤ σ'.nextFree →
      loc'.length = loc.length → (∀ i, i < k → lget loc' i = lget loc i) → wp is s loc' σ' Q) :
    wp (abortMessage k ++ is) (n :: s) loc σ Q := by
  unfold abortMessage
  simp only [List.append_assoc, List.cons_append, List.nil_append]
  refine wp_call1 (ascii_spec hn hσ (hr.mono (by omega))) ?_
  rintro r σ1 ⟨rfl, hx1, L, hL, hnf1, hlen, hdig⟩
  obtain ⟨hL0, hL20⟩ := hL.le hn
  have h1 := hx1.heap hσ
  have hpL : padded L = 32 := by unfold padded; omega
  have hle := h1.alloc.nextFree_le
  have hlt := h1.alloc.size_lt
  simp only [List.cons_append, List.nil_append]
  rw [wp_ltee, wp_load (by omega), wp_lset, wp_lget, lget_lset_ne (by omega), lget_lset_same (by omega), wp_c32,
    wp_add, W.mod32, Nat.mod_eq_of_lt (show 1 < 4294967296 by decide), Nat.mod_eq_of_lt (by omega), wp_lset,
    leNat_one, show (σ1.mem (σ.nextFree + 0)).toNat = L from hlen]
  have hr1 : Room σ1 (72 + padded L) := by
    refine (Room.after (k := 21) (n := 179) hr ?_ hx1.maxPages).mono ?_ <;> omega
  refine wp_abiErrorStructure (n := L) h1 (by omega) hr1 ?_ (by simp only [lset_length]; omega) (by simp only [lset_length]; omega)
    (by simp only [lset_length]; omega) (by omega) (by omega) (by omega) (by omega) (by omega) (by omega) ?_
  · rw [lget_lset_ne (by omega), lget_lset_same (by simp only [lset_length]; omega)]
  intro σ2 hx2 hnf2 hhead hz
  have h2 := hx2.heap h1
  have hle2 := h2.alloc.nextFree_le
  have hlt2 := h2.alloc.size_lt
  have hb := hσ.base
  unfold reserved at hb
  rw [wp_lget, lget_lset_same (by simp only [lset_length]; omega), wp_c32, wp_add, W.mod32,
    Nat.mod_eq_of_lt (show 72 < 4294967296 by decide), Nat.mod_eq_of_lt (by omega), wp_lget,
    lget_lset_ne (by omega), lget_lset_ne (by omega), lget_lset_ne (by omega),
    lget_lset_same (by simp only [lset_length]; omega), wp_lget,
    lget_lset_ne (by omega), lget_lset_ne (by omega), lget_lset_ne (by omega), lget_lset_ne (by omega),
    lget_lset_same (by simp only [lset_length]; omega), wp_memCopy (by omega) (by omega)]
  have hlenT : (decText n L).length = L := by simp [decText]
  refine hQ _ _ ((hx1.trans hx2).write ?_ ?_) ?_ ?_ ?_ (by simp only [lset_length]) ?_
  · exact fun x hx => copyBytes_out (by omega)
  · exact fun x hx => copyBytes_out (by omega)
  · rw [lget_lset_same (by simp only [lset_length]; omega), ← decText_eq hL]
    refine ErrBlob.isRevert ?_
    constructor
    · rw [hlenT]
      refine hhead.congr fun x h1 h2 => ?_
      rw [setMem_mem, copyBytes_out (by omega)]
    · intro i hi
      rw [hlenT] at hi
      rw [setMem_mem, copyBytes_in (by omega) (by omega), Nat.add_sub_cancel_left, hx2.mem _ (by omega)]
      apply UInt8.toNat_inj.mp
      rw [hdig i hi]
      simp only [decText, List.getElem_map, List.getElem_range]
      have := decDigit_lt (n := n) (L := L) (i := i)
      rw [UInt8.toNat_ofNat', Nat.mod_eq_of_lt (by omega)]
    · intro i h1 h2
      rw [hlenT] at h1
      rw [setMem_mem, copyBytes_out (by omega)]
      exact hz _ (by omega)
  · rw [lget_lset_same (by simp only [lset_length]; omega)]; omega
  · rw [lget_lset_same (by simp only [lset_length]; omega), ← decText_eq hL, errorString_length, hlenT,
      setMem_nextFree]; omega
  · intro i hi
    rw [lget_lset_ne (by omega), lget_lset_ne (by omega), lget_lset_ne (by omega), lget_lset_ne (by omega),
      lget_lset_ne (by omega), lget_lset_ne (by omega)]

/-- No function has the selector. -/
theorem wp_noHit {C : Contract} {sel : List UInt8} {l s : List Nat} {is : List Instr} {Q : Res → Prop}
    (hent : Entered C σ σ' l sel) (h4 : sel.length = 4) (hl : ∀ g ∈ C.fns, g.selector.length = 4)
    (hn : ∀ g ∈ C.fns, g.selector ≠ sel) (hQ : wp is s l σ' Q) :
    wp (routerBlocks C.E 10 C.fns ++ is) s l σ' Q := by
  refine wp_routerBlocks_skip ?_ hQ
  intro g hg
  rw [leBytes_mod (hl g hg), hent.sel]
  intro h
  exact hn g hg (leBytes_inj (by rw [hl g hg, h4]) h.symm)

theorem router_noMatch {C : Contract} {sel : List UInt8} (hσ : Heap σ) (hsel : Selects C σ.host.calldata sel)
    (h4 : sel.length = 4) (hl : ∀ g ∈ C.fns, g.selector.length = 4)
    (hn : ∀ g ∈ C.fns, g.selector ≠ sel) (hfb : C.named "fallback" = none)
    (hroom : Room σ (204 + σ.host.calldata.length)) :
    (router C).Calls [σ.host.calldata.length] σ (fun r σ' => r = [1] ∧ ∃ σ2, Started σ σ2 ∧
      σ' = withResult σ2 (errorString (text (toString 100)))) := by
  refine router_entered hσ hsel h4 (hroom.mono (by omega)) ?_
  intro σ1 l hent
  have hst := hent.started
  refine wp_noHit hent h4 hl hn ?_
  have h10 := hent.ten
  have hroom1 : Room σ1 200 := by
    have h1 := hroom.1; have h2 := hroom.2; have h3 := hent.nextFree
    refine ⟨by omega, ?_⟩
    rw [hst.maxPages]; omega
  unfold routerFallback routerNoMatch
  rw [hfb]
  simp only [List.append_assoc, List.cons_append, List.nil_append]
  rw [wp_c64]
  refine wp_abortMessage (n := 100) (by decide) hst.heap hroom1 (by omega) ?_
  intro σ2 l2 hx hrev hp1 hp2 hl2 hlo
  simp only [Nat.reduceAdd] at hrev hp1 hp2
  have hh := hx.heap hst.heap
  have h5 := hh.alloc.nextFree_le
  have h6 := hh.alloc.size_lt
  have h7 := hh.ready.size
  rw [wp_lget, wp_c32, wp_add, W.mod32, Nat.mod_eq_of_lt (show 4 < 4294967296 by decide),
    Nat.mod_eq_of_lt (by omega), wp_lset, wp_lget, lget_lset_ne (by omega), wp_load (by omega), wp_lset, wp_c32,
    wp_lset, wp_nil, contB_ok, List.take_nil, List.nil_append]
  have e1 : lget (lset (lset (lset l2 1 (lget l2 6 + 4)) 0 (leNat σ2.mem (lget l2 6 + 0) 4)) 3 (1 % 4294967296)) 1
      = lget l2 6 + 4 := by
    rw [lget_lset_ne (by omega), lget_lset_ne (by omega), lget_lset_same (by omega)]
  have e0 : lget (lset (lset (lset l2 1 (lget l2 6 + 4)) 0 (leNat σ2.mem (lget l2 6 + 0) 4)) 3 (1 % 4294967296)) 0
      = (errorString (text (toString 100))).length := by
    rw [lget_lset_ne (by omega), lget_lset_same (by simp only [lset_length]; omega), Nat.add_zero]
    exact hrev.1
  refine exit_noMatch (by omega) hh.ready.noErr (by simp only [lset_length]; omega)
    (lget_lset_same (by simp only [lset_length]; omega)) ?_ ?_
  · rw [e0, e1]; omega
  · rw [e0, e1]
    refine ⟨rfl, σ2, hst.grows hx.grows, ?_⟩
    rw [hrev.2]

/-! ### The fallback function -/

theorem router_fall {C : Contract} {P : List Nat → Store → Prop} {sel : List UInt8}
    {f : PubFn} (hσ : Heap σ) (hsel : Selects C σ.host.calldata sel) (h4 : sel.length = 4)
    (hl : ∀ g ∈ C.fns, g.selector.length = 4) (hn : ∀ g ∈ C.fns, g.selector ≠ sel)
    (hfb : C.named "fallback" = some f) (hroom : Room σ (4 + σ.host.calldata.length))
    (hQ : ∀ σ1 l R, Started σ σ1 → σ1.nextFree = σ.nextFree + max 4 σ.host.calldata.length →
      lget l 1 = σ.nextFree → lget l 3 = 0 → 10 + totalLocals C.fns + f.locals ≤ l.length →
      (∀ l' τ, wp (routerExit C) [] l' τ (retK 1 P) → R (.br 0 [] l' τ)) →
      wp (wrap C.E 0 (10 + totalLocals C.fns) f ++ (code[Op.lset 0, Op.lset 1, .br 0] ++ routerNoMatch)) [] l σ1 R) :
    (router C).Calls [σ.host.calldata.length] σ P := by
  refine router_entered hσ hsel h4 hroom ?_
  intro σ1 l hent
  have h1 := hent.ten
  have h2 := hent.started.heap.alloc.nextFree_le
  have h3 := hent.started.heap.alloc.size_lt
  have h5 := hent.nextFree
  refine wp_noHit hent h4 hl hn ?_
  unfold routerFallback
  rw [hfb]
  simp only [List.append_assoc, List.cons_append, List.nil_append]
  rw [wp_lget, hent.ptr, wp_c32, wp_sub, Nat.mod_eq_of_lt (show 4 < 4294967296 by decide),
    W.sub32 (by omega) (by omega), Nat.add_sub_cancel, wp_lset]
  refine hQ σ1 _ _ hent.started hent.nextFree (lget_lset_same (by omega)) ?_ ?_ ?_
  · rw [lget_lset_ne (by omega), hent.status]
  · rw [lset_length, hent.length]
    unfold router
    rw [hfb]
    show _ ≤ 1 + (9 + totalLocals C.fns + f.locals)
    omega
  · intro l' τ h
    rw [contB_br0, List.take_nil, List.nil_append]
    exact h

theorem fallback_ok {C : Contract} {sel : List UInt8} {f : PubFn} {vs rs : List Val}
    {P : List Nat → Store → Prop} {S : Store → Prop}
    (hE : C.E.Valid) (hσ : Heap σ) (hsel : Selects C σ.host.calldata sel) (h4 : sel.length = 4)
    (hl : ∀ g ∈ C.fns, g.selector.length = 4) (hn : ∀ g ∈ C.fns, g.selector ≠ sel)
    (hfb : C.named "fallback" = some f) (hroom : Room σ (4 + σ.host.calldata.length))
    (hdec : ∀ σ1, Started σ σ1 → σ1.nextFree = σ.nextFree + max 4 σ.host.calldata.length →
      Decodes σ1 f vs σ.nextFree)
    (hcall : ∀ ws σ1, Started σ σ1 →
      σ1.nextFree = σ.nextFree + max 4 σ.host.calldata.length + needActs f.args vs → RepActs σ1.mem σ1.nextFree f.args vs ws →
      LaidActs σ1.mem f.args vs ws (σ.nextFree + max 4 σ.host.calldata.length) → f.fn.Calls ws σ1 P)
    (hP : ∀ r σ2, P r σ2 → Heap σ2 ∧ Returned σ2 f.rets rs r ∧ Room σ2 (encTuple rs).length)
    (hsave : ∀ r σ2 σ3, P r σ2 → Extends σ2 σ3 →
      C.save.Calls [] (withResult σ3 (encTuple rs)) (fun r σ' => r = [] ∧ S σ')) :
    (router C).Calls [σ.host.calldata.length] σ (fun r σ' => r = [0] ∧ ∃ σ4, S σ4 ∧ σ' = flushed σ4) := by
  refine router_fall hσ hsel h4 hl hn hfb hroom ?_
  intro σ1 l R hst hnf hptr hstat hlen hR
  have hd := hdec σ1 hst hnf
  rw [← hptr] at hd
  refine wrap_ok hE hd hlen
    (fun ws σ2 hg hn hrep hlaid => hcall ws σ2 (hst.grows hg) (by rw [hn, hnf]) hrep (hnf ▸ hlaid)) hP ?_
  intro r σ2 σ3 l' ptr len hp hx hl' hlo hbs hle
  have hh := hx.heap (hP r σ2 hp).1
  have h1 := hh.alloc.nextFree_le
  have h2 := hh.ready.size
  simp only [List.cons_append, List.nil_append]
  rw [wp_lset, wp_lset, wp_br]
  refine hR _ _ (exit_ok (S := S) (by omega) hh.ready.noErr (by simp only [lset_length]; omega) ?_ ?_ ?_ ?_)
  · rw [lget_lset_ne (by omega), lget_lset_ne (by omega), hlo 3 (by omega), hstat]
  · rw [lget_lset_same (by simp only [lset_length]; omega), lget_lset_ne (by omega), lget_lset_same (by omega)]
    omega
  · rw [lget_lset_same (by simp only [lset_length]; omega), lget_lset_ne (by omega), lget_lset_same (by omega), hbs]
    exact hsave r σ2 σ3 hp hx
  · intro σ' hs
    exact ⟨rfl, σ', hs, rfl⟩

theorem fallback_abort {C : Contract} {sel : List UInt8} {f : PubFn} {vs : List Val}
    {P : List Nat → Store → Prop}
    (hE : C.E.Valid) (hσ : Heap σ) (hsel : Selects C σ.host.calldata sel) (h4 : sel.length = 4)
    (hl : ∀ g ∈ C.fns, g.selector.length = 4) (hn : ∀ g ∈ C.fns, g.selector ≠ sel)
    (hfb : C.named "fallback" = some f) (hroom : Room σ (4 + σ.host.calldata.length))
    (hdec : ∀ σ1, Started σ σ1 → σ1.nextFree = σ.nextFree + max 4 σ.host.calldata.length →
      Decodes σ1 f vs σ.nextFree)
    (hcall : ∀ ws σ1, Started σ σ1 →
      σ1.nextFree = σ.nextFree + max 4 σ.host.calldata.length + needActs f.args vs → RepActs σ1.mem σ1.nextFree f.args vs ws →
      LaidActs σ1.mem f.args vs ws (σ.nextFree + max 4 σ.host.calldata.length) → f.fn.Calls ws σ1 P)
    (hP : ∀ r σ2, P r σ2 → 260 ≤ σ2.size ∧ σ2.size < 2 ^ 32 ∧ errWord σ2 ≠ 0 ∧
      errWord σ2 + 4 + leNat σ2.mem (errWord σ2) 4 ≤ σ2.size) :
    (router C).Calls [σ.host.calldata.length] σ (fun r σ' => r = [1] ∧ ∃ r2 σ2, P r2 σ2 ∧
      σ' = withResult σ2 (rdBytes σ2.mem (errWord σ2 + 4) (leNat σ2.mem (errWord σ2) 4))) := by
  refine router_fall hσ hsel h4 hl hn hfb hroom ?_
  intro σ1 l R hst hnf hptr hstat hlen hR
  have hd := hdec σ1 hst hnf
  rw [← hptr] at hd
  refine wrap_abort hE hd hlen
    (fun ws σ2 hg hn hrep hlaid => hcall ws σ2 (hst.grows hg) (by rw [hn, hnf]) hrep (hnf ▸ hlaid)) (fun r σ2 h => ⟨(hP r σ2 h).1, (hP r σ2 h).2.2.1⟩) ?_
  intro r σ2 l' hp hl' hlo
  obtain ⟨h1, h2, h3, h4⟩ := hP r σ2 hp
  exact hR _ _ (exit_abort h2 rfl h3 rfl h4 h1 (by omega) ⟨rfl, r, σ2, hp, rfl⟩)

end Rt
