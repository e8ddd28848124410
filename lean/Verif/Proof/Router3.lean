import Verif.Proof.Router2

/-! Runs of the entry point. -/

namespace Rt
open Wasm Abi

variable {σ σ' σ'' : Store} {E : ErrPtrs}

/-- The selector the entry point uses for the calldata `cd`. -/
inductive Selects (C : Contract) : List UInt8 → List UInt8 → Prop
  | data {cd : List UInt8} : 4 ≤ cd.length → Selects C cd (cd.take 4)
  | receive {f : PubFn} : C.named "receive" = some f → Selects C [] f.selector
  | zero : C.named "receive" = none → Selects C [] [0, 0, 0, 0]

/-- The entry point has read the calldata and the selector `sel`. -/
structure Entered (C : Contract) (σ σ1 : Store) (l : List Nat) (sel : List UInt8) : Prop where
  started : Started σ σ1
  nextFree : σ1.nextFree = σ.nextFree + max 4 σ.host.calldata.length
  ptr : lget l 1 = σ.nextFree + 4
  sel : lget l 2 = leBytes sel
  status : lget l 3 = 0
  length : l.length = (router C).na + (router C).nl

theorem Entered.ten {C : Contract} {l : List Nat} {sel : List UInt8} (h : Entered C σ σ' l sel) :
    10 + totalLocals C.fns ≤ l.length := by
  rw [h.length]; unfold router; dsimp only; omega

theorem rdBytes_take (f : Bytes) {a n : Nat} {bs : List UInt8} (h : rdBytes f a bs.length = bs) (hn : n ≤ bs.length) :
    rdBytes f a n = bs.take n := by
  have : bs.length = n + (bs.length - n) := by omega
  rw [this, rdBytes_append] at h
  have h2 := congrArg (List.take n) h
  rw [List.take_append_of_le_length (by rw [rdBytes_length]), List.take_of_length_le (by rw [rdBytes_length])] at h2
  exact h2

theorem leBytes_mod {sel : List UInt8} (h : sel.length = 4) : leBytes sel % 4294967296 = leBytes sel := by
  have := leBytes_lt sel
  rw [h] at this
  exact Nat.mod_eq_of_lt (by simpa using this)

theorem router_enteredQ {C : Contract} {Q : Res → Prop} {sel : List UInt8} (hσ : Heap σ)
    (hsel : Selects C σ.host.calldata sel) (h4 : sel.length = 4)
    (hroom : Room σ (4 + σ.host.calldata.length))
    (hQ : ∀ σ1 l, Entered C σ σ1 l sel → wp (routerBlocks C.E 10 C.fns ++ (routerFallback C ++ routerNoMatch)) [] l σ1
      (contB 0 (routerExit C) [] Q)) :
    wp (router C).body [] ([σ.host.calldata.length] ++ List.replicate (router C).nl 0) σ Q := by
  have hb := hσ.base
  unfold reserved at hb
  have hr := hroom.1
  obtain ⟨m, hN⟩ : ∃ m, (router C).nl = 9 + totalLocals C.fns + m := ⟨_, rfl⟩
  have hbody : (router C).body = routerEnter ++ (.block 0 (routerBody C)) :: routerExit C := rfl
  rw [hbody]
  have hlen : ([σ.host.calldata.length] ++ List.replicate (router C).nl 0).length = (router C).na + (router C).nl := by
    simp [router]; omega
  have hl2 : lget ([σ.host.calldata.length] ++ List.replicate (router C).nl 0) 2 = 0 := by
    rw [hN, Nat.add_assoc, Nat.add_comm 9]; rfl
  have hl0 : lget ([σ.host.calldata.length] ++ List.replicate (router C).nl 0) 0 = σ.host.calldata.length := rfl
  have hl9 : 10 ≤ ([σ.host.calldata.length] ++ List.replicate (router C).nl 0).length := by
    rw [hlen, hN]; unfold router; dsimp only; omega
  generalize [σ.host.calldata.length] ++ List.replicate (router C).nl 0 = l at *
  refine wp_routerEnter hσ (hroom.mono (by omega)) (by omega) hl0 ?_
  intro σ1 hst hn1
  rw [wp_block]
  unfold routerBody routerSelect
  simp only [List.append_assoc, List.cons_append, List.nil_append]
  rw [wp_lget, lget_lset_ne (by omega), lget_lset_ne (by omega), hl0, wp_un, eval_eqz, wp_ite]
  have hle := hst.heap.alloc.nextFree_le
  have hlt := hst.heap.alloc.size_lt
  have hroom1 : Room σ1 4 := by
    have := hroom.2
    refine ⟨by omega, ?_⟩
    rw [hst.maxPages]; omega
  have hempty : ∀ (l1 : List Nat) (is : List Instr) (Q : Res → Prop), σ.host.calldata = [] →
      l1.length = (router C).na + (router C).nl → lget l1 2 = leBytes sel → lget l1 3 = 0 →
      (∀ σ2 l, Entered C σ σ2 (lset l 1 (σ.nextFree + 4)) sel → lget l 1 = σ.nextFree → wp is [] l σ2 Q) →
      wp (code[Op.c32 4, Op.lset 0, Op.lget 0, alloc.call, Op.ltee 1, Op.lget 2, Op.store 4 0] ++ is) [] l1 σ1 Q := by
    intro l1 is Q hcd h1 h2 h3 h4
    rw [hcd, List.length_nil, Nat.add_zero] at hn1
    simp only [List.cons_append, List.nil_append]
    rw [wp_c32, wp_lset, wp_lget, lget_lset_same (by omega)]
    have hc : CanAlloc σ1 4 := hroom1.canAlloc hst.heap.alloc (by omega)
    have hx := hst.heap.allocated hc
    refine wp_alloc hst.heap hc ?_
    have hn : (allocated σ1 4).nextFree = σ1.nextFree + 4 := allocated_nextFree
    have hh := hx.heap hst.heap
    have hsz := hh.alloc.nextFree_le
    generalize allocated σ1 4 = σ2 at *
    rw [wp_ltee, wp_lget, wp_store (by omega)]
    have hst2 := hst.grows (hx.putLe (v := leBytes sel) (n := 4) (p := σ1.nextFree) (Nat.le_refl _) (by omega)).grows
    rw [lget_lset_ne (by omega), lget_lset_ne (by omega), h2, Nat.add_zero]
    refine h4 _ _ ⟨hst2, by rw [hcd]; simp only [setMem_nextFree, hn, hn1]; rfl, ?_, ?_, ?_, by simp only [lset_length, h1]⟩ ?_
    · rw [lget_lset_same (by simp only [lset_length]; omega)]
    · rw [lget_lset_ne (by omega), lget_lset_ne (by omega), lget_lset_ne (by omega), h2]
    · rw [lget_lset_ne (by omega), lget_lset_ne (by omega), lget_lset_ne (by omega), h3]
    · rw [lget_lset_same (by simp only [lset_length]; omega), hn1]
  have hadd : ∀ (l1 : List Nat) (σ2 : Store), Entered C σ σ2 (lset l1 1 (σ.nextFree + 4)) sel → lget l1 1 = σ.nextFree →
      wp (code[Op.lget 1, Op.c32 4, Op.bin .w32 .add, Op.lset 1] ++ (routerBlocks C.E 10 C.fns ++
        (routerFallback C ++ routerNoMatch))) [] l1 σ2 (contB 0 (routerExit C) [] Q) := by
    intro l1 σ2 h1 h2
    have h5 := hroom.2
    have h6 := hσ.alloc.max
    simp only [List.cons_append, List.nil_append]
    rw [wp_lget, h2, wp_c32, wp_add, W.mod32, Nat.mod_eq_of_lt (show 4 < 4294967296 by decide),
      Nat.mod_eq_of_lt (by omega), wp_lset]
    exact hQ _ _ h1
  generalize hcd : σ.host.calldata = cd at hsel
  cases hsel with
  | data h =>
    rw [IfP.neg (by simp only [b2n_ne_zero]; omega), wp_lget, lget_lset_ne (by omega), lget_lset_same (by omega),
      wp_load (by rw [hcd] at hn1; omega), wp_lset, wp_nil, contB_ok]
    refine hadd _ _ ⟨hst, by rw [hcd] at hn1 ⊢; omega, lget_lset_same (by simp only [lset_length]; omega), ?_, ?_,
      by simp only [lset_length, hlen]⟩ ?_
    · rw [← hcd] at h ⊢
      rw [lget_lset_ne (by omega), lget_lset_same (by simp only [lset_length]; omega), Nat.add_zero,
        leNat_rdBytes, rdBytes_take _ hst.data h]
    · rw [lget_lset_ne (by omega), lget_lset_ne (by omega), lget_lset_same (by simp only [lset_length]; omega)]
    · rw [lget_lset_ne (by omega), lget_lset_ne (by omega), lget_lset_same (by omega)]
  | receive hf =>
    rw [IfP.pos (by simp only [b2n_ne_zero]; rfl), hf]
    simp only [List.cons_append, List.nil_append]
    rw [wp_c32, wp_lset]
    refine hempty _ [] _ hcd (by simp only [lset_length, hlen]) ?_ ?_ ?_
    · rw [lget_lset_same (by simp only [lset_length]; omega), leBytes_mod h4]
    · rw [lget_lset_ne (by omega), lget_lset_same (by simp only [lset_length]; omega)]
    · intro σ2 l2 h1 h2
      rw [wp_nil, contB_ok]
      exact hadd _ _ h1 h2
  | zero hf =>
    rw [IfP.pos (by simp only [b2n_ne_zero]; rfl), hf]
    simp only [List.nil_append]
    refine hempty _ [] _ hcd (by simp only [lset_length, hlen]) ?_ ?_ ?_
    · rw [lget_lset_ne (by omega), lget_lset_ne (by omega), hl2]; rfl
    · rw [lget_lset_same (by simp only [lset_length]; omega)]
    · intro σ2 l2 h1 h2
      rw [wp_nil, contB_ok]
      exact hadd _ _ h1 h2

theorem router_entered {C : Contract} {P : List Nat → Store → Prop} {sel : List UInt8} (hσ : Heap σ)
    (hsel : Selects C σ.host.calldata sel) (h4 : sel.length = 4)
    (hroom : Room σ (4 + σ.host.calldata.length))
    (hQ : ∀ σ1 l, Entered C σ σ1 l sel → wp (routerBlocks C.E 10 C.fns ++ (routerFallback C ++ routerNoMatch)) [] l σ1
      (contB 0 (routerExit C) [] (retK 1 P))) :
    (router C).Calls [σ.host.calldata.length] σ P :=
  ⟨rfl, router_enteredQ hσ hsel h4 hroom hQ⟩

/-! ### A function is found -/

/-- `f` is the first function with the selector `sel`. -/
structure First (C : Contract) (sel : List UInt8) (pre : List PubFn) (f : PubFn) (post : List PubFn) : Prop where
  fns : C.fns = pre ++ f :: post
  hit : f.selector = sel
  len : ∀ g ∈ C.fns, g.selector.length = 4
  others : ∀ g ∈ pre, g.selector ≠ sel

theorem First.len4 {C : Contract} {sel : List UInt8} {pre post : List PubFn} {f : PubFn}
    (h : First C sel pre f post) : sel.length = 4 := by
  rw [← h.hit]; exact h.len f (by rw [h.fns]; simp)

theorem router_hitQ {C : Contract} {Q : Res → Prop} {sel : List UInt8} {pre post : List PubFn}
    {f : PubFn} (hσ : Heap σ) (hsel : Selects C σ.host.calldata sel) (hf : First C sel pre f post)
    (hroom : Room σ (4 + σ.host.calldata.length))
    (hQ : ∀ σ1 l R, Entered C σ σ1 l sel → (∀ l' τ, wp (routerExit C) [] l' τ Q → R (.br 1 [] l' τ)) → (Q .trap → R .trap) →
      wp (wrap C.E 1 (10 + totalLocals pre) f ++ code[Op.lset 0, Op.lset 1, .br 1]) [] l σ1 R) :
    wp (router C).body [] ([σ.host.calldata.length] ++ List.replicate (router C).nl 0) σ Q := by
  refine router_enteredQ hσ hsel hf.len4 hroom ?_
  intro σ1 l hent
  rw [hf.fns, routerBlocks_append, List.append_assoc]
  refine wp_routerBlocks_skip ?_ ?_
  · intro g hg
    have hg4 := hf.len g (by rw [hf.fns]; simp [hg])
    rw [leBytes_mod hg4, hent.sel]
    intro h
    exact hf.others g hg (leBytes_inj (by rw [hg4, hf.len4]) h.symm)
  · rw [List.cons_append, routerBlock, wp_block]
    simp only [List.append_assoc, List.cons_append, List.nil_append]
    rw [wp_lget, wp_c32, wp_ne, wp_brIf, IfP.neg]
    · exact hQ σ1 l _ hent (fun l' τ h => h) (fun h => h)
    · rw [hf.hit, leBytes_mod hf.len4, hent.sel]; simp [b2n]

theorem router_hit {C : Contract} {P : List Nat → Store → Prop} {sel : List UInt8} {pre post : List PubFn}
    {f : PubFn} (hσ : Heap σ) (hsel : Selects C σ.host.calldata sel) (hf : First C sel pre f post)
    (hroom : Room σ (4 + σ.host.calldata.length))
    (hQ : ∀ σ1 l R, Entered C σ σ1 l sel → (∀ l' τ, wp (routerExit C) [] l' τ (retK 1 P) → R (.br 1 [] l' τ)) →
      wp (wrap C.E 1 (10 + totalLocals pre) f ++ code[Op.lset 0, Op.lset 1, .br 1]) [] l σ1 R) :
    (router C).Calls [σ.host.calldata.length] σ P :=
  ⟨rfl, router_hitQ hσ hsel hf hroom fun σ1 l R he h1 _ => hQ σ1 l R he h1⟩

theorem hit_locals {C : Contract} {sel : List UInt8} {pre post : List PubFn} {f : PubFn} {l : List Nat}
    (hf : First C sel pre f post) (h : Entered C σ σ' l sel) : 10 + totalLocals pre + f.locals ≤ l.length := by
  have h1 := h.ten
  have h2 := totalLocals_append pre post f
  rw [hf.fns] at h1
  omega

/-- The function succeeds. -/
theorem router_ok {C : Contract} {sel : List UInt8} {pre post : List PubFn} {f : PubFn} {vs rs : List Val}
    {P : List Nat → Store → Prop} {S : Store → Prop}
    (hE : C.E.Valid) (hσ : Heap σ) (hsel : Selects C σ.host.calldata sel) (hf : First C sel pre f post)
    (hroom : Room σ (4 + σ.host.calldata.length))
    (hdec : ∀ σ1, Started σ σ1 → σ1.nextFree = σ.nextFree + max 4 σ.host.calldata.length →
      Decodes σ1 f vs (σ.nextFree + 4))
    (hcall : ∀ ws σ1, Started σ σ1 →
      σ1.nextFree = σ.nextFree + max 4 σ.host.calldata.length + needActs f.args vs → RepActs σ1.mem σ1.nextFree f.args vs ws →
      LaidActs σ1.mem f.args vs ws (σ.nextFree + max 4 σ.host.calldata.length) → f.fn.Calls ws σ1 P)
    (hP : ∀ r σ2, P r σ2 → Heap σ2 ∧ Returned σ2 f.rets rs r ∧ Room σ2 (encTuple rs).length)
    (hsave : ∀ r σ2 σ3, P r σ2 → Extends σ2 σ3 →
      C.save.Calls [] (withResult σ3 (encTuple rs)) (fun r σ' => r = [] ∧ S σ')) :
    (router C).Calls [σ.host.calldata.length] σ (fun r σ' => r = [0] ∧ ∃ σ4, S σ4 ∧ σ' = flushed σ4) := by
  refine router_hit hσ hsel hf hroom ?_
  intro σ1 l R hent hR
  have hd := hdec σ1 hent.started hent.nextFree
  rw [← hent.ptr] at hd
  refine wrap_ok hE hd (hit_locals hf hent)
    (fun ws σ2 hg hn hrep hlaid => hcall ws σ2 (hent.started.grows hg) (by rw [hn, hent.nextFree]) hrep (hent.nextFree ▸ hlaid)) hP ?_
  intro r σ2 σ3 l' ptr len hp hx hl' hlo hbs hle
  have hh := hx.heap (hP r σ2 hp).1
  have h1 := hh.alloc.nextFree_le
  have h2 := hh.ready.size
  have h3 := hent.ten
  rw [wp_lset, wp_lset, wp_br]
  refine hR _ _ (exit_ok (S := S) (by omega) hh.ready.noErr (by simp only [lset_length]; omega) ?_ ?_ ?_ ?_)
  · rw [lget_lset_ne (by omega), lget_lset_ne (by omega), hlo 3 (by omega), hent.status]
  · rw [lget_lset_same (by simp only [lset_length]; omega), lget_lset_ne (by omega), lget_lset_same (by omega)]
    omega
  · rw [lget_lset_same (by simp only [lset_length]; omega), lget_lset_ne (by omega), lget_lset_same (by omega), hbs]
    exact hsave r σ2 σ3 hp hx
  · intro σ' hs
    exact ⟨rfl, σ', hs, rfl⟩

/-- The function aborts. -/
theorem router_abort {C : Contract} {sel : List UInt8} {pre post : List PubFn} {f : PubFn} {vs : List Val}
    {P : List Nat → Store → Prop}
    (hE : C.E.Valid) (hσ : Heap σ) (hsel : Selects C σ.host.calldata sel) (hf : First C sel pre f post)
    (hroom : Room σ (4 + σ.host.calldata.length))
    (hdec : ∀ σ1, Started σ σ1 → σ1.nextFree = σ.nextFree + max 4 σ.host.calldata.length →
      Decodes σ1 f vs (σ.nextFree + 4))
    (hcall : ∀ ws σ1, Started σ σ1 →
      σ1.nextFree = σ.nextFree + max 4 σ.host.calldata.length + needActs f.args vs → RepActs σ1.mem σ1.nextFree f.args vs ws →
      LaidActs σ1.mem f.args vs ws (σ.nextFree + max 4 σ.host.calldata.length) → f.fn.Calls ws σ1 P)
    (hP : ∀ r σ2, P r σ2 → 260 ≤ σ2.size ∧ σ2.size < 2 ^ 32 ∧ errWord σ2 ≠ 0 ∧
      errWord σ2 + 4 + leNat σ2.mem (errWord σ2) 4 ≤ σ2.size) :
    (router C).Calls [σ.host.calldata.length] σ (fun r σ' => r = [1] ∧ ∃ r2 σ2, P r2 σ2 ∧
      σ' = withResult σ2 (rdBytes σ2.mem (errWord σ2 + 4) (leNat σ2.mem (errWord σ2) 4))) := by
  refine router_hit hσ hsel hf hroom ?_
  intro σ1 l R hent hR
  have hd := hdec σ1 hent.started hent.nextFree
  rw [← hent.ptr] at hd
  refine wrap_abort hE hd (hit_locals hf hent)
    (fun ws σ2 hg hn hrep hlaid => hcall ws σ2 (hent.started.grows hg) (by rw [hn, hent.nextFree]) hrep (hent.nextFree ▸ hlaid)) (fun r σ2 h => ⟨(hP r σ2 h).1, (hP r σ2 h).2.2.1⟩) ?_
  intro r σ2 l' hp hl' hlo
  obtain ⟨h1, h2, h3, h4⟩ := hP r σ2 hp
  have h5 := hent.ten
  exact hR _ _ (exit_abort h2 rfl h3 rfl h4 h1 (by omega) ⟨rfl, r, σ2, hp, rfl⟩)

/-- The function traps. -/
theorem router_trap {C : Contract} {sel : List UInt8} {pre post : List PubFn} {f : PubFn} {vs : List Val}
    (hE : C.E.Valid) (hσ : Heap σ) (hsel : Selects C σ.host.calldata sel) (hf : First C sel pre f post)
    (hroom : Room σ (4 + σ.host.calldata.length))
    (hdec : ∀ σ1, Started σ σ1 → σ1.nextFree = σ.nextFree + max 4 σ.host.calldata.length →
      Decodes σ1 f vs (σ.nextFree + 4))
    (hcall : ∀ ws σ1, Started σ σ1 →
      σ1.nextFree = σ.nextFree + max 4 σ.host.calldata.length + needActs f.args vs → RepActs σ1.mem σ1.nextFree f.args vs ws →
      LaidActs σ1.mem f.args vs ws (σ.nextFree + max 4 σ.host.calldata.length) → f.fn.Traps ws σ1) :
    (router C).Traps [σ.host.calldata.length] σ := by
  refine ⟨rfl, router_hitQ hσ hsel hf hroom ?_⟩
  intro σ1 l R hent _ hR
  have hd := hdec σ1 hent.started hent.nextFree
  rw [← hent.ptr] at hd
  have hk := hit_locals hf hent
  unfold PubFn.locals at hk
  unfold wrap
  simp only [List.append_assoc]
  refine unpackActsAll_ok hE (propagateTo_ok _ _) f.args hd.enums hd.heap (Nat.le_refl _) hd.dec hd.room
    hd.fits (by omega) ?_
  intro ws σ2 l2 hg hn hrep hlaid hl2 hlo
  simp only [List.cons_append, List.nil_append]
  exact wp_call_trap (hcall ws σ2 (hent.started.grows hg) (by rw [hn, hent.nextFree]) hrep (hent.nextFree ▸ hlaid)) (hR rfl)

end Rt
