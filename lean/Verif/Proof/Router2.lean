import Verif.Proof.Router

/-! Entry and exit of the entry point, dispatch. -/

namespace Rt
open Wasm Abi

variable {σ σ' σ'' : Store} {E : ErrPtrs}

/-! ### Host functions -/

theorem wp_readArgs {p is s l Q} (h : p + σ.host.calldata.length ≤ σ.size) :
    wp (.op (.host .readArgs) :: is) (p :: s) l σ Q ↔
      wp is s l (σ.setMem (wrBytes σ.mem p σ.host.calldata)) Q := by
  rw [wp_op]; simp only [Op.exec, HostFn.eval, if_pos h]

/-- The result has been handed to the host. -/
def withResult (σ : Store) (bs : List UInt8) : Store := σ.setHost { σ.host with result := some bs }

/-- Storage has been committed. -/
def flushed (σ : Store) : Store := σ.setHost { σ.host with committed := σ.host.storage }

theorem wp_writeResult {p n is s l Q} (h : p + n ≤ σ.size) :
    wp (.op (.host .writeResult) :: is) (n :: p :: s) l σ Q ↔
      wp is s l (withResult σ (rdBytes σ.mem p n)) Q := by
  rw [wp_op]; simp only [Op.exec, HostFn.eval, if_pos h]; rfl

theorem wp_storageFlush {v is s l Q} :
    wp (.op (.host .storageFlush) :: is) (v :: s) l σ Q ↔ wp is s l (flushed σ) Q := by
  rw [wp_op]; rfl

/-! ### Entry -/

/-- `σ'` is a state after the entry point has read the calldata: besides newly allocated memory only
the record of the calldata (address 396, 8 bytes) has been written. -/
structure Started (σ σ' : Store) : Prop where
  heap : Heap σ'
  nextFree : σ.nextFree + σ.host.calldata.length ≤ σ'.nextFree
  size : σ.size ≤ σ'.size
  maxPages : σ'.maxPages = σ.maxPages
  host : σ'.host = σ.host
  mem : ∀ x, x < σ.nextFree → (x < 396 ∨ 404 ≤ x) → σ'.mem x = σ.mem x
  data : rdBytes σ'.mem σ.nextFree σ.host.calldata.length = σ.host.calldata

theorem Started.grows (h : Started σ σ') (hg : Grows σ' σ'') : Started σ σ'' where
  heap := hg.heap h.heap
  nextFree := Nat.le_trans h.nextFree hg.nextFree
  size := Nat.le_trans h.size hg.size
  maxPages := by rw [hg.maxPages, h.maxPages]
  host := by rw [hg.host, h.host]
  mem := fun x h1 h2 => by
    have := h.nextFree
    rw [hg.mem x (show x < σ'.nextFree by omega), h.mem x h1 h2]
  data := by
    have := h.nextFree
    rw [rdBytes_congr (g := σ'.mem) fun x h1 h2 => hg.mem x (show x < σ'.nextFree by omega)]
    exact h.data

theorem wp_routerEnter {l s : List Nat} {is : List Instr} {Q : Res → Prop} (hσ : Heap σ)
    (hroom : Room σ σ.host.calldata.length) (hl : 4 ≤ l.length) (h0 : lget l 0 = σ.host.calldata.length)
    (hQ : ∀ σ1, Started σ σ1 → σ1.nextFree = σ.nextFree + σ.host.calldata.length →
      wp is s (lset (lset l 1 σ.nextFree) 3 0) σ1 Q) :
    wp (routerEnter ++ is) s l σ Q := by
  have hb := hσ.base
  unfold reserved at hb
  have hc : CanAlloc σ σ.host.calldata.length := hroom.canAlloc hσ.alloc (by omega)
  have hx := hσ.allocated hc
  unfold routerEnter
  simp only [List.cons_append, List.nil_append]
  rw [wp_lget, h0]
  refine wp_alloc hσ hc ?_
  have hn : (allocated σ σ.host.calldata.length).nextFree = σ.nextFree + σ.host.calldata.length :=
    allocated_nextFree
  have hh := hx.heap hσ
  have hsz := hh.alloc.nextFree_le
  have hlt := hh.alloc.size_lt
  generalize allocated σ σ.host.calldata.length = σ1 at *
  rw [wp_ltee, wp_readArgs (by rw [hx.host]; omega), hx.host]
  rw [wp_c32, wp_lset, wp_c32, wp_lget, lget_lset_ne (by omega), lget_lset_ne (by omega), h0,
    wp_store (by rw [setMem_size]; omega), wp_c32, wp_lget, lget_lset_ne (by omega), lget_lset_same (by omega),
    wp_store (by rw [setMem_size, setMem_size]; omega)]
  simp only [setMem_setMem, setMem_mem, Nat.reduceMod, Nat.reduceAdd]
  have hm : ∀ x, (x < 396 ∨ 404 ≤ x) → putLe (putLe (wrBytes σ1.mem σ.nextFree σ.host.calldata) 396 4
      σ.host.calldata.length) 400 4 σ.nextFree x = wrBytes σ1.mem σ.nextFree σ.host.calldata x := fun x h => by
    rw [putLe_out (by omega), putLe_out (by omega)]
  refine hQ _ ⟨hh.setMem ?_ ?_, by rw [setMem_nextFree]; omega, hx.size, hx.maxPages, hx.host, ?_, ?_⟩ hn
  · exact leNat_congr fun x h1 h2 => by rw [hm x (by omega), wrBytes_out (by omega)]
  · intro x h1; rw [hm x (by omega), wrBytes_out (by omega)]
  · intro x h1 h2
    rw [setMem_mem, hm x h2, wrBytes_out (by omega)]; exact hx.mem x h1
  · rw [setMem_mem, rdBytes_congr (g := wrBytes σ1.mem σ.nextFree σ.host.calldata) fun x h1 h2 => hm x (by omega)]
    exact rdBytes_wr ..

/-! ### Exit -/

theorem wp_commit {save : Fn} {S : Store → Prop} {is : List Instr} {s l : List Nat} {Q : Res → Prop}
    (hs : save.Calls [] σ (fun r σ' => r = [] ∧ S σ')) (hQ : ∀ σ', S σ' → wp is s l (flushed σ') Q) :
    wp ((commitFn save).call :: is) s l σ Q := by
  refine wp_call0 (P := fun r σ' => r = [] ∧ ∃ σ2, S σ2 ∧ σ' = flushed σ2) ⟨rfl, ?_⟩ ?_
  · unfold commitFn
    refine wp_call0 hs ?_
    rintro r σ' ⟨rfl, h⟩
    rw [wp_c32, wp_storageFlush, wp_nil]
    exact ⟨rfl, σ', h, rfl⟩
  · rintro r σ' ⟨rfl, σ2, h, rfl⟩
    exact hQ σ2 h

/-- Nothing went wrong. -/
theorem exit_ok {C : Contract} {l s : List Nat} {P : List Nat → Store → Prop} {S : Store → Prop}
    (hs : 260 ≤ σ.size) (he : errWord σ = 0) (hl : 10 ≤ l.length) (h3 : lget l 3 = 0)
    (hd : lget l 1 + lget l 0 ≤ σ.size)
    (hsave : C.save.Calls [] (withResult σ (rdBytes σ.mem (lget l 1) (lget l 0))) (fun r σ' => r = [] ∧ S σ'))
    (hP : ∀ σ', S σ' → P [0] (flushed σ')) : wp (routerExit C) s l σ (retK 1 P) := by
  unfold errWord abortPtr at he
  unfold routerExit abortPtr
  rw [wp_block, wp_c32, wp_load (by simpa using hs), wp_ltee, wp_un, wp_brIf]
  simp only [Nat.reduceMod, Nat.add_zero, he, eval_eqz]
  rw [IfP.pos (by simp [b2n]), contB_br0, List.take_zero, List.nil_append]
  rw [wp_lget, wp_lget, lget_lset_ne (by omega), lget_lset_ne (by omega), wp_writeResult hd]
  rw [wp_lget, lget_lset_ne (by omega), h3, wp_un, wp_ite, eval_eqz, IfP.pos (by simp [b2n])]
  refine wp_commit hsave fun σ' h => ?_
  rw [wp_nil, contB_ok, wp_lget, lget_lset_ne (by omega), h3, wp_ret, retK_ret]
  exact hP σ' h

/-- An abort is pending: its message is returned. -/
theorem exit_abort {C : Contract} {l s : List Nat} {P : List Nat → Store → Prop} {p n : Nat}
    (hs : σ.size < 2 ^ 32) (he : errWord σ = p) (hp : p ≠ 0) (hn : leNat σ.mem p 4 = n)
    (hpn : p + 4 + n ≤ σ.size) (hs' : 260 ≤ σ.size) (hl : 10 ≤ l.length)
    (hP : P [1] (withResult σ (rdBytes σ.mem (p + 4) n))) : wp (routerExit C) s l σ (retK 1 P) := by
  unfold errWord abortPtr at he
  unfold routerExit abortPtr
  rw [wp_block, wp_c32, wp_load (by simpa using hs'), wp_ltee, wp_un, wp_brIf]
  simp only [Nat.reduceMod, Nat.add_zero, he, eval_eqz]
  rw [IfP.neg (by simp [b2n, hp]), wp_lget, lget_lset_same (by omega), wp_load (by omega), Nat.add_zero, hn,
    wp_lset, wp_lget, lget_lset_ne (by omega), lget_lset_same (by omega), wp_c32, wp_add, W.mod32,
    Nat.mod_eq_of_lt (show 4 < 4294967296 by decide), Nat.mod_eq_of_lt (by omega), wp_lset, wp_c32, wp_lset,
    wp_nil, contB_ok, List.take_nil, List.nil_append]
  rw [wp_lget, lget_lset_ne (by omega), lget_lset_same (by simp only [lset_length]; omega), wp_lget,
    lget_lset_ne (by omega), lget_lset_ne (by omega), lget_lset_same (by simp only [lset_length]; omega),
    wp_writeResult hpn, wp_lget, lget_lset_same (by simp only [lset_length]; omega), wp_un, wp_ite, eval_eqz,
    IfP.neg (by simp [b2n]), wp_nil, contB_ok, wp_lget, lget_lset_same (by simp only [lset_length]; omega),
    wp_ret, retK_ret]
  exact hP

/-- No function was found. -/
theorem exit_noMatch {C : Contract} {l s : List Nat} {P : List Nat → Store → Prop}
    (hs : 260 ≤ σ.size) (he : errWord σ = 0) (hl : 10 ≤ l.length) (h3 : lget l 3 = 1)
    (hd : lget l 1 + lget l 0 ≤ σ.size)
    (hP : P [1] (withResult σ (rdBytes σ.mem (lget l 1) (lget l 0)))) : wp (routerExit C) s l σ (retK 1 P) := by
  unfold errWord abortPtr at he
  unfold routerExit abortPtr
  rw [wp_block, wp_c32, wp_load (by simpa using hs), wp_ltee, wp_un, wp_brIf]
  simp only [Nat.reduceMod, Nat.add_zero, he, eval_eqz]
  rw [IfP.pos (by simp [b2n]), contB_br0, List.take_zero, List.nil_append]
  rw [wp_lget, wp_lget, lget_lset_ne (by omega), lget_lset_ne (by omega), wp_writeResult hd]
  rw [wp_lget, lget_lset_ne (by omega), h3, wp_un, wp_ite, eval_eqz, IfP.neg (by simp [b2n])]
  rw [wp_nil, contB_ok, wp_lget, lget_lset_ne (by omega), h3, wp_ret, retK_ret]
  exact hP

/-! ### Dispatch -/

theorem leBytes_inj : ∀ {a b : List UInt8}, a.length = b.length → leBytes a = leBytes b → a = b
  | [], [], _, _ => rfl
  | x :: a, y :: b, hl, h => by
    have h1 := x.toNat_lt
    have h2 := y.toNat_lt
    simp only [leBytes] at h
    have h3 : x = y := UInt8.toNat_inj.mp (by omega)
    rw [h3, leBytes_inj (by simpa using hl) (show leBytes a = leBytes b by omega)]

theorem leNat_rdBytes (f : Bytes) : ∀ (n a : Nat), leNat f a n = leBytes (rdBytes f a n)
  | 0, a => rfl
  | n + 1, a => by
    rw [rdBytes, leBytes, ← leNat_rdBytes f n (a + 1)]; rfl

/-- A block whose selector does not match does nothing. -/
theorem wp_routerBlock_skip {k : Nat} {f : PubFn} {is : List Instr} {s l : List Nat} {Q : Res → Prop}
    (h : lget l 2 ≠ leBytes f.selector % 4294967296) (hQ : wp is s l σ Q) :
    wp (routerBlock E k f :: is) s l σ Q := by
  unfold routerBlock
  simp only [List.cons_append, List.nil_append]
  rw [wp_block, wp_lget, wp_c32, wp_ne, wp_brIf, IfP.pos (by simp [b2n, h]), contB_br0]
  simpa using hQ

theorem wp_routerBlocks_skip {is : List Instr} {s l : List Nat} {Q : Res → Prop} : ∀ {fs : List PubFn} {k : Nat},
    (∀ f ∈ fs, lget l 2 ≠ leBytes f.selector % 4294967296) → wp is s l σ Q →
    wp (routerBlocks E k fs ++ is) s l σ Q := by
  intro fs
  induction fs with
  | nil => intro k _ h; exact h
  | cons f fs ih =>
    intro k h hQ
    rw [routerBlocks, List.cons_append]
    exact wp_routerBlock_skip (h f (by simp)) (ih (fun g hg => h g (by simp [hg])) hQ)

theorem routerBlocks_append (pre post : List PubFn) (f : PubFn) : ∀ k,
    routerBlocks E k (pre ++ f :: post) =
      routerBlocks E k pre ++ routerBlock E (k + totalLocals pre) f ::
        routerBlocks E (k + totalLocals pre + f.locals) post := by
  induction pre with
  | nil => intro k; rfl
  | cons g pre ih =>
    intro k
    rw [List.cons_append, routerBlocks, ih, routerBlocks, totalLocals, List.cons_append, ← Nat.add_assoc]

theorem totalLocals_append (pre post : List PubFn) (f : PubFn) :
    totalLocals pre + f.locals ≤ totalLocals (pre ++ f :: post) := by
  induction pre with
  | nil => simp [totalLocals]
  | cons g pre ih => simp only [totalLocals, List.cons_append]; omega

end Rt
