import Verif.Rt.External
import Verif.Proof.Natives
import Verif.Proof.Pack3
import Verif.Proof.Unpack6

/-! Proofs about the calls of `Rt/External.lean`. -/

namespace Rt
open Wasm Abi

variable {E : ErrPtrs} {σ σ' σ'' : Store}

/-! ### Arguments -/

theorem packArgs_ok {w b : Nat} (hwb : w ≠ b) : ∀ {ts : List PTy} {j : Nat} {vs : List Val} {ws : List Nat}
      {lim : Nat} {l s : List Nat} {σ : Store} {is : List Instr} {Q : Res → Prop},
    w < l.length → j + ts.length ≤ w → j + ts.length ≤ b →
    (∀ i (h : i < ws.length), lget l (j + i) = ws[i]) → RepAll σ.mem lim (ts.map (fun t => .val t.ty)) vs ws →
    PackPre σ lim (lget l w) (ts.map (fun t => t.ty.headSize)).sum (lget l b) →
    Room σ (tails vs).length →
    (∀ σ' l', Packed σ σ' (lget l w) (heads (σ.nextFree - lget l b) vs) (tails vs) →
      l'.length = l.length → (∀ i, i ≠ w → lget l' i = lget l i) →
      wp is s l' σ' Q) →
    wp (packArgs E w b j ts ++ is) s l σ Q := by
  intro ts
  induction ts with
  | nil =>
    intro j vs ws lim l s σ is Q h1 h2 h2' h3 h4 h5 h6 h7
    cases vs <;> cases ws <;> try exact absurd h4 id
    refine h7 σ l ?_ rfl (fun _ _ => rfl)
    rw [heads, tails]; exact Packed.refl h5.heap.alloc _
  | cons t ts ih =>
    intro j vs ws lim l s σ is Q h1 h2 h2' h3 h4 h5 h6 h7
    rw [List.map_cons] at h4
    cases vs <;> cases ws <;> try exact absurd h4 id
    rename_i v vs x ws
    rw [List.length_cons] at h2 h2'
    rw [List.map_cons, List.sum_cons] at h5
    have hfit := h5.fits
    have hs := h5.size
    have hlim := h5.lim
    have hbase := h5.base
    rw [tails_cons, List.length_append] at h6
    obtain ⟨h41, h42⟩ := h4
    have hhd := h41.hd_length (σ.nextFree - lget l b)
    have e0 := h3 0 (by simp)
    simp only [Nat.add_zero, List.getElem_cons_zero] at e0
    rw [RepP] at h41
    unfold packArgs
    simp only [List.cons_append, List.nil_append, List.append_assoc]
    refine packT_ok t.ty (propagate_ok _) (propagate_ok _) j w b v lim σ l _ _ _ (by rw [e0]; exact h41)
      ⟨h5.heap, h5.res, h5.lim, by omega, fun x h1 h2 => h5.zero x h1 (by omega), h5.base⟩ (h6.mono (by omega)) ?_
    intro σ1 hp1
    have hn1 := hp1.nextFree
    have hsz1 : lget l w + t.ty.headSize < 4294967296 := by omega
    wstep
    generalize hd' : lget l w + t.ty.headSize = d' at *
    have m1 : ∀ i, i ≠ w → lget (lset l w d') i = lget l i := fun i hi => lget_lset_ne hi
    have m2 : lget (lset l w d') w = d' := lget_lset_same (by omega)
    have m3 : (lset l w d').length = l.length := lset_length
    generalize lset l w d' = l3 at *
    have hhd' : (hd (σ.nextFree - lget l b) v).length = t.ty.headSize := hhd
    refine ih (vs := vs) (ws := ws) (lim := lim) (by omega) (by omega) (by omega) ?_ ?_ ?_ ?_ ?_
    · intro i hi
      have := h3 (i + 1) (by simp; omega)
      simp only [List.getElem_cons_succ] at this
      have hlen := h42.lengths.1
      rw [List.length_map] at hlen
      rw [m1 _ (by omega), ← this]
      congr 1; omega
    · refine h42.congr ?_
      intro x hx
      exact hp1.mem_out (by omega) (by omega)
    · rw [m2, m1 _ (Ne.symm hwb)]
      refine ⟨hp1.heap h5.heap h5.res (by omega), ?_, by omega, by omega, ?_, by omega⟩
      · have := h5.res; omega
      · intro x hx1 hx2
        rw [hp1.mem_out (by omega) (by omega)]
        exact h5.zero x (by omega) (by omega)
    · exact hp1.room h6
    · intro σ2 l4 hp2 q1 q2
      rw [m2, m1 _ (Ne.symm hwb)] at hp2
      refine h7 σ2 l4 ?_ (by omega) ?_
      · rw [heads_cons, tails_cons]
        refine hp1.trans ?_ ?_
        · rw [hhd', hd', show σ.nextFree - lget l b + (tl v).length =
            σ1.nextFree - lget l b by omega]
          exact hp2
        · have := h42.headLen
          rw [List.map_map] at this
          have e : (((fun t : PTy => t.ty.headSize) ∘ fun t : PTy => PTy.val t.ty)) =
            fun t => t.ty.headSize := rfl
          rw [e] at this
          rw [hhd', heads_length, this]; omega
      · intro i hi
        rw [q2 i hi, m1 _ hi]

/-! ### The object -/

/-- The pointers inside a call object. -/
theorem CallObj.parts {f : Bytes} {lim s a d g v p : Nat} (h : CallObj f lim s a d g v p) :
    ∃ o pa pd pg, leNat f s 4 = o ∧ s + 4 ≤ lim ∧ leNat f o 4 = pa ∧ leNat f (o + 4) 4 = pd ∧
      leNat f (o + 8) 4 = pg ∧ leNat f (o + 12) 4 = p ∧ o + 16 ≤ lim ∧ pa + 32 ≤ lim ∧
      beNat f (pa + 12) 20 = a ∧ pd + 1 ≤ lim ∧ leNat f pd 1 = d ∧ d < 2 ∧ pg + 8 ≤ lim ∧ leNat f pg 8 = g ∧
      p + 32 ≤ lim ∧ leNat f p 32 = v ∧ (pa + 32 ≤ p ∨ p + 32 ≤ pa) := by
  obtain ⟨hr, ha, hp, hres, hap⟩ := h
  simp only [callTy, Rep, RepFs, MTy.isScalar, MTy.size, if_true, Bool.false_eq_true, if_false] at hr
  obtain ⟨h1, h2, -, ⟨h3, h4, -, ⟨h5, h5'⟩, h6, h7, ⟨h8, h8'⟩, h9, h10, ⟨h11, h11'⟩, h12, -, ⟨h13, h13'⟩, -⟩, -⟩ := hr
  refine ⟨_, _, _, _, rfl, h2, rfl, rfl, rfl, hp, ?_, h5, ?_, h7 trivial, h8, h8', h10 trivial, h11, ?_, ?_, hap⟩
  · omega
  · exact beNat_low (m := 12) (k := 20) rfl h5' (by simpa using ha)
  · rw [← hp]; exact h13
  · rw [← hp]; exact h13'

/-- The caller's memory is unchanged, apart from the word at `p` if `c`; there may be new memory. -/
structure Kept (c : Bool) (p : Nat) (σ σ' : Store) : Prop where
  heap : Heap σ'
  nextFree : σ.nextFree ≤ σ'.nextFree
  size : σ.size ≤ σ'.size
  mem : ∀ x, x < σ.nextFree → (c = true → x < p ∨ p + 32 ≤ x) → σ'.mem x = σ.mem x
  maxPages : σ'.maxPages = σ.maxPages

theorem Kept.trans {c : Bool} {p : Nat} (h : Kept c p σ σ') (h' : Kept c p σ' σ'') : Kept c p σ σ'' :=
  ⟨h'.heap, Nat.le_trans h.nextFree h'.nextFree, Nat.le_trans h.size h'.size,
    fun x hx hx' => (h'.mem x (Nat.lt_of_lt_of_le hx h.nextFree) hx').trans (h.mem x hx hx'),
    h'.maxPages.trans h.maxPages⟩

theorem Grows.kept {c : Bool} {p : Nat} (h : Grows σ σ') (hσ : Heap σ) : Kept c p σ σ' :=
  ⟨h.heap hσ, h.nextFree, h.size, fun x hx _ => h.mem x hx, h.maxPages⟩

theorem Extends.kept {c : Bool} {p : Nat} (h : Extends σ σ') (hσ : Heap σ) : Kept c p σ σ' := h.grows.kept hσ

theorem callObject_ok {payable : Bool} {k s a d g v p : Nat} {l st : List Nat} {is : List Instr} {Q : Res → Prop}
    (hσ : Heap σ) (hr : Room σ 32) (ho : CallObj σ.mem σ.nextFree s a d g v p) (h0 : lget l 0 = s)
    (hk : 0 < k) (hl : k + 3 < l.length)
    (hQ : ∀ σ' l', Kept payable p σ σ' → σ'.host = σ.host → σ'.nextFree = σ.nextFree + (if payable then 0 else 32) →
      l'.length = l.length → (∀ i, 0 < i → i < k → lget l' i = lget l i) →
      lget l' k + 20 ≤ σ.nextFree → beNat σ'.mem (lget l' k) 20 = a → lget l' (k + 1) = d → d < 2 →
      lget l' (k + 2) = g → g < 2 ^ 64 → lget l' (k + 3) + 32 ≤ σ'.nextFree →
      beNat σ'.mem (lget l' (k + 3)) 32 = (if payable then v else 0) → wp is st l' σ' Q) :
    wp (callObject payable k ++ is) st l σ Q := by
  have hres := ho.res
  obtain ⟨o, pa, pd, pg, e1, b1, e2, e3, e4, e5, b2, b3, e6, b4, e7, b5, b6, e8, b7, e9, hap⟩ := ho.parts
  have hin := hσ.alloc.nextFree_le
  have hlt := hσ.alloc.size_lt
  have hg : g < 2 ^ 64 := by rw [← e8]; exact leNat_lt (n := 8) ..
  unfold callObject
  simp only [List.cons_append, List.nil_append, List.append_assoc]
  wstep
  rw [h0, e1]
  have c1 : s + 4 ≤ σ.size := by omega
  have c2 : o + 4 ≤ σ.size := by omega
  have c3 : o + 4 + 4 ≤ σ.size := by omega
  have c4 : o + 8 + 4 ≤ σ.size := by omega
  have c5 : pd + 1 ≤ σ.size := by omega
  have c6 : pg + 8 ≤ σ.size := by omega
  have c7 : pa + 12 < 4294967296 := by omega
  wstep
  rw [e2, e3, e4, e7, e8]
  generalize hl1 : lset (lset (lset (lset l 0 o) k (pa + 12)) (k + 1) d) (k + 2) g = l1
  have n0 : l1.length = l.length := by rw [← hl1]; simp only [lset_length]
  have n1 : lget l1 0 = o := by
    rw [← hl1, lget_lset_ne (by omega), lget_lset_ne (by omega), lget_lset_ne (by omega), lget_lset_same (by omega)]
  have n2 : lget l1 k = pa + 12 := by
    rw [← hl1, lget_lset_ne (by omega), lget_lset_ne (by omega), lget_lset_same (by rw [lset_length]; omega)]
  have n3 : lget l1 (k + 1) = d := by
    rw [← hl1, lget_lset_ne (by omega), lget_lset_same (by simp only [lset_length]; omega)]
  have n4 : lget l1 (k + 2) = g := by
    rw [← hl1, lget_lset_same (by simp only [lset_length]; omega)]
  have n5 : ∀ i, 0 < i → i < k → lget l1 i = lget l i := by
    intro i hi hi'
    rw [← hl1, lget_lset_ne (by omega), lget_lset_ne (by omega), lget_lset_ne (by omega), lget_lset_ne (by omega)]
  have q0 : ∀ x, (lset l1 (k + 3) x).length = l.length := fun x => by rw [lset_length, n0]
  have q1 : ∀ x i, i < k + 3 → lget (lset l1 (k + 3) x) i = lget l1 i := fun x i hi => lget_lset_ne (by omega)
  have q2 : ∀ x, lget (lset l1 (k + 3) x) (k + 3) = x := fun x => lget_lset_same (by omega)
  have q3 : ∀ x i, 0 < i → i < k → lget (lset l1 (k + 3) x) i = lget l i :=
    fun x i hi hi' => by rw [q1 _ _ (by omega), n5 _ hi hi']
  cases payable with
  | true =>
    simp only [if_true, List.cons_append, List.nil_append]
    have c8 : o + 12 + 4 ≤ σ.size := by omega
    wstep
    rw [n1, e5]
    refine wp_call2 (swapBytes4_spec (p := p) (q := p) (by omega) (by omega)) ?_
    rintro r σ' ⟨rfl, rfl⟩
    have hm : ∀ x, (x < p ∨ p + 32 ≤ x) → putLe σ.mem p 32 (beNat σ.mem p 32) x = σ.mem x :=
      fun x hx => putLe_out hx
    unfold reserved at hres
    refine hQ _ _ ⟨⟨⟨hσ.ready.size, hσ.ready.size_lt, ?_⟩, hσ.alloc.setMem, hσ.base, ?_⟩, Nat.le_refl _, Nat.le_refl _,
      fun x _ hx => hm x (hx rfl), rfl⟩ rfl rfl (q0 _) (q3 _) ?_ ?_ ?_ b5 ?_ hg ?_ ?_
    · rw [← hσ.ready.noErr]
      exact leNat_congr fun x _ hx => hm x (by have : abortPtr = 256 := rfl; omega)
    · intro x hx
      rw [← hσ.fresh x hx]
      exact hm x (Or.inr (Nat.le_trans b7 hx))
    · rw [q1 _ _ (by omega), n2]; omega
    · rw [q1 _ _ (by omega), n2, ← e6]
      exact beNat_congr fun x h1 h2 => hm x (by omega)
    · rw [q1 _ _ (by omega), n3]
    · rw [q1 _ _ (by omega), n4]
    · rw [q2]; exact b7
    · rw [q2]
      show beNat (putLe σ.mem p 32 (beNat σ.mem p 32)) p 32 = v
      rw [beNat_putLe_same, bswap_mod, ← bswap_leNat, bswap_bswap, e9, Nat.mod_eq_of_lt]
      rw [← e9]; exact leNat_lt ..
  | false =>
    simp only [Bool.false_eq_true, if_false, List.cons_append, List.nil_append]
    wstep
    refine wp_allocR hσ hr (Nat.le_refl _) fun σ1 a1 => ?_
    wstep
    have hn := a1.nextFree
    refine hQ _ _ (a1.extends.kept hσ) a1.host hn (q0 _) (q3 _) ?_ ?_ ?_ b5 ?_ hg ?_ ?_
    · rw [q1 _ _ (by omega), n2]; omega
    · rw [q1 _ _ (by omega), n2, ← e6, a1.mem]
    · rw [q1 _ _ (by omega), n3]
    · rw [q1 _ _ (by omega), n4]
    · rw [q2]; omega
    · rw [q2, a1.mem]
      show beNat σ.mem σ.nextFree 32 = 0
      exact beNat_zero_of fun x h1 _ => hσ.fresh x h1

/-! ### The data -/

theorem rdBytes_sel {f : Bytes} {p sel : Nat} : rdBytes (putLe f p 4 (bswap 4 sel)) p 4 = selBytes sel := by
  rw [putLe_bswap]
  have h : ∀ i, i < 4 → putBe f p 4 sel (p + i) = UInt8.ofNat (sel / 256 ^ (3 - i)) := by
    intro i hi
    unfold putBe
    rw [if_pos (by omega), show p + 4 - 1 - (p + i) = 3 - i by omega]
  have h0 := h 0 (by omega)
  have h1 := h 1 (by omega)
  have h2 := h 2 (by omega)
  have h3 := h 3 (by omega)
  simp only [Nat.add_zero, Nat.reduceSub, Nat.reducePow, Nat.div_one] at h0 h1 h2 h3
  simp only [rdBytes, selBytes, Nat.add_assoc, Nat.reduceAdd, h0, h1, h2, h3, Nat.reducePow]

/-- Arguments, if there are any. -/
def callArgs (E : ErrPtrs) (k : Nat) (args : List PTy) : List Instr :=
  if args.isEmpty then []
   else code[Op.c32 (args.map (fun t => t.ty.headSize)).sum, alloc.call, Op.ltee (k + 6), Op.lset (k + 7)] ++
     packArgs E (k + 6) (k + 7) 1 args

theorem callArgs_ok {k : Nat} {args : List PTy} {vs : List Val} {ws l st : List Nat} {is : List Instr}
    {Q : Res → Prop} (hσ : Heap σ) {lim : Nat} (hlim : lim ≤ σ.nextFree)
    (hr : RepAll σ.mem lim (args.map (fun t => .val t.ty)) vs ws)
    (hroom : Room σ (encTuple vs).length) (hk : k = args.length + 1) (hl : k + 9 < l.length)
    (hargs : ∀ i (h : i < ws.length), lget l (1 + i) = ws[i])
    (hQ : ∀ σ' l', Extends σ σ' → σ'.mem = wrBytes σ.mem σ.nextFree (encTuple vs) →
      σ'.nextFree = σ.nextFree + (encTuple vs).length → l'.length = l.length →
      (∀ i, i ≠ k + 6 → i ≠ k + 7 → lget l' i = lget l i) → wp is st l' σ' Q) :
    wp (callArgs E k args ++ is) st l σ Q := by
  obtain ⟨hlw, hlv⟩ := hr.lengths
  have hhl := hr.headLen
  rw [List.map_map] at hhl
  rw [List.length_map] at hlw
  change headLen vs = (args.map fun t => t.ty.headSize).sum at hhl
  have hcl : (encTuple vs).length = (args.map (fun t => t.ty.headSize)).sum + (tails vs).length := by
    unfold encTuple; rw [enc, List.length_append, heads_length, hhl]
  unfold callArgs
  cases args with
  | nil =>
    cases vs with
    | cons => exact absurd hr (by cases ws <;> exact id)
    | nil =>
    have e0 : encTuple [] = [] := by
      rw [← List.length_eq_zero_iff, hcl]; simp [tails]
    refine hQ σ l hσ.refl ?_ ?_ rfl fun _ _ _ => rfl
    · rw [e0, wrBytes_nil]
    · rw [e0]; rfl
  | cons t ts =>
  simp only [List.isEmpty_cons, Bool.false_eq_true, if_false, List.cons_append, List.nil_append, List.append_assoc]
  generalize t :: ts = args at *
  generalize hH : (args.map (fun t => t.ty.headSize)).sum = H at *
  rw [hcl] at hroom
  have hroom1 := hroom.1
  wstep
  refine wp_allocR hσ hroom (by omega) fun σ1 a1 => ?_
  have hn1 := a1.nextFree
  wstep
  generalize hl2 : lset (lset l (k + 6) σ.nextFree) (k + 7) σ.nextFree = l2
  have m1 : l2.length = l.length := by rw [← hl2, lset_length, lset_length]
  have m2 : lget l2 (k + 6) = σ.nextFree := by
    rw [← hl2, lget_lset_ne (by omega), lget_lset_same (by omega)]
  have m3 : lget l2 (k + 7) = σ.nextFree := by
    rw [← hl2, lget_lset_same (by rw [lset_length]; omega)]
  have m4 : ∀ i, i ≠ k + 6 → i ≠ k + 7 → lget l2 i = lget l i := by
    intro i hi hi'
    rw [← hl2, lget_lset_ne hi', lget_lset_ne hi]
  refine packArgs_ok (by omega) (vs := vs) (ws := ws) (lim := lim) (by omega) (by omega) (by omega) ?_
    (by rw [a1.mem]; exact hr) ?_ (Room.after hroom (by omega) a1.maxPages) ?_
  · intro i hi
    rw [m4 _ (by omega) (by omega), hargs i hi]
  · rw [m2, m3, hH]
    exact ⟨a1.heap, hσ.base, hlim, by omega, fun x hx _ => by rw [a1.mem]; exact hσ.fresh x hx, by omega⟩
  · intro σ2 l3 hp q1 q2
    rw [m2, m3] at hp
    rw [show σ1.nextFree - σ.nextFree = H by omega] at hp
    have hlen : (heads H vs).length = H := by rw [heads_length, hhl]
    have hn2 := hp.nextFree
    have hmem : σ2.mem = wrBytes σ.mem σ.nextFree (encTuple vs) := by
      rw [hp.mem, a1.mem, hn1]
      unfold encTuple
      rw [enc, hhl, wrBytes_append, hlen]
    have hb := a1.extends
    refine hQ σ2 l3 ?_ hmem (by omega) (by omega) fun i hi hi' => by rw [q2 i hi, m4 i hi hi']
    refine ⟨by omega, Nat.le_trans a1.size hp.size, ?_, ?_, hp.alloc, ?_, ?_, ?_⟩
    · intro x hx
      rw [hmem, wrBytes_out (by omega)]
    · intro x hx
      rw [hmem, wrBytes_out (by omega), hσ.fresh _ (by omega)]
    · rw [hp.maxPages, a1.maxPages]
    · rw [hp.reader, a1.reader]
    · rw [hp.host, a1.host]

theorem callData_ok {sel k : Nat} {args : List PTy} {vs : List Val} {ws l st : List Nat} {is : List Instr}
    {Q : Res → Prop} (hσ : Heap σ) (hsel : sel < 4294967296) {lim : Nat} (hlim : lim ≤ σ.nextFree)
    (hr : RepAll σ.mem lim (args.map (fun t => .val t.ty)) vs ws)
    (hroom : Room σ (8 + (encTuple vs).length)) (hk : k = args.length + 1) (hl : k + 9 < l.length)
    (hargs : ∀ i (h : i < ws.length), lget l (1 + i) = ws[i])
    (hQ : ∀ σ' l', Extends σ σ' → σ'.nextFree = σ.nextFree + (8 + (encTuple vs).length) → l'.length = l.length →
      (∀ i, i < k + 4 → lget l' i = lget l i) → lget l' (k + 4) + lget l' (k + 5) ≤ σ'.nextFree →
      rdBytes σ'.mem (lget l' (k + 4)) (lget l' (k + 5)) = selBytes sel ++ encTuple vs →
      σ.nextFree ≤ lget l' (k + 9) → lget l' (k + 9) + 4 ≤ σ'.nextFree → wp is st l' σ' Q) :
    wp (callData E sel k args ++ is) st l σ Q := by
  have hc : callData E sel k args ++ is = code[Op.c32 4, alloc.call, Op.ltee (k + 4), Op.c32 sel, swap32.call,
      Op.store 4 0] ++ (callArgs E k args ++ (code[Op.c32 0, alloc.call, Op.lget (k + 4), Op.bin .w32 .sub,
      Op.lset (k + 5), Op.c32 4, alloc.call, Op.lset (k + 9)] ++ is)) := by
    unfold callData callArgs
    simp only [List.append_assoc]
  rw [hc]
  have hroom1 := hroom.1
  simp only [List.cons_append, List.nil_append]
  wstep
  refine wp_allocR hσ hroom (by omega) fun σ1 a1 => ?_
  have hn1 := a1.nextFree
  have hi1 := a1.inside
  have hs1 := a1.heap.alloc.size_lt
  wstep
  refine wp_eval1 swap32_spec ?_
  have c1 : σ.nextFree + 4 ≤ σ1.size := by omega
  wstep
  have hx2 : Extends σ (σ1.setMem (putLe σ1.mem σ.nextFree 4 (bswap 4 sel))) :=
    a1.extends.putLe (Nat.le_refl _) (by omega)
  have hh2 := hx2.heap hσ
  refine callArgs_ok (vs := vs) (ws := ws) hh2 (lim := lim) ?_ ?_ ?_ hk ?_ ?_ ?_
  · exact Nat.le_trans hlim hx2.nextFree
  · refine hr.congr fun x hx => hx2.mem x (by omega)
  · exact Room.after (k := 4) (hroom.mono (by omega)) (Nat.le_of_eq hn1) a1.maxPages
  · rw [lset_length]; exact hl
  · intro i hi
    have := hr.lengths.1
    rw [List.length_map] at this
    rw [lget_lset_ne (by omega)]; exact hargs i hi
  intro σ3 l3 hx3 hm3 hn3 q1 q2
  have hn3' : σ3.nextFree = σ1.nextFree + (encTuple vs).length := hn3
  have hh3 := hx3.heap hh2
  have hr3 : Room σ3 4 := Room.after (k := 4 + (encTuple vs).length) (hroom.mono (by omega)) (by omega)
    (hx3.maxPages.trans hx2.maxPages)
  have hm3' : σ3.mem = wrBytes (putLe σ.mem σ.nextFree 4 (bswap 4 sel)) σ1.nextFree (encTuple vs) := by
    rw [hm3, ← a1.mem]; rfl
  wstep
  refine wp_allocR hh3 hr3 (by omega) fun σ4 a4 => ?_
  have hn4 := a4.nextFree
  have q3 : lget l3 (k + 4) = σ.nextFree := by
    rw [q2 _ (by omega) (by omega), lget_lset_same (by omega)]
  have hlt3 : σ3.nextFree < 4294967296 := by
    have := hh3.alloc.nextFree_le; have := hh3.alloc.size_lt; omega
  have c2 : σ.nextFree ≤ σ3.nextFree := by omega
  wstep
  rw [q3]
  refine wp_allocR a4.heap (Room.after (k := 0) (n := 4) hr3 (by omega) a4.maxPages) (by omega) fun σ5 a5 => ?_
  have hn5 := a5.nextFree
  wstep
  have e1 : (lset (lset l3 (k + 5) (σ3.nextFree - σ.nextFree)) (k + 9) σ4.nextFree).length = l.length := by
    rw [lset_length, lset_length, q1, lset_length]
  have e2 : lget (lset (lset l3 (k + 5) (σ3.nextFree - σ.nextFree)) (k + 9) σ4.nextFree) (k + 9) = σ3.nextFree := by
    rw [lget_lset_same (by rw [lset_length, q1, lset_length]; exact hl)]; omega
  have e3 : lget (lset (lset l3 (k + 5) (σ3.nextFree - σ.nextFree)) (k + 9) σ4.nextFree) (k + 5) =
      4 + (encTuple vs).length := by
    rw [lget_lset_ne (by omega), lget_lset_same (by rw [q1, lset_length]; omega)]; omega
  have e4 : lget (lset (lset l3 (k + 5) (σ3.nextFree - σ.nextFree)) (k + 9) σ4.nextFree) (k + 4) = σ.nextFree := by
    rw [lget_lset_ne (by omega), lget_lset_ne (by omega), q3]
  refine hQ _ _ ?_ (by omega) e1 ?_ ?_ ?_ ?_ ?_
  · exact (hx2.trans hx3).trans (a4.extends.trans a5.extends)
  · intro i hi
    rw [lget_lset_ne (by omega), lget_lset_ne (by omega), q2 _ (by omega) (by omega), lget_lset_ne (by omega)]
  · rw [e3, e4]; omega
  · rw [e3, e4, a5.mem, a4.mem, hm3', rdBytes_append]
    congr 1
    · rw [← rdBytes_sel (f := σ.mem) (p := σ.nextFree)]
      exact rdBytes_congr fun x _ hx => wrBytes_out (by omega)
    · rw [hn1]; exact rdBytes_wr _ _ _
  · rw [e2]; omega
  · rw [e2]; omega

/-! ### The call -/

/-- The message a call sends. -/
def callMsg (static payable : Bool) (a d g v : Nat) (data : List UInt8) : Msg :=
  if static then ⟨.static, a, data, 0, g⟩
  else if d = 0 then ⟨.call, a, data, if payable then v else 0, g⟩
  else ⟨.delegate, a, data, 0, g⟩

/-- The state after a message has been sent. -/
def sent (σ : Store) (m : Msg) (o : Nat) : Store :=
  (σ.setHost (σ.host.send m)).setMem (putLe σ.mem o 4 (σ.host.send m).returned.length)

theorem callSend_ok {static payable : Bool} {k a d g v : Nat} {data : List UInt8} {l st : List Nat}
    {is : List Instr} {Q : Res → Prop} (hk : k + 9 < l.length) (ha : lget l k + 20 ≤ σ.size)
    (ha' : beNat σ.mem (lget l k) 20 = a)
    (hd : lget l (k + 1) = d) (hg : lget l (k + 2) = g) (hv : lget l (k + 3) + 32 ≤ σ.size)
    (hv' : beNat σ.mem (lget l (k + 3)) 32 = if payable then v else 0)
    (hn : lget l (k + 4) + lget l (k + 5) ≤ σ.size)
    (hn' : rdBytes σ.mem (lget l (k + 4)) (lget l (k + 5)) = data)
    (ho : lget l (k + 9) + 4 ≤ σ.size)
    (hQ : wp is st (lset l (k + 8) (σ.host.status (callMsg static payable a d g v data) % 4294967296))
      (sent σ (callMsg static payable a d g v data) (lget l (k + 9))) Q) :
    wp (callSend static k ++ is) st l σ Q := by
  unfold callSend
  cases static with
  | true =>
    simp only [if_true, List.cons_append, List.nil_append]
    rw [wp_lget, wp_lget, wp_lget, wp_lget, wp_lget, wp_op]
    simp only [Op.exec, HostFn.eval, if_pos (And.intro ha hn), Store.sendMsg, if_pos ho]
    rw [wp_lset, ha', hn', hg]
    exact hQ
  | false =>
    simp only [Bool.false_eq_true, if_false, List.cons_append, List.nil_append]
    rw [wp_lget, wp_ite, hd]
    refine IfP.intro ?_ ?_
    · intro h0
      rw [wp_lget, wp_lget, wp_lget, wp_lget, wp_lget, wp_op]
      simp only [Op.exec, HostFn.eval, if_pos (And.intro ha hn), Store.sendMsg, if_pos ho]
      rw [wp_lset, wp_nil, contB_ok, ha', hn', hg]
      simpa [callMsg, sent, h0, List.take] using hQ
    · intro h0
      rw [wp_lget, wp_lget, wp_lget, wp_lget, wp_lget, wp_lget, wp_op]
      simp only [Op.exec, HostFn.eval, if_pos (And.intro ha (And.intro hn hv)), Store.sendMsg, if_pos ho]
      rw [wp_lset, wp_nil, contB_ok, ha', hn', hg, hv']
      have h1 : d = 0 := by simpa using h0
      simpa [callMsg, sent, h1, List.take] using hQ

theorem Heap.put {p n v : Nat} (hσ : Heap σ) (h1 : reserved ≤ p) (h2 : p + n ≤ σ.nextFree) :
    Heap (σ.setMem (putLe σ.mem p n v)) := by
  have hm : ∀ x, (x < p ∨ p + n ≤ x) → (σ.setMem (putLe σ.mem p n v)).mem x = σ.mem x := fun x hx => putLe_out hx
  unfold reserved at h1
  refine ⟨⟨hσ.ready.size, hσ.ready.size_lt, ?_⟩, hσ.alloc.setMem, hσ.base, ?_⟩
  · rw [← hσ.ready.noErr]
    exact leNat_congr fun x _ hx => hm x (by have : abortPtr = 256 := rfl; omega)
  · intro x hx
    rw [← hσ.fresh x hx]
    exact hm x (Or.inr (Nat.le_trans h2 hx))

theorem sent_heap {m : Msg} {o : Nat} (hσ : Heap σ) (h1 : reserved ≤ o) (h2 : o + 4 ≤ σ.nextFree) :
    Heap (sent σ m o) := by
  have hm : ∀ x, (x < o ∨ o + 4 ≤ x) → (sent σ m o).mem x = σ.mem x := fun x hx => putLe_out hx
  unfold reserved at h1
  refine ⟨⟨hσ.ready.size, hσ.ready.size_lt, ?_⟩,
    ⟨hσ.alloc.sum, hσ.alloc.page, hσ.alloc.first, hσ.alloc.limit, hσ.alloc.max, hσ.alloc.small⟩, hσ.base, ?_⟩
  · rw [← hσ.ready.noErr]
    exact leNat_congr fun x _ hx => hm x (by have : abortPtr = 256 := rfl; omega)
  · intro x hx
    rw [← hσ.fresh x hx]
    exact hm x (Or.inr (Nat.le_trans h2 hx))

/-! ### The result -/

theorem callStatus_ok {size k : Nat} {l st : List Nat} {is : List Instr} {Q : Res → Prop} (hσ : Heap σ)
    (hs : 4 ≤ size) (hroom : Room σ (size + 4)) (hl : k + 11 < l.length) (hc : lget l (k + 8) < 4294967296)
    (hQ : ∀ σ' l', Extends σ σ' → σ'.nextFree = σ.nextFree + (size + 4) → l'.length = l.length →
      (∀ i, i < k + 10 → lget l' i = lget l i) → lget l' (k + 10) = σ.nextFree →
      leNat σ'.mem σ.nextFree 4 = σ.nextFree + size → leNat σ'.mem (σ.nextFree + size) 4 = lget l (k + 8) →
      wp is st l' σ' Q) :
    wp (callStatus size k ++ is) st l σ Q := by
  have hroom1 := hroom.1
  unfold callStatus
  simp only [List.cons_append, List.nil_append]
  wstep
  refine wp_allocR hσ hroom (by omega) fun σ1 a1 => ?_
  have hn1 := a1.nextFree
  wstep
  refine wp_allocR a1.heap (Room.after hroom (by omega) a1.maxPages) (Nat.le_refl _) fun σ2 a2 => ?_
  have hn2 := a2.nextFree
  have hi2 := a2.inside
  have hs2 := a2.heap.alloc.size_lt
  generalize hl1 : lset l (k + 10) σ.nextFree = l1
  have n1 : l1.length = l.length := by rw [← hl1, lset_length]
  have n2 : lget l1 (k + 10) = σ.nextFree := by rw [← hl1, lget_lset_same (by omega)]
  have n3 : ∀ i, i ≠ k + 10 → lget l1 i = lget l i := fun i hi => by rw [← hl1, lget_lset_ne hi]
  have c1 : σ1.nextFree + 4 ≤ σ2.size := by omega
  have c2 : σ.nextFree + 4 ≤ σ2.size := by omega
  wstep
  rw [n2, n3 (k + 8) (by omega)]
  have hx : Extends σ (σ2.setMem (putLe (putLe σ2.mem σ1.nextFree 4 (lget l (k + 8))) σ.nextFree 4 σ1.nextFree)) :=
    ((a1.extends.trans a2.extends).putLe (p := σ1.nextFree) (n := 4) (by omega) (by omega)).putLe (p := σ.nextFree)
      (n := 4) (Nat.le_refl _) (by show _ ≤ σ2.nextFree; omega)
  have hm : (σ2.setMem (putLe (putLe σ2.mem σ1.nextFree 4 (lget l (k + 8))) σ.nextFree 4 σ1.nextFree)).mem =
    putLe (putLe σ2.mem σ1.nextFree 4 (lget l (k + 8))) σ.nextFree 4 σ1.nextFree := rfl
  have hnn : (σ2.setMem (putLe (putLe σ2.mem σ1.nextFree 4 (lget l (k + 8))) σ.nextFree 4 σ1.nextFree)).nextFree =
    σ2.nextFree := rfl
  generalize σ2.setMem _ = σ3 at *
  refine hQ σ3 _ hx (by omega) (by rw [lset_length, n1]) ?_ ?_ ?_ ?_
  · intro i hi
    rw [lget_lset_ne (by omega), n3 _ (by omega)]
  · rw [lget_lset_ne (by omega), n2]
  · rw [hm, leNat_putLe_same, Nat.mod_eq_of_lt (by simp only [Nat.reducePow]; omega), hn1]
  · rw [← hn1, hm, leNat_putLe_disj (by omega), leNat_putLe_same, Nat.mod_eq_of_lt (by simpa using hc)]

/-- The call failed. -/
theorem callValue_fail {t : MTy} {k : Nat} {l st : List Nat} {is : List Instr} {Q : Res → Prop}
    (hc : lget l (k + 8) ≠ 0) (hQ : wp is st l σ Q) :
    wp (callValue E t k ++ is) st l σ Q := by
  unfold callValue
  simp only [List.cons_append, List.nil_append, List.append_assoc]
  rw [wp_block]
  wstep
  exact hQ

theorem dec_one {t : MTy} {v : Val} {p : Nat} (hσ : Heap σ) (hty : HasTy t v)
    (hp : p + (encTuple [v]).length ≤ σ.nextFree)
    (hbs : rdBytes σ.mem p (encTuple [v]).length = encTuple [v]) (hroom : Room σ (need t v + 8)) :
    Dec σ.mem σ.nextFree t v p p := by
  have h1 := hσ.alloc.nextFree_le
  have h2 := hσ.alloc.size_lt
  have h3 := hroom.1
  have hh : Holds σ.mem σ.nextFree p (encTuple [v]) := ⟨hp, hbs⟩
  unfold encTuple at hh
  rw [enc] at hh
  obtain ⟨h5, h6⟩ := hh.append
  rw [heads_length] at h6
  obtain ⟨h7, -⟩ := located_cons (b := p) (by omega) h5 (fun _ => h6)
  exact located_dec (by omega) t hty h7 (by omega)

set_option maxHeartbeats 1000000 in
/-- The call succeeded and returned the encoding of a value of the type of the result. -/
theorem callValue_ok {t : MTy} {v : Val} {k r : Nat} {l st : List Nat} {is : List Instr} {Q : Res → Prop}
    (hE : E.Valid) (hσ : Heap σ) (hty : HasTy t v) (hen : EnumsOk t) (hl : k + 15 < l.length)
    (hc : lget l (k + 8) = 0) (hr : lget l (k + 10) = r) (hr' : reserved ≤ r) (hr2 : r + 8 ≤ σ.nextFree)
    (hret : σ.host.returned = encTuple [v])
    (ho : lget l (k + 9) + 4 ≤ σ.nextFree) (hlen : leNat σ.mem (lget l (k + 9)) 4 = (encTuple [v]).length)
    (hroom : Room σ ((encTuple [v]).length + (need t v + 8)))
    (hfit : Fits σ.size t v (σ.nextFree + (encTuple [v]).length))
    (hQ : ∀ σ' l', Heap σ' → σ.nextFree ≤ σ'.nextFree → σ.size ≤ σ'.size →
      (∀ x, x < σ.nextFree → (x < r + 4 ∨ r + 8 ≤ x) → σ'.mem x = σ.mem x) → σ'.maxPages = σ.maxPages →
      σ'.host = σ.host → lget l' (k + 10) = r → RepFs σ'.mem σ'.nextFree [t] [v] (r + 4) →
      wp is st l' σ' Q) :
    wp (callValue E t k ++ is) st l σ Q := by
  have hroom1 := hroom.1
  have hin := hσ.alloc.nextFree_le
  have hlt := hσ.alloc.size_lt
  generalize hN : (encTuple [v]).length = N at *
  unfold callValue
  simp only [List.cons_append, List.nil_append, List.append_assoc]
  rw [wp_block]
  have c1 : lget l (k + 9) + 4 ≤ σ.size := by omega
  wstep
  rw [hlen]
  refine wp_allocR hσ hroom (by omega) fun σ1 a1 => ?_
  have hn1 := a1.nextFree
  have hi1 := a1.inside
  have hs1 := a1.heap.alloc.size_lt
  wstep
  rw [wp_op]
  have hbs : (σ1.host.returned.drop 0).take N = encTuple [v] := by
    rw [a1.host, hret, List.drop_zero, ← hN, List.take_length]
  simp only [Op.exec, HostFn.eval, hbs, hN]
  rw [if_pos (by omega)]
  wstep
  generalize hl1 : lset (lset (lset (lset l (k + 9) N) (k + 12) σ.nextFree) (k + 9) N) (k + 13) σ.nextFree = l1
  have n0 : l1.length = l.length := by rw [← hl1]; simp only [lset_length]
  have n1 : lget l1 (k + 12) = σ.nextFree := by
    rw [← hl1, lget_lset_ne (by omega), lget_lset_ne (by omega), lget_lset_same (by rw [lset_length]; omega)]
  have n2 : lget l1 (k + 13) = σ.nextFree := by
    rw [← hl1, lget_lset_same (by simp only [lset_length]; omega)]
  have n3 : lget l1 (k + 10) = r := by
    rw [← hl1, lget_lset_ne (by omega), lget_lset_ne (by omega), lget_lset_ne (by omega), lget_lset_ne (by omega), hr]
  have hx2 : Extends σ (σ1.setMem (wrBytes σ1.mem σ.nextFree (encTuple [v]))) :=
    a1.extends.write (fun x hx => wrBytes_out (by omega)) (fun x hx => wrBytes_out (by omega))
  have hm2 : (σ1.setMem (wrBytes σ1.mem σ.nextFree (encTuple [v]))).mem =
    wrBytes σ1.mem σ.nextFree (encTuple [v]) := rfl
  have hn2 : (σ1.setMem (wrBytes σ1.mem σ.nextFree (encTuple [v]))).nextFree = σ.nextFree + N := hn1
  have hz2 : (σ1.setMem (wrBytes σ1.mem σ.nextFree (encTuple [v]))).size = σ1.size := rfl
  generalize σ1.setMem _ = σ2 at *
  have hh2 := hx2.heap hσ
  have hroom2 : Room σ2 (need t v + 8) := Room.after hroom (by omega) hx2.maxPages
  have hd : Dec σ2.mem σ2.nextFree t v σ.nextFree σ.nextFree := by
    refine dec_one hh2 hty (by omega) ?_ hroom2
    rw [hm2]; exact rdBytes_wr _ _ _
  refine unpackT_ok hE (propagate_ok _) (k + 12) (k + 13) t hen v σ2.nextFree σ2 l1 _ _ _
    ⟨hh2, Nat.le_refl _, by rw [n1, n2]; exact hd, hroom2.mono (by omega), ?_⟩ (by omega) ?_
  · rw [hn2]; exact Fits.mono hx2.size t hfit
  intro w σ3 hu
  have hn3 := hu.nextFree
  have hg3 : Grows σ σ3 := hx2.grows.trans hu.grows
  have hh3 := hg3.heap hσ
  have hi3 := hh3.alloc.nextFree_le
  have hs3 := hh3.alloc.size_lt
  have hw := (hu.rep σ3.mem fun _ _ _ => rfl).lt (by omega)
  have n4 : lget (lset l1 (k + 12) (lget l1 (k + 12) + t.headSize)) (k + 10) = r := by
    rw [lget_lset_ne (by omega), n3]
  have n5 : (lset l1 (k + 12) (lget l1 (k + 12) + t.headSize)).length = l.length := by rw [lset_length, n0]
  generalize lset l1 (k + 12) (lget l1 (k + 12) + t.headSize) = l3 at *
  have hroom3 : Room σ3 8 := Room.after (k := need t v) hroom2 (by omega) hu.grows.maxPages
  cases hsc : t.isScalar with
  | true =>
    simp only [if_true]
    generalize hz : (if t.size = 8 then 8 else 4) = z
    have hz8 : z ≤ 8 ∧ t.size ≤ z := by
      rw [← hz]; cases t <;> simp [MTy.isScalar] at hsc <;> simp [MTy.size]
    have hwz : w < 256 ^ z := Nat.lt_of_lt_of_le hw (Nat.pow_le_pow_right (by omega) hz8.2)
    wstep
    refine wp_allocR hh3 hroom3 hz8.1 fun σ4 a4 => ?_
    have hn4 := a4.nextFree
    have hi4 := a4.inside
    have hs4 := a4.heap.alloc.size_lt
    have c2 : σ3.nextFree + z ≤ σ4.size := by omega
    have c3 : r + 4 + 4 ≤ σ4.size := by omega
    wstep
    rw [n4]
    have hg4 : Grows σ (σ4.setMem (putLe σ4.mem σ3.nextFree z w)) :=
      hg3.trans (a4.extends.putLe (Nat.le_refl _) (by omega)).grows
    have hh4 := hg4.heap hσ
    have hn4' : (σ4.setMem (putLe σ4.mem σ3.nextFree z w)).nextFree = σ3.nextFree + z := hn4
    have hm4 : (σ4.setMem (putLe σ4.mem σ3.nextFree z w)).mem = putLe σ3.mem σ3.nextFree z w := by
      rw [← a4.mem]; rfl
    rw [show σ4.setMem (putLe (putLe σ4.mem σ3.nextFree z w) (r + 4) 4 σ3.nextFree) =
      (σ4.setMem (putLe σ4.mem σ3.nextFree z w)).setMem
        (putLe (σ4.setMem (putLe σ4.mem σ3.nextFree z w)).mem (r + 4) 4 σ3.nextFree) from rfl]
    generalize σ4.setMem (putLe σ4.mem σ3.nextFree z w) = σ5 at *
    have hm : ∀ x, (x < r + 4 ∨ r + 8 ≤ x) → putLe σ5.mem (r + 4) 4 σ3.nextFree x = σ5.mem x :=
      fun x hx => putLe_out (by omega)
    have hp1 : leNat (putLe σ5.mem (r + 4) 4 σ3.nextFree) (r + 4) 4 = σ3.nextFree := by
      rw [leNat_putLe_same, Nat.mod_eq_of_lt (by simp only [Nat.reducePow]; omega)]
    have hp2 : leNat (putLe σ5.mem (r + 4) 4 σ3.nextFree) σ3.nextFree t.size = w := by
      rw [leNat_putLe_disj (by omega), hm4, leNat_putLe_in (Nat.le_refl _) (by omega), Nat.sub_self, Nat.pow_zero,
        Nat.div_one, Nat.mod_eq_of_lt hw]
    refine hQ _ _ (hh4.put (by omega) (by omega)) hg4.nextFree hg4.size ?_ hg4.maxPages hg4.host ?_ ?_
    · intro x hx hx'
      exact (hm x hx').trans (hg4.mem x hx)
    · rw [lget_lset_ne (by omega), lget_lset_ne (by omega), n4]
    · show RepFs (putLe σ5.mem (r + 4) 4 σ3.nextFree) σ5.nextFree [t] [v] (r + 4)
      rw [RepFs, hp1, if_pos hsc, hp2]
      refine ⟨by omega, fun _ => by omega, ?_, by rw [RepFs]; trivial⟩
      have hrep := hu.rep σ3.mem fun _ _ _ => rfl
      cases t <;> simp [MTy.isScalar] at hsc <;> cases v <;> simp only [Rep] at hrep ⊢ <;> exact hrep
  | false =>
    simp only [Bool.false_eq_true, if_false]
    have c3 : r + 4 + 4 ≤ σ3.size := by omega
    wstep
    rw [n4]
    have hm : ∀ x, (x < r + 4 ∨ r + 8 ≤ x) → putLe σ3.mem (r + 4) 4 w x = σ3.mem x :=
      fun x hx => putLe_out (by omega)
    have hp1 : leNat (putLe σ3.mem (r + 4) 4 w) (r + 4) 4 = w := by
      rw [leNat_putLe_same, Nat.mod_eq_of_lt (by rw [← isScalar_size hsc]; exact hw)]
    refine hQ _ _ (hh3.put (by omega) (by omega)) hg3.nextFree hg3.size ?_ hg3.maxPages hg3.host ?_ ?_
    · intro x hx hx'
      exact (hm x hx').trans (hg3.mem x hx)
    · rw [lget_lset_ne (by omega), n4]
    · show RepFs (putLe σ3.mem (r + 4) 4 w) σ3.nextFree [t] [v] (r + 4)
      rw [RepFs, hp1, hsc]
      refine ⟨by omega, fun h => absurd h (by simp), ?_, by rw [RepFs]; trivial⟩
      simp only [Bool.false_eq_true, if_false]
      exact hu.rep _ fun x h1 h2 => hm x (by omega)

/-! ### All together -/

theorem RepArgs.vals {f : Bytes} {lim : Nat} : ∀ {ts : List PTy} {vs : List Val} {ws : List Nat},
    RepArgs f lim ts vs ws → (∀ t, PTy.ref t ∈ ts → t.isScalar = false) →
    RepAll f lim (ts.map fun t => .val t.ty) vs ws := by
  intro ts
  induction ts with
  | nil => intro vs ws h _; cases vs <;> cases ws <;> first | exact h | trivial
  | cons t ts ih =>
    intro vs ws h hs
    cases vs <;> cases ws <;> try exact absurd h id
    refine ⟨?_, ih h.2 fun t ht => hs t (List.mem_cons_of_mem _ ht)⟩
    have h1 := h.1
    cases t with
    | val t => exact h1
    | ref t =>
      rw [RepA, hs t List.mem_cons_self] at h1
      exact h1

set_option maxHeartbeats 1000000 in
theorem externalCall_spec {static payable : Bool} {sel : Nat} {args : List PTy} {res : Option MTy} {vs : List Val}
    {ws : List Nat} {s a d g v p : Nat} {x : Val} {m : Msg} (hE : E.Valid) (hσ : Heap σ) (hsel : sel < 4294967296)
    (ho : CallObj σ.mem σ.nextFree s a d g v p)
    (hr : ∀ f : Bytes, (∀ x, x < σ.nextFree → (payable = true → x < p ∨ p + 32 ≤ x) → f x = σ.mem x) →
      RepAll f σ.nextFree (args.map fun t => .val t.ty) vs ws)
    (hm : m = callMsg static payable a d g v (selBytes sel ++ encTuple vs))
    (hroom : Room σ (52 + (encTuple vs).length))
    (hst : σ.host.status m < 4294967296)
    (hres : ∀ t, res = some t → σ.host.status m = 0 → HasTy t x ∧ EnumsOk t ∧
      (σ.host.send m).returned = encTuple [x] ∧
      Room σ (60 + (encTuple vs).length + (encTuple [x]).length + need t x) ∧
      Fits σ.size t x (σ.nextFree + (if payable then 20 else 52) + (encTuple vs).length + (encTuple [x]).length)) :
    (externalCall E static payable sel args res).Calls (s :: ws) σ (fun rs σ' => ∃ r, rs = [r] ∧
      σ'.host = σ.host.send m ∧ Kept payable p σ σ' ∧ σ.nextFree ≤ r ∧ r + 4 ≤ σ'.nextFree ∧
      leNat σ'.mem r 4 + 4 ≤ σ'.nextFree ∧ leNat σ'.mem (leNat σ'.mem r 4) 4 = σ.host.status m ∧
      ∀ t, res = some t → σ.host.status m = 0 → RepFs σ'.mem σ'.nextFree [t] [x] (r + 4)) := by
  have hlen := (hr σ.mem fun _ _ _ => rfl).lengths.1
  rw [List.length_map] at hlen
  have hroom1 := hroom.1
  refine ⟨by simp [externalCall, hlen], ?_⟩
  unfold externalCall
  generalize hk : args.length + 1 = k
  simp only [List.append_assoc]
  refine callObject_ok hσ (hroom.mono (by omega)) ho (by rfl) (by omega) (by simp; omega) ?_
  intro σ1 l1 k1 t1 n1 i1 j1 b1 a1 d1 d2 g1 g2 v1 v2
  have hlen1 : l1.length = k + 16 := by rw [i1]; simp; omega
  have hroom2 : Room σ1 (20 + (encTuple vs).length) :=
    Room.after (k := 32) (hroom.mono (by omega)) (by rw [n1]; split_ifs <;> omega) k1.maxPages
  refine callData_ok k1.heap hsel k1.nextFree (hr σ1.mem k1.mem) (hroom2.mono (by omega)) hk.symm (by omega) ?_ ?_
  · intro i hi
    rw [j1 _ (by omega) (by omega)]
    rw [Nat.add_comm]
    exact lget_append hi
  intro σ2 l2 x2 n2 i2 j2 b2 r2 o2 o3
  have h2 := x2.heap k1.heap
  have hin2 := h2.alloc.nextFree_le
  have hb2 := x2.nextFree
  refine callSend_ok (payable := payable) (a := a) (d := d) (g := g) (v := v)
    (data := selBytes sel ++ encTuple vs) (by omega) ?_ ?_ ?_ ?_ ?_ ?_ (by omega) r2 (by omega) ?_
  · rw [j2 _ (by omega)]; have := k1.nextFree; omega
  · rw [j2 _ (by omega), ← a1]
    exact x2.beNat (by have := k1.nextFree; omega)
  · rw [j2 _ (by omega), d1]
  · rw [j2 _ (by omega), g1]
  · rw [j2 _ (by omega)]; omega
  · rw [j2 _ (by omega), ← v2]
    exact x2.beNat (by omega)
  rw [← hm, x2.host, t1, Nat.mod_eq_of_lt hst]
  clear hm
  have hres1 : reserved ≤ lget l2 (k + 9) := Nat.le_trans k1.heap.base o2
  have h3 : Heap (sent σ2 m (lget l2 (k + 9))) := sent_heap h2 hres1 o3
  have t3 : (sent σ2 m (lget l2 (k + 9))).host = σ.host.send m := by
    rw [← t1, ← x2.host]; rfl
  have n3 : (sent σ2 m (lget l2 (k + 9))).nextFree = σ2.nextFree := rfl
  have m3 : (sent σ2 m (lget l2 (k + 9))).maxPages = σ.maxPages := (x2.maxPages.trans k1.maxPages)
  have z3 : (sent σ2 m (lget l2 (k + 9))).size = σ2.size := rfl
  have e3 : (sent σ2 m (lget l2 (k + 9))).mem =
      putLe σ2.mem (lget l2 (k + 9)) 4 (σ.host.send m).returned.length := by
    rw [← t1, ← x2.host]; rfl
  have k3 : Kept payable p σ (sent σ2 m (lget l2 (k + 9))) := by
    refine ⟨h3, Nat.le_trans k1.nextFree hb2, Nat.le_trans k1.size x2.size, ?_, m3⟩
    intro y hy hy'
    have := k1.nextFree
    rw [e3, putLe_out (by omega), x2.mem y (by omega), k1.mem y hy hy']
  generalize sent σ2 m (lget l2 (k + 9)) = σ3 at *
  have i3 : (lset l2 (k + 8) (σ.host.status m)).length = k + 16 := by rw [lset_length]; omega
  have j3 : ∀ i, i ≠ k + 8 → lget (lset l2 (k + 8) (σ.host.status m)) i = lget l2 i := fun i hi => lget_lset_ne hi
  have c3 : lget (lset l2 (k + 8) (σ.host.status m)) (k + 8) = σ.host.status m := lget_lset_same (by omega)
  generalize lset l2 (k + 8) (σ.host.status m) = l3 at *
  have hnn : σ3.nextFree = σ.nextFree + (if payable then 0 else 32) + (8 + (encTuple vs).length) := by omega
  have hle : σ3.nextFree ≤ σ.nextFree + (40 + (encTuple vs).length) := by rw [hnn]; split_ifs <;> omega
  have hroom3 : Room σ3 12 := Room.after (k := 40 + (encTuple vs).length) (hroom.mono (by omega)) hle m3
  have kk : k + 10 = args.length + 11 := by omega
  cases res with
  | none =>
    dsimp only
    refine callStatus_ok h3 (Nat.le_refl 4) (hroom3.mono (by omega)) (by omega) (by omega) ?_
    intro σ4 l4 x4 n4 i4 j4 q4 u4 w4
    rw [wp_lget, ← kk, q4, wp_nil, retK_ok]
    refine ⟨σ3.nextFree, rfl, x4.host.trans t3, k3.trans (x4.kept h3), k3.nextFree, by omega, by omega, ?_, ?_⟩
    · rw [u4, w4, c3]
    · intro t ht; cases ht
  | some t =>
    dsimp only
    rw [List.append_assoc]
    refine callStatus_ok h3 (by omega) hroom3 (by omega) (by omega) ?_
    intro σ4 l4 x4 n4 i4 j4 q4 u4 w4
    have h4 := x4.heap h3
    by_cases hs : σ.host.status m = 0
    · obtain ⟨y1, y2, y3, y4, y5⟩ := hres t rfl hs
      refine callValue_ok (v := x) (r := σ3.nextFree) hE h4 y1 y2 (by omega) ?_ q4 h3.base (by omega) ?_ ?_ ?_ ?_ ?_ ?_
      · rw [j4 _ (by omega), c3, hs]
      · rw [x4.host, t3, y3]
      · rw [j4 _ (by omega), j3 _ (by omega)]; omega
      · rw [j4 _ (by omega), j3 _ (by omega), x4.leNat (by omega), e3, leNat_putLe_same, y3, Nat.mod_eq_of_lt]
        have := y4.1
        simp only [Nat.reducePow]
        omega
      · exact Room.after (k := 52 + (encTuple vs).length) (y4.mono (by omega)) (by omega) (x4.maxPages.trans m3)
      · have e : σ4.nextFree + (encTuple [x]).length =
            σ.nextFree + (if payable then 20 else 52) + (encTuple vs).length + (encTuple [x]).length := by
          rw [n4, hnn]; split_ifs <;> omega
        rw [e]
        exact Fits.mono (Nat.le_trans k3.size x4.size) t y5
      · intro σ5 l5 h5 n5 z5 m5 p5 t5 q5 rep5
        rw [wp_lget, ← kk, q5, wp_nil, retK_ok]
        have k4 : Kept payable p σ σ4 := k3.trans (x4.kept h3)
        have hb := k3.nextFree
        refine ⟨σ3.nextFree, rfl, t5.trans (x4.host.trans t3), ?_, k3.nextFree, by omega, ?_, ?_, ?_⟩
        · refine ⟨h5, Nat.le_trans k4.nextFree n5, Nat.le_trans k4.size z5, ?_, p5.trans k4.maxPages⟩
          intro y hy hy'
          rw [m5 y (by omega) (by omega), k4.mem y hy hy']
        · rw [leNat_congr (g := σ4.mem) fun y h1 h2 => m5 y (by omega) (by omega), u4]; omega
        · rw [leNat_congr (g := σ4.mem) (a := σ3.nextFree) fun y h1 h2 => m5 y (by omega) (by omega), u4,
            leNat_congr (g := σ4.mem) fun y h1 h2 => m5 y (by omega) (by omega), w4, c3]
        · intro t' ht' _
          cases ht'
          exact rep5
    · refine callValue_fail (by rw [j4 _ (by omega), c3]; exact hs) ?_
      rw [wp_lget, ← kk, q4, wp_nil, retK_ok]
      refine ⟨σ3.nextFree, rfl, x4.host.trans t3, k3.trans (x4.kept h3), k3.nextFree, by omega, by omega, ?_, ?_⟩
      · rw [u4, w4, c3]
      · intro t' _ h; exact absurd h hs

end Rt
