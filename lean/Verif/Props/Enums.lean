import Verif.Props.Consts
import Verif.Proof.Enums

/-! Enums (C96). -/

namespace Props
open Wasm Rt Mv

variable {σ σ' : Store} {E : ErrPtrs} {R : Nat → Prop} {vss : List (List Ty)} {fs : List Ty} {vs : List Val} {w i : Nat}

/-- Building variant `i` of an enum gives a value that is variant `i` with these fields; no existing memory changes. -/
theorem C96 {ws : List Nat} (hσ : Heap σ) (hi : vss[i]? = some fs) (hi32 : i < 2 ^ 16)
    (hroom : Room σ (enumHeap vss + fieldCells fs)) (hR : ∀ x, R x → x < σ.nextFree) (hl1 : vs.length = fs.length) (hl2 : ws.length = fs.length)
    (hw : ∀ j (h : j < fs.length) (h' : j < ws.length), ws[j] < 256 ^ fs[j].size)
    (hr : ∀ j (h : j < fs.length) (h1 : j < vs.length) (h' : j < ws.length), Mv.Rep σ.mem R fs[j] vs[j] ws[j]) :
    (mkVariant vss i fs).Calls ws σ (fun r σ' => ∃ w, r = [w] ∧ Extends σ σ' ∧
      Mv.Rep σ'.mem (fun x => R x ∨ Between σ.nextFree σ'.nextFree x) (.enum vss) (.variant i vs) w) := by
  refine ⟨hl2, ?_⟩
  unfold mkVariant
  simp only
  rw [← List.append_nil (packVariant _ _ _ _)]
  refine lgets_wp (by simp [hl2]) ?_
  rw [show fs.length = ws.length from hl2.symm, List.take_left]
  refine packVariant_wp hσ hroom hR hi (by omega) hl1.symm hl2.symm hw hr (by simp [hl2]; omega) fun σ' l' hx hn hrep => ?_
  wstep
  exact ⟨_, rfl, hx, hrep⟩

/-- `VariantSwitch` yields the index of the variant of the enum referred to. -/
theorem C96_switch {a : Nat} (hσ : Heap σ) (hR : ∀ x, R x → x < σ.nextFree) (ha : Within R a 4) (hw : leNat σ.mem a 4 = w)
    (hr : Mv.Rep σ.mem R (.enum vss) (.variant i vs) w) : variantOf.Calls [a] σ (fun r σ' => r = [i] ∧ σ' = σ) := by
  have h1 := hσ.alloc.nextFree_le
  have h2 := hR _ (ha (a + 3) (by omega) (by omega))
  simp only [Mv.Rep] at hr
  obtain ⟨vs', e, hwin, -⟩ := hr
  cases e
  have h3 := hR _ (hwin (w + 3) (by omega) (by omega))
  refine ⟨rfl, ?_⟩
  unfold variantOf variantSwitch
  wstep
  rw [hw]

/-- Taking variant `i` apart yields its fields, and changes nothing. -/
theorem C96_unpack (hσ : Heap σ) (hR : ∀ x, R x → x < σ.nextFree) (hi : vss[i]? = some fs) (hr : Mv.Rep σ.mem R (.enum vss) (.variant i vs) w) :
    (openVariant fs).Calls [w] σ (fun r σ' => σ' = σ ∧ ∃ ws : List Nat, r = ws.reverse ∧ fs.length = vs.length ∧ ws.length = vs.length ∧
      ∀ j (h : j < fs.length) (h1 : j < vs.length) (h' : j < ws.length), Mv.Rep σ.mem R fs[j] vs[j] ws[j]) := by
  have h1 := hσ.alloc.nextFree_le
  have h2 := hσ.alloc.size_lt
  simp only [Mv.Rep] at hr
  obtain ⟨vs', e, hwin, hv⟩ := hr
  cases e
  obtain ⟨fs', e1, hf⟩ := repVar_iff.1 hv
  rw [hi] at e1
  cases e1
  have h3 := hR _ (hwin (w + 3) (by omega) (by omega))
  have hl := (repFs_get hf).1
  refine ⟨rfl, ?_⟩
  unfold openVariant unpackVariant
  simp only [List.cons_append, List.nil_append]
  wstep
  rw [← List.append_nil (unpackVarFs _ _ _)]
  refine unpackVarFs_wp hσ hR (show lget [w, w + 4] 1 = w + 4 from rfl) (by simpa using hf) fun ws hlen hws => ?_
  wstep
  refine ⟨ws, ?_, hl, by omega, hws⟩
  rw [List.take_of_length_le (by simp [hlen])]

/-- Matching on a reference to an enum: taking variant `i` apart through a reference yields references to its fields, where they
are kept, and changes nothing. -/
theorem C96_refs {a : Nat} (hσ : Heap σ) (hR : ∀ x, R x → x < σ.nextFree) (ha : Within R a 4) (hw : leNat σ.mem a 4 = w) (hi : vss[i]? = some fs)
    (hr : Mv.Rep σ.mem R (.enum vss) (.variant i vs) w) :
    (openVariantRef fs).Calls [a] σ (fun r σ' => σ' = σ ∧ ∃ ps : List Nat, r = ps.reverse ∧ fs.length = vs.length ∧ ps.length = vs.length ∧
      (∀ j (h : j < fs.length) (h1 : j < vs.length) (h' : j < ps.length), Mv.RepFs σ.mem R [fs[j]] [vs[j]] ps[j]) ∧
      ps.Pairwise (fun p q => p + 4 ≤ q ∨ q + 4 ≤ p)) := by
  have h1 := hσ.alloc.nextFree_le
  have h2 := hσ.alloc.size_lt
  have h4 := hR _ (ha (a + 3) (by omega) (by omega))
  simp only [Mv.Rep] at hr
  obtain ⟨vs', e, hwin, hv⟩ := hr
  cases e
  obtain ⟨fs', e1, hf⟩ := repVar_iff.1 hv
  rw [hi] at e1
  cases e1
  have h3 := hR _ (hwin (w + 3) (by omega) (by omega))
  obtain ⟨hl, hg⟩ := repFs_get hf
  have hend : w + 4 + 4 * fs.length < 2 ^ 32 := by
    by_cases h0 : fs.length = 0
    · omega
    · have := hg (fs.length - 1) (by omega) (by omega)
      simp only [Mv.RepFs] at this
      obtain ⟨_, _, _, hin, _⟩ := this
      have := hR _ (hin (w + 4 + 4 * (fs.length - 1) + 3) (by omega) (by omega))
      omega
  refine ⟨rfl, ?_⟩
  unfold openVariantRef unpackVariantRef
  simp only [List.cons_append, List.nil_append]
  wstep
  rw [← List.append_nil (refFs _ _ _)]
  refine refFs_wp (p := w) (show lget [a, leNat σ.mem a 4] 1 = w from hw) (by omega) ?_
  wstep
  refine ⟨(List.range fs.length).map fun j => w + 4 + 4 * j, ?_, hl, by simp [hl], fun j c1 c2 c3 => ?_, ?_⟩
  · rw [List.take_of_length_le (by simp)]
  · simpa using hg j c1 c2
  · rw [List.pairwise_map]
    exact List.pairwise_lt_range.imp fun h => .inl (by omega)

/-- A match with two arms executes the arm of the variant, and only that. -/
theorem C96_match {a o0 o1 : Nat} {f0 f1 : Fn} {P : Nat → Store → Prop} (hσ : Heap σ) (hR : ∀ x, R x → x < σ.nextFree) (ha : Within R a 4)
    (hw : leNat σ.mem a 4 = w) (h2 : vss.length = 2) (hr : Mv.Rep σ.mem R (.enum vss) (.variant i vs) w)
    (h0 : i = 0 → f0.Calls [] σ (fun r σ' => ∃ x, r = [x] ∧ P x σ')) (h1 : i = 1 → f1.Calls [] σ (fun r σ' => ∃ x, r = [x] ∧ P x σ')) :
    (matchFn o0 o1 f0 f1).Calls [a] σ (fun r σ' => ∃ x, r = [x] ∧ P x σ') := by
  have a1 := hσ.alloc.nextFree_le
  have a2 := hR _ (ha (a + 3) (by omega) (by omega))
  simp only [Mv.Rep] at hr
  obtain ⟨vs', e, hwin, hv⟩ := hr
  cases e
  obtain ⟨fs', e1, -⟩ := repVar_iff.1 hv
  have hlt : leNat σ.mem w 4 < 2 := by
    have := (List.getElem?_eq_some_iff.1 e1).1
    omega
  have a3 := hR _ (hwin (w + 3) (by omega) (by omega))
  refine ⟨rfl, ?_⟩
  unfold matchFn matchTwo variantSwitch
  have c0 : leNat σ.mem w 4 = 0 ∨ leNat σ.mem w 4 = 1 := by omega
  by_cases ho : o0 ≤ o1
  · simp only [if_pos ho, List.cons_append, List.nil_append]
    wstep
    rw [hw]
    rcases c0 with c | c
    · rw [IfP.pos c]
      refine wp_call (args := []) (h0 c) fun r σ' ⟨x, e, hp⟩ => ?_
      subst e
      wstep
      exact ⟨x, rfl, hp⟩
    · rw [IfP.neg (by omega)]
      refine wp_call (args := []) (h1 c) fun r σ' ⟨x, e, hp⟩ => ?_
      subst e
      wstep
      exact ⟨x, rfl, hp⟩
  · simp only [if_neg ho, List.cons_append, List.nil_append]
    wstep
    rw [hw]
    rcases c0 with c | c
    · rw [IfP.neg (by omega)]
      refine wp_call (args := []) (h0 c) fun r σ' ⟨x, e, hp⟩ => ?_
      subst e
      wstep
      exact ⟨x, rfl, hp⟩
    · rw [IfP.pos c]
      refine wp_call (args := []) (h1 c) fun r σ' ⟨x, e, hp⟩ => ?_
      subst e
      wstep
      exact ⟨x, rfl, hp⟩

/-- A match with any number of arms executes the arm of the variant, and only that: the jump table `tbl` gives the label of the arm for
each variant; the arms may be in any order, and may be shared by several variants. -/
theorem C96_match_many {a o : Nat} {tbl : List Nat} {cases : List (Nat × Fn)} {F f : Fn} {P : Nat → Store → Prop} (hσ : Heap σ)
    (hR : ∀ x, R x → x < σ.nextFree) (ha : Within R a 4) (hw : leNat σ.mem a 4 = w) (hr : Mv.Rep σ.mem R (.enum vss) (.variant i vs) w)
    (hF : switchFn tbl cases = some F) (hnd : (cases.map (·.1)).Nodup) (ho : tbl[i]? = some o) (hf : (o, f) ∈ cases)
    (hc : f.Calls [] σ (fun r σ' => ∃ x, r = [x] ∧ P x σ')) :
    F.Calls [a] σ (fun r σ' => ∃ x, r = [x] ∧ P x σ') := by
  have a1 := hσ.alloc.nextFree_le
  have a2 := hR _ (ha (a + 3) (by omega) (by omega))
  simp only [Mv.Rep] at hr
  obtain ⟨vs', e, hwin, -⟩ := hr
  cases e
  have a3 := hR _ (hwin (w + 3) (by omega) (by omega))
  unfold switchFn at hF
  obtain ⟨is, e1, rfl⟩ := Option.map_eq_some_iff.1 hF
  refine ⟨rfl, ?_⟩
  unfold variantSwitch
  simp only [List.cons_append, List.nil_append]
  wstep
  rw [hw]
  refine openCases_wp (i := leNat σ.mem w 4) (P := fun l' σ' => ∃ x, l' = [a, leNat σ.mem w 4, x] ∧ P x σ') rfl (leNat_lt4 _ _) ho _ _ _ 0 _ e1
    (fun d hd => by simp at hd) (fun l' σ' ⟨x, el, hp⟩ => ?_) fun p hp eo Q' hQ' => ?_
  · subst el
    wstep
    exact ⟨x, rfl, hp⟩
  · simp only [List.length_map, List.length_zipIdx, List.length_reverse] at hp
    simp only [List.getElem_map, List.getElem_zipIdx, Nat.zero_add] at eo ⊢
    have ef : (cases.reverse[p]'(by simpa using hp)) = (o, f) := by
      have hm : cases.reverse[p]'(by simpa using hp) ∈ cases := List.mem_reverse.1 (List.getElem_mem _)
      exact List.inj_on_of_nodup_map hnd hm hf eo
    rw [ef]
    refine wp_call (args := []) hc fun r σ' ⟨x, er, hp⟩ => ?_
    subst er
    wstep
    simpa using hQ' _ _ ⟨x, rfl, hp⟩

/-- The compiler accepts a match if the jump table has labels of arms only. -/
theorem C96_accepted {tbl : List Nat} {cases : List (Nat × Fn)} (h : ∀ o ∈ tbl, o ∈ cases.map (·.1)) : (switchFn tbl cases).isSome := by
  unfold switchFn
  rw [Option.isSome_map]
  have gen : ∀ (cs : List (Nat × List Instr)) (seen : List Nat), (∀ o ∈ tbl, o ∈ seen ∨ o ∈ cs.map (·.1)) → (openCases tbl 1 seen cs).isSome := by
    intro cs
    induction cs with
    | nil =>
      intro seen hs
      unfold openCases
      rw [Option.isSome_map]
      refine mapM_isSome fun o ho => ?_
      have hm : o ∈ seen := by simpa using hs o ho
      simpa using hm
    | cons c cs ih =>
      intro seen hs
      obtain ⟨o, body⟩ := c
      unfold openCases
      rw [Option.isSome_map]
      refine ih _ fun o' ho' => ?_
      rcases hs o' ho' with h | h
      · exact .inl (by simp [h])
      · simp only [List.map_cons, List.mem_cons] at h
        rcases h with h | h
        · exact .inl (by simp [h])
        · exact .inr h
  refine gen _ _ fun o ho => .inr ?_
  have := h o ho
  simp only [List.mem_map] at this ⊢
  obtain ⟨c, hc, e⟩ := this
  obtain ⟨p, hp, ep⟩ := List.getElem_of_mem (List.mem_reverse.2 hc)
  refine ⟨_, ⟨(cases.reverse[p], p), ?_, rfl⟩, by rw [ep]; exact e⟩
  rw [List.mem_zipIdx_iff_getElem?]
  exact List.getElem?_eq_getElem hp

/-- Variant 1 of `enum { A(u8), B(u64, address) }` at 600, with fields `2^33 + 5` at 700 and `0x77` at 800; a reference to it at 500. -/
def wsEnum : List (Nat × Nat) := [(500, 600), (600, 1), (604, 700), (608, 800), (700, 5), (704, 2), (828, 0x77000000)]

theorem repEnum : Mv.Rep (storeW wsEnum).mem (Between 500 900) (.enum [[.u8], [.u64, .address]]) (.variant 1 [.num (2 ^ 33 + 5), .num 0x77]) 600 := by
  have e0 : leNat (storeW wsEnum).mem 600 4 = 1 := by decide +kernel
  have e1 : leNat (storeW wsEnum).mem 604 4 = 700 := by decide +kernel
  have e2 : leNat (storeW wsEnum).mem 608 4 = 800 := by decide +kernel
  have e3 : leNat (storeW wsEnum).mem 700 8 = 2 ^ 33 + 5 := by decide +kernel
  have e4 : beNat (storeW wsEnum).mem 800 32 = 0x77 := by decide +kernel
  simp only [Mv.Rep, e0]
  refine ⟨_, rfl, fun x h1 h2 => ⟨by omega, by omega⟩, ?_⟩
  simp only [RepVar, Mv.RepFs, e1, e2, Ty.scalar, Mv.Rep]
  refine ⟨_, _, rfl, fun x h1 h2 => ⟨by omega, by omega⟩, fun _ x h1 h2 => ⟨by omega, ?_⟩, ⟨?_, ?_⟩, _, _, rfl,
    fun x h1 h2 => ⟨by omega, by omega⟩, by simp, ⟨?_, fun x h1 h2 => ⟨?_, ?_⟩⟩, rfl⟩
  · simp only [Ty.size] at h2
    omega
  · simp only [Ty.size, if_true, e3]
  · simp only [Ty.size, if_true, e3]; norm_num
  · simp [e4]
  · simp at h1; omega
  · simp at h2; omega

theorem heapEnum : Heap (storeW wsEnum) := storeW_heap _ (by decide)
theorem belowEnum : ∀ x, Between 500 900 x → x < (storeW wsEnum).nextFree := fun x h => lt_trans h.2 (by decide)

example : (mkVariant [[.u8], [.u64, .address]] 1 [.u64, .address]).Calls [7, 800] (storeW wsEnum) (fun r σ' => ∃ w, r = [w] ∧
    Extends (storeW wsEnum) σ' ∧ Mv.Rep σ'.mem (fun x => Between 500 900 x ∨ Between (storeW wsEnum).nextFree σ'.nextFree x)
      (.enum [[.u8], [.u64, .address]]) (.variant 1 [.num 7, .num 0x77]) w) := by
  refine C96 heapEnum rfl (by norm_num) (storeW_room (by decide)) belowEnum rfl rfl (fun j h h' => ?_) fun j h h1 h' => ?_
  · match j, h with
    | 0, _ => simp [Ty.size]
    | 1, _ => simp [Ty.size]
  · match j, h with
    | 0, _ => simp [Mv.Rep]
    | 1, _ =>
      have e4 : beNat (storeW wsEnum).mem 800 32 = 0x77 := by decide +kernel
      simp only [List.getElem_cons_succ, List.getElem_cons_zero, Mv.Rep, e4]
      exact ⟨trivial, fun x h1 h2 => ⟨by omega, by omega⟩⟩

example : variantOf.Calls [500] (storeW wsEnum) (fun r σ' => r = [1] ∧ σ' = storeW wsEnum) :=
  C96_switch heapEnum belowEnum (fun x h1 h2 => ⟨by omega, by omega⟩) (by decide +kernel) repEnum

example : (openVariant [.u64, .address]).Calls [600] (storeW wsEnum) (fun r σ' => σ' = storeW wsEnum ∧ ∃ ws : List Nat, r = ws.reverse ∧
    [Ty.u64, .address].length = [Val.num (2 ^ 33 + 5), .num 0x77].length ∧ ws.length = [Val.num (2 ^ 33 + 5), .num 0x77].length ∧
    ∀ j (h : j < [Ty.u64, .address].length) (h1 : j < [Val.num (2 ^ 33 + 5), .num 0x77].length) (h' : j < ws.length),
      Mv.Rep (storeW wsEnum).mem (Between 500 900) [Ty.u64, .address][j] [Val.num (2 ^ 33 + 5), .num 0x77][j] ws[j]) :=
  C96_unpack heapEnum belowEnum rfl repEnum

example : ∃ Q, (openVariantRef [.u64, .address]).Calls [500] (storeW wsEnum) Q ∧ ∀ r σ', Q r σ' → σ' = storeW wsEnum ∧ r.length = 2 :=
  ⟨_, C96_refs heapEnum belowEnum (fun x h1 h2 => ⟨by omega, by omega⟩) (by decide +kernel) rfl repEnum, fun r σ' h => by
    obtain ⟨e, ps, e1, _, e2, _⟩ := h
    exact ⟨e, by simp [e1, e2]⟩⟩

/-- `match (e) { A(_) => 11, B(..) => 22 }`, with the code of the arm of `B` first. -/
example : (matchFn 9 4 ⟨0, 1, 0, code[Op.c32 11]⟩ ⟨0, 1, 0, code[Op.c32 22]⟩).Calls [500] (storeW wsEnum)
    (fun r σ' => ∃ x, r = [x] ∧ x = 22 ∧ σ' = storeW wsEnum) :=
  C96_match heapEnum belowEnum (fun x h1 h2 => ⟨by omega, by omega⟩) (by decide +kernel) rfl repEnum (fun h => absurd h (by decide))
    fun _ => ⟨rfl, by wstep; exact ⟨22, rfl, rfl⟩⟩

/-- A match with three arms on an enum with four variants (two share an arm), with the arms in another order. -/
example : ∃ F, switchFn [9, 4, 4, 20] [(4, ⟨0, 1, 0, code[Op.c32 22]⟩), (20, ⟨0, 1, 0, code[Op.c32 33]⟩), (9, ⟨0, 1, 0, code[Op.c32 11]⟩)] = some F ∧
    F.Calls [500] (storeW wsEnum) (fun r σ' => ∃ x, r = [x] ∧ x = 22 ∧ σ' = storeW wsEnum) := by
  obtain ⟨F, hF⟩ := Option.isSome_iff_exists.1 (C96_accepted (tbl := [9, 4, 4, 20])
    (cases := [(4, ⟨0, 1, 0, code[Op.c32 22]⟩), (20, ⟨0, 1, 0, code[Op.c32 33]⟩), (9, ⟨0, 1, 0, code[Op.c32 11]⟩)]) (by decide))
  exact ⟨F, hF, C96_match_many (f := ⟨0, 1, 0, code[Op.c32 22]⟩) heapEnum belowEnum (fun x h1 h2 => ⟨by omega, by omega⟩) (by decide +kernel) repEnum hF (by decide) rfl
    (by simp) ⟨rfl, by wstep; exact ⟨22, rfl, rfl⟩⟩⟩

end Props
