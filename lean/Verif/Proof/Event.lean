import Verif.Rt.Event
import Verif.AbiEvent
import Verif.Proof.Dynamic
import Verif.Proof.Pack3

/-! Events: the encoding of indexed fields. -/

namespace Rt
open Wasm Abi

variable {σ σ' σ'' : Store} {E : ErrPtrs}

/-- What is encoded of a string. -/
def ixBytes (pd : Bool) (bs : List UInt8) : List UInt8 := if pd then Abi.pad bs else bs

theorem ixBytes_length (pd : Bool) (bs : List UInt8) :
    bs.length ≤ (ixBytes pd bs).length ∧ (pd = true → bs ≠ [] → 32 ≤ (ixBytes pd bs).length) := by
  cases pd
  · simp [ixBytes]
  · simp only [ixBytes, if_true, pad_length]
    unfold padded
    refine ⟨by omega, fun _ h => ?_⟩
    have := List.length_pos_of_ne_nil h
    omega

theorem wr_ixBytes {pd : Bool} {f : Bytes} {d : Nat} {bs : List UInt8} (h : ∀ x, d + bs.length ≤ x → f x = 0) :
    wrBytes f d (ixBytes pd bs) = wrBytes f d bs := by
  cases pd
  · rfl
  · exact wr_pad h

theorem wrBytes_snoc (f : Bytes) (a : Nat) (bs : List UInt8) {i : Nat} (h : i < bs.length) :
    wrBytes f a (bs.take (i + 1)) = putLe (wrBytes f a (bs.take i)) (a + i) 1 bs[i].toNat := by
  rw [List.take_succ_eq_append_getElem h, wrBytes_append, List.length_take, Nat.min_eq_left (by omega)]
  funext x
  by_cases hx : x = a + i
  · subst hx
    have e := wrBytes_in (f := wrBytes f a (bs.take i)) (a := a + i) (l := [bs[i]]) (i := 0) (by simp)
    rw [Nat.add_zero] at e
    rw [e, putLe_in (by omega) (by omega)]
    simp
  · rw [wrBytes_out (by simp; omega), putLe_out (by omega)]

/-- The loop over the bytes of a string. -/
theorem wp_ixStrLoop {bs : List UInt8} {v k a q : Nat} {is s l Q} (hσ : AllocOk σ) (hne : bs ≠ []) (ha : a + bs.length ≤ σ.size)
    (hq : q + bs.length + 3 ≤ σ.size) (hqa : q + bs.length ≤ a) (hb : rdBytes σ.mem q bs.length = bs)
    (hv : lget l v = q) (hk0 : lget l k = a) (hk1 : lget l (k + 1) = bs.length) (hk2 : lget l (k + 2) = 0)
    (hvk : v < k) (hlen : k + 3 ≤ l.length)
    (hk : ∀ l', l'.length = l.length → (∀ j, j < k → j ≠ v → lget l' j = lget l j) → wp is s l' (σ.setMem (wrBytes σ.mem a bs)) Q) :
    wp (code[.loop 0
     code[Op.lget k, Op.lget v, Op.load 4 0, Op.store 1 0,
      Op.lget v, Op.c32 1, Op.bin .w32 .add, Op.lset v,
      Op.lget k, Op.c32 1, Op.bin .w32 .add, Op.lset k,
      Op.lget (k + 2), Op.c32 1, Op.bin .w32 .add, Op.ltee (k + 2), Op.lget (k + 1), Op.bin .w32 .ltU, .brIf 0]] ++ is) s l σ Q := by
  have f3 := hσ.size_lt
  have hpos := List.length_pos_of_ne_nil hne
  simp only [List.cons_append, List.nil_append]
  refine wp_loop (fun m l' σ' => ∃ i, m + i = bs.length ∧ i < bs.length ∧ l'.length = l.length ∧
    (∀ j, j < k → j ≠ v → lget l' j = lget l j) ∧ lget l' v = q + i ∧ lget l' k = a + i ∧ lget l' (k + 1) = bs.length ∧
    lget l' (k + 2) = i ∧ σ' = σ.setMem (wrBytes σ.mem a (bs.take i))) bs.length
    ⟨0, by omega, hpos, rfl, fun _ _ _ => rfl, hv, hk0, hk1, hk2, by rw [List.take_zero, wrBytes_nil]; rfl⟩ ?_
  rintro m l1 σ1 ⟨i, hm, hi, hl1, hpres, p0, p1, p2, p3, rfl⟩
  have hld : leNat (wrBytes σ.mem a (bs.take i)) (q + i) 4 % 256 = bs[i].toNat := by
    have e1 : wrBytes σ.mem a (bs.take i) (q + i) = bs[i] := by
      rw [wrBytes_out (by omega)]
      have := rdBytes_getElem σ.mem q bs.length i (by rw [rdBytes_length]; omega)
      rw [← this]; congr 1
    rw [leNat, e1]
    have := bs[i].toNat_lt
    omega
  wstep
  have hm1 : putLe (wrBytes σ.mem a (bs.take i)) (a + i) 1 (leNat (wrBytes σ.mem a (bs.take i)) (q + i) 4) =
      wrBytes σ.mem a (bs.take (i + 1)) := by
    rw [wrBytes_snoc _ _ _ hi, ← hld]
    exact (putLe_mod (m := 1) (Nat.le_refl _)).symm
  rw [p0, p1, p2, p3, hm1]
  refine .intro (fun hlt => ?_) (fun hlt => ?_)
  · refine ⟨m - 1, by omega, i + 1, by omega, hlt, by simp only [lset_length, hl1], fun j hj hjv => ?_, by omega, by omega, rfl, rfl, rfl⟩
    rw [lget_lset_ne (by omega), lget_lset_ne (by omega), lget_lset_ne (by omega), hpres j hj hjv]
  · have e : i + 1 = bs.length := by omega
    rw [e, List.take_length]
    refine hk _ (by simp only [lset_length, hl1]) fun j hj hjv => ?_
    rw [lget_lset_ne (by omega), lget_lset_ne (by omega), lget_lset_ne (by omega), hpres j hj hjv]

theorem keyed_write {n p : Nat} {bs : List UInt8} (ha : Alloced n σ σ') (hn : bs.length = n) (hp : p = σ.nextFree) :
    Keyed bs σ (σ'.setMem (wrBytes σ'.mem p bs)) := by
  have g := ha.nextFree
  subst hp
  refine ⟨ha.extends.write (fun x hx => wrBytes_out (by omega)) (fun x hx => wrBytes_out (by omega)), by rw [setMem_nextFree]; omega, ?_⟩
  rw [setMem_mem]
  exact rdBytes_wr _ _ _

/-- The encoding of a string. -/
theorem wp_ixString {pd : Bool} {bs : List UInt8} {lim v k w : Nat} {is s l Q} (hσ : Heap σ) (hr : Rep σ.mem lim .string (.bytes bs) w)
    (hlim : lim ≤ σ.nextFree) (hne : bs ≠ []) (hroom : Room σ (ixBytes pd bs).length)
    (hov : pd = true ∨ 3 ≤ bs.length ∨ σ.nextFree + 3 ≤ σ.size)
    (hv : lget l v = w) (hvk : v < k) (hlen : k + 3 ≤ l.length)
    (hk : ∀ σ' l', Keyed (ixBytes pd bs) σ σ' → l'.length = l.length → (∀ j, j < k → j ≠ v → lget l' j = lget l j) → wp is s l' σ' Q) :
    wp (ixString pd v k ++ is) s l σ Q := by
  have f1 := hσ.alloc.nextFree_le
  have f3 := hσ.alloc.size_lt
  rw [Rep] at hr
  obtain ⟨h1, h2, h3, h4⟩ := hr
  obtain ⟨n1, n2⟩ := ixBytes_length pd bs
  obtain ⟨q, hq⟩ : ∃ q, q = leNat σ.mem w 4 := ⟨_, rfl⟩
  rw [← hq] at h2 h3 h4
  unfold ixString
  obtain ⟨X, hX⟩ : ∃ X, X = code[.loop 0
     code[Op.lget k, Op.lget v, Op.load 4 0, Op.store 1 0,
      Op.lget v, Op.c32 1, Op.bin .w32 .add, Op.lset v,
      Op.lget k, Op.c32 1, Op.bin .w32 .add, Op.lset k,
      Op.lget (k + 2), Op.c32 1, Op.bin .w32 .add, Op.ltee (k + 2), Op.lget (k + 1), Op.bin .w32 .ltU, .brIf 0]] ++ is := ⟨_, rfl⟩
  have hr0 := hroom.1
  suffices rest : ∀ N, N = (ixBytes pd bs).length →
      wp (alloc.call :: Op.lset k :: (skipVecHeader v ++ (code[Op.lset v, Op.c32 0, Op.lset (k + 2)] ++ X))) (N :: s)
        (lset (lset l v q) (k + 1) bs.length) σ Q by
    simp only [List.append_assoc, List.cons_append, List.nil_append] at hX ⊢
    rw [← hX]
    cases pd
    · obtain ⟨Y, hY⟩ : ∃ Y, Y = alloc.call :: Op.lset k :: (skipVecHeader v ++ (code[Op.lset v, Op.c32 0, Op.lset (k + 2)] ++ X)) := ⟨_, rfl⟩
      have rest := rest bs.length rfl
      simp only [Bool.false_eq_true, if_false, List.nil_append, List.cons_append] at hY rest ⊢
      rw [← hY] at rest ⊢
      wstep
      rw [hv, ← hq]
      wstep
      rw [h3]
      exact rest
    · obtain ⟨Y, hY⟩ : ∃ Y, Y = alloc.call :: Op.lset k :: (skipVecHeader v ++ (code[Op.lset v, Op.c32 0, Op.lset (k + 2)] ++ X)) := ⟨_, rfl⟩
      simp only [ixBytes, if_true, pad_length] at hr0
      have rest := rest (padded bs.length) (by simp [ixBytes, pad_length])
      simp only [if_true, List.nil_append, List.cons_append] at hY rest ⊢
      rw [← hY] at rest ⊢
      wstep
      rw [hv, ← hq]
      wstep
      rw [h3]
      unfold padded at hr0
      rw [Nat.mod_eq_of_lt (by omega), and_mask32 (by omega)]
      exact rest
  intro N hN
  rw [hN]
  refine wp_allocR hσ hroom (Nat.le_refl _) fun σ1 a1 => ?_
  have g1 := a1.inside
  have g2 := a1.nextFree
  have g3 := a1.heap.alloc.size_lt
  have g4 := a1.size
  simp only [skipVecHeader, List.cons_append, List.nil_append]
  wstep
  rw [hX]
  refine wp_ixStrLoop (bs := bs) (q := q + 8) (a := σ.nextFree) a1.heap.alloc hne (by omega) ?_ (by omega) (by rw [a1.mem]; exact h4)
    (by lsimp) (by lsimp) (by lsimp) (by lsimp) hvk (by simp only [lset_length]; omega) fun l' e1 e2 => ?_
  · rcases hov with h | h | h
    · have := n2 h hne; omega
    · omega
    · omega
  · have hkd : Keyed (ixBytes pd bs) σ (σ1.setMem (wrBytes σ1.mem σ.nextFree (ixBytes pd bs))) := keyed_write a1 rfl rfl
    rw [wr_ixBytes (fun x hx => by rw [a1.mem]; exact hσ.fresh x (by omega))] at hkd
    refine hk _ l' hkd (by simpa only [lset_length] using e1) fun j hj hjv => ?_
    rw [e2 j hj hjv]
    lsimp

/-- Types of one word. -/
def isWord : MTy → Bool
  | .vec _ => false
  | .struct _ => false
  | .string => false
  | _ => true

/-- A word is encoded. -/
theorem wp_ixWord {t : MTy} {x : Val} {lim v w : Nat} {is s l Q} (ht : isWord t = true) (hσ : Heap σ) (hr : Rep σ.mem lim t x (lget l v))
    (hlim : lim ≤ σ.nextFree) (hroom : Room σ 32) (hvw : v ≠ w) (hlen : w < l.length)
    (hk : ∀ σ', Keyed (inPlace x) σ σ' → wp is s (lset l w σ.nextFree) σ' Q) :
    wp (ixWord E t v w ++ is) s l σ Q := by
  unfold ixWord
  obtain ⟨X, hX⟩ : ∃ X, X = packT E (propagate .none) (propagate .none) v w w t ++ is := ⟨_, rfl⟩
  rw [List.append_assoc, ← hX]
  simp only [List.cons_append, List.nil_append]
  refine wp_c32.mpr (wp_allocR hσ hroom (Nat.le_refl _) fun σ1 a1 => ?_)
  have g1 := a1.inside
  have g2 := a1.nextFree
  have g3 := a1.heap.alloc.size_lt
  wstep
  rw [hX]
  have hres := hσ.base
  have e1 : lget (lset l w σ.nextFree) v = lget l v := lget_lset_ne (by omega)
  have e2 : lget (lset l w σ.nextFree) w = σ.nextFree := lget_lset_same (by omega)
  have hh : t.headSize = 32 := by cases t <;> simp_all [isWord, MTy.headSize, MTy.dyn, MTy.encSize]
  obtain ⟨n, rfl⟩ : ∃ n, x = .word n := by
    cases t <;> simp [isWord] at ht <;> cases x <;> simp [Rep] at hr <;> exact ⟨_, rfl⟩
  refine packT_ok t (propagate_ok _) (propagate_ok _) v w w (.word n) lim σ1 _ s is Q (by rw [e1, a1.mem]; exact hr)
    (by rw [e2, hh]; exact ⟨a1.heap, hres, hlim, by omega, fun x h1 h2 => by rw [a1.mem]; exact hσ.fresh x h1, by omega⟩)
    ⟨by simp [tl, dyn], by have := hroom.2; rw [g2, a1.maxPages]; simp [tl, dyn]; omega⟩ fun σ2 hp => ?_
  rw [e2] at hp
  simp only [tl, hd, dyn, Bool.false_eq_true, if_false, enc] at hp
  refine hk σ2 ⟨⟨?_, Nat.le_trans a1.size hp.size, ?_, ?_, hp.alloc, hp.maxPages.trans a1.maxPages, hp.reader.trans a1.reader, hp.host.trans a1.host⟩, ?_, ?_⟩
  · rw [hp.nextFree]; simp; omega
  · intro x hx
    rw [hp.mem, wrBytes_nil, wrBytes_out (by omega), a1.mem]
  · intro x hx
    have := hp.nextFree
    simp only [List.length_nil] at this
    rw [hp.mem, wrBytes_nil, wrBytes_out (by rw [word_length]; omega), a1.mem]
    exact hσ.fresh x (by omega)
  · rw [hp.nextFree, inPlace, word_length]; simp [g2]
  · rw [hp.mem, wrBytes_nil, inPlace]; exact rdBytes_wr _ _ _

theorem inPlaces_eq : ∀ vs : List Val, inPlaces vs = vs.flatMap inPlace
  | [] => rfl
  | v :: vs => by rw [inPlaces, List.flatMap_cons, inPlaces_eq vs]

mutual
/-- No vector and no string in the value is empty, and there is no struct in it. -/
def IxFull : MTy → Val → Prop
  | .vec t, .array vs => vs ≠ [] ∧ ∀ v ∈ vs, IxFull t v
  | .string, .bytes bs => bs ≠ []
  | .struct _, _ => False
  | _, _ => True
end

/-- The loop over the elements of a vector. -/
theorem wp_ixLoop {t : MTy} {vs : List Val} {lim w v k : Nat} {body : List Instr} {is s l Q} (hσ : Heap σ)
    (hr : Rep σ.mem lim (.vec t) (.array vs) w) (hlim : lim ≤ σ.nextFree) (hne : vs ≠ []) (hroom : Room σ (inPlaces vs).length)
    (hv : lget l v = w) (hvk : v < k) (hlen : k + 2 ≤ l.length)
    (hbody : ∀ i (hi : i < vs.length) σ1 l1 is Q, Heap σ1 → lim ≤ σ1.nextFree → w + 8 + i * t.size + t.size ≤ lim →
      Rep σ1.mem lim t vs[i] (leNat σ1.mem (w + 8 + i * t.size) t.size) → Room σ1 (inPlace vs[i]).length →
      l1.length = l.length → lget l1 v = w + 8 + i * t.size →
      (∀ σ' l', Keyed (inPlace vs[i]) σ1 σ' → l'.length = l.length → (∀ j, j < k + 2 → lget l' j = lget l1 j) → wp is [] l' σ' Q) →
      wp (body ++ is) [] l1 σ1 Q)
    (hk : ∀ σ' l', Keyed (inPlaces vs) σ σ' → l'.length = l.length → (∀ j, j < k → j ≠ v → lget l' j = lget l j) → wp is s l' σ' Q) :
    wp (ixLoop v k t.size body ++ is) s l σ Q := by
  have f1 := hσ.alloc.nextFree_le
  have f3 := hσ.alloc.size_lt
  rw [Rep] at hr
  obtain ⟨hw, hn, hr⟩ := hr
  rw [inPlaces_eq] at hroom hk
  obtain ⟨n, hn'⟩ : ∃ n, n = vs.length := ⟨_, rfl⟩
  have hpos : 0 < n := by rw [hn']; exact List.length_pos_of_ne_nil hne
  have hsz := MTy.size_pos t
  rw [← hn'] at hn hw
  have hel : ∀ i, i < n → w + 8 + i * t.size + t.size ≤ lim := fun i hi => by
    have h1 : (i + 1) * t.size ≤ n * t.size := Nat.mul_le_mul_right _ hi
    rw [Nat.add_mul, Nat.one_mul] at h1
    omega
  have hn32 : n < 2 ^ 32 := by rw [← hn]; exact leNat_lt σ.mem w 4
  unfold ixLoop
  obtain ⟨X, hX⟩ : ∃ X, X = code[Op.lget v, Op.c32 t.size, Op.bin .w32 .add, Op.lset v,
       Op.lget (k + 1), Op.c32 1, Op.bin .w32 .add, Op.ltee (k + 1), Op.lget k, Op.bin .w32 .ltU, .brIf 0] := ⟨_, rfl⟩
  rw [← hX]
  simp only [skipVecHeader, List.append_assoc, List.cons_append, List.nil_append]
  have hw0 := hel 0 hpos
  wstep
  rw [hv, hn]
  obtain ⟨L, hL⟩ : ∃ L, L = lset (lset (lset l k n) v (w + 8)) (k + 1) 0 := ⟨_, rfl⟩
  have eq : ∀ j, j < k → j ≠ v → lget L j = lget l j := fun j hj hjd => by subst hL; lsimp
  have eL : L.length = l.length := by subst hL; lsimp
  have d0 : lget L k = n := by subst hL; lsimp
  have d1 : lget L (k + 1) = 0 := by subst hL; lsimp
  have d2 : lget L v = w + 8 := by subst hL; lsimp
  rw [← hL]
  refine wp_loop (fun m l' σ' => ∃ i, m + i = n ∧ i < n ∧ l'.length = l.length ∧
    (∀ j, j < k + 1 → j ≠ v → lget l' j = lget L j) ∧ lget l' (k + 1) = i ∧ lget l' v = w + 8 + i * t.size ∧
    Keyed ((vs.take i).flatMap inPlace) σ σ') n
    ⟨0, by omega, hpos, eL, fun _ _ _ => rfl, d1, by rw [d2]; omega, by simpa using hσ.keyed_nil⟩ ?_
  rintro m l1 σ1 ⟨i, hm, hi, hl1, hpres, hi1, hv1, hkd⟩
  have g1 := hkd.ext.alloc.nextFree_le
  have g2 := hkd.ext.alloc.size_lt
  have g3 := hkd.ext.nextFree
  have hei := hel i hi
  have p0 : lget l1 k = n := by rw [hpres k (by omega) (by omega), d0]
  have hri := Rep.congr (fun x hx => hkd.ext.mem x (by omega)) t (hr i (by omega))
  rw [← hkd.ext.leNat (by omega)] at hri
  have hrm : Room σ1 (inPlace vs[i]).length := by
    have h1 := flatMap_take inPlace vs (i := i) (by omega)
    have h2 : ((vs.take (i + 1)).flatMap inPlace).length ≤ (vs.flatMap inPlace).length := by
      conv => rhs; rw [← List.take_append_drop (i + 1) vs, List.flatMap_append, List.length_append]
      omega
    rw [h1, List.length_append] at h2
    exact Room.after (k := ((vs.take i).flatMap inPlace).length) (hroom.mono h2) (by rw [hkd.nextFree]) hkd.ext.maxPages
  refine hbody i (by omega) σ1 l1 X _ (hkd.ext.heap hσ) (by omega) hei hri hrm hl1 hv1 fun σ2 l2 h1 h2 h3 => ?_
  have hks := hkd.trans h1
  rw [← flatMap_take inPlace vs (i := i) (by omega)] at hks
  have p0 : lget l2 k = n := by rw [h3 k (by omega), p0]
  have p2 : lget l2 (k + 1) = i := by rw [h3 (k + 1) (by omega), hi1]
  have p3 : lget l2 v = w + 8 + i * t.size := by rw [h3 v (by omega), hv1]
  rw [hX]
  wstep
  rw [p0, p2, p3]
  refine .intro (fun hlt => ?_) (fun hlast => ?_)
  · refine ⟨m - 1, by omega, i + 1, by omega, by omega, by simp only [lset_length]; omega, fun j hj hjv => ?_, ?_, ?_, hks⟩
    · rw [lget_lset_ne (by omega), lget_lset_ne (by omega), h3 j (by omega), hpres j hj hjv]
    · rfl
    · rw [Nat.add_mul]; omega
  · have hin : i + 1 = n := by omega
    rw [hin, hn', List.take_length] at hks
    refine hk σ2 _ hks (by simp only [lset_length]; omega) fun j hj hjd => ?_
    rw [lget_lset_ne (by omega), lget_lset_ne (by omega), h3 j (by omega), hpres j (by omega) hjd, eq j hj hjd]

/-- What `ixVec` does with vectors of elements of type `t`. -/
def IxVecOk (E : ErrPtrs) (t : MTy) : Prop := ∀ (σ : Store) (lim : Nat) (vs : List Val) (w v k : Nat) (s l : List Nat) (is : List Instr) (Q : Res → Prop),
  Heap σ → Rep σ.mem lim (.vec t) (.array vs) w → lim ≤ σ.nextFree → IxFull (.vec t) (.array vs) → Room σ (inPlaces vs).length →
  lget l v = w → v < k → k + nlIxVec t ≤ l.length →
  (∀ σ' l', Keyed (inPlaces vs) σ σ' → l'.length = l.length → (∀ j, j < k → j ≠ v → lget l' j = lget l j) → wp is s l' σ' Q) →
  wp (ixVec E t v k ++ is) s l σ Q

theorem ixVec_word {t : MTy} (ht : isWord t = true) (he : ∀ n, t ≠ .enum n) : IxVecOk E t := by
  intro σ lim vs w v k s l is Q hσ hr hlim hf hroom hv hvk hlen hk
  have e : ixVec E t v k = ixLoop v k t.size (code[Op.lget v, Op.load t.size 0, Op.lset (k + 2)] ++ ixWord E t (k + 2) (k + 3)) := by
    cases t <;> simp_all [isWord, ixVec]
  have en : nlIxVec t = 4 := by cases t <;> simp_all [isWord, nlIxVec]
  rw [e]
  rw [en] at hlen
  refine wp_ixLoop hσ hr hlim hf.1 hroom hv hvk (by omega) ?_ hk
  intro i hi σ1 l1 is1 Q1 h1 h2 h3 h4 h5 h6 h7 h8
  have f1 := h1.alloc.nextFree_le
  have f3 := h1.alloc.size_lt
  have f4 := MTy.size_pos t
  obtain ⟨X, hX⟩ : ∃ X, X = ixWord E t (k + 2) (k + 3) ++ is1 := ⟨_, rfl⟩
  rw [List.append_assoc, ← hX]
  simp only [List.cons_append, List.nil_append]
  wstep
  rw [h7, hX]
  obtain ⟨n, hn⟩ : ∃ n, vs[i] = .word n := by
    cases t <;> simp [isWord] at ht <;> cases hvi : vs[i] <;> simp [hvi, Rep] at h4 <;> exact ⟨_, rfl⟩
  rw [hn, inPlace, word_length] at h5
  refine wp_ixWord ht h1 (x := vs[i]) (lim := lim) (by rw [lget_lset_same (by omega)]; exact h4) h2 h5 (by omega) (by rw [lset_length]; omega)
    fun σ' hkd => h8 σ' _ hkd (by simp only [lset_length]; omega) fun j hj => ?_
  rw [lget_lset_ne (by omega), lget_lset_ne (by omega)]

theorem ixVec_enum {m : Nat} : IxVecOk E (.enum m) := by
  intro σ lim vs w v k s l is Q hσ hr hlim hf hroom hv hvk hlen hk
  rw [ixVec]
  simp only [nlIxVec] at hlen
  refine wp_ixLoop (t := .enum m) hσ hr hlim hf.1 hroom hv hvk (by omega) ?_ hk
  intro i hi σ1 l1 is1 Q1 h1 h2 h3 h4 h5 h6 h7 h8
  have f1 := h1.alloc.nextFree_le
  have f3 := h1.alloc.size_lt
  obtain ⟨X, hX⟩ : ∃ X, X = ixWord E .u8 (k + 2) (k + 3) ++ is1 := ⟨_, rfl⟩
  rw [List.append_assoc, ← hX]
  simp only [List.cons_append, List.nil_append]
  obtain ⟨n, hn⟩ : ∃ n, vs[i] = .word n := by
    cases hvi : vs[i] <;> simp [hvi, Rep] at h4; exact ⟨_, rfl⟩
  simp only [MTy.size] at h3 h4 h7
  rw [hn] at h4
  rw [Rep] at h4
  obtain ⟨q, hq⟩ : ∃ q, q = leNat σ1.mem (w + 8 + i * 4) 4 := ⟨_, rfl⟩
  rw [← hq] at h4
  wstep
  rw [h7, ← hq]
  wstep
  rw [hX, h4.2.1]
  rw [hn, inPlace, word_length] at h5
  refine wp_ixWord rfl h1 (x := .word n) (lim := lim) (by rw [lget_lset_same (by omega), Rep]; exact ⟨rfl, h4.2.2.2⟩) h2 h5 (by omega) (by rw [lset_length]; omega)
    fun σ' hkd => h8 σ' _ (by rw [hn]; exact hkd) (by simp only [lset_length]; omega) fun j hj => ?_
  rw [lget_lset_ne (by omega), lget_lset_ne (by omega)]

theorem ixVec_string : IxVecOk E .string := by
  intro σ lim vs w v k s l is Q hσ hr hlim hf hroom hv hvk hlen hk
  rw [ixVec]
  simp only [nlIxVec] at hlen
  refine wp_ixLoop (t := .string) hσ hr hlim hf.1 hroom hv hvk (by omega) ?_ hk
  intro i hi σ1 l1 is1 Q1 h1 h2 h3 h4 h5 h6 h7 h8
  have f1 := h1.alloc.nextFree_le
  have f3 := h1.alloc.size_lt
  obtain ⟨X, hX⟩ : ∃ X, X = ixString true (k + 2) (k + 3) ++ is1 := ⟨_, rfl⟩
  rw [List.append_assoc, ← hX]
  simp only [List.cons_append, List.nil_append]
  obtain ⟨bs, hn⟩ : ∃ bs, vs[i] = .bytes bs := by
    cases hvi : vs[i] <;> simp [hvi, Rep] at h4; exact ⟨_, rfl⟩
  have hne := hf.2 _ (List.getElem_mem hi)
  simp only [MTy.size] at h3 h4 h7
  rw [hn] at h4 hne
  rw [hn, inPlace] at h5
  wstep
  rw [h7, hX]
  refine wp_ixString (pd := true) h1 (bs := bs) (lim := lim) h4 h2 hne h5 (.inl rfl) (lget_lset_same (by omega)) (by omega) (by rw [lset_length]; omega)
    fun σ' l' hkd e1 e2 => h8 σ' l' (by rw [hn]; exact hkd) (by rw [e1, lset_length]; omega) fun j hj => ?_
  rw [e2 j (by omega) (by omega), lget_lset_ne (by omega)]

theorem ixVec_vec {t : MTy} (ht : IxVecOk E t) : IxVecOk E (.vec t) := by
  intro σ lim vs w v k s l is Q hσ hr hlim hf hroom hv hvk hlen hk
  rw [ixVec]
  simp only [nlIxVec] at hlen
  refine wp_ixLoop (t := .vec t) hσ hr hlim hf.1 hroom hv hvk (by omega) ?_ hk
  intro i hi σ1 l1 is1 Q1 h1 h2 h3 h4 h5 h6 h7 h8
  have f1 := h1.alloc.nextFree_le
  have f3 := h1.alloc.size_lt
  obtain ⟨X, hX⟩ : ∃ X, X = ixVec E t (k + 2) (k + 3) ++ is1 := ⟨_, rfl⟩
  rw [List.append_assoc, ← hX]
  simp only [List.cons_append, List.nil_append]
  obtain ⟨us, hn⟩ : ∃ us, vs[i] = .array us := by
    cases hvi : vs[i] <;> simp [hvi, Rep] at h4; exact ⟨_, rfl⟩
  have hne := hf.2 _ (List.getElem_mem hi)
  simp only [MTy.size] at h3 h4 h7
  rw [hn] at h4 hne
  rw [hn, inPlace] at h5
  wstep
  rw [h7, hX]
  refine ht σ1 lim us _ (k + 2) (k + 3) _ _ is1 Q1 h1 h4 h2 hne h5 (lget_lset_same (by omega)) (by omega) (by rw [lset_length]; omega)
    fun σ' l' hkd e1 e2 => h8 σ' l' (by rw [hn]; exact hkd) (by rw [e1, lset_length]; omega) fun j hj => ?_
  rw [e2 j (by omega) (by omega), lget_lset_ne (by omega)]

/-- The encoding of a vector. -/
theorem ixVec_ok : (t : MTy) → IxVecOk E t
  | .bool => ixVec_word rfl (by simp)
  | .u8 => ixVec_word rfl (by simp)
  | .u16 => ixVec_word rfl (by simp)
  | .u32 => ixVec_word rfl (by simp)
  | .u64 => ixVec_word rfl (by simp)
  | .u128 => ixVec_word rfl (by simp)
  | .u256 => ixVec_word rfl (by simp)
  | .address => ixVec_word rfl (by simp)
  | .enum _ => ixVec_enum
  | .string => ixVec_string
  | .vec t => ixVec_vec (ixVec_ok t)
  | .struct fs => by
    intro σ lim vs w v k s l is Q hσ hr hlim hf hroom hv hvk hlen hk
    obtain ⟨x, hx⟩ := List.exists_mem_of_ne_nil _ hf.1
    exact absurd (hf.2 x hx) (by simp [IxFull])

end Rt
