import Verif.Proof.Event2
import Verif.Proof.Pack4

/-! Events: topics, data and the log. -/

namespace Rt
open Wasm Abi

variable {σ σ' σ'' : Store} {E : ErrPtrs}

theorem rdBytes_putBe_word (f : Bytes) (p v : Nat) : rdBytes (putBe f p 32 v) p 32 = word v := by
  rw [← wr_word]
  have := rdBytes_wr f p (word v)
  rwa [word_length] at this

/-- The value of an indexed field: that of an `ID` is the address in it. -/
def ETy.abi : ETy → Val → Val
  | .id, .tuple [x] => x
  | _, v => v

/-- A word is packed into a new block. -/
theorem wp_ixPack {t : MTy} {x : Val} {lim v : Nat} {is s l Q} (ht : isWord t = true) (hσ : Heap σ) (h : Alloced 32 σ σ') (hroom : Room σ 32)
    (hr : Rep σ.mem lim t x (lget l v)) (hlim : lim ≤ σ.nextFree) (h1 : lget l 1 = σ.nextFree) (h2 : lget l 2 = σ.nextFree)
    (hk : ∀ σ'', Keyed (inPlace x) σ σ'' → wp is s l σ'' Q) :
    wp (packT E (propagate .none) (propagate .none) v 1 2 t ++ is) s l σ' Q := by
  have g2 := h.nextFree
  have hres := hσ.base
  have hh : t.headSize = 32 := by cases t <;> simp_all [isWord, MTy.headSize, MTy.dyn, MTy.encSize]
  obtain ⟨n, rfl⟩ : ∃ n, x = .word n := by
    cases t <;> simp [isWord] at ht <;> cases x <;> simp [Rep] at hr <;> exact ⟨_, rfl⟩
  refine packT_ok t (propagate_ok _) (propagate_ok _) v 1 2 (.word n) lim σ' l s is Q (by rw [h.mem]; exact hr)
    (by rw [h1, h2, hh]; exact ⟨h.heap, hres, hlim, by omega, fun x h1 h2 => by rw [h.mem]; exact hσ.fresh x h1, by omega⟩)
    ⟨by simp [tl, dyn], by have := hroom.2; rw [g2, h.maxPages]; simp [tl, dyn]; omega⟩ fun σ2 hp => ?_
  rw [h1] at hp
  simp only [tl, hd, dyn, Bool.false_eq_true, if_false, enc] at hp
  refine hk σ2 ⟨⟨?_, Nat.le_trans h.size hp.size, ?_, ?_, hp.alloc, hp.maxPages.trans h.maxPages, hp.reader.trans h.reader, hp.host.trans h.host⟩, ?_, ?_⟩
  · rw [hp.nextFree]; simp; omega
  · intro x hx
    rw [hp.mem, wrBytes_nil, wrBytes_out (by omega), h.mem]
  · intro x hx
    have := hp.nextFree
    simp only [List.length_nil] at this
    rw [hp.mem, wrBytes_nil, wrBytes_out (by rw [word_length]; omega), h.mem]
    exact hσ.fresh x (by omega)
  · rw [hp.nextFree, inPlace, word_length]; simp [g2]
  · rw [hp.mem, wrBytes_nil, inPlace]; exact rdBytes_wr _ _ _

/-- Hashing an encoding. -/
theorem wp_ixHash {t : ETy} {v : Val} {i : Nat} {is s l Q} (hσ : Heap σ) (hd : IxDone σ l i t v) (ht : t.hashed = true) (hroom : Room σ 32)
    (hlen : 18 ≤ l.length) (hi : i < 4)
    (hk : ∀ σ' l', Keyed (word (σ.host.keccak (ixData t v))) σ σ' → l'.length = l.length →
      (∀ j, j ≠ 1 → j ≠ 6 → lget l' j = lget l j) → wp is s l' σ' Q) :
    wp (ixHash i ++ is) s l σ Q := by
  have f1 := hσ.alloc.nextFree_le
  have f3 := hσ.alloc.size_lt
  obtain ⟨a, h1, h2, h3, h4⟩ := hd ht
  obtain ⟨n, hn⟩ : ∃ n, n = (ixData t v).length := ⟨_, rfl⟩
  rw [← hn] at h2 h3 h4
  unfold ixHash
  obtain ⟨X, hX⟩ : ∃ X, X = alloc.call :: Op.lset 1 :: Op.lget (10 + 2 * i) :: Op.lget 6 :: Op.lget 1 :: Op.host .keccak :: is := ⟨_, rfl⟩
  simp only [List.cons_append, List.nil_append, ← hX]
  wstep
  rw [h1, h2]
  rw [Nat.add_sub_cancel_left, hX]
  refine wp_allocR hσ hroom (Nat.le_refl _) fun σ1 a1 => ?_
  have g1 := a1.inside
  have g2 := a1.nextFree
  have g3 := a1.size
  obtain ⟨Y, hY⟩ : ∃ Y, Y = (Op.host .keccak : Instr) :: is := ⟨_, rfl⟩
  rw [← hY]
  wstep
  rw [hY, h1]
  rw [wp_keccak (by omega) (by omega), a1.host, a1.mem, h4]
  refine hk _ _ ⟨a1.mem ▸ a1.extends.putBe (Nat.le_refl _) (by omega), ?_, ?_⟩ (by simp only [lset_length]) fun j h1 h2 => ?_
  · rw [setMem_nextFree, g2, word_length]
  · rw [setMem_mem, word_length]; exact rdBytes_putBe_word _ _ _
  · rw [lget_lset_ne (by omega), lget_lset_ne (by omega)]

/-- The topic of an indexed field. -/
theorem wp_ixTopic {t : ETy} {v : Val} {b lim i : Nat} {is s l Q} (hσ : Heap σ) (hr : RepFs σ.mem lim [t.mty] [v] (b + 4 * i))
    (hlim : lim ≤ σ.nextFree) (hd : IxDone σ l i t v) (hroom : Room σ 32) (hb : lget l 0 = b) (hi : i < 4) (hlen : 18 ≤ l.length)
    (hk : ∀ σ' l', Keyed (topic σ.host.keccak (t.abi v)) σ σ' → l'.length = l.length →
      (∀ j, j = 0 ∨ j = 3 ∨ 10 ≤ j → lget l' j = lget l j) → wp is s l' σ' Q) :
    wp (ixTopic E i t ++ is) s l σ Q := by
  have f1 := hσ.alloc.nextFree_le
  have f3 := hσ.alloc.size_lt
  simp only [RepFs] at hr
  obtain ⟨h1, h2, h3, -⟩ := hr
  obtain ⟨q, hq⟩ : ∃ q, q = leNat σ.mem (b + 4 * i) 4 := ⟨_, rfl⟩
  rw [← hq] at h2 h3
  have hash : t.hashed = true → topic σ.host.keccak (t.abi v) = word (σ.host.keccak (ixData t v)) →
      wp ((code[Op.lget 0, Op.load 4 (4 * i), Op.lset 4] ++ ixHash i) ++ is) s l σ Q := by
    intro ht he
    obtain ⟨X, hX⟩ : ∃ X, X = ixHash i ++ is := ⟨_, rfl⟩
    rw [List.append_assoc, ← hX]
    simp only [List.cons_append, List.nil_append]
    wstep
    rw [hb, ← hq, hX]
    refine wp_ixHash hσ (t := t) (v := v) (hd.later hσ.refl (lget_lset_ne (by omega)) (lget_lset_ne (by omega))) ht hroom (by rw [lset_length]; omega) hi
      fun σ' l' c1 c2 c3 => hk σ' l' (by rw [he]; exact c1) (by rw [c2, lset_length]) fun j hj => ?_
    rw [c3 j (by omega) (by omega), lget_lset_ne (by omega)]
  have wrd : ∀ t' : MTy, t = .val t' → isWord t' = true →
      wp ((code[Op.lget 0, Op.load 4 (4 * i)] ++ (if t'.isScalar then code[Op.load t'.size 0] else []) ++
      code[Op.lset t'.fieldLocal, Op.c32 32, alloc.call, Op.ltee 1, Op.lset 2] ++
      packT E (propagate .none) (propagate .none) t'.fieldLocal 1 2 t') ++ is) s l σ Q := by
    rintro t rfl ht
    have f4 := MTy.size_pos t
    have hfl : t.fieldLocal = 4 ∨ t.fieldLocal = 5 := by cases t <;> simp [MTy.fieldLocal]
    obtain ⟨L, hL⟩ : ∃ L, L = t.fieldLocal := ⟨_, rfl⟩
    rw [← hL] at hfl ⊢
    obtain ⟨X, hX⟩ : ∃ X, X = code[alloc.call, Op.ltee 1, Op.lset 2] ++ (packT E (propagate .none) (propagate .none) L 1 2 t ++ is) := ⟨_, rfl⟩
    have fin : ∀ c, Rep σ.mem lim t v c → wp X (32 :: s) (lset l L c) σ Q := by
      intro c hc
      rw [hX]
      simp only [List.cons_append, List.nil_append]
      refine wp_allocR hσ hroom (Nat.le_refl _) fun σ1 a1 => ?_
      obtain ⟨Y, hY⟩ : ∃ Y, Y = packT E (propagate .none) (propagate .none) L 1 2 t ++ is := ⟨_, rfl⟩
      rw [← hY]
      have g2 := a1.inside
      have g3 := a1.heap.alloc.size_lt
      have g4 := a1.nextFree
      wstep
      rw [hY]
      refine wp_ixPack ht hσ a1 hroom (x := v) (lim := lim) ?_ hlim ?_ ?_ fun σ2 kd => hk σ2 _ ?_ (by simp only [lset_length]) fun j hj => ?_
      · rw [lget_lset_ne (by omega), lget_lset_ne (by omega), lget_lset_same (by omega)]; exact hc
      · rw [lget_lset_ne (by omega), lget_lset_same (by rw [lset_length]; omega)]
      · rw [lget_lset_same (by simp only [lset_length]; omega)]
      · obtain ⟨n, rfl⟩ : ∃ n, v = .word n := by
          cases t <;> simp [isWord] at ht <;> cases v <;> simp [Rep] at hc <;> exact ⟨_, rfl⟩
        rw [inPlace] at kd
        exact kd
      · rw [lget_lset_ne (by omega), lget_lset_ne (by omega), lget_lset_ne (by omega)]
    rw [show (ETy.val t).mty = t from rfl] at h2 h3
    rw [List.append_assoc, List.append_assoc, show code[Op.lset L, Op.c32 32, alloc.call, Op.ltee 1, Op.lset 2] ++
      (packT E (propagate .none) (propagate .none) L 1 2 t ++ is) = code[Op.lset L, Op.c32 32] ++ X by rw [hX]; rfl, List.append_assoc]
    cases hs : t.isScalar
    · rw [hs] at h3
      simp only [Bool.false_eq_true, if_false] at h3
      simp only [Bool.false_eq_true, if_false, List.cons_append, List.nil_append]
      wstep
      rw [hb, ← hq]
      exact fin q h3
    · rw [hs] at h3
      have h2 := h2 hs
      simp only [if_true] at h3
      simp only [if_true, List.cons_append, List.nil_append]
      wstep
      rw [hb, ← hq]
      wstep
      exact fin _ h3
  cases t with
  | id =>
    simp only [ETy.mty, MTy.isScalar, Bool.false_eq_true, if_false] at h3
    obtain ⟨vs, rfl⟩ : ∃ vs, v = .tuple vs := by cases v <;> simp [Rep] at h3; exact ⟨_, rfl⟩
    obtain ⟨n, rfl⟩ : ∃ n, vs = [.word n] := by
      rw [Rep] at h3
      match vs with
      | [] => simp [RepFs] at h3
      | [v] => cases v <;> simp [RepFs, Rep] at h3; exact ⟨_, rfl⟩
      | v :: v' :: vs => simp [RepFs] at h3
    simp only [Rep, RepFs, MTy.isScalar, Bool.false_eq_true, if_false] at h3
    obtain ⟨c, hc⟩ : ∃ c, c = leNat σ.mem q 4 := ⟨_, rfl⟩
    rw [← hc] at h3
    rw [ixTopic]
    obtain ⟨Y, hY⟩ : ∃ Y, Y = packT E (propagate .none) (propagate .none) 4 1 2 .address ++ is := ⟨_, rfl⟩
    rw [List.append_assoc, ← hY]
    obtain ⟨X, hX⟩ : ∃ X, X = code[alloc.call, Op.ltee 1, Op.lset 2, Op.lget 4, Op.load 4 0, Op.lset 4] ++ Y := ⟨_, rfl⟩
    rw [show code[Op.lget 0, Op.load 4 (4 * i), Op.lset 4, Op.c32 32, alloc.call, Op.ltee 1, Op.lset 2,
      Op.lget 4, Op.load 4 0, Op.lset 4] ++ Y = code[Op.lget 0, Op.load 4 (4 * i), Op.lset 4, Op.c32 32] ++ X by rw [hX]; rfl]
    simp only [List.cons_append, List.nil_append]
    wstep
    rw [hb, ← hq, hX]
    simp only [List.cons_append, List.nil_append]
    refine wp_allocR hσ hroom (Nat.le_refl _) fun σ1 a1 => ?_
    have g2 := a1.inside
    have g3 := a1.heap.alloc.size_lt
    have g4 := a1.nextFree
    wstep
    rw [a1.mem, ← hc, hY]
    refine wp_ixPack rfl hσ a1 hroom (x := .word n) (lim := lim) ?_ hlim ?_ ?_ fun σ2 kd => hk σ2 _ ?_ (by simp only [lset_length]) fun j hj => ?_
    · rw [lget_lset_same (by simp only [lset_length]; omega), Rep]; exact h3.2.2.2.1
    · rw [lget_lset_ne (by omega), lget_lset_ne (by omega), lget_lset_same (by rw [lset_length]; omega)]
    · rw [lget_lset_ne (by omega), lget_lset_same (by simp only [lset_length]; omega)]
    · rw [inPlace] at kd
      exact kd
    · simp only [lget_lset_ne (show j ≠ 4 by omega), lget_lset_ne (show j ≠ 2 by omega), lget_lset_ne (show j ≠ 1 by omega)]
  | val t =>
    cases t with
    | bool | u8 | u16 | u32 | u64 | u128 | u256 | address | enum m =>
      rw [ixTopic]
      · exact wrd _ rfl rfl
      all_goals simp
    | struct fs =>
      simp only [ETy.mty, MTy.isScalar, Bool.false_eq_true, if_false] at h3
      obtain ⟨vs, rfl⟩ : ∃ vs, v = .tuple vs := by cases v <;> simp [Rep] at h3; exact ⟨_, rfl⟩
      rw [ixTopic]
      exact hash rfl (by simp only [ETy.abi, topic, ixData, inPlace])
    | vec t =>
      simp only [ETy.mty, MTy.isScalar, Bool.false_eq_true, if_false] at h3
      obtain ⟨vs, rfl⟩ : ∃ vs, v = .array vs := by cases v <;> simp [Rep] at h3; exact ⟨_, rfl⟩
      rw [ixTopic]
      exact hash rfl (by simp only [ETy.abi, topic, ixData, inPlace])
    | string =>
      simp only [ETy.mty, MTy.isScalar, Bool.false_eq_true, if_false] at h3
      obtain ⟨bs, rfl⟩ : ∃ bs, v = .bytes bs := by cases v <;> simp [Rep] at h3; exact ⟨_, rfl⟩
      rw [ixTopic]
      exact hash rfl (by simp only [ETy.abi, topic, ixData])

/-- The topics of indexed fields, one after the other. -/
def topics (K : List UInt8 → Nat) : List ETy → List Val → List UInt8
  | t :: ts, v :: vs => topic K (t.abi v) ++ topics K ts vs
  | _, _ => []

theorem topic_length (K : List UInt8 → Nat) (v : Val) : (topic K v).length = 32 := by
  cases v <;> rw [topic, word_length]

theorem topics_length (K : List UInt8 → Nat) : ∀ {ts : List ETy} {vs : List Val}, vs.length = ts.length → (topics K ts vs).length = 32 * ts.length
  | [], _, _ => rfl
  | t :: ts, [], h => by simp at h
  | t :: ts, v :: vs, h => by
    rw [topics, List.length_append, topic_length, topics_length K (by simpa using h), List.length_cons]; omega

theorem wp_ixTopics {b lim : Nat} {K : List UInt8 → Nat} {is s Q} : ∀ {ts : List ETy} {vs : List Val} {i : Nat} {l : List Nat} {σ : Store}, Heap σ →
    σ.host.keccak = K → RepFs σ.mem lim (ts.map ETy.mty) vs (b + 4 * i) → lim ≤ σ.nextFree → IxDones σ l i ts vs → Room σ (32 * ts.length) →
    lget l 0 = b → i + ts.length ≤ 4 → 18 ≤ l.length →
    (∀ σ' l', Keyed (topics K ts vs) σ σ' → l'.length = l.length →
      (∀ j, j = 0 ∨ j = 3 → lget l' j = lget l j) → wp is s l' σ' Q) →
    wp (ixTopics E ts i ++ is) s l σ Q := by
  intro ts
  induction ts with
  | nil =>
    intro vs i l σ hσ hK hr hlim hd hroom hb hi hlen hk
    have e : topics K [] vs = [] := by cases vs <;> rfl
    rw [e] at hk
    exact hk σ l hσ.keyed_nil rfl fun _ _ => rfl
  | cons t ts ih =>
    intro vs i l σ hσ hK hr hlim hd hroom hb hi hlen hk
    cases vs with
    | nil => simp [RepFs] at hr
    | cons v vs =>
    rw [List.map_cons, RepFs] at hr
    obtain ⟨h1, h2, h3, h4⟩ := hr
    simp only [List.length_cons] at hi hroom
    rw [Nat.mul_succ, Nat.add_comm] at hroom
    rw [ixTopics, List.append_assoc]
    refine wp_ixTopic hσ (v := v) (b := b) (lim := lim) (by simp only [RepFs]; exact ⟨h1, h2, h3, trivial⟩) hlim hd.1 (hroom.mono (by omega))
      hb (by omega) hlen fun σ1 l1 hkd e1 e2 => ?_
    have g := hkd.nextFree
    rw [topic_length] at g
    rw [hK] at hkd
    refine ih (i := i + 1) (hkd.ext.heap hσ) (by rw [hkd.ext.host, hK]) (RepFs.congr (fun x hx => hkd.ext.mem x (by omega)) _ (by rw [Nat.mul_add, ← Nat.add_assoc]; exact h4))
      (by omega) (hd.2.later hkd.ext fun j h1 _ => e2 j (by omega)) (Room.after hroom (Nat.le_of_eq g) hkd.ext.maxPages) (by rw [e2 0 (by omega), hb]) (by omega) (by omega)
      fun σ2 l2 hkd2 e3 e4 => ?_
    refine hk σ2 l2 (by rw [topics]; exact hkd.trans hkd2) (by omega) fun j hj => ?_
    rw [e4 j hj, e2 j (by omega)]

/-- The data of the log. -/
theorem wp_evData {n b lim A : Nat} {ds : List MTy} {us : List Val} {tp : List UInt8} {is s l Q} (hσ : Heap σ) (hr : RepFs σ.mem lim ds us (b + 4 * n))
    (hlim : lim ≤ σ.nextFree) (hroom : Room σ (32 + (encTuple us).length))
    (hov : MTy.dynFs ds = false ∨ σ.nextFree + 32 + (encTuple us).length + tp.length ≤ σ.size)
    (hb : lget l 0 = b) (hA : lget l 3 = A) (htp : A + tp.length = σ.nextFree) (hrd : rdBytes σ.mem A tp.length = tp) (hlen : 18 ≤ l.length)
    (hk : ∀ σ' l', Extends σ σ' → σ'.nextFree ≤ σ.nextFree + (32 + (encTuple us).length) → A + tp.length + (encTuple us).length ≤ σ'.size →
      rdBytes σ'.mem A (tp.length + (encTuple us).length) = tp ++ encTuple us → lget l' 3 = A → lget l' 7 = tp.length + (encTuple us).length →
      wp is s l' σ' Q) :
    wp (evData E n ds ++ is) s l σ Q := by
  have f1 := hσ.alloc.nextFree_le
  have f3 := hσ.alloc.size_lt
  have hres := hσ.base
  obtain ⟨c, hc⟩ : ∃ c, c = tp.length := ⟨_, rfl⟩
  rw [← hc] at htp hrd hov hk
  unfold evData
  cases ds with
  | nil =>
    have hu : us = [] := by cases us <;> simp [RepFs] at hr <;> rfl
    subst hu
    have he : encTuple [] = [] := by simp [encTuple, enc, heads, tails]
    rw [he] at hk hroom
    simp only [List.isEmpty_nil, if_true, List.cons_append, List.nil_append]
    refine wp_c32.mpr (wp_allocR hσ hroom (Nat.zero_le _) fun σ1 a1 => ?_)
    wstep
    rw [hA]
    refine hk σ1 _ a1.extends (by rw [a1.nextFree]; omega) (by have := a1.inside; rw [a1.nextFree] at this; simp; omega) ?_ (by rw [lget_lset_ne (by omega), hA]) ?_
    · rw [a1.mem, List.append_nil, List.length_nil, Nat.add_zero, hrd]
    · rw [lget_lset_same (by omega), List.length_nil]; omega
  | cons d ds =>
  obtain ⟨D, hD⟩ : ∃ D, D = d :: ds := ⟨_, rfl⟩
  have hw : b + 4 * n + 4 ≤ lim := by
    cases us with
    | nil => simp [RepFs] at hr
    | cons u us => rw [RepFs] at hr; exact hr.1
  rw [← hD] at hr hov
  have hem : (d :: ds).isEmpty = false := rfl
  rw [hem, ← hD]
  simp only [Bool.false_eq_true, if_false]
  obtain ⟨w, hw'⟩ : ∃ w, w = b + 4 * n := ⟨_, rfl⟩
  rw [← hw'] at hr hw
  have hrep : Rep σ.mem lim (.struct D) (.tuple us) w := by rw [Rep]; exact ⟨by omega, hr⟩
  obtain ⟨sh1, sh2⟩ := Rep.shape _ hrep
  rw [MTy.dyn] at sh1 sh2
  rw [MTy.encSize] at sh2
  have hdl := fun off => Rep.hd_length hrep off
  obtain ⟨en, hen⟩ : ∃ en, en = encTuple us := ⟨_, rfl⟩
  have hen' : enc (.tuple us) = en := hen.symm
  rw [← hen] at hk hroom hov
  rw [hen'] at sh2
  unfold MTy.headSize at hdl
  rw [MTy.dyn, MTy.encSize] at hdl
  cases hdy : MTy.dynFs D
  · rw [hdy] at sh1 sh2 hdl
    simp only [Bool.false_eq_true, if_false] at hdl ⊢
    have sh2 := sh2 rfl
    obtain ⟨F, hF⟩ : ∃ F, F = packStruct (MTy.encSizeFs D) (packFs E 0 D) := ⟨_, rfl⟩
    have hlen32 : MTy.encSizeFs D < 2 ^ 32 := by have := hroom.1; omega
    rw [← hF]
    obtain ⟨X, hX⟩ : ∃ X, X = code[alloc.call, Op.ltee 1, Op.lset 8, Op.lget 9, Op.lget 1, Op.lget 8, Op.c32 0, F.call] ++
        (code[Op.c32 0, alloc.call, Op.lget 3, Op.bin .w32 .sub, Op.lset 7] ++ is) := ⟨_, rfl⟩
    rw [show ∀ z, (code[Op.lget 0, Op.c32 (4 * n), Op.bin .w32 .add, Op.lset 9, Op.c32 z, alloc.call, Op.ltee 1, Op.lset 8] ++
      code[Op.lget 9, Op.lget 1, Op.lget 8, Op.c32 0, F.call, Op.c32 0, alloc.call, Op.lget 3, Op.bin .w32 .sub, Op.lset 7]) ++ is =
      code[Op.lget 0, Op.c32 (4 * n), Op.bin .w32 .add, Op.lset 9, Op.c32 z] ++ X by intro z; rw [hX]; rfl]
    simp only [List.cons_append, List.nil_append]
    wstep
    rw [hb, ← hw', hX]
    simp only [List.cons_append, List.nil_append]
    refine wp_allocR hσ hroom (by omega) fun σ1 a1 => ?_
    have g1 := a1.nextFree
    have g2 := a1.inside
    have g3 := a1.heap.alloc.size_lt
    have g5 := a1.size
    wstep
    rw [hF]
    have hcall := packStruct_spec (σ := σ1) (fs := D) (vs := us) (lim := lim) (w := w) (p := σ.nextFree) (b := σ.nextFree) (packFs_ok (E := E) D 0) (by rw [a1.mem]; exact hrep)
      ⟨a1.heap, hres, hlim, by unfold MTy.headSize; rw [MTy.dyn, MTy.encSize, hdy]; simp only [Bool.false_eq_true, if_false]; omega,
        fun x h1 h2 => by rw [a1.mem]; exact hσ.fresh x h1, by omega⟩
      (by unfold tl; rw [sh1]; simp only [Bool.false_eq_true, if_false, List.length_nil]
          refine ⟨by omega, ?_⟩
          have := hroom.2
          rw [a1.maxPages]; omega)
    rw [hdy] at hcall
    refine wp_call4 hcall ?_
    rintro r σ2 ⟨rfl, hp⟩
    unfold hd tl at hp
    rw [sh1, hen'] at hp
    simp only [Bool.false_eq_true, if_false] at hp
    have p1 := hp.nextFree
    have p2 := hp.mem
    rw [wrBytes_nil, a1.mem] at p2
    rw [List.length_nil, Nat.add_zero] at p1
    have hx : Extends σ σ2 := by
      refine ⟨by omega, Nat.le_trans a1.size hp.size, fun x hx => ?_, fun x hx => ?_, hp.alloc, hp.maxPages.trans a1.maxPages, hp.reader.trans a1.reader, hp.host.trans a1.host⟩
      · rw [p2, wrBytes_out (by omega)]
      · rw [p2, wrBytes_out (by omega)]; exact hσ.fresh x (by omega)
    simp only [List.nil_append]
    have hr2 : Room σ2 0 := ⟨by omega, by have := hroom.2; rw [hx.maxPages]; omega⟩
    refine wp_c32.mpr (wp_allocR (hx.heap hσ) hr2 (Nat.le_refl _) fun σ3 a3 => ?_)
    have k1 := a3.nextFree
    have k2 := a3.inside
    wstep
    rw [hA]
    refine hk σ3 _ (hx.trans a3.extends) (by omega) (by omega) ?_ ?_ ?_
    · rw [a3.mem, p2, rdBytes_append]
      congr 1
      · rw [← hrd]
        exact rdBytes_congr fun x _ hx => wrBytes_out (by omega)
      · rw [htp]; exact rdBytes_wr _ _ _
    · simp only [lget_lset_ne (show 3 ≠ 7 by omega), lget_lset_ne (show 3 ≠ 8 by omega), lget_lset_ne (show 3 ≠ 1 by omega), lget_lset_ne (show 3 ≠ 9 by omega), hA]
    · rw [lget_lset_same (by simp only [lset_length]; omega)]; omega
  · rw [hdy] at sh1 sh2 hdl
    have hov : σ.nextFree + 32 + en.length + c ≤ σ.size := by
      rcases hov with h | h
      · rw [hdy] at h; simp at h
      · exact h
    simp only [if_true] at hdl ⊢
    obtain ⟨F, hF⟩ : ∃ F, F = packStruct (MTy.encSizeFs D) (packFs E 0 D) := ⟨_, rfl⟩
    rw [← hF]
    obtain ⟨Y, hY⟩ : ∃ Y, Y = code[alloc.call, Op.lget 3, Op.c32 32, Op.bin .w32 .add, Op.bin .w32 .sub, Op.ltee 7, Op.memCopy] ++ is := ⟨_, rfl⟩
    obtain ⟨X, hX⟩ : ∃ X, X = code[alloc.call, Op.ltee 1, Op.lset 8, Op.lget 9, Op.lget 1, Op.lget 8, Op.c32 1, F.call] ++
        (code[Op.lget 8, Op.lget 8, Op.c32 32, Op.bin .w32 .add, Op.c32 0] ++ Y) := ⟨_, rfl⟩
    rw [show ∀ z, (code[Op.lget 0, Op.c32 (4 * n), Op.bin .w32 .add, Op.lset 9, Op.c32 z, alloc.call, Op.ltee 1, Op.lset 8] ++
      code[Op.lget 9, Op.lget 1, Op.lget 8, Op.c32 1, F.call, Op.lget 8, Op.lget 8, Op.c32 32, Op.bin .w32 .add,
       Op.c32 0, alloc.call, Op.lget 3, Op.c32 32, Op.bin .w32 .add, Op.bin .w32 .sub, Op.ltee 7, Op.memCopy]) ++ is =
      code[Op.lget 0, Op.c32 (4 * n), Op.bin .w32 .add, Op.lset 9, Op.c32 z] ++ X by intro z; rw [hX, hY]; rfl]
    simp only [List.cons_append, List.nil_append]
    wstep
    rw [hb, ← hw', hX]
    simp only [List.cons_append, List.nil_append]
    refine wp_allocR hσ hroom (by omega) fun σ1 a1 => ?_
    have g1 := a1.nextFree
    have g2 := a1.inside
    have g3 := a1.heap.alloc.size_lt
    have g5 := a1.size
    wstep
    rw [hF]
    have hcall := packStruct_spec (σ := σ1) (fs := D) (vs := us) (lim := lim) (w := w) (p := σ.nextFree) (b := σ.nextFree) (packFs_ok (E := E) D 0) (by rw [a1.mem]; exact hrep)
      ⟨a1.heap, hres, hlim, by unfold MTy.headSize; rw [MTy.dyn, MTy.encSize, hdy]; simp only [if_true]; omega,
        fun x h1 h2 => by rw [a1.mem]; exact hσ.fresh x h1, by omega⟩
      (by unfold tl; rw [sh1, hen']; simp only [if_true]
          exact Room.after hroom (Nat.le_of_eq g1) a1.maxPages)
    rw [hdy] at hcall
    refine wp_call4 hcall ?_
    rintro r σ2 ⟨rfl, hp⟩
    unfold hd tl at hp
    rw [sh1, hen'] at hp
    simp only [if_true] at hp
    have p1 := hp.nextFree
    have p2 := hp.mem
    rw [g1, a1.mem] at p2
    have hx : Extends σ σ2 := by
      refine ⟨by omega, Nat.le_trans a1.size hp.size, fun x hx => ?_, fun x hx => ?_, hp.alloc, hp.maxPages.trans a1.maxPages, hp.reader.trans a1.reader, hp.host.trans a1.host⟩
      · rw [p2, wrBytes_out (by omega), wrBytes_out (by omega)]
      · rw [p2, wrBytes_out (by omega), wrBytes_out (by rw [word_length]; omega)]; exact hσ.fresh x (by omega)
    simp only [List.nil_append]
    have hr2 : Room σ2 0 := ⟨by omega, by have := hroom.2; rw [hx.maxPages]; omega⟩
    wstep
    rw [hY]
    simp only [List.cons_append, List.nil_append]
    refine wp_allocR (hx.heap hσ) hr2 (Nat.le_refl _) fun σ3 a3 => ?_
    have k1 := a3.nextFree
    have k2 := a3.inside
    have k3 := a3.size
    have k4 := a3.heap.alloc.size_lt
    have k5 := hp.size
    obtain ⟨Z, hZ⟩ : ∃ Z, Z = (Op.memCopy : Instr) :: is := ⟨_, rfl⟩
    rw [← hZ]
    wstep
    rw [hA, hZ]
    have e : σ2.nextFree - (A + 32) = c + en.length := by omega
    rw [e, wp_memCopy (by omega) (by omega), a3.mem]
    have hy : Extends σ (σ3.setMem (copyBytes σ2.mem σ.nextFree (σ.nextFree + 32) (c + en.length))) := by
      refine (hx.trans a3.extends).write (fun x hx' => ?_) (fun x hx' => ?_)
      · rw [a3.mem, copyBytes_out (by omega)]
      · rw [a3.mem]
        by_cases h : x < σ.nextFree + (c + en.length)
        · rw [copyBytes_in (by omega) h]
          have h1 := (hx.trans a3.extends).fresh
          rw [← a3.mem, h1 _ (by omega), h1 _ (by omega)]
        · rw [copyBytes_out (by omega)]
    refine hk _ _ hy (by rw [setMem_nextFree]; omega) (by rw [setMem_size]; omega) ?_ ?_ ?_
    · rw [setMem_mem, rdBytes_append]
      congr 1
      · rw [← hrd]
        refine rdBytes_congr fun x _ hx' => ?_
        rw [copyBytes_out (by omega), hx.mem x (by omega)]
      · rw [htp]
        have : rdBytes σ2.mem (σ.nextFree + 32) en.length = en := by rw [p2]; exact rdBytes_wr _ _ _
        rw [← this]
        simp only [rdBytes_length]
        refine List.ext_getElem (by simp only [rdBytes_length]) fun i h1 h2 => ?_
        rw [rdBytes_length] at h1
        rw [rdBytes_getElem, rdBytes_getElem, copyBytes_in (by omega) (by omega)]
        congr 1; omega
    · simp only [lget_lset_ne (show 3 ≠ 7 by omega), lget_lset_ne (show 3 ≠ 8 by omega), lget_lset_ne (show 3 ≠ 1 by omega), lget_lset_ne (show 3 ≠ 9 by omega), hA]
    · rw [lget_lset_same (by simp only [lset_length]; omega)]

/-! ### The log -/

theorem RepFs.split {f : Bytes} {lim : Nat} : ∀ {ts ts' : List MTy} {vs vs' : List Val} {w : Nat}, vs.length = ts.length →
    RepFs f lim (ts ++ ts') (vs ++ vs') w → RepFs f lim ts vs w ∧ RepFs f lim ts' vs' (w + 4 * ts.length)
  | [], _, [], _, _, _, h => ⟨by simp [RepFs], by simpa using h⟩
  | [], _, _ :: _, _, _, h, _ => by simp at h
  | _ :: _, _, [], _, _, h, _ => by simp at h
  | t :: ts, ts', v :: vs, vs', w, hl, h => by
    simp only [List.cons_append, RepFs] at h
    obtain ⟨h1, h2⟩ := RepFs.split (by simpa using hl) h.2.2.2
    refine ⟨by rw [RepFs]; exact ⟨h.1, h.2.1, h.2.2.1, h1⟩, ?_⟩
    rw [List.length_cons, show w + 4 * (ts.length + 1) = w + 4 + 4 * ts.length by omega]
    exact h2

/-- The topic of the signature. -/
def sigTopic : Option Nat → List UInt8
  | some h => word h
  | none => []

/-- Bytes of memory an event may take. -/
def evCost (is : List ETy) (vs us : List Val) : Nat :=
  (ixDatas is vs).length + (32 + (32 * is.length + (32 + (encTuple us).length)))

/-- The number of topics. -/
def nTopics (sig : Option Nat) (is : List ETy) : Nat := if sig.isSome then is.length + 1 else is.length

theorem wp_emitLog {n p k is s l Q} (h : p + n ≤ σ.size) :
    wp (.op (.host .emitLog) :: is) (k :: n :: p :: s) l σ Q ↔
      wp is s l (σ.setHost { σ.host with logs := σ.host.logs ++ [(k, rdBytes σ.mem p n)] }) Q := by
  rw [wp_op]; simp only [Op.exec, HostFn.eval, if_pos h]

theorem emitEvent_spec {sig : Option Nat} {ts : List ETy} {ds : List MTy} {vs us : List Val} {p lim : Nat} (hσ : Heap σ)
    (hl : vs.length = ts.length) (hr : RepFs σ.mem lim (ts.map ETy.mty ++ ds) (vs ++ us) p) (hlim : lim ≤ σ.nextFree) (h4 : ts.length ≤ 4)
    (hf : IxOks ts vs) (hroom : Room σ (evCost ts vs us))
    (hov : (MTy.dynFs ds = false ∧ ixShorts ts vs = false) ∨ σ.nextFree + evCost ts vs us + 32 * nTopics sig ts ≤ σ.size) :
    (emitEvent E sig ts ds).Calls [p] σ (fun r σ' => r = [] ∧ ∃ σ1, Extends σ σ1 ∧ σ1.nextFree ≤ σ.nextFree + evCost ts vs us ∧
      σ' = σ1.setHost { σ.host with
        logs := σ.host.logs ++ [(nTopics sig ts, sigTopic sig ++ topics σ.host.keccak ts vs ++ encTuple us)] }) := by
  refine ⟨rfl, ?_⟩
  obtain ⟨hr1, hr2⟩ := RepFs.split (by rw [hl, List.length_map]) hr
  rw [List.length_map] at hr2
  unfold emitEvent
  dsimp only
  have hlen0 : ([p] ++ List.replicate (17 + (ts.map nlIxPrep).sum) 0).length = 18 + (ts.map nlIxPrep).sum := by
    simp; omega
  have hl0 : lget ([p] ++ List.replicate (17 + (ts.map nlIxPrep).sum) 0) 0 = p := rfl
  obtain ⟨l0, hl0'⟩ : ∃ l0, l0 = [p] ++ List.replicate (17 + (ts.map nlIxPrep).sum) 0 := ⟨_, rfl⟩
  rw [← hl0'] at hlen0 hl0 ⊢
  unfold evCost at *
  obtain ⟨c1, hc1⟩ : ∃ c1, c1 = (ixDatas ts vs).length := ⟨_, rfl⟩
  rw [← hc1] at hroom hov ⊢
  simp only [List.append_assoc]
  refine wp_ixPreps hσ (b := p) (vs := vs) (lim := lim) (i := 0) hr1 hlim hf (by rw [← hc1]; exact hroom.mono (by omega))
    (by rcases hov with h | h <;> [exact .inl h.2; exact .inr (by rw [← hc1]; omega)]) hl0 (by omega) (Nat.le_refl _) (by omega)
    fun σ1 l1 kd1 e1 e2 e3 => ?_
  have a0 : lget l1 0 = p := by rw [e3 0 (by omega) (by omega) (by omega), hl0]
  have n1 := kd1.nextFree
  rw [← hc1] at n1
  have hr1' := Room.after hroom (Nat.le_of_eq n1) kd1.ext.maxPages
  have z1 := kd1.ext.size
  have hσ1 := kd1.ext.heap hσ
  obtain ⟨Z, hZ⟩ : ∃ Z, Z = ixTopics E ts 0 ++ (evData E ts.length ds ++
    code[Op.lget 3, Op.lget 7, Op.c32 (if sig.isSome then ts.length + 1 else ts.length), Op.host .emitLog]) := ⟨_, rfl⟩
  rw [← hZ]
  have rest : ∀ σ2 l2, Keyed (sigTopic sig) σ1 σ2 → l2.length = l1.length → lget l2 0 = p → lget l2 3 = σ1.nextFree →
      (∀ j, 10 ≤ j → lget l2 j = lget l1 j) → wp Z [] l2 σ2 (retK 0 (fun r σ' => r = [] ∧ ∃ σ1, Extends σ σ1 ∧
        σ1.nextFree ≤ σ.nextFree + (c1 + (32 + (32 * ts.length + (32 + (encTuple us).length)))) ∧
      σ' = σ1.setHost { σ.host with
        logs := σ.host.logs ++ [(nTopics sig ts, sigTopic sig ++ (topics σ.host.keccak ts vs ++ encTuple us))] })) := by
    intro σ2 l2 kd2 b1 b2 b3 b4
    have n2 := kd2.nextFree
    have hsl : (sigTopic sig).length ≤ 32 := by cases sig <;> simp [sigTopic, word_length]
    have x2 := kd1.ext.trans kd2.ext
    have hr2' := Room.after (σ' := σ2) hr1' (by omega) kd2.ext.maxPages
    have z2 := kd2.ext.size
    rw [hZ]
    refine wp_ixTopics (x2.heap hσ) (b := p) (vs := vs) (lim := lim) (i := 0) (by rw [x2.host]) (RepFs.congr (fun x hx => x2.mem x (by omega)) _ hr1)
      (by have := x2.nextFree; omega) (e2.later kd2.ext fun j h1 _ => b4 j (by omega)) (hr2'.mono (by omega)) b2 (by omega) (by omega)
      fun σ3 l3 kd3 b5 b6 => ?_
    have kd := kd2.trans kd3
    have n3 := kd3.nextFree
    have x3 := x2.trans kd3.ext
    have tl := topics_length σ.host.keccak hl
    rw [tl] at n3
    have z3 := kd3.ext.size
    have hr3' := Room.after (σ' := σ3) hr2' (Nat.le_of_eq n3) kd3.ext.maxPages
    refine wp_evData (x3.heap hσ) (b := p) (lim := lim) (A := σ1.nextFree) (us := us) (tp := sigTopic sig ++ topics σ.host.keccak ts vs)
      (RepFs.congr (fun x hx => x3.mem x (by omega)) _ hr2) (by have := x3.nextFree; omega) hr3' ?_ (by rw [b6 0 (.inl rfl), b2])
      (by rw [b6 3 (.inr rfl), b3]) kd.nextFree.symm kd.bytes (by omega) fun σ4 l4 x4 c2 c3 c4 c5 c6 => ?_
    · rcases hov with h | h
      · exact .inl h.1
      · refine .inr ?_
        have : (sigTopic sig ++ topics σ.host.keccak ts vs).length = 32 * nTopics sig ts := by
          rw [List.length_append, tl]; cases sig <;> simp [sigTopic, nTopics, word_length]; omega
        rw [this]; omega
    · have g5 := x4.alloc.size_lt
      obtain ⟨T, hT⟩ : ∃ T, T = (if sig.isSome = true then ts.length + 1 else ts.length) := ⟨_, rfl⟩
      have hT' : T < 2 ^ 32 := by rw [hT]; split_ifs <;> omega
      rw [← hT]
      wstep
      rw [c5, c6, wp_emitLog (by rw [List.length_append, ← Nat.add_assoc]; rw [List.length_append] at c3; omega), c4, List.append_assoc]
      refine wp_nil.mpr ⟨rfl, σ4, x3.trans x4, by omega, ?_⟩
      rw [x4.host, x3.host, hT]
      rfl
  cases sig with
  | none =>
    simp only [List.cons_append, List.nil_append]
    refine wp_c32.mpr (wp_allocR hσ1 hr1' (Nat.zero_le _) fun σ2 a2 => ?_)
    wstep
    refine rest σ2 _ ⟨a2.extends, by rw [a2.nextFree]; rfl, rfl⟩ (by rw [lset_length]) (by rw [lget_lset_ne (by omega), a0])
      (lget_lset_same (by omega)) fun j hj => lget_lset_ne (by omega)
  | some h =>
    simp only [List.append_assoc]
    obtain ⟨Y, hY⟩ : ∃ Y, Y = storeHash h 1 ++ Z := ⟨_, rfl⟩
    rw [← hY]
    simp only [List.cons_append, List.nil_append]
    refine wp_c32.mpr (wp_allocR hσ1 hr1' (by omega) fun σ2 a2 => ?_)
    have g2 := a2.inside
    have g3 := a2.nextFree
    have g4 := a2.heap.alloc.size_lt
    wstep
    rw [hY, wp_storeHash (p := σ1.nextFree) (by rw [lget_lset_ne (by omega), lget_lset_same (by omega)]) (by omega), a2.mem]
    refine rest _ _ ⟨a2.mem ▸ a2.extends.putBe (Nat.le_refl _) (by omega), by rw [setMem_nextFree, g3]; simp [sigTopic, word_length], ?_⟩ (by simp only [lset_length])
      (by rw [lget_lset_ne (by omega), lget_lset_ne (by omega), a0]) (lget_lset_same (by rw [lset_length]; omega)) fun j hj => ?_
    · rw [setMem_mem, sigTopic, word_length]; exact rdBytes_putBe_word _ _ _
    · rw [lget_lset_ne (by omega), lget_lset_ne (by omega)]

end Rt
