import Verif.Proof.Pack

/-! ABI packing of strings, vectors and structs. -/

namespace Rt
open Wasm Abi

variable {σ σ' : Store} {E : ErrPtrs}

/-- When a value may be packed: its data is below `lim`, the head of `n` bytes at `p` is allocated
and zero, offsets are relative to `b`. -/
structure PackPre (σ : Store) (lim p n b : Nat) : Prop where
  heap : Heap σ
  res : reserved ≤ p
  lim : lim ≤ p
  fits : p + n ≤ σ.nextFree
  zero : ∀ x, p ≤ x → x < p + n → σ.mem x = 0
  base : b ≤ σ.nextFree

theorem PackPre.size {lim p n b : Nat} (h : PackPre σ lim p n b) : p + n ≤ σ.size ∧ σ.size < 2 ^ 32 := by
  have h1 := h.fits; have h2 := h.heap.alloc.nextFree_le; have h3 := h.heap.alloc.size_lt; omega

/-- An instruction that does nothing unless an error has been raised. -/
def PropOk (i : Instr) : Prop := ∀ is s l (σ : Store) Q, 260 ≤ σ.size → errWord σ = 0 →
  wp is s l σ Q → wp (i :: is) s l σ Q

theorem propagate_ok (ty : RetTy) : PropOk (propagate ty) := by
  intro is s l σ Q h1 h2 h3
  rw [wp_propagate h1, IfP.pos h2]; exact h3

/-- Specification of the code packing values of type `t` from local `il` to the address in local
`iw` relative to local `ib`. -/
def PackOk (t : MTy) (code : List Instr) (il iw ib : Nat) : Prop :=
  ∀ (v : Val) (lim : Nat) (σ : Store) (l s : List Nat) (is : List Instr) (Q : Res → Prop),
    Rep σ.mem lim t v (lget l il) → PackPre σ lim (lget l iw) t.headSize (lget l ib) →
    Room σ (tl v).length →
    (∀ σ', Packed σ σ' (lget l iw) (hd (σ.nextFree - lget l ib) v) (tl v) → wp is s l σ' Q) →
    wp (code ++ is) s l σ Q

theorem bytes_length (bs : List UInt8) : (Abi.bytes bs).length = 32 + padded bs.length := by
  unfold Abi.bytes; rw [List.length_append, word_length, pad_length]

theorem copyBytes_wr {f : Bytes} {d s : Nat} {bs : List UInt8} (h : rdBytes f s bs.length = bs) :
    copyBytes f d s bs.length = wrBytes f d bs := by
  funext x
  by_cases hx : d ≤ x ∧ x < d + bs.length
  · obtain ⟨i, rfl⟩ : ∃ i, x = d + i := ⟨x - d, by omega⟩
    rw [copyBytes_in hx.1 hx.2, wrBytes_in (by omega), Nat.add_sub_cancel_left]
    have h2 := rdBytes_getElem f s bs.length i (by rw [rdBytes_length]; omega)
    rw [← h2]
    congr 1
  · rw [copyBytes_out (by omega), wrBytes_out (by omega)]

/-- Padding zeros need not be written to zeroed memory. -/
theorem wr_pad {f : Bytes} {d : Nat} {bs : List UInt8} (h : ∀ x, d + bs.length ≤ x → f x = 0) :
    wrBytes f d (Abi.pad bs) = wrBytes f d bs := by
  unfold Abi.pad
  rw [wrBytes_append]
  funext x
  generalize (32 - bs.length % 32) % 32 = n
  by_cases hx : d + bs.length ≤ x ∧ x < d + bs.length + n
  · obtain ⟨i, rfl⟩ : ∃ i, x = d + bs.length + i := ⟨x - (d + bs.length), by omega⟩
    rw [wr_replicate (by omega), wrBytes_out (by omega), h _ (by omega)]
  · rw [wrBytes_out (by simp; omega)]

theorem and_mask32 {n : Nat} (h : n + 31 < 2 ^ 32) : (n + 31) &&& 0xFFFFFFE0 = padded n := by
  have := and_field (n + 31) 5 27
  unfold padded
  rw [show (0xFFFFFFE0 : Nat) = (2 ^ 27 - 1) * 2 ^ 5 from rfl, this, show (2 : Nat) ^ 5 = 32 from rfl,
    Nat.mod_eq_of_lt (by omega)]

theorem wr_word32 {f : Bytes} {p v : Nat} (hv : v < 2 ^ 32)
    (hz : ∀ x, p ≤ x → x < p + 32 → f x = 0) : putBe f (p + 28) 4 v = wrBytes f p (Abi.word v) := by
  rw [wr_word, putBe_zero_ext (m := 28) hv (fun x h1 h2 => hz x h1 (by omega))]

set_option maxHeartbeats 2000000 in
theorem packString_spec {bs : List UInt8} {lim w p b : Nat} (hr : Rep σ.mem lim .string (.bytes bs) w)
    (hp : PackPre σ lim p 32 b) (hroom : Room σ (Abi.bytes bs).length) :
    packString.Calls [w, p, b] σ (fun r σ' => r = [] ∧
      Packed σ σ' p (Abi.word (σ.nextFree - b)) (Abi.bytes bs)) := by
  rw [Rep] at hr
  obtain ⟨h1, h2, h3, h4⟩ := hr
  rw [bytes_length] at hroom
  have hσ := hp.heap
  have hpad : bs.length ≤ padded bs.length ∧ padded bs.length ≤ bs.length + 31 := by unfold padded; omega
  have hroom1 := hroom.1
  have hsz := hp.size
  have hlim := hp.lim
  have hbase := hp.base
  have hc : CanAlloc σ (padded bs.length + 32) := hroom.canAlloc hσ.alloc (by omega)
  have hx := hσ.allocated hc
  have hin := allocated_inside hσ.alloc hc
  have hsl := hx.alloc.size_lt
  have hfit := hp.fits
  have hz := hp.zero
  refine ⟨rfl, ?_⟩
  unfold packString skipVecHeader
  simp only [List.cons_append, List.nil_append, List.replicate]
  wstep
  rw [h3]
  rw [and_mask32 (by omega)]
  wstep
  refine wp_alloc hσ hc ?_
  generalize leNat σ.mem w 4 = q at *
  have hm := hσ.allocated_mem (n := padded bs.length + 32)
  have hnf : (allocated σ (padded bs.length + 32)).nextFree = σ.nextFree + (padded bs.length + 32) :=
    allocated_nextFree
  have hmx : (allocated σ (padded bs.length + 32)).maxPages = σ.maxPages := allocated_maxPages
  generalize allocated σ (padded bs.length + 32) = σ1 at *
  wstep
  refine wp_call2 (packU32_spec (by omega)) ?_
  rintro r σ' ⟨rfl, rfl⟩
  wstep
  refine wp_call2 (packU32_spec (by simp; omega)) ?_
  rintro r σ' ⟨rfl, rfl⟩
  wstep
  have e1 : putBe σ.mem (p + 28) 4 (σ.nextFree - b) = wrBytes σ.mem p (Abi.word (σ.nextFree - b)) :=
    wr_word32 (by omega) hz
  have e2 : putBe (wrBytes σ.mem p (Abi.word (σ.nextFree - b))) (σ.nextFree + 28) 4 bs.length =
      wrBytes (wrBytes σ.mem p (Abi.word (σ.nextFree - b))) σ.nextFree (Abi.word bs.length) := by
    refine wr_word32 (by omega) ?_
    intro x hx1 hx2
    rw [wrBytes_out (by rw [word_length]; omega), hσ.fresh _ hx1]
  rw [hm, e1, e2]
  refine ⟨by rw [setMem_nextFree, hnf, bytes_length, Nat.add_comm 32], ?_, hx.alloc.setMem, hx.size, hmx, hx.reader, hx.host⟩
  show copyBytes _ _ _ _ = _
  unfold Abi.bytes
  rw [wrBytes_append, word_length, wr_pad, copyBytes_wr]
  · refine Eq.trans ?_ h4
    apply List.ext_getElem (by simp [rdBytes_length])
    intro i h5 h6
    rw [rdBytes_length] at h5
    rw [rdBytes_getElem, rdBytes_getElem, wrBytes_out (by omega), wrBytes_out (by omega)]
  · intro x hx
    rw [wrBytes_out (by rw [word_length]; omega), wrBytes_out (by rw [word_length]; omega), hσ.fresh _ (by omega)]

theorem MTy.size_pos (t : MTy) : 1 ≤ t.size ∧ t.size ≤ 8 := by cases t <;> simp [MTy.size]

theorem headLen_array {t : MTy} {f : Bytes} {lim : Nat} {g : Nat → Nat} : ∀ {vs : List Val},
    (∀ i (h : i < vs.length), Rep f lim t vs[i] (g i)) → headLen vs = vs.length * t.headSize := by
  intro vs
  induction vs generalizing g with
  | nil => intro _; rw [headLen]; simp
  | cons v vs ih =>
    intro h
    have h0 := (h 0 (by simp)).hd_length 0
    rw [Rt.hd_length] at h0
    simp only [List.getElem_cons_zero] at h0
    rw [headLen_cons, h0, ih (g := fun i => g (i + 1)) (fun i hi => by
      have := h (i + 1) (by simp; omega)
      simpa using this), List.length_cons, Nat.succ_mul, Nat.add_comm]

set_option maxHeartbeats 4000000 in
theorem packVec_spec {t : MTy} {vs : List Val} {lim w p b : Nat} {inner : List Instr}
    (hin : PackOk t inner 8 3 4) (hr : Rep σ.mem lim (.vec t) (.array vs) w)
    (hp : PackPre σ lim p 32 b) (hroom : Room σ (enc (.array vs)).length) :
    (packVec t.size t.headSize inner).Calls [w, p, b] σ (fun r σ' => r = [] ∧
      Packed σ σ' p (Abi.word (σ.nextFree - b)) (enc (.array vs))) := by
  rw [Rep] at hr
  obtain ⟨h1, h2, h3⟩ := hr
  have hhl := headLen_array h3
  have hcl : (enc (.array vs)).length = 32 + vs.length * t.headSize + (tails vs).length := by
    rw [enc, List.length_append, List.length_append, word_length, heads_length, hhl]; omega
  rw [hcl] at hroom
  have hσ := hp.heap
  have hroom1 := hroom.1
  have hsz := hp.size
  have hlim := hp.lim
  have hbase := hp.base
  have hfit := hp.fits
  have hz := hp.zero
  have hc : CanAlloc σ (vs.length * t.headSize + 32) := hroom.canAlloc hσ.alloc (by omega)
  have hx := hσ.allocated hc
  have hain := allocated_inside hσ.alloc hc
  have hsl := hx.alloc.size_lt
  have hts := t.size_pos
  have hlen : vs.length < 2 ^ 32 := by rw [← h2]; exact leNat_lt4 _ _
  refine ⟨rfl, ?_⟩
  unfold packVec skipVecHeader
  simp only [List.cons_append, List.nil_append, List.replicate]
  wstep
  rw [h2]
  have hmul : vs.length * t.headSize % 4294967296 = vs.length * t.headSize := Nat.mod_eq_of_lt (by omega)
  rw [Nat.mul_mod_mod, hmul, Nat.mod_eq_of_lt (show vs.length * t.headSize + 32 < 4294967296 by omega)]
  refine wp_alloc hσ hc ?_
  have hm := hσ.allocated_mem (n := vs.length * t.headSize + 32)
  have hnf : (allocated σ (vs.length * t.headSize + 32)).nextFree =
    σ.nextFree + (vs.length * t.headSize + 32) := allocated_nextFree
  have hmx : (allocated σ (vs.length * t.headSize + 32)).maxPages = σ.maxPages := allocated_maxPages
  generalize allocated σ (vs.length * t.headSize + 32) = σ1 at *
  wstep
  refine wp_call2 (packU32_spec (by omega)) ?_
  rintro r σ' ⟨rfl, rfl⟩
  wstep
  refine wp_call2 (packU32_spec (by simp; omega)) ?_
  rintro r σ' ⟨rfl, rfl⟩
  have e1 : putBe σ.mem (p + 28) 4 (σ.nextFree - b) = wrBytes σ.mem p (Abi.word (σ.nextFree - b)) :=
    wr_word32 (by omega) hz
  have e2 : putBe (wrBytes σ.mem p (Abi.word (σ.nextFree - b))) (σ.nextFree + 28) 4 vs.length =
      wrBytes (wrBytes σ.mem p (Abi.word (σ.nextFree - b))) σ.nextFree (Abi.word vs.length) := by
    refine wr_word32 (by omega) ?_
    intro x hx1 hx2
    rw [wrBytes_out (by rw [word_length]; omega), hσ.fresh _ hx1]
  rw [setMem_mem, hm, e1, e2, setMem_setMem]
  have hwl : (Abi.word (σ.nextFree - b)).length = 32 := word_length _
  have hwl2 : (Abi.word vs.length).length = 32 := word_length _
  generalize hM : wrBytes (wrBytes σ.mem p (Abi.word (σ.nextFree - b))) σ.nextFree (Abi.word vs.length) = M
  have hMlt : ∀ x, x < lim → M x = σ.mem x := by
    intro x hx
    rw [← hM, wrBytes_out (by omega), wrBytes_out (by omega)]
  have hMge : ∀ x, σ.nextFree + 32 ≤ x → M x = 0 := by
    intro x hx
    rw [← hM, wrBytes_out (by omega), wrBytes_out (by omega), hσ.fresh _ (by omega)]
  have hres := hp.res
  have hh2 : Heap (σ1.setMem M) := by
    refine ⟨⟨hx.alloc.first, hx.alloc.size_lt, ?_⟩, hx.alloc.setMem, by
      have := hσ.base; simp; omega, fun x hx => hMge x (by rw [setMem_nextFree] at hx; omega)⟩
    unfold reserved at hres
    unfold errWord abortPtr
    rw [setMem_mem, leNat_congr (g := σ.mem)]
    · exact hσ.ready.noErr
    · intro x h1 h2
      rw [← hM, wrBytes_out (by omega), wrBytes_out (by omega)]
  have hroom2 : Room (σ1.setMem M) (tails vs).length :=
    Room.after (k := vs.length * t.headSize + 32) (by rw [Nat.add_comm _ 32]; exact hroom)
      (by rw [setMem_nextFree, hnf]) hmx
  generalize hS : σ1.setMem M = S at *
  have hSm : S.mem = M := by rw [← hS]; rfl
  have hSn : S.nextFree = σ.nextFree + (vs.length * t.headSize + 32) := by rw [← hS]; exact hnf
  -- what remains to be shown
  have fin : ∀ σ', Packed S σ' (σ.nextFree + 32) (heads (headLen vs) vs) (tails vs) →
      Packed σ σ' p (Abi.word (σ.nextFree - b)) (enc (.array vs)) := by
    intro σ' h
    refine ⟨by rw [h.nextFree, hSn, hcl]; omega, ?_, h.alloc,
      Nat.le_trans hx.size (by rw [← hS] at h; exact h.size), ?_, ?_, ?_⟩
    · rw [h.mem, hSm, ← hM, enc, wrBytes_append, wrBytes_append, hwl2, heads_length, hSn, hhl]
      congr 1; omega
    · rw [h.maxPages, ← hS]; exact hmx
    · rw [h.reader, ← hS]; exact hx.reader
    · rw [h.host, ← hS]; exact hx.host
  wstep
  refine .intro (fun h0 => ?_) (fun h0 => ?_)
  · have : vs = [] := List.length_eq_zero_iff.mp h0
    subst this
    refine fin _ ?_
    rw [heads, tails]; exact Packed.refl hh2.alloc _
  · have hhs : t.headSize ≤ vs.length * t.headSize := Nat.le_mul_of_pos_left _ (by omega)
    refine wp_loop (fun m l σ' => ∃ i j, m + i + 1 = vs.length ∧
      l = [w + 8 + i * t.size, p, b, σ.nextFree + 32 + i * t.headSize, σ.nextFree + 32, vs.length,
        σ.nextFree - b, i, j] ∧
      Packed S σ' (σ.nextFree + 32) (heads (headLen vs) (vs.take i)) (tails (vs.take i)))
      (vs.length - 1) ⟨0, 0, by omega, by simp, by
        rw [List.take_zero, heads, tails]; exact Packed.refl hh2.alloc _⟩ ?_
    rintro m l σ' ⟨i, j, hi, rfl, hpk⟩
    have hi1 : (i + 1) * t.size ≤ vs.length * t.size := Nat.mul_le_mul_right _ (by omega)
    have hi2 : (i + 1) * t.headSize ≤ vs.length * t.headSize := Nat.mul_le_mul_right _ (by omega)
    have e3 : (i + 1) * t.size = i * t.size + t.size := Nat.succ_mul _ _
    have e4 : (i + 1) * t.headSize = i * t.headSize + t.headSize := Nat.succ_mul _ _
    have hhl1 : (heads (headLen vs) (vs.take i)).length = i * t.headSize := by
      rw [heads_length, headLen_array (t := t) (f := σ.mem) (lim := lim)
        (g := fun i => leNat σ.mem (w + 8 + i * t.size) t.size), List.length_take,
        Nat.min_eq_left (by omega)]
      intro k hk
      rw [List.length_take] at hk
      rw [List.getElem_take]; exact h3 k (by omega)
    have hne : vs.take (i + 1) = vs.take i ++ [vs[i]] := List.take_succ_eq_append_getElem (by omega)
    have hlow : ∀ x, x < lim → σ'.mem x = σ.mem x := by
      intro x hx
      rw [hpk.mem_out (by omega) (by omega), hSm, hMlt x hx]
    have hh' : Heap σ' := hpk.heap hh2 (by omega) (by rw [hhl1]; omega)
    have hn' := hpk.nextFree
    have hs' := hh'.alloc.nextFree_le
    have hs2 := hh'.alloc.size_lt
    wstep
    have hrep : Rep σ'.mem lim t vs[i] (leNat σ'.mem (w + 8 + i * t.size) t.size) := by
      rw [leNat_congr (g := σ.mem) (fun x _ hx => hlow x (by omega))]
      exact Rep.congr hlow t (h3 i (by omega))
    have htl : (tails vs).length = (tails (vs.take i)).length + ((tl vs[i]).length +
        (tails (vs.drop (i + 1))).length) := by
      conv_lhs => rw [← List.take_append_drop i vs, List.drop_eq_getElem_cons (by omega : i < vs.length)]
      rw [tails_append, tails_cons, List.length_append, List.length_append]
    refine hin vs[i] lim σ' _ _ _ _ hrep ?_ ?_ ?_
    · refine ⟨hh', ?_, ?_, ?_, ?_, ?_⟩
      · wstep; omega
      · wstep; omega
      · wstep; omega
      · intro x hx1 hx2
        replace hx1 : σ.nextFree + 32 + i * t.headSize ≤ x := hx1
        replace hx2 : x < σ.nextFree + 32 + i * t.headSize + t.headSize := hx2
        rw [hpk.mem_out (by rw [hhl1]; omega) (by omega), hSm, hMge _ (by omega)]
      · wstep; omega
    · exact hpk.room (by rw [← Nat.add_zero (List.length _ + _)]; exact hroom2.mono (by omega))
    · intro σ2 hp2
      replace hp2 : Packed σ' σ2 (σ.nextFree + 32 + i * t.headSize)
        (hd (σ'.nextFree - (σ.nextFree + 32)) vs[i]) (tl vs[i]) := hp2
      have hhd := hrep.hd_length (σ'.nextFree - (σ.nextFree + 32))
      have hall : Packed S σ2 (σ.nextFree + 32) (heads (headLen vs) (vs.take (i + 1)))
          (tails (vs.take (i + 1))) := by
        rw [hne, heads_append, tails_append, heads_one, tails_one]
        rw [show σ'.nextFree - (σ.nextFree + 32) = headLen vs + (tails (vs.take i)).length by
          rw [hhl]; omega] at hp2 hhd
        exact hpk.trans (by rw [hhl1]; exact hp2) (by rw [hhl1, hhd]; omega)
      wstep
      refine .intro (fun hlt => ?_) (fun hlt => ?_)
      · refine ⟨m - 1, by omega, i + 1, leNat σ'.mem (w + 8 + i * t.size) t.size, by omega, ?_, hall⟩
        rw [e3, e4, Nat.add_assoc, Nat.add_assoc _ _ t.headSize]
      · refine fin _ ?_
        rw [List.take_of_length_le (by omega)] at hall
        exact hall


/-- Specification of the code packing the fields `ts` of a struct, pointers from `w + 4 * i`;
`B` is the base of offsets. -/
def PackFsOk (ts : List MTy) (i : Nat) (code : List Instr) : Prop :=
  ∀ (vs : List Val) (lim w p0 b0 nest a4 a5 a6 d a8 B : Nat) (σ : Store) (Q : Store → Prop),
    RepFs σ.mem lim ts vs (w + 4 * i) → PackPre σ lim d (MTy.encSizeFs ts) B →
    Room σ (tails vs).length → (nest ≠ 0 → a8 = B) → (nest = 0 → b0 = B) → w < 2 ^ 32 →
    (∀ σ', Packed σ σ' d (heads (σ.nextFree - B) vs) (tails vs) → Q σ') →
    wp code [] [w, p0, b0, nest, a4, a5, a6, d, a8] σ (retK 0 (fun r σ' => r = [] ∧ Q σ'))

theorem MTy.encSizeFs_cons (t : MTy) (ts : List MTy) :
    MTy.encSizeFs (t :: ts) = t.headSize + MTy.encSizeFs ts := by rw [MTy.encSizeFs]; rfl

theorem packFs_nil {i : Nat} : PackFsOk [] i [] := by
  intro vs lim w p0 b0 nest a4 a5 a6 d a8 B σ Q hr hp hroom h1 h2 hw hQ
  cases vs with
  | cons => rw [RepFs] at hr; exact absurd hr id; all_goals simp
  | nil =>
    rw [wp_nil]
    refine ⟨rfl, hQ σ ?_⟩
    rw [heads, tails]; exact Packed.refl hp.heap.alloc _

theorem fieldLocal_cases (t : MTy) : (t.fieldLocal = 4 ∨ t.fieldLocal = 5) := by
  cases t <;> simp [MTy.fieldLocal]

set_option maxHeartbeats 4000000 in
theorem packFs_cons {t : MTy} {ts : List MTy} {i : Nat} {c1 c2 : List Instr}
    (ht : PackOk t c1 t.fieldLocal 7 8) (hts : PackFsOk ts (i + 1) c2) :
    PackFsOk (t :: ts) i (loadField t i ++ c1 ++
      code[Op.c32 t.headSize, Op.lget 7, Op.bin .w32 .add, Op.lset 7] ++ c2) := by
  intro vs lim w p0 b0 nest a4 a5 a6 d a8 B σ Q hr hp hroom h1 h2 hw hQ
  cases vs with
  | nil => rw [RepFs] at hr; exact absurd hr id; all_goals simp
  | cons v vs =>
    rw [RepFs] at hr
    obtain ⟨r1, r2, r3, r4⟩ := hr
    have hfit := hp.fits
    rw [MTy.encSizeFs_cons] at hfit
    have hsz := hp.size
    have hlim := hp.lim
    have hnf := hp.heap.alloc.nextFree_le
    rw [tails_cons, List.length_append] at hroom
    -- the rest, after loading the field into its local
    have key : ∀ a4' a5', lget [w, p0, b0, nest, a4', a5', a6, d, B] t.fieldLocal =
        (if t.isScalar then leNat σ.mem (leNat σ.mem (w + 4 * i) 4) t.size else leNat σ.mem (w + 4 * i) 4) →
        wp (c1 ++ (code[Op.c32 t.headSize, Op.lget 7, Op.bin .w32 .add, Op.lset 7] ++ c2)) []
          [w, p0, b0, nest, a4', a5', a6, d, B] σ (retK 0 (fun r σ' => r = [] ∧ Q σ')) := by
      intro a4' a5' hl
      have hrep : Rep σ.mem lim t v (lget [w, p0, b0, nest, a4', a5', a6, d, B] t.fieldLocal) := by
        rw [hl]; exact r3
      refine ht v lim σ _ _ _ _ hrep ?_ (hroom.mono (by omega)) ?_
      · refine ⟨hp.heap, hp.res, hp.lim, ?_, ?_, hp.base⟩
        · wstep; omega
        · intro x hx1 hx2
          refine hp.zero x hx1 ?_
          rw [MTy.encSizeFs_cons]
          replace hx2 : x < d + t.headSize := hx2
          omega
      · intro σ1 hp1
        replace hp1 : Packed σ σ1 d (hd (σ.nextFree - B) v) (tl v) := hp1
        have hhd := hrep.hd_length (σ.nextFree - B)
        have hb := hp.base
        have hn1 := hp1.nextFree
        simp only [List.cons_append, List.nil_append]
        wstep
        rw [Nat.add_comm _ d]
        refine hts vs lim w p0 b0 nest a4' a5' a6 (d + t.headSize) B B σ1 Q ?_ ?_ ?_ (fun _ => rfl) h2 hw ?_
        · refine RepFs.congr ?_ ts (by rw [Nat.mul_add, ← Nat.add_assoc]; exact r4)
          intro x hx
          exact hp1.mem_out (by omega) (by omega)
        · refine ⟨hp1.heap hp.heap hp.res (by omega), ?_, by omega, by omega, ?_, by omega⟩
          · have := hp.res; omega
          · intro x hx1 hx2
            rw [hp1.mem_out (by omega) (by omega)]
            exact hp.zero x (by omega) (by rw [MTy.encSizeFs_cons]; omega)
        · exact hp1.room hroom
        · intro σ2 hp2
          refine hQ σ2 ?_
          rw [heads_cons, tails_cons]
          refine hp1.trans ?_ ?_
          · rw [hhd, show σ.nextFree - B + (tl v).length = σ1.nextFree - B by omega]
            exact hp2
          · rw [hhd, heads_length, (RepFs.shape ts r4).2.1]; omega
    have hB : nest = 0 ∨ nest ≠ 0 := by omega
    unfold loadField
    cases hsc : t.isScalar with
    | false =>
      have hfl : t.fieldLocal = 4 := by cases t <;> simp_all [MTy.fieldLocal, MTy.isScalar]
      rw [hfl, hsc] at key
      simp only [hfl, List.append_assoc, List.cons_append, List.nil_append, Bool.false_eq_true, if_false]
      wstep
      refine .intro (fun hn => ?_) (fun hn => ?_)
      · rw [h1 hn]; exact key _ _ rfl
      · rw [h2 (by omega)]; rw [h2 (by omega)] at key; exact key _ _ rfl
    | true =>
      have hr2 := r2 hsc
      rcases fieldLocal_cases t with hfl | hfl
      all_goals
        rw [hfl, hsc] at key
        simp only [hfl, List.append_assoc, List.cons_append, List.nil_append, if_true]
        wstep
        refine .intro (fun hn => ?_) (fun hn => ?_)
        · rw [h1 hn]; exact key _ _ rfl
        · rw [h2 (by omega)]; rw [h2 (by omega)] at key; exact key _ _ rfl

theorem heads_static {vs : List Val} (h : anyDyn vs = false) (off off' : Nat) :
    heads off vs = heads off' vs := by
  induction vs generalizing off off' with
  | nil => rw [heads, heads]
  | cons v vs ih =>
    rw [anyDyn, Bool.or_eq_false_iff] at h
    rw [heads_cons, heads_cons, ih h.2 _ (off' + (tl v).length)]
    unfold hd; rw [h.1]; rfl

theorem tails_static {vs : List Val} (h : anyDyn vs = false) : tails vs = [] := by
  induction vs with
  | nil => rw [tails]
  | cons v vs ih =>
    rw [anyDyn, Bool.or_eq_false_iff] at h
    rw [tails_cons, ih h.2]; unfold tl; rw [h.1]; rfl

set_option maxHeartbeats 4000000 in
theorem packStruct_spec {fs : List MTy} {vs : List Val} {lim w p b : Nat} {c : List Instr}
    (hc : PackFsOk fs 0 c) (hr : Rep σ.mem lim (.struct fs) (.tuple vs) w)
    (hp : PackPre σ lim p (MTy.headSize (.struct fs)) b) (hroom : Room σ (tl (.tuple vs)).length) :
    (packStruct (MTy.encSizeFs fs) c).Calls [w, p, b, if MTy.dynFs fs then 1 else 0] σ
      (fun r σ' => r = [] ∧ Packed σ σ' p (hd (σ.nextFree - b) (.tuple vs)) (tl (.tuple vs))) := by
  rw [Rep] at hr
  have hw : w < 2 ^ 32 := by have := hr.1; have := hp.lim; have := hp.size; omega
  replace hr := hr.2
  obtain ⟨s1, s2, s3⟩ := RepFs.shape fs hr
  have hσ := hp.heap
  refine ⟨rfl, ?_⟩
  unfold packStruct
  simp only [List.cons_append, List.nil_append, List.replicate]
  cases hd : MTy.dynFs fs with
  | false =>
    have hdv : dyn (.tuple vs) = false := by rw [dyn, s1, hd]
    have hhs : MTy.headSize (.struct fs) = MTy.encSizeFs fs := by
      unfold MTy.headSize; rw [MTy.dyn, hd, MTy.encSize]; rfl
    rw [hhs] at hp
    unfold Rt.hd Rt.tl at *
    rw [hdv] at hroom ⊢
    simp only [Bool.false_eq_true, if_false] at hroom ⊢
    wstep
    refine hc vs lim w p b 0 0 0 0 p 0 b σ _ (by simpa using hr) hp (by rw [s3 hd]; exact hroom) (by simp)
      (fun _ => rfl) hw ?_
    intro σ' h
    rw [enc, heads_static (by rw [s1, hd]) _ (σ.nextFree - b), s3 hd, List.append_nil]
    rw [s3 hd] at h
    exact h
  | true =>
    have hdv : dyn (.tuple vs) = true := by rw [dyn, s1, hd]
    have hhs : MTy.headSize (.struct fs) = 32 := by
      unfold MTy.headSize; rw [MTy.dyn, hd]; rfl
    rw [hhs] at hp
    unfold Rt.hd Rt.tl at *
    rw [hdv] at hroom ⊢
    simp only [if_true] at hroom ⊢
    have hcl : (enc (.tuple vs)).length = MTy.encSizeFs fs + (tails vs).length := by
      rw [enc, List.length_append, heads_length, s2]
    rw [hcl] at hroom
    have hroom1 := hroom.1
    have hsz := hp.size
    have hlim := hp.lim
    have hbase := hp.base
    have hfit := hp.fits
    have hz := hp.zero
    have hca : CanAlloc σ (MTy.encSizeFs fs) := hroom.canAlloc hσ.alloc (by omega)
    have hx := hσ.allocated hca
    have hain := allocated_inside hσ.alloc hca
    have hsl := hx.alloc.size_lt
    wstep
    refine wp_alloc hσ hca ?_
    have hm := hσ.allocated_mem (n := MTy.encSizeFs fs)
    have hnf : (allocated σ (MTy.encSizeFs fs)).nextFree = σ.nextFree + MTy.encSizeFs fs := allocated_nextFree
    have hmx : (allocated σ (MTy.encSizeFs fs)).maxPages = σ.maxPages := allocated_maxPages
    generalize allocated σ (MTy.encSizeFs fs) = σ1 at *
    wstep
    refine wp_call2 (packU32_spec (by omega)) ?_
    rintro r σ' ⟨rfl, rfl⟩
    have e1 : putBe σ.mem (p + 28) 4 (σ.nextFree - b) = wrBytes σ.mem p (Abi.word (σ.nextFree - b)) :=
      wr_word32 (by omega) hz
    have hwl : (Abi.word (σ.nextFree - b)).length = 32 := word_length _
    rw [hm, e1]
    wstep
    have hres := hp.res
    have hh2 : Heap (σ1.setMem (wrBytes σ.mem p (Abi.word (σ.nextFree - b)))) := by
      refine ⟨⟨hx.alloc.first, hx.alloc.size_lt, ?_⟩, hx.alloc.setMem, by
        have := hσ.base; simp; omega, fun x hx => ?_⟩
      · unfold reserved at hres
        unfold errWord abortPtr
        rw [setMem_mem, leNat_congr (g := σ.mem)]
        · exact hσ.ready.noErr
        · intro x h1 h2
          rw [wrBytes_out (by omega)]
      · rw [setMem_nextFree] at hx
        rw [setMem_mem, wrBytes_out (by omega), hσ.fresh _ (by omega)]
    refine hc vs lim w p b 1 0 0 (σ.nextFree - b) σ.nextFree σ.nextFree σ.nextFree _ _ ?_ ?_ ?_
      (fun _ => rfl) (by simp) hw ?_
    · refine RepFs.congr ?_ fs (by simpa using hr)
      intro x hx
      rw [setMem_mem, wrBytes_out (by omega)]
    · refine ⟨hh2, hσ.base, by omega, by rw [setMem_nextFree, hnf], ?_, by rw [setMem_nextFree]; omega⟩
      intro x h1 h2
      rw [setMem_mem, wrBytes_out (by omega), hσ.fresh _ (by omega)]
    · exact Room.after hroom (by rw [setMem_nextFree, hnf]) hmx
    · intro σ' h
      have hn := h.nextFree
      rw [setMem_nextFree, hnf] at hn
      refine ⟨by rw [hn, hcl]; omega, ?_, h.alloc, Nat.le_trans hx.size h.size, h.maxPages.trans hmx,
        h.reader.trans hx.reader, h.host.trans hx.host⟩
      rw [h.mem, setMem_mem, setMem_nextFree, hnf, enc, wrBytes_append, heads_length, s2,
        Nat.add_sub_cancel_left]

set_option maxHeartbeats 4000000 in
mutual
/-- Packing code is correct for every type. -/
theorem packT_ok (t : MTy) {pv pc : Instr} (hpv : PropOk pv) (hpc : PropOk pc)
    (il iw ib : Nat) : PackOk t (packT E pv pc il iw ib t) il iw ib := by
  intro v lim σ l s is Q hr hp hroom hQ
  have hs := hp.size
  have hlim := hp.lim
  match t, v, hr with
  | .bool, .word n, hr =>
    rw [Rep] at hr
    have hp' : PackPre σ lim (lget l iw) 32 (lget l ib) := hp
    rw [packT]; simp only [List.cons_append, List.nil_append]
    wstep
    refine wp_call2 (packU32_spec (by have := hp'.size; omega)) ?_
    rintro r σ' ⟨rfl, rfl⟩
    wstep
    refine hQ _ ?_
    rw [hr.1]
    exact Packed.word hp.heap (by omega) rfl hp'.zero
  | .u8, .word n, hr =>
    rw [Rep] at hr
    have hp' : PackPre σ lim (lget l iw) 32 (lget l ib) := hp
    rw [packT]; simp only [List.cons_append, List.nil_append]
    wstep
    refine wp_call2 (packU32_spec (by have := hp'.size; omega)) ?_
    rintro r σ' ⟨rfl, rfl⟩
    wstep
    refine hQ _ ?_
    rw [hr.1]
    exact Packed.word hp.heap (by omega) rfl hp'.zero
  | .u16, .word n, hr =>
    rw [Rep] at hr
    have hp' : PackPre σ lim (lget l iw) 32 (lget l ib) := hp
    rw [packT]; simp only [List.cons_append, List.nil_append]
    wstep
    refine wp_call2 (packU32_spec (by have := hp'.size; omega)) ?_
    rintro r σ' ⟨rfl, rfl⟩
    wstep
    refine hQ _ ?_
    rw [hr.1]
    exact Packed.word hp.heap (by omega) rfl hp'.zero
  | .u32, .word n, hr =>
    rw [Rep] at hr
    have hp' : PackPre σ lim (lget l iw) 32 (lget l ib) := hp
    rw [packT]; simp only [List.cons_append, List.nil_append]
    wstep
    refine wp_call2 (packU32_spec (by have := hp'.size; omega)) ?_
    rintro r σ' ⟨rfl, rfl⟩
    wstep
    refine hQ _ ?_
    rw [hr.1]
    exact Packed.word hp.heap (by omega) rfl hp'.zero
  | .u64, .word n, hr =>
    rw [Rep] at hr
    have hp' : PackPre σ lim (lget l iw) 32 (lget l ib) := hp
    rw [packT]; simp only [List.cons_append, List.nil_append]
    wstep
    refine wp_call2 (packU64_spec (by omega) (by have := hp'.size; omega)) ?_
    rintro r σ' ⟨rfl, rfl⟩
    wstep
    refine hQ _ ?_
    rw [hr.1]
    exact Packed.word hp.heap (by omega) rfl hp'.zero
  | .u128, .word n, hr =>
    rw [Rep] at hr
    have hp' : PackPre σ lim (lget l iw) 32 (lget l ib) := hp
    rw [packT]; simp only [List.cons_append, List.nil_append]
    wstep
    refine wp_call2 (packU128_spec (by omega) (by have := hp'.size; omega)) ?_
    rintro r σ' ⟨rfl, rfl⟩
    wstep
    refine hQ _ ?_
    rw [← hr.2]
    exact Packed.word hp.heap (leNat_lt _ _ _) rfl hp'.zero
  | .u256, .word n, hr =>
    rw [Rep] at hr
    have hp' : PackPre σ lim (lget l iw) 32 (lget l ib) := hp
    rw [packT]; simp only [List.cons_append, List.nil_append]
    wstep
    refine wp_call2 (packU256_spec (by omega) (by have := hp'.size; omega)) ?_
    rintro r σ' ⟨rfl, rfl⟩
    wstep
    refine hQ _ ?_
    rw [← hr.2]
    exact Packed.word (m := 0) hp.heap (leNat_lt _ _ _) rfl hp'.zero
  | .address, .word n, hr =>
    rw [Rep] at hr
    have hp' : PackPre σ lim (lget l iw) 32 (lget l ib) := hp
    rw [packT]; simp only [List.cons_append, List.nil_append]
    wstep
    refine wp_call2 (packAddress_spec (by omega) (by have := hp'.size; omega)) ?_
    rintro r σ' ⟨rfl, rfl⟩
    wstep
    refine hQ _ ?_
    rw [← hr.2]
    exact Packed.word (m := 0) hp.heap (beNat_lt _ _ _) rfl hp'.zero
  | .enum k, .word n, hr =>
    rw [Rep] at hr
    have hp' : PackPre σ lim (lget l iw) 32 (lget l ib) := hp
    rw [packT]; simp only [List.cons_append, List.nil_append]
    wstep
    refine wp_call2 (packEnum_spec (by omega) (by have := hp'.size; omega) (by omega)) ?_
    rintro r σ' ⟨rfl, rfl⟩
    have hk := Packed.word (p := lget l iw) (v := leNat σ.mem (lget l il) 4) (n := 4) (m := 28) hp.heap
      (leNat_lt _ _ _) rfl hp'.zero
    have hh := hk.heap hp.heap hp.res (by rw [word_length]; exact hp'.fits)
    refine hpc _ _ _ _ _ (by have := hh.ready.size; omega) hh.ready.noErr ?_
    refine hQ _ ?_
    rw [← hr.2.1]
    exact hk
  | .string, .bytes bs, hr =>
    have hp' : PackPre σ lim (lget l iw) 32 (lget l ib) := hp
    rw [packT]; simp only [List.cons_append, List.nil_append]
    wstep
    refine wp_call3 (packString_spec hr hp' hroom) ?_
    rintro r σ' ⟨rfl, h⟩
    exact hQ _ h
  | .vec t, .array vs, hr =>
    have hp' : PackPre σ lim (lget l iw) 32 (lget l ib) := hp
    rw [packT]; simp only [List.cons_append, List.nil_append]
    wstep
    refine wp_call3 (packVec_spec (packT_ok t (propagate_ok .none) (propagate_ok .none) 8 3 4) hr hp' hroom) ?_
    rintro r σ' ⟨rfl, h⟩
    have hh := h.heap hp.heap hp.res (by rw [word_length]; exact hp'.fits)
    exact hpv _ _ _ _ _ (by have := hh.ready.size; omega) hh.ready.noErr (hQ _ h)
  | .struct fs, .tuple vs, hr =>
    rw [packT]; simp only [List.cons_append, List.nil_append]
    wstep
    have hb : (if MTy.dynFs fs = true then 1 else 0) % 4294967296 =
      if MTy.dynFs fs = true then 1 else 0 := by split_ifs <;> rfl
    rw [hb]
    refine wp_call4 (packStruct_spec (packFs_ok fs 0) hr hp hroom) ?_
    rintro r σ' ⟨rfl, h⟩
    have hh := h.heap hp.heap hp.res (by rw [Rep.hd_length hr]; exact hp.fits)
    exact hpc _ _ _ _ _ (by have := hh.ready.size; omega) hh.ready.noErr (hQ _ h)
theorem packFs_ok (ts : List MTy) (i : Nat) : PackFsOk ts i (packFs E i ts) := by
  match ts with
  | [] => rw [packFs]; exact packFs_nil
  | t :: ts =>
    rw [packFs]
    exact packFs_cons (packT_ok t (propagate_ok .none) (propagate_ok .none) _ 7 8) (packFs_ok ts (i + 1))
end

end Rt
