import Verif.Proof.Errors
import Verif.Proof.Equality
import Verif.Rt.Rep

/-! ABI packing. -/

namespace Rt
open Wasm Abi

variable {σ σ' σ'' : Store} {E : ErrPtrs}

/-- Fresh memory being zero, allocation does not change the contents of memory. -/
theorem Heap.allocated_mem (h : Heap σ) {n : Nat} : (Rt.allocated σ n).mem = σ.mem := by
  funext x
  by_cases hx : σ.nextFree ≤ x
  · rw [h.allocated_zero hx, h.fresh x hx]
  · have := h.alloc.nextFree_le
    exact allocated_mem_lt (by omega)

theorem wrBytes_nil (f : Bytes) (a : Nat) : wrBytes f a [] = f := by
  funext x; exact wrBytes_out (by simp; omega)

theorem wrBytes_congr {f g : Bytes} {a x : Nat} {l : List UInt8} (h : f x = g x) :
    wrBytes f a l x = wrBytes g a l x := by
  unfold wrBytes; split_ifs
  · rfl
  · exact h

/-- Writes to disjoint ranges commute. -/
theorem wrBytes_comm {f : Bytes} {a b : Nat} {l m : List UInt8}
    (h : a + l.length ≤ b ∨ b + m.length ≤ a) :
    wrBytes (wrBytes f a l) b m = wrBytes (wrBytes f b m) a l := by
  funext x
  by_cases h1 : a ≤ x ∧ x < a + l.length
  · rw [wrBytes_out (f := wrBytes f a l) (by omega)]
    unfold wrBytes; rw [if_pos h1, if_pos h1]
  · rw [wrBytes_out (f := wrBytes f b m) (l := l) (by omega)]
    exact wrBytes_congr (wrBytes_out (by omega))

theorem wr_word (f : Bytes) (p v : Nat) : wrBytes f p (word v) = putBe f p 32 v := by
  funext x
  by_cases h : p ≤ x ∧ x < p + 32
  · obtain ⟨i, rfl⟩ : ∃ i, x = p + i := ⟨x - p, by omega⟩
    rw [wrBytes_in (by rw [word_length]; omega), putBe_in h.1 h.2, word_getElem]
    congr 3; omega
  · rw [putBe_out (by omega), wrBytes_out (by rw [word_length]; omega)]

/-- The effect of packing: the head is written at `p`, the tail is appended to the heap. -/
structure Packed (σ σ' : Store) (p : Nat) (hd tl : List UInt8) : Prop where
  nextFree : σ'.nextFree = σ.nextFree + tl.length
  mem : σ'.mem = wrBytes (wrBytes σ.mem p hd) σ.nextFree tl
  alloc : AllocOk σ'
  size : σ.size ≤ σ'.size
  maxPages : σ'.maxPages = σ.maxPages
  reader : σ'.reader = σ.reader
  host : σ'.host = σ.host

theorem Packed.refl (h : AllocOk σ) (p : Nat) : Packed σ σ p [] [] :=
  ⟨rfl, by rw [wrBytes_nil, wrBytes_nil], h, Nat.le_refl _, rfl, rfl, rfl⟩

theorem Packed.trans {p : Nat} {h1 h2 t1 t2 : List UInt8} (h : Packed σ σ' p h1 t1)
    (h' : Packed σ' σ'' (p + h1.length) h2 t2) (hp : p + h1.length + h2.length ≤ σ.nextFree) :
    Packed σ σ'' p (h1 ++ h2) (t1 ++ t2) := by
  refine ⟨by rw [h'.nextFree, h.nextFree, List.length_append]; omega, ?_, h'.alloc,
    Nat.le_trans h.size h'.size, h'.maxPages.trans h.maxPages, h'.reader.trans h.reader,
    h'.host.trans h.host⟩
  rw [h'.mem, h.mem, h.nextFree, wrBytes_append, wrBytes_append,
    wrBytes_comm (f := wrBytes σ.mem p h1) (by omega)]

theorem Packed.heap {p : Nat} {hd tl : List UInt8} (h : Packed σ σ' p hd tl) (hσ : Heap σ)
    (hp : reserved ≤ p) (hp' : p + hd.length ≤ σ.nextFree) : Heap σ' := by
  have hb := hσ.base
  have hn := h.nextFree
  refine ⟨⟨h.alloc.first, h.alloc.size_lt, ?_⟩, h.alloc, by omega, ?_⟩
  · unfold reserved at hp hb
    unfold errWord abortPtr
    rw [h.mem, leNat_congr (g := σ.mem)]
    · exact hσ.ready.noErr
    · intro x h1 h2
      rw [wrBytes_out (by omega), wrBytes_out (by omega)]
  · intro x hx
    rw [h.mem, wrBytes_out (by omega), wrBytes_out (by omega)]
    exact hσ.fresh x (by omega)

/-- Memory that is neither in the head nor above the heap. -/
theorem Packed.mem_out {p : Nat} {hd tl : List UInt8} (h : Packed σ σ' p hd tl) {x : Nat}
    (hx : x < p ∨ p + hd.length ≤ x) (hx' : x < σ.nextFree) : σ'.mem x = σ.mem x := by
  rw [h.mem, wrBytes_out (by omega), wrBytes_out (by omega)]

theorem Packed.room {p m : Nat} {hd tl : List UInt8} (h : Packed σ σ' p hd tl)
    (hr : Room σ (tl.length + m)) : Room σ' m :=
  Room.after hr (by rw [h.nextFree]) h.maxPages

/-- Packing a word. -/
theorem Packed.word {p v n m : Nat} (hσ : Heap σ) (hv : v < 256 ^ n) (hm : m + n = 32)
    (hz : ∀ x, p ≤ x → x < p + 32 → σ.mem x = 0) :
    Packed σ (σ.setMem (putBe σ.mem (p + m) n v)) p (word v) [] := by
  refine ⟨rfl, ?_, hσ.alloc.setMem, Nat.le_refl _, rfl, rfl, rfl⟩
  show putBe σ.mem (p + m) n v = _
  rw [wrBytes_nil, wr_word, putBe_zero_ext hv (fun x h1 h2 => hz x h1 (by omega)), hm]

/-- Calling a function that only computes a value. -/
theorem wp_eval1 {f : Fn} {a v s is l Q} (h : Evaluates f [a] σ v) (hq : wp is (v :: s) l σ Q) :
    wp (f.call :: is) (a :: s) l σ Q := by
  refine wp_call1 h ?_
  rintro r σ' ⟨rfl, h⟩
  rw [h]; exact hq

theorem packU32_spec {v p : Nat} (hp : p + 32 ≤ σ.size) :
    packU32.Calls [v, p] σ (fun r σ' => r = [] ∧ σ' = σ.setMem (putBe σ.mem (p + 28) 4 v)) := by
  refine ⟨rfl, ?_⟩
  unfold packU32
  wstep
  refine wp_eval1 swap32_spec ?_
  wstep
  rw [putLe_bswap]

theorem packU64_spec {v p : Nat} (hv : v < 2 ^ 64) (hp : p + 32 ≤ σ.size) :
    packU64.Calls [v, p] σ (fun r σ' => r = [] ∧ σ' = σ.setMem (putBe σ.mem (p + 24) 8 v)) := by
  refine ⟨rfl, ?_⟩
  unfold packU64
  wstep
  refine wp_eval1 (swap64_spec hv) ?_
  wstep
  rw [putLe_bswap]

theorem putBe_add (f : Bytes) (a m n v : Nat) :
    putBe (putBe f a m (v / 256 ^ n)) (a + m) n v = putBe f a (m + n) v := by
  funext x
  by_cases h1 : a ≤ x ∧ x < a + m
  · rw [putBe_out (by omega), putBe_in h1.1 h1.2, putBe_in h1.1 (by omega), Nat.div_div_eq_div_mul,
      ← Nat.pow_add]
    congr 3; omega
  · by_cases h2 : a + m ≤ x ∧ x < a + m + n
    · rw [putBe_in h2.1 h2.2, putBe_in (by omega) (by omega)]
      congr 3; omega
    · rw [putBe_out (by omega), putBe_out (by omega), putBe_out (by omega)]

theorem putBe_mod (f : Bytes) (a n v : Nat) : putBe f a n (v % 256 ^ n) = putBe f a n v := by
  funext x
  by_cases h : a ≤ x ∧ x < a + n
  · rw [putBe_in h.1 h.2, putBe_in h.1 h.2]
    apply ofNat_congr
    obtain ⟨k, hk⟩ : ∃ k, n = (a + n - 1 - x) + 1 + k := ⟨n - (a + n - 1 - x) - 1, by omega⟩
    generalize a + n - 1 - x = i at *
    subst hk
    rw [Nat.pow_add, Nat.pow_add, Nat.pow_one, Nat.mul_assoc, Nat.mod_mul_right_div_self,
      Nat.mod_mul_right_mod]
  · rw [putBe_out (by omega), putBe_out (by omega)]

/-- Writing a number read little-endian in two parts. -/
theorem putBe_two (f g : Bytes) (a m n w : Nat) :
    putBe (putBe f a m (leNat g (w + n) m)) (a + m) n (leNat g w n) =
      putBe f a (m + n) (leNat g w (n + m)) := by
  rw [← putBe_add, leNat_add, Nat.add_mul_div_left _ _ (by positivity),
    Nat.div_eq_of_lt (leNat_lt _ _ _), Nat.zero_add, ← putBe_mod _ (a + m) n (_ + _),
    Nat.add_mul_mod_self_left, Nat.mod_eq_of_lt (leNat_lt _ _ _)]

theorem packU128_spec {w p : Nat} (hw : w + 16 ≤ p) (hp : p + 32 ≤ σ.size) :
    packU128.Calls [w, p] σ (fun r σ' => r = [] ∧
      σ' = σ.setMem (putBe σ.mem (p + 16) 16 (leNat σ.mem w 16))) := by
  refine ⟨rfl, ?_⟩
  unfold packU128
  wstep
  refine wp_eval1 (swap64_spec (leNat_lt8 _ _)) ?_
  wstep
  refine wp_eval1 (swap64_spec (leNat_lt8 _ _)) ?_
  wstep
  rw [putLe_bswap, putLe_bswap, leNat_putBe_disj (by omega)]
  exact congrArg _ (putBe_two σ.mem σ.mem (p + 16) 8 8 w)

theorem packU256_spec {w p : Nat} (hw : w + 32 ≤ p) (hp : p + 32 ≤ σ.size) :
    packU256.Calls [w, p] σ (fun r σ' => r = [] ∧
      σ' = σ.setMem (putBe σ.mem p 32 (leNat σ.mem w 32))) := by
  refine ⟨rfl, ?_⟩
  unfold packU256
  wstep
  refine wp_eval1 (swap64_spec (leNat_lt8 _ _)) ?_
  wstep
  refine wp_eval1 (swap64_spec (leNat_lt8 _ _)) ?_
  wstep
  refine wp_eval1 (swap64_spec (leNat_lt8 _ _)) ?_
  wstep
  refine wp_eval1 (swap64_spec (leNat_lt8 _ _)) ?_
  wstep
  simp only [putLe_bswap]
  simp only [leNat_putBe_disj (b := w) (m := 8) (f := _) (a := p + 16) (n := 8) (by omega),
    leNat_putBe_disj (b := w + 8) (m := 8) (f := _) (a := p + 8) (n := 8) (by omega),
    leNat_putBe_disj (b := w) (m := 8) (f := _) (a := p + 8) (n := 8) (by omega),
    leNat_putBe_disj (b := w + 8) (m := 8) (f := _) (a := p) (n := 8) (by omega),
    leNat_putBe_disj (b := w + 16) (m := 8) (f := _) (a := p) (n := 8) (by omega),
    leNat_putBe_disj (b := w) (m := 8) (f := _) (a := p) (n := 8) (by omega)]
  have e1 := putBe_two σ.mem σ.mem p 8 8 (w + 16)
  have e2 := putBe_two σ.mem σ.mem p 16 8 (w + 8)
  have e3 := putBe_two σ.mem σ.mem p 24 8 w
  simp only [Nat.add_assoc, Nat.reduceAdd] at e1 e2 e3
  rw [e1, e2, e3]

theorem packAddress_spec {w p : Nat} (hw : w + 32 ≤ p) (hp : p + 32 ≤ σ.size) :
    packAddress.Calls [w, p] σ (fun r σ' => r = [] ∧
      σ' = σ.setMem (putBe σ.mem p 32 (beNat σ.mem w 32))) := by
  refine ⟨rfl, ?_⟩
  unfold packAddress
  wstep
  congr 1
  funext x
  by_cases h : p ≤ x ∧ x < p + 32
  · rw [copyBytes_in h.1 h.2, putBe_in h.1 h.2, beNat_digit _ _ _ _ (by omega)]
    congr 1; omega
  · rw [copyBytes_out (by omega), putBe_out (by omega)]

theorem packEnum_spec {w p : Nat} (hw : w + 4 ≤ p) (hp : p + 32 ≤ σ.size)
    (hk : leNat σ.mem w 4 < 2 ^ 8) :
    (packEnum E).Calls [w, p] σ (fun r σ' => r = [] ∧
      σ' = σ.setMem (putBe σ.mem (p + 28) 4 (leNat σ.mem w 4))) := by
  refine ⟨rfl, ?_⟩
  unfold packEnum; unerr
  wstep
  refine wp_eval1 swap32_spec ?_
  wstep
  rw [putLe_bswap]

/-! ## Encodings -/

/-- Head of a component whose tail would be at `off`. -/
def hd (off : Nat) (v : Val) : List UInt8 := if dyn v then Abi.word off else enc v
/-- Tail of a component. -/
def tl (v : Val) : List UInt8 := if dyn v then enc v else []

theorem heads_cons (off : Nat) (v : Val) (vs : List Val) :
    heads off (v :: vs) = hd off v ++ heads (off + (tl v).length) vs := by
  rw [heads]; unfold hd tl; split_ifs <;> simp

theorem tails_cons (v : Val) (vs : List Val) : tails (v :: vs) = tl v ++ tails vs := by
  rw [tails]; unfold tl; split_ifs <;> simp

theorem hd_length (off : Nat) (v : Val) : (hd off v).length = if dyn v then 32 else (enc v).length := by
  unfold hd; split_ifs
  · exact word_length _
  · rfl

theorem headLen_cons (v : Val) (vs : List Val) :
    headLen (v :: vs) = (if dyn v then 32 else (enc v).length) + headLen vs := by rw [headLen]

theorem heads_length (off : Nat) (vs : List Val) : (heads off vs).length = headLen vs := by
  induction vs generalizing off with
  | nil => rw [heads, headLen]; rfl
  | cons v vs ih => rw [heads_cons, List.length_append, ih, hd_length, headLen_cons]

theorem heads_append (off : Nat) (vs us : List Val) :
    heads off (vs ++ us) = heads off vs ++ heads (off + (tails vs).length) us := by
  induction vs generalizing off with
  | nil => rw [heads, tails]; simp
  | cons v vs ih =>
    rw [List.cons_append, heads_cons, heads_cons, ih, tails_cons, List.length_append,
      List.append_assoc, Nat.add_assoc]

theorem tails_append (vs us : List Val) : tails (vs ++ us) = tails vs ++ tails us := by
  induction vs with
  | nil => rw [tails]; rfl
  | cons v vs ih => rw [List.cons_append, tails_cons, tails_cons, ih, List.append_assoc]

theorem heads_one (off : Nat) (v : Val) : heads off [v] = hd off v := by
  rw [heads_cons, heads, List.append_nil]
theorem tails_one (v : Val) : tails [v] = tl v := by
  rw [tails_cons, tails, List.append_nil]

mutual
/-- The representation only depends on memory below the limit. -/
theorem Rep.congr {f g : Bytes} {lim : Nat} (h : ∀ x, x < lim → g x = f x)
    (t : MTy) {v : Val} {w : Nat} (hr : Rep f lim t v w) : Rep g lim t v w := by
  have hl : ∀ a n, a + n ≤ lim → leNat g a n = leNat f a n :=
    fun a n ha => leNat_congr fun x _ hx => h x (by omega)
  have hb : ∀ a n, a + n ≤ lim → beNat g a n = beNat f a n :=
    fun a n ha => beNat_congr fun x _ hx => h x (by omega)
  match t, v, hr with
  | .bool, .word n, hr => rw [Rep] at hr ⊢; exact hr
  | .u8, .word n, hr => rw [Rep] at hr ⊢; exact hr
  | .u16, .word n, hr => rw [Rep] at hr ⊢; exact hr
  | .u32, .word n, hr => rw [Rep] at hr ⊢; exact hr
  | .u64, .word n, hr => rw [Rep] at hr ⊢; exact hr
  | .u128, .word n, hr => rw [Rep] at hr ⊢; rwa [hl _ _ hr.1]
  | .u256, .word n, hr => rw [Rep] at hr ⊢; rwa [hl _ _ hr.1]
  | .address, .word n, hr => rw [Rep] at hr ⊢; rwa [hb _ _ hr.1]
  | .enum k, .word n, hr => rw [Rep] at hr ⊢; rwa [hl _ _ hr.1]
  | .vec t, .array vs, hr =>
    rw [Rep] at hr ⊢
    obtain ⟨h1, h2, h3⟩ := hr
    refine ⟨h1, by rw [hl _ _ (by omega), h2], fun i hi => ?_⟩
    have : (i + 1) * t.size ≤ vs.length * t.size := Nat.mul_le_mul_right _ hi
    rw [Nat.succ_mul] at this
    rw [hl _ _ (by omega)]
    exact Rep.congr h t (h3 i hi)
  | .struct fs, .tuple vs, hr => rw [Rep] at hr ⊢; exact ⟨hr.1, RepFs.congr h fs hr.2⟩
  | .string, .bytes bs, hr =>
    rw [Rep] at hr ⊢
    obtain ⟨h1, h2, h3, h4⟩ := hr
    rw [hl _ _ h1]
    refine ⟨h1, h2, by rw [hl _ _ (by omega), h3], Eq.trans ?_ h4⟩
    apply List.ext_getElem (by simp [rdBytes_length])
    intro i h5 h6
    rw [rdBytes_length] at h5
    rw [rdBytes_getElem, rdBytes_getElem, h _ (by omega)]
theorem RepFs.congr {f g : Bytes} {lim : Nat} (h : ∀ x, x < lim → g x = f x)
    (ts : List MTy) {vs : List Val} {w : Nat} (hr : RepFs f lim ts vs w) : RepFs g lim ts vs w := by
  have hl : ∀ a n, a + n ≤ lim → leNat g a n = leNat f a n :=
    fun a n ha => leNat_congr fun x _ hx => h x (by omega)
  match ts, vs, hr with
  | [], [], hr => rw [RepFs] at hr ⊢; exact hr
  | t :: ts, v :: vs, hr =>
    rw [RepFs] at hr ⊢
    obtain ⟨h1, h2, h3, h4⟩ := hr
    rw [hl _ _ h1]
    refine ⟨h1, h2, ?_, RepFs.congr h ts h4⟩
    have := Rep.congr h t h3
    split_ifs at this ⊢ with hs
    · rwa [hl _ _ (h2 hs)]
    · exact this
end

mutual
/-- The encoding of a value has the shape its type promises. -/
theorem Rep.shape {f : Bytes} {lim : Nat} (t : MTy) {v : Val} {w : Nat} (hr : Rep f lim t v w) :
    dyn v = t.dyn ∧ (t.dyn = false → (enc v).length = t.encSize) := by
  match t, v, hr with
  | .bool, .word n, hr => simp [dyn, MTy.dyn, enc, MTy.encSize, word_length]
  | .u8, .word n, hr => simp [dyn, MTy.dyn, enc, MTy.encSize, word_length]
  | .u16, .word n, hr => simp [dyn, MTy.dyn, enc, MTy.encSize, word_length]
  | .u32, .word n, hr => simp [dyn, MTy.dyn, enc, MTy.encSize, word_length]
  | .u64, .word n, hr => simp [dyn, MTy.dyn, enc, MTy.encSize, word_length]
  | .u128, .word n, hr => simp [dyn, MTy.dyn, enc, MTy.encSize, word_length]
  | .u256, .word n, hr => simp [dyn, MTy.dyn, enc, MTy.encSize, word_length]
  | .address, .word n, hr => simp [dyn, MTy.dyn, enc, MTy.encSize, word_length]
  | .enum k, .word n, hr => simp [dyn, MTy.dyn, enc, MTy.encSize, word_length]
  | .vec t, .array vs, hr => simp [dyn, MTy.dyn]
  | .struct fs, .tuple vs, hr =>
    rw [Rep] at hr
    obtain ⟨h1, h2, h3⟩ := RepFs.shape fs hr.2
    refine ⟨by rw [dyn, MTy.dyn, h1], fun h => ?_⟩
    rw [MTy.dyn] at h
    rw [enc, MTy.encSize, List.length_append, heads_length, h2, h3 h]
    rfl
  | .string, .bytes bs, hr => simp [dyn, MTy.dyn]
theorem RepFs.shape {f : Bytes} {lim : Nat} (ts : List MTy) {vs : List Val} {w : Nat}
    (hr : RepFs f lim ts vs w) : anyDyn vs = MTy.dynFs ts ∧ headLen vs = MTy.encSizeFs ts ∧
      (MTy.dynFs ts = false → tails vs = []) := by
  match ts, vs, hr with
  | [], [], hr => simp [anyDyn, MTy.dynFs, headLen, MTy.encSizeFs, tails]
  | t :: ts, v :: vs, hr =>
    rw [RepFs] at hr
    obtain ⟨h1, h2⟩ := Rep.shape t hr.2.2.1
    obtain ⟨h3, h4, h5⟩ := RepFs.shape ts hr.2.2.2
    refine ⟨by rw [anyDyn, MTy.dynFs, h1, h3], ?_, ?_⟩
    · rw [headLen, MTy.encSizeFs, h4, h1]
      cases hd : t.dyn
      · rw [h2 hd]
      · rfl
    · intro h
      rw [MTy.dynFs, Bool.or_eq_false_iff] at h
      rw [tails, h1, h.1, h5 h.2]; rfl
end

theorem Rep.hd_length {f : Bytes} {lim : Nat} {t : MTy} {v : Val} {w : Nat} (h : Rep f lim t v w)
    (off : Nat) : (hd off v).length = t.headSize := by
  obtain ⟨h1, h2⟩ := Rep.shape t h
  rw [Rt.hd_length, h1]; unfold MTy.headSize
  cases hd : t.dyn
  · exact h2 hd
  · rfl

end Rt
