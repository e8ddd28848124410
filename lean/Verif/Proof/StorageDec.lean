import Verif.Proof.StorageEnc8

/-! The emitted decoder: states, numbers. -/

namespace Rt
open Wasm Slots Mv Layout

variable {σ σ' σ'' : Store} {E : ErrPtrs} {T : Ty → Nat}

/-- The reader is at position `p`; the current slot is in the cell at `a`.  If `b`, the buffer holds the
current slot. -/
structure DSim (σ : Store) (a : Nat) (p : Pos) (b : Bool) : Prop where
  heap : Heap σ
  statics : Statics σ
  cell : Cell a
  inside : a + 32 ≤ σ.nextFree
  slot : beNat σ.mem a 32 = p.1
  off : p.2 ≤ 32
  buf : b = true → beNat σ.mem 64 32 = σ.host.storage p.1 % 2 ^ 256

/-- The step from `σ` to `σ'` leads to position `p'`, allocating at most `n` bytes. -/
structure Deced (R : Nat → Prop) (a a' : Nat) (σ σ' : Store) (n : Nat) (p' : Pos) (b' : Bool) : Prop where
  later : Later R σ σ'
  host : σ'.host = σ.host
  sim : DSim σ' a' p' b'
  cost : σ'.nextFree ≤ σ.nextFree + n
  cell : a' = a ∨ σ.nextFree ≤ a'

theorem DSim.base {a : Nat} {p : Pos} {b : Bool} (h : DSim σ a p b) : 468 ≤ σ.nextFree := h.heap.base
theorem DSim.nf {a : Nat} {p : Pos} {b : Bool} (h : DSim σ a p b) : σ.nextFree ≤ σ.size := h.heap.alloc.nextFree_le
theorem DSim.lt {a : Nat} {p : Pos} {b : Bool} (h : DSim σ a p b) : σ.size < 2 ^ 32 := h.heap.alloc.size_lt

theorem DSim.cellAt {a : Nat} {p : Pos} {b : Bool} (h : DSim σ a p b) : CellAt σ a :=
  ⟨h.cell, h.heap.ready.size, h.heap.ready.size_lt, Nat.le_trans h.inside h.heap.alloc.nextFree_le, h.statics.one⟩

theorem DSim.refl {R : Nat → Prop} {a : Nat} {p : Pos} {b : Bool} (h : DSim σ a p b) : Deced R a a σ σ 0 p b :=
  ⟨Later.refl _ h.heap, rfl, h, Nat.le_refl _, .inl rfl⟩

theorem scr_sub {a a' x : Nat} (h : a' = a ∨ x < a') (hx : scr a' x) : scr a x := by
  unfold scr sizeTable hashBuf at hx ⊢; omega

theorem Deced.trans {R S : Nat → Prop} {a a1 a2 n m : Nat} {p q : Pos} {b c : Bool} (h : Deced R a a1 σ σ' n p b)
    (h' : Deced S a1 a2 σ' σ'' m q c) (hS : ∀ x, x < σ.nextFree → S x → R x) : Deced R a a2 σ σ'' (n + m) q c := by
  have h1 := h.later.nextFree
  refine ⟨?_, h'.host.trans h.host, h'.sim, by have := h.cost; have := h'.cost; omega, ?_⟩
  · have l := h'.later
    refine ⟨l.heap, h1.trans l.nextFree, h.later.size.trans l.size, fun x hx hr => ?_, l.maxPages.trans h.later.maxPages,
      l.reader.trans h.later.reader, by rw [h'.host, h.host]⟩
    rw [l.mem x (by omega) fun hs => hr (hS x hx hs), h.later.mem x hx hr]
  · rcases h.cell with e | e <;> rcases h'.cell with e' | e' <;> omega

theorem Deced.mono {R : Nat → Prop} {a a' n m : Nat} {p : Pos} {b : Bool} (h : Deced R a a' σ σ' n p b) (hm : n ≤ m) :
    Deced R a a' σ σ' m p b := ⟨h.later, h.host, h.sim, by have := h.cost; omega, h.cell⟩

theorem Deced.widen {R S : Nat → Prop} {a a' n : Nat} {p : Pos} {b : Bool} (h : Deced R a a' σ σ' n p b)
    (hS : ∀ x, x < σ.nextFree → R x → S x) : Deced S a a' σ σ' n p b := ⟨h.later.mono hS, h.host, h.sim, h.cost, h.cell⟩

/-- Steps of values. -/
theorem Deced.then {a a1 a2 n m : Nat} {p q : Pos} {b c : Bool} (h : Deced (scr a) a a1 σ σ' n p b)
    (h' : Deced (scr a1) a1 a2 σ' σ'' m q c) : Deced (scr a) a a2 σ σ'' (n + m) q c :=
  h.trans h' fun x hx hs => scr_sub (by rcases h.cell with e | e <;> omega) hs

/-- Writing the cell or the buffer. -/
theorem DSim.write {a : Nat} {p p' : Pos} {b b' : Bool} {f : Bytes} (h : DSim σ a p b)
    (hf : ∀ x, ¬ scr a x → f x = σ.mem x) (hslot : beNat f a 32 = p'.1) (hoff : p'.2 ≤ 32)
    (hbuf : b' = true → beNat f 64 32 = σ.host.storage p'.1 % 2 ^ 256) : Deced (scr a) a a σ (σ.setMem f) 0 p' b' := by
  have hb := h.base
  have hc := h.cell
  have hin := h.inside
  have l : Later (scr a) σ (σ.setMem f) := by
    refine (Later.refl _ h.heap).write ?_ (fun x _ hx => hf x hx) fun x hx => hf x ?_
    · intro x h1 h2; refine hf x ?_; unfold scr sizeTable hashBuf; unfold Cell at hc; omega
    · unfold scr sizeTable hashBuf; omega
  exact ⟨l, rfl, ⟨l.heap, l.statics hb h.statics fun x hx => scr_static hc hx, hc, h.inside, hslot, hoff, hbuf⟩, Nat.le_refl _, .inl rfl⟩

/-- Moving on to the next slot while reading. -/
theorem DSim.advance {a n : Nat} {p : Pos} {b : Bool} (h : DSim σ a p b) (hn : n ≤ 32) (hv : p.1 + 1 < 2 ^ 256) :
    Deced (scr a) a a σ (advR σ a) 0 (p.1 + 1, n) true := by
  have hc := h.cell
  have e : (256 : Nat) ^ 32 = 2 ^ 256 := by norm_num
  refine h.write (fun x hx => ?_) ?_ hn fun _ => ?_
  · unfold scr at hx
    rw [putBe_out (by omega), putBe_out (by omega)]
  · rw [beNat_congr fun y h1 h2 => putBe_out (by unfold Cell at hc; omega), beNat_putBe_same, h.slot, e, Nat.mod_eq_of_lt hv]
  · rw [beNat_putBe_same, h.slot, e]

theorem wp_accRead {a n sp so : Nat} {p : Pos} {b : Bool} {is s l Q} (h : DSim σ a p b) (hn : n ≤ 32) (hv : (place p n).1 < 2 ^ 256)
    (hsp : lget l sp = a) (hso : lget l so = p.2)
    (hk : ∀ σ1, Deced (scr a) a a σ σ1 0 (place p n) (b || decide ((place p n).1 ≠ p.1)) → wp is s (lset l so (place p n).2) σ1 Q) :
    wp (code[Op.lget sp, Op.lget so, Op.c32 n, (accR E).call, Op.lset so] ++ is) s l σ Q := by
  have ho := h.off
  wstep
  rw [hsp, hso]
  unfold place at hv hk
  refine wp_call3 (accR_spec h.cellAt ho hn ?_) ?_
  · rw [h.slot]
    split at hv
    · left; assumption
    · right; exact hv
  · intro r σ1 hr
    by_cases hc : p.2 + n ≤ 32
    · rw [if_pos hc] at hr hk
      obtain ⟨rfl, rfl⟩ := hr
      wstep
      refine hk _ ⟨Later.refl _ h.heap, rfl, ⟨h.heap, h.statics, h.cell, h.inside, h.slot, hc, ?_⟩, Nat.le_refl _, .inl rfl⟩
      simpa using h.buf
    · rw [if_neg hc] at hr hk hv
      obtain ⟨rfl, rfl⟩ := hr
      wstep
      have := h.advance hn hv
      rw [show (b || decide (p.1 + 1 ≠ p.1)) = true by simp] at hk
      exact hk _ this

/-- Memory of a value that has been read. -/
def Got (σ σ' : Store) (a x : Nat) : Prop := σ.nextFree ≤ x ∧ x < σ'.nextFree ∧ (x < a ∨ a + 32 ≤ x)

/-- A value has been read. -/
structure Read (σ σ' : Store) (a' : Nat) (t : Ty) (v v' : Val) (w : Nat) : Prop where
  arg : Arg σ'.mem (Got σ σ' a') true t v' w
  erase : v'.erase = v.erase
  le : w ≤ σ'.nextFree
  last : t.scalar = true → σ'.nextFree = w + t.size

mutual
/-- Memory allocated while a value is read. -/
def dcost : Ty → Mv.Val → Nat
  | .struct fs, .struct vs => 4 * fs.length + dcostFs fs vs
  | .enum vss, .variant i vs => 68 + enumHeap vss + dcostVar vss i vs
  | .vec t, .vec vs => 40 + vs.length * t.size + (vs.map fun v => dcost t v).sum
  | .object (_ :: fs), .object _ (_ :: vs) => 112 + 4 * fs.length + dcostFs fs vs
  | .u128, _ => 16
  | .u256, _ => 32
  | .address, _ => 32
  | t, _ => t.size
def dcostFs : List Ty → List Mv.Val → Nat
  | t :: ts, v :: vs => dcost t v + dcostFs ts vs
  | _, _ => 0
def dcostVar : List (List Ty) → Nat → List Mv.Val → Nat
  | fs :: _, 0, vs => dcostFs fs vs
  | _ :: vss, i + 1, vs => dcostVar vss i vs
  | [], _, _ => 0
end

/-- What the code that reads one value relies on: `o` is the id of the object the value is part of. -/
structure DecPre (σ : Store) (R : Nat → Prop) (K : List UInt8 → Nat) (T : Ty → Nat) (o : Nat) (t : Ty)
    (v : Mv.Val) (a : Nat) (p : Pos) (b b' d : Bool) : Prop where
  sim : DSim σ a (place p (width t)) (b || decide ((place p (width t)).1 ≠ p.1))
  off : p.2 ≤ 32
  safe : Safe σ R a
  keccak : σ.host.keccak = K
  holds : Layout.Holds K (fun t => bswap 8 (T t)) σ.host.storage o t v p
  typed : Typed t v
  fresh : Layout.fresh t v p b = some b'
  fit : Fit σ d (dcost t v)
  narrow : Layout.narrow t = true → d = true
  bound : (next t p).1 < 2 ^ 256
  segs : ∀ g ∈ Layout.segs K o t v p, g.2 < 2 ^ 256

/-- The locals of the code that reads one value. -/
structure DLocs (σ : Store) (R : Nat → Prop) (o : Nat) (l : List Nat) (a off dp sp so ow k n : Nat) : Prop where
  spv : lget l sp = a
  sov : lget l so = off
  owner : Within R (lget l ow) 32 ∧ beNat σ.mem (lget l ow) 32 = o
  dpk : dp < k
  spk : sp < k
  sok : so < k
  owk : ow < k
  spo : sp ≠ so
  owo : ow ≠ so
  ows : ow ≠ sp
  dpo : dp ≠ so
  dps : dp ≠ sp
  owd : ow ≠ dp
  len : k + n ≤ l.length

/-- The code that reads one value. -/
def DecRun (E : ErrPtrs) (T : Ty → Nat) (t : Ty) : Prop :=
  ∀ (σ : Store) (R : Nat → Prop) (K : List UInt8 → Nat) (o : Nat) (v : Mv.Val) (a : Nat) (p : Pos) (b b' d : Bool)
    (dp sp so ow k : Nat) (s l : List Nat) (is : List Instr) (Q : Res → Prop),
    DecPre σ R K T o t v a p b b' d → DLocs σ R o l a (place p (width t)).2 dp sp so ow k (nlDec t) →
    (∀ σ' l' a' v' w, Deced (scr a) a a' σ σ' (dcost t v) (next t p) b' → Read σ σ' a' t v v' w → l'.length = l.length →
      lget l' sp = a' → lget l' so = (next t p).2 → lget l' dp = w →
      (∀ j, j < k → j ≠ so → j ≠ sp → j ≠ dp → lget l' j = lget l j) → wp is s l' σ' Q) →
    wp (decT E T dp sp so ow t k ++ is) s l σ Q

end Rt
