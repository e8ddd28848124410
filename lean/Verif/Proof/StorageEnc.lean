import Verif.Proof.StorageRt2

/-! The emitted encoder computes `enc`: states, numbers, fields. -/

namespace Rt
open Wasm Abi Slots Mv Layout

variable {σ σ' σ'' : Store} {E : ErrPtrs} {T : Ty → Nat}

/-- Memory written by the storage code, for the current slot in the cell at `a`. -/
def scr (a x : Nat) : Prop := 64 ≤ x ∧ x < 96 ∨ sizeTable x ∨ hashBuf x ∨ a ≤ x ∧ x < a + 32

/-- The cell of the current slot. -/
def Cell (a : Nat) : Prop := a = 128 ∨ 468 ≤ a

/-- The store is in state `st` of the encoder; the current slot is in the cell at `a`. -/
structure Sim (σ : Store) (a : Nat) (st : St) : Prop where
  heap : Heap σ
  statics : Statics σ
  cell : Cell a
  inside : a + 32 ≤ σ.nextFree
  slot : beNat σ.mem a 32 = st.slot
  off : st.off ≤ 32
  stor : σ.host.storage = st.stor
  buf : beNat σ.mem 64 32 = st.buf

/-- The step from `σ` to `σ'` leads to state `st'`, allocating at most `n` bytes. -/
structure Enced (a : Nat) (σ σ' : Store) (n : Nat) (st' : St) : Prop where
  later : Later (scr a) σ σ'
  sim : Sim σ' a st'
  cost : σ'.nextFree ≤ σ.nextFree + n

/-- The region `R` is allocated and not written by the storage code. -/
def Safe (σ : Store) (R : Nat → Prop) (a : Nat) : Prop :=
  ∀ x, R x → 468 ≤ x ∧ x < σ.nextFree ∧ (x < a ∨ a + 32 ≤ x)

theorem scr_static {a x : Nat} (ha : Cell a) (hx : x < 64 ∨ 96 ≤ x ∧ x < 128 ∨ 160 ≤ x ∧ x < 224) : ¬ scr a x := by
  unfold scr sizeTable hashBuf; unfold Cell at ha; omega

theorem Safe.not_scr {R : Nat → Prop} {a x : Nat} (h : Safe σ R a) (hx : R x) : ¬ scr a x := by
  have := h x hx
  unfold scr sizeTable hashBuf; omega

theorem Later.keccak {R : Nat → Prop} (h : Later R σ σ') : σ'.host.keccak = σ.host.keccak := by rw [h.host]

theorem Later.safe {R : Nat → Prop} {a : Nat} (h : Later (scr a) σ σ') (hR : Safe σ R a) {x : Nat} (hx : R x) :
    σ'.mem x = σ.mem x := h.mem x (hR x hx).2.1 (hR.not_scr hx)

theorem Safe.later {R S : Nat → Prop} {a : Nat} (hR : Safe σ R a) (h : Later S σ σ') : Safe σ' R a :=
  fun x hx => by have := hR x hx; have := h.nextFree; omega

theorem Sim.cellAt {a : Nat} {st : St} (h : Sim σ a st) : CellAt σ a :=
  ⟨h.cell, h.heap.ready.size, h.heap.ready.size_lt, Nat.le_trans h.inside h.heap.alloc.nextFree_le, h.statics.one⟩

theorem Sim.refl {a : Nat} {st : St} (h : Sim σ a st) : Enced a σ σ 0 st := ⟨Later.refl _ h.heap, h, Nat.le_refl _⟩

theorem Enced.trans {a n m : Nat} {st st' : St} (h : Enced a σ σ' n st) (h' : Enced a σ' σ'' m st') :
    Enced a σ σ'' (n + m) st' :=
  ⟨h.later.trans h'.later, h'.sim, by have := h.cost; have := h'.cost; omega⟩

theorem Enced.mono {a n m : Nat} {st : St} (h : Enced a σ σ' n st) (hm : n ≤ m) : Enced a σ σ' m st :=
  ⟨h.later, h.sim, by have := h.cost; omega⟩

theorem Sim.base {a : Nat} {st : St} (h : Sim σ a st) : 468 ≤ σ.nextFree := h.heap.base
theorem Sim.nf {a : Nat} {st : St} (h : Sim σ a st) : σ.nextFree ≤ σ.size := h.heap.alloc.nextFree_le
theorem Sim.lt {a : Nat} {st : St} (h : Sim σ a st) : σ.size < 2 ^ 32 := h.heap.alloc.size_lt

/-- Writing the cell or the buffer. -/
theorem Sim.write {a : Nat} {st st' : St} {f : Bytes} (h : Sim σ a st)
    (hf : ∀ x, ¬ scr a x → f x = σ.mem x) (hslot : beNat f a 32 = st'.slot) (hoff : st'.off ≤ 32)
    (hstor : st.stor = st'.stor) (hbuf : beNat f 64 32 = st'.buf) : Enced a σ (σ.setMem f) 0 st' := by
  have hb := h.base
  have hc := h.cell
  have hin := h.inside
  have l : Later (scr a) σ (σ.setMem f) := by
    refine (Later.refl _ h.heap).write ?_ (fun x _ hx => hf x hx) fun x hx => hf x ?_
    · intro x h1 h2; refine hf x ?_; unfold scr sizeTable hashBuf; unfold Cell at hc; omega
    · unfold scr sizeTable hashBuf; omega
  exact ⟨l, ⟨l.heap, l.statics hb h.statics fun x hx => scr_static hc hx, hc, h.inside, hslot, hoff,
    h.stor.trans hstor, hbuf⟩, Nat.le_refl _⟩

/-- Writing a word to storage. -/
theorem Sim.store {a : Nat} {st : St} (h : Sim σ a st) (k v : Nat) :
    Enced a σ (stored σ k v) 0 { st with stor := upd st.stor k v } :=
  ⟨stored_later h.heap, ⟨h.heap.stored, h.statics.of_mem rfl, h.cell, h.inside, h.slot, h.off,
    by rw [stored_storage, h.stor], h.buf⟩, Nat.le_refl _⟩

theorem Sim.flush {a : Nat} {st : St} (h : Sim σ a st) :
    Enced a σ (stored σ (beNat σ.mem a 32) (beNat σ.mem 64 32)) 0 st.flush := by
  rw [h.slot, h.buf]; exact h.store _ _

theorem cell_putBe {a v : Nat} (ha : Cell a) (f : Bytes) : beNat (putBe f a 32 v) 64 32 = beNat f 64 32 :=
  beNat_putBe_disj (by unfold Cell at ha; omega)

theorem fill_word (f : Bytes) : beNat (fillBytes f 64 0 32) 64 32 = 0 := beNat_fill f 64 32

/-- Moving on to the next slot while writing. -/
theorem Sim.advance {a n : Nat} {st : St} (h : Sim σ a st) (hn : n ≤ 32) (hv : st.slot + 1 < 2 ^ 256) :
    Enced a σ (advW σ a) 0 ⟨st.view, 0, st.slot + 1, n⟩ := by
  have hc := h.cell
  have e : (256 : Nat) ^ 32 = 2 ^ 256 := by norm_num
  refine Enced.mono (h.flush.trans (h.flush.sim.write (st' := ⟨st.view, 0, st.slot + 1, n⟩) (f := putBe (fillBytes σ.mem 64 0 32) a 32 (beNat σ.mem a 32 + 1))
    ?_ ?_ hn rfl ?_)) (by omega)
  · intro x hx
    unfold scr at hx
    rw [putBe_out (by omega), fillBytes_out (by omega)]
    rfl
  · rw [beNat_putBe_same, h.slot, e, Nat.mod_eq_of_lt hv]
  · rw [cell_putBe hc, fill_word]

theorem wp_accField {a n sp so : Nat} {st s1 : St} {is s l Q} (h : Sim σ a st) (hn : n ≤ 32) (hacc : st.acc n = some s1)
    (hsp : lget l sp = a) (hso : lget l so = st.off)
    (hk : ∀ σ1, Enced a σ σ1 0 s1 → n ≤ s1.off → wp is s (lset l so s1.off) σ1 Q) :
    wp (code[Op.lget sp, Op.lget so, Op.c32 n, (accW E).call, Op.lset so] ++ is) s l σ Q := by
  have ho := h.off
  unfold St.acc at hacc
  wstep
  rw [hsp, hso]
  refine wp_call3 (accW_spec h.cellAt ho hn ?_) ?_
  · rw [h.slot]
    split at hacc
    · left; assumption
    · split at hacc
      · right; assumption
      · exact absurd hacc (by simp)
  · intro r σ1 hr
    by_cases hc : st.off + n ≤ 32
    · rw [if_pos hc] at hacc hr
      injection hacc with hacc
      obtain ⟨rfl, rfl⟩ := hr
      subst hacc
      wstep
      exact hk _ ⟨Later.refl _ h.heap, ⟨h.heap, h.statics, h.cell, h.inside, h.slot, hc, h.stor, h.buf⟩, Nat.le_refl _⟩
        (Nat.le_add_left ..)
    · rw [if_neg hc] at hacc hr
      split at hacc
      · injection hacc with hacc
        obtain ⟨rfl, rfl⟩ := hr
        subst hacc
        wstep
        exact hk _ (h.advance hn (by assumption)) (Nat.le_refl _)
      · exact absurd hacc (by simp)

/-! ### Numbers -/

/-- Writing the bytes of a field into the buffer. -/
theorem Sim.put {a n x : Nat} {st : St} {g : Bytes} (h : Sim σ a st) (hn : n ≤ st.off)
    (hin : ∀ i, i < n → (g (96 - st.off + i)).toNat = digit x (n - 1 - i))
    (hout : ∀ y, (y < 96 - st.off ∨ 96 - st.off + n ≤ y) → g y = σ.mem y) :
    Enced a σ (σ.setMem g) 0 (st.put n x) := by
  have ho := h.off
  have hc := h.cell
  refine h.write (fun y hy => hout y ?_) ?_ ho rfl ?_
  · unfold scr at hy; omega
  · rw [beNat_congr fun y h1 h2 => hout y (by unfold Cell at hc; omega)]; exact h.slot
  · rw [buf_write hn ho hin fun y _ _ hy => hout y hy, h.buf]; rfl

theorem Sim.putBe {a n x : Nat} {st : St} (h : Sim σ a st) (hn : n ≤ st.off) :
    Enced a σ (σ.setMem (Wasm.putBe σ.mem (96 - st.off) n x)) 0 (st.put n x) := by
  refine h.put hn (fun i hi => ?_) fun y hy => putBe_out (by omega)
  rw [putBe_in (by omega) (by omega), UInt8.toNat_ofNat']
  unfold digit
  congr 3; omega

/-- The operand of the encoder: a pointer to the value, or the value. -/
def Arg (f : Bytes) (R : Nat → Prop) (fld : Bool) (t : Ty) (v : Mv.Val) (w : Nat) : Prop :=
  if fld && t.scalar then Within R w t.size ∧ Mv.Rep f R t v (leNat f w t.size) else Mv.Rep f R t v w

/-- What the code of one value relies on: `o` is the id of the object the value is part of. -/
structure EncPre (σ : Store) (R : Nat → Prop) (K : List UInt8 → Nat) (T : Ty → Nat) (o : Nat) (fld : Bool) (t : Ty)
    (v : Mv.Val) (w a : Nat) (st st' : St) (n : Nat) : Prop where
  sim : Sim σ a st
  safe : Safe σ R a
  keccak : σ.host.keccak = K
  arg : Arg σ.mem R fld t v w
  run : enc K (fun t => bswap 8 (T t)) o t v st = some st'
  room : Room σ n
  placed : width t ≤ st.off

/-- The locals of the code of one value. -/
structure Locs (σ : Store) (R : Nat → Prop) (o : Nat) (l : List Nat) (a off sp so ow k n : Nat) : Prop where
  spv : lget l sp = a
  sov : lget l so = off
  owner : Within R (lget l ow) 32 ∧ beNat σ.mem (lget l ow) 32 = o
  spk : sp < k
  sok : so < k
  owk : ow < k
  spo : sp ≠ so
  owo : ow ≠ so
  len : k + n ≤ l.length

mutual
/-- Memory allocated while a value is saved. -/
def ecost : Ty → Mv.Val → Nat
  | .struct fs, .struct vs => ecostFs fs vs
  | .enum vss, .variant i vs => 68 + ecostVar vss i vs
  | .vec t, .vec vs => 32 + (vs.map fun v => ecost t v).sum
  | .object (_ :: fs), .object _ (_ :: vs) => 32 + ecostFs fs vs
  | _, _ => 0
def ecostFs : List Ty → List Mv.Val → Nat
  | t :: ts, v :: vs => ecost t v + ecostFs ts vs
  | _, _ => 0
def ecostVar : List (List Ty) → Nat → List Mv.Val → Nat
  | fs :: _, 0, vs => ecostFs fs vs
  | _ :: vss, i + 1, vs => ecostVar vss i vs
  | [], _, _ => 0
end

/-- The code of one value computes `enc`. -/
def EncRun (E : ErrPtrs) (T : Ty → Nat) (t : Ty) : Prop :=
  ∀ (σ : Store) (R : Nat → Prop) (K : List UInt8 → Nat) (o : Nat) (fld : Bool) (v : Mv.Val) (w a : Nat) (st st' : St)
    (sp so ow k : Nat) (s l : List Nat) (is : List Instr) (Q : Res → Prop),
    EncPre σ R K T o fld t v w a st st' (ecost t v) → Locs σ R o l a st.off sp so ow k (nlEnc t) →
    (∀ σ' l', Enced a σ σ' (ecost t v) st' → l'.length = l.length → lget l' so = st'.off →
      (∀ j, j < k → j ≠ so → lget l' j = lget l j) → wp is s l' σ' Q) →
    wp (encT E T sp so ow fld t k ++ is) (w :: s) l σ Q

theorem Within.bounds {R : Nat → Prop} {a w n : Nat} (h : Within R w n) (hs : Safe σ R a) (hn : 0 < n) :
    468 ≤ w ∧ w + n ≤ σ.nextFree := by
  have h1 := hs w (h w (by omega) (by omega))
  have h2 := hs (w + n - 1) (h _ (by omega) (by omega))
  omega

/-- The number on the stack after `unbox`. -/
theorem wp_unbox {R : Nat → Prop} {fld : Bool} {t : Ty} {v : Mv.Val} {w a : Nat} {is s l Q} (ht : t.scalar = true)
    (hs : Safe σ R a) (hσ : Heap σ) (h : Arg σ.mem R fld t v w)
    (hk : ∀ n, v = .num n → n < 256 ^ t.size → wp is (n :: s) l σ Q) : wp (unbox fld t ++ is) (w :: s) l σ Q := by
  have h1 := hσ.alloc.nextFree_le
  unfold Arg at h
  unfold unbox
  rw [ht, Bool.and_true] at h
  cases fld with
  | true =>
    simp only [if_true] at h ⊢
    have hb := Within.bounds h.1 hs t.size_pos
    obtain ⟨e1, e2, _⟩ := h.2.scalar ht
    wstep
    exact hk _ e1 e2
  | false =>
    simp only [Bool.false_eq_true, if_false] at h ⊢
    obtain ⟨e1, e2, _⟩ := h.scalar ht
    exact hk _ e1 e2

theorem enc_num {K : List UInt8 → Nat} {t : Ty} (ht : atom t = true) {o n : Nat} {st st' : St}
    (h : enc K T o t (.num n) st = some st') : st' = st.put (width t) n := by
  obtain ⟨m, h1, h2⟩ := enc_atom ht h
  injection h1 with h1
  subst h1; exact h2

end Rt
