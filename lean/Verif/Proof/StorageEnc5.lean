import Verif.Proof.StorageEnc4
import Verif.Proof.Copy3

/-! The emitted encoder computes `enc`: enums. -/

namespace Rt
open Wasm Slots Mv Layout

variable {σ σ' σ'' : Store} {E : ErrPtrs} {T : Ty → Nat}

theorem lset_self {l : List Nat} {i v : Nat} (hi : i < l.length) (h : lget l i = v) : lset l i v = l := by
  subst h
  induction l generalizing i with
  | nil => simp at hi
  | cons x l ih =>
    cases i with
    | zero => rfl
    | succ i =>
      show x :: lset l i (lget l i) = x :: l
      rw [ih (by simpa using hi)]

theorem b2n_pos {p : Prop} [Decidable p] (h : p) : b2n p = 1 := if_pos h
theorem b2n_neg {p : Prop} [Decidable p] (h : ¬ p) : b2n p = 0 := if_neg h

theorem beNat_eq_iff {f : Bytes} {p q n : Nat} : EqBytes f p q n ↔ beNat f p n = beNat f q n := by
  rw [eqBytes_iff]
  constructor <;> intro h
  · rw [← bswap_leNat, ← bswap_leNat, h]
  · rw [← bswap_beNat, ← bswap_beNat, h]

/-- Comparison of two slots. -/
theorem wp_slotEq {p q x y : Nat} {is s l Q} (hs : σ.size < 2 ^ 32) (hp : p + 32 ≤ σ.size) (hq : q + 32 ≤ σ.size)
    (hx : beNat σ.mem p 32 = x) (hy : beNat σ.mem q 32 = y) (h : wp is (b2n (x = y) :: s) l σ Q) :
    wp (heapEq.call :: is) (32 :: q :: p :: s) l σ Q := by
  refine wp_call3 (heapEq_spec hs hp hq) ?_
  rintro r σ1 ⟨rfl, rfl⟩
  have e : b2n (EqBytes σ1.mem p q 32) = b2n (x = y) := by
    by_cases hc : x = y
    · rw [b2n_pos hc, b2n_pos (beNat_eq_iff.mpr (by rw [hx, hy, hc]))]
    · rw [b2n_neg hc, b2n_neg fun h' => hc (by rw [← hx, ← hy]; exact beNat_eq_iff.mp h')]
  rw [e]; exact h

theorem Sim.next {a : Nat} {st : St} (h : Sim σ a st) (hv : st.slot + 1 < 2 ^ 256) :
    Enced a σ (σ.setMem (Wasm.putBe σ.mem a 32 (beNat σ.mem a 32 + 1))) 0 { st with slot := st.slot + 1 } := by
  have e : (256 : Nat) ^ 32 = 2 ^ 256 := by norm_num
  refine h.write (fun x hx => ?_) ?_ h.off rfl ?_
  · unfold scr at hx; rw [putBe_out (by omega)]
  · rw [beNat_putBe_same, h.slot, e, Nat.mod_eq_of_lt hv]
  · rw [cell_putBe h.cell, h.buf]

theorem Sim.zeroBuf {a : Nat} {st : St} (h : Sim σ a st) :
    Enced a σ (σ.setMem (copyBytes σ.mem 64 0 32)) 0 { st with buf := 0 } := by
  have hc := h.cell
  refine h.write (fun x hx => copyBytes_out ?_) ?_ h.off rfl ?_
  · unfold scr at hx; omega
  · rw [beNat_congr fun y h1 h2 => copyBytes_out (by unfold Cell at hc; omega)]; exact h.slot
  · rw [beNat_copy]; exact zero_be h.statics

theorem Sim.reoff {a n m : Nat} {st : St} (h : Enced a σ σ' m st) (hn : n ≤ 32) : Enced a σ σ' m { st with off := n } :=
  ⟨h.later, ⟨h.sim.heap, h.sim.statics, h.sim.cell, h.sim.inside, h.sim.slot, hn, h.sim.stor, h.sim.buf⟩, h.cost⟩

/-- Storage with the slots after the current one up to `c` zeroed. -/
def fillTo (st : St) (c : Nat) : Nat → Nat := fun x => if st.slot < x ∧ x ≤ c then 0 else st.view x

theorem fillTo_one (st : St) : upd st.view (st.slot + 1) 0 = fillTo st (st.slot + 1) := by
  funext x
  unfold fillTo upd
  by_cases h : x = st.slot + 1
  · rw [if_pos h, if_pos (by omega)]
  · rw [if_neg h, if_neg (by omega)]

theorem fillTo_succ (st : St) {c : Nat} (hc : st.slot < c) : upd (fillTo st c) (c + 1) 0 = fillTo st (c + 1) := by
  funext x
  unfold fillTo upd
  by_cases h : x = c + 1
  · rw [if_pos h, if_pos (by omega)]
  · rw [if_neg h]
    dsimp only
    by_cases h2 : st.slot < x ∧ x ≤ c
    · rw [if_pos h2, if_pos (by omega)]
    · rw [if_neg h2, if_neg (by omega)]

/-- The area of an enum behind its fields is zeroed. -/
theorem wp_fill {a b sp tl : Nat} {st st' : St} {q : Pos} {is s l Q} (h : Sim σ a st) (hf : st.fill q = some st')
    (hq : q.1 < 2 ^ 256) (hq2 : q.2 ≤ 32) (hsp : lget l sp = a) (htl : lget l tl = b) (hb : 468 ≤ b)
    (hb' : b + 32 ≤ σ.nextFree) (hab : b + 32 ≤ a ∨ a + 32 ≤ b) (hbq : beNat σ.mem b 32 = q.1) (hl : sp < l.length)
    (hk : ∀ σ', Enced a σ σ' 0 st' → wp is s l σ' Q) :
    wp (code[Op.lget sp, Op.lget tl, Op.c32 32, heapEq.call,
        .ite 0 code[]
          code[Op.lget sp, Op.c32 64, Op.host .storageCache,
           Op.c32 64, Op.c32 0, Op.c32 32, Op.memCopy,
           Op.lget sp, (nextSlot E).call, Op.lset sp,
           Op.lget sp, Op.c32 64, Op.host .storageCache,
           .loop 0
             code[Op.lget sp, Op.lget tl, Op.c32 32, heapEq.call,
              .ite 0 code[]
                code[Op.lget sp, (nextSlot E).call, Op.lset sp,
                 Op.lget sp, Op.c32 0, Op.host .storageCache, .br 1]]]] ++ is) s l σ Q := by
  have f1 := h.nf
  have f2 := h.base
  have f3 := h.lt
  have f4 := h.inside
  have tail : ∀ σ1 n st1, Enced a σ σ1 n st1 → beNat σ1.mem b 32 = q.1 := fun σ1 n st1 h1 => by
    rw [h1.later.beNat hb' fun x hx hx' => by unfold scr sizeTable hashBuf; omega, hbq]
  wstep
  rw [hsp, htl]
  refine wp_slotEq f3 (by omega) (by omega) h.slot hbq ?_
  unfold St.fill at hf
  by_cases hc : st.slot = q.1
  · rw [if_pos hc] at hf
    injection hf with hf
    subst hf
    rw [b2n_pos hc]
    wstep
    exact hk _ (Sim.reoff h.refl hq2)
  · rw [if_neg hc] at hf
    split at hf
    case isFalse => exact absurd hf (by simp)
    rename_i hlt
    injection hf with hf
    subst hf
    rw [b2n_neg hc]
    wstep
    rw [hsp, wp_storageCache (by omega) (by omega)]
    have e1 := h.flush
    generalize Rt.stored σ (beNat σ.mem a 32) (beNat σ.mem 64 32) = σ1 at e1
    have g1 := e1.sim.nf
    have g2 := e1.sim.base
    have g3 := e1.sim.inside
    wstep
    have e2 := e1.trans e1.sim.zeroBuf
    generalize σ1.setMem (copyBytes σ1.mem 64 0 32) = σ2 at e2
    rw [hsp]
    refine wp_nextSlot e2.sim.cellAt (by rw [e2.sim.slot]; simp only [St.flush]; omega) ?_
    have e3 := e2.trans (e2.sim.next (by simp only [St.flush]; omega))
    generalize σ2.setMem (putBe σ2.mem a 32 (beNat σ2.mem a 32 + 1)) = σ3 at e3
    wstep
    rw [lset_self hl hsp]
    have g4 := e3.sim.nf
    have g5 := e3.sim.base
    have g6 := e3.sim.inside
    rw [wp_storageCache (by omega) (by omega)]
    have e4 := e3.trans e3.sim.flush
    generalize Rt.stored σ3 (beNat σ3.mem a 32) (beNat σ3.mem 64 32) = σ4 at e4
    refine wp_loop (fun m l' σ' => l' = l ∧ ∃ c, m = q.1 - c ∧ st.slot < c ∧ c ≤ q.1 ∧
      Enced a σ σ' 0 ⟨fillTo st c, 0, c, q.2⟩) (q.1 - (st.slot + 1))
      ⟨rfl, st.slot + 1, rfl, by omega, by omega, ?_⟩ ?_
    · have := Sim.reoff e4 hq2
      rw [← fillTo_one]
      exact this
    · rintro m l' σ' ⟨rfl, c, rfl, hc1, hc2, en⟩
      have k1 := en.sim.nf
      have k2 := en.sim.base
      have k3 := en.sim.lt
      have k4 := en.sim.inside
      have k5 := en.later.nextFree
      wstep
      rw [hsp, htl]
      refine wp_slotEq k3 (by omega) (by omega) en.sim.slot (tail _ _ _ en) ?_
      by_cases hcc : c = q.1
      · rw [b2n_pos hcc]
        wstep
        subst hcc
        exact hk _ en
      · rw [b2n_neg hcc]
        wstep
        rw [hsp]
        refine wp_nextSlot en.sim.cellAt (by rw [en.sim.slot]; simp only; omega) ?_
        have en2 := en.trans (en.sim.next (by simp only; omega))
        generalize σ'.setMem (putBe σ'.mem a 32 (beNat σ'.mem a 32 + 1)) = σ5 at en2
        wstep
        rw [lset_self hl hsp]
        have g4 := en2.sim.nf
        have g5 := en2.sim.base
        have g6 := en2.sim.inside
        rw [wp_storageCache (by omega) (by omega)]
        wstep
        have en3 := en2.trans (en2.sim.store (beNat σ5.mem a 32) (beNat σ5.mem 0 32))
        rw [en2.sim.slot, zero_be en2.sim.statics] at en3
        refine ⟨q.1 - (c + 1), by omega, c + 1, rfl, by omega, by omega, ?_⟩
        rw [← fillTo_succ st hc1, en2.sim.slot, zero_be en2.sim.statics]
        exact en3

end Rt
