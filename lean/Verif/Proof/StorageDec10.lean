import Verif.Proof.StorageDec9

/-! Reading an object whose slot does not contain the type tag. -/

namespace Rt
open Wasm Slots Mv Layout

variable {σ σ' σ'' : Store} {E : ErrPtrs} {T : Ty → Nat}

/-- The error for the contents of the slot. -/
def headErr (x : Nat) : RtErr := if x % 2 ^ 256 = 0 then .objectNotFound else .typeMismatch

theorem readObject_err {fs : List Ty} {u : Ty} {a id ow slot : Nat} (hσ : Heap σ) (hst : Statics σ) (ha : Cell a)
    (hin : a + 32 ≤ σ.nextFree) (hslot : beNat σ.mem a 32 = slot) (how : ow + 32 ≤ σ.nextFree) (hroom : Room σ 32)
    (hT : T (.object (u :: fs)) < 2 ^ 64) (htag : dig (σ.host.storage slot) 0 8 ≠ bswap 8 (T (.object (u :: fs)))) :
    (readObject E T u fs).Calls [a, id, ow] σ (fun r σ' => ∃ σ1 x, r = [x] ∧ Later (scr a) σ σ1 ∧ σ1.host = σ.host ∧
      σ' = errStore σ1 (E (headErr (σ.host.storage slot)))) := by
  refine ⟨rfl, ?_⟩
  unfold readObject
  simp only [List.append_assoc]
  wstep
  have hlen : (List.replicate (7 + nlDecFs fs) 0 : List Nat).length = 7 + nlDecFs fs := List.length_replicate
  generalize (List.replicate (7 + nlDecFs fs) 0 : List Nat) = l0 at hlen
  have h : DSim σ a (slot, 8) false := ⟨hσ, hst, ha, hin, hslot, by simp, by simp⟩
  have hb := h.base
  have hin := h.inside
  have hc := h.cell
  unfold decHead
  wstep
  refine wp_allocR h.heap hroom (Nat.le_refl _) fun σ1 a1 => ?_
  have hn1 := a1.nextFree
  have hi1 := a1.inside
  have hl1 := a1.heap.alloc.size_lt
  wstep
  have d1 := h.block (f := copyBytes σ1.mem σ.nextFree ow 32) a1.extends a1.nextFree (fun y hy => copyBytes_out (by omega))
    fun y hy => copyBytes_out (by omega)
  obtain ⟨σ2, e2⟩ : ∃ σ2, σ2 = σ1.setMem (copyBytes σ1.mem σ.nextFree ow 32) := ⟨_, rfl⟩
  have n2 : σ2.nextFree = σ.nextFree + 32 := by rw [e2]; exact hn1
  rw [← e2] at d1 ⊢
  have z2 := d1.sim.nf
  have z2' := d1.sim.lt
  have hcs := d1.sim.slot
  rw [wp_storageLoad (by omega) (by omega), hcs, d1.host]
  have d2 : Deced (scr a) a a σ2 (σ2.setMem (putBe σ2.mem 64 32 (σ.host.storage slot))) 0 (slot, 8) true := by
    refine d1.sim.write (fun x hx => putBe_out ?_) ?_ (show 8 ≤ 32 by omega) fun _ => ?_
    · unfold scr at hx; omega
    · rw [beNat_congr fun y h1 h2 => putBe_out (by unfold Cell at hc; omega)]; exact hcs
    · rw [beNat_putBe_same, d1.host, show (256 : Nat) ^ 32 = 2 ^ 256 by norm_num]
  obtain ⟨σ3, e3⟩ : ∃ σ3, σ3 = σ2.setMem (putBe σ2.mem 64 32 (σ.host.storage slot)) := ⟨_, rfl⟩
  have n3 : σ3.nextFree = σ2.nextFree := by rw [e3]; rfl
  rw [← e3] at d2 ⊢
  have z3 := d2.sim.nf
  have z3' := d2.sim.lt
  have d3 := d1.then d2
  have hbuf : beNat σ3.mem 64 32 = σ.host.storage slot % 2 ^ 256 := by rw [d2.sim.buf rfl, d3.host]
  have tag : leNat σ3.mem 88 8 ≠ T (.object (u :: fs)) % 2 ^ 64 := by
    intro hne
    have h1 := buf_read (f := σ3.mem) (off := 8) (n := 8) (Nat.le_refl _) (by omega)
    rw [d2.sim.buf rfl, d3.host, dig_word (by omega)] at h1
    apply htag
    rw [← Nat.mod_eq_of_lt hT, ← hne, bswap_leNat, ← h1]
  wstep
  refine wp_call2 (isZero_spec (k := 8) z3' (by omega)) ?_
  rintro r σ4 ⟨rfl, rfl⟩
  unfold headErr
  by_cases hz : σ.host.storage slot % 2 ^ 256 = 0
  · rw [b2n_pos ((leNat_zero_iff_beNat _ _ _).mpr (hbuf.trans hz)), if_pos hz]
    unerr
    wstep
    refine ⟨σ4, _, rfl, d3.later, d3.host, ?_⟩
    rfl
  · rw [b2n_neg fun h => hz (hbuf ▸ (leNat_zero_iff_beNat _ _ _).mp h), if_neg hz]
    wstep
    unerr
    wstep
    refine ⟨σ4, _, rfl, d3.later, d3.host, ?_⟩
    rfl

end Rt
