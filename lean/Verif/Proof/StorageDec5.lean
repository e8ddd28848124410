import Verif.Proof.StorageDec4

/-! The emitted decoder: objects inside objects. -/

namespace Rt
open Wasm Slots Mv Layout

variable {σ σ' σ'' : Store} {E : ErrPtrs} {T : Ty → Nat}

/-- The position, `e` slots further. -/
def shift (p : Pos) (e : Nat) : Pos := (p.1 + e, p.2)

theorem shift_place (p : Pos) (e n : Nat) : place (shift p e) n = shift (place p n) e := by
  unfold place shift
  dsimp only
  split
  · rfl
  · rw [Nat.add_right_comm]

theorem shift_lin (p : Pos) (e : Nat) : lin (shift p e) = lin p + 32 * e := by
  unfold lin shift; dsimp only; omega

theorem decide_shift (p q : Pos) (e : Nat) : decide ((shift q e).1 ≠ (shift p e).1) = decide (q.1 ≠ p.1) := by
  simp [shift]

mutual
theorem shift_next (t : Ty) (p : Pos) (e : Nat) : next t (shift p e) = shift (next t p) e := by
  match t with
  | .struct fs => rw [next, next]; exact shift_nexts fs p e
  | .enum vss =>
    rw [next, next, shift_place, shift_furthest]
    unfold shift
    dsimp only
    rw [Nat.add_mul_div_left _ _ (by omega), Nat.add_mul_mod_self_left]
  | .bool | .u8 | .u16 | .u32 | .u64 | .u128 | .u256 | .address | .vec _ | .object _ => simp only [next]; exact shift_place ..
theorem shift_nexts (ts : List Ty) (p : Pos) (e : Nat) : nexts ts (shift p e) = shift (nexts ts p) e := by
  match ts with
  | [] => rw [nexts, nexts]
  | t :: ts => rw [nexts, nexts, shift_next t, shift_nexts ts]
theorem shift_furthest (vss : List (List Ty)) (p : Pos) (e : Nat) : furthest vss (shift p e) = furthest vss p + 32 * e := by
  match vss with
  | [] => rw [furthest, furthest]; exact shift_lin p e
  | fs :: vss => rw [furthest, furthest, shift_nexts fs, shift_furthest vss, shift_lin]; omega
end

mutual
theorem shift_fresh (t : Ty) (v : Val) (p : Pos) (e : Nat) (b : Bool) : fresh t v (shift p e) b = fresh t v p b := by
  match t, v with
  | .struct fs, .struct vs => rw [fresh, fresh]; exact shift_freshFs fs vs p e b
  | .enum vss, .variant i vs =>
    rw [fresh, fresh, shift_place, shift_next]
    rw [show (shift (next (.enum vss) p) e).1 = (next (.enum vss) p).1 + e from rfl, shift_freshVar vss i vs]
    have : decide ((shift (place p 1) e).1 ≠ (shift p e).1) = decide ((place p 1).1 ≠ p.1) := by
      unfold shift; simp
    rw [this]
  | .vec t, .vec vs => rw [fresh, fresh]
  | .object (_ :: fs), .object _ (_ :: vs) => rw [fresh, fresh]
  | .bool, .num _ | .u8, .num _ | .u16, .num _ | .u32, .num _ | .u64, .num _ | .u128, .num _ | .u256, .num _ | .address, .num _ =>
    rw [fresh, fresh, shift_place]; unfold shift; simp
  | .vec _, .num _ | .struct _, .num _ | .object [], .num _ | .object (_ :: _), .num _ | .enum _, .num _ =>
    simp only [fresh, shift_place, width, decide_shift] <;> congr
  | .bool, .vec _ | .bool, .struct _ | .bool, .object _ _ | .bool, .variant _ _ => simp only [fresh]
  | .u8, .vec _ | .u8, .struct _ | .u8, .object _ _ | .u8, .variant _ _ => simp only [fresh]
  | .u16, .vec _ | .u16, .struct _ | .u16, .object _ _ | .u16, .variant _ _ => simp only [fresh]
  | .u32, .vec _ | .u32, .struct _ | .u32, .object _ _ | .u32, .variant _ _ => simp only [fresh]
  | .u64, .vec _ | .u64, .struct _ | .u64, .object _ _ | .u64, .variant _ _ => simp only [fresh]
  | .u128, .vec _ | .u128, .struct _ | .u128, .object _ _ | .u128, .variant _ _ => simp only [fresh]
  | .u256, .vec _ | .u256, .struct _ | .u256, .object _ _ | .u256, .variant _ _ => simp only [fresh]
  | .address, .vec _ | .address, .struct _ | .address, .object _ _ | .address, .variant _ _ => simp only [fresh]
  | .vec _, .struct _ | .vec _, .object _ _ | .vec _, .variant _ _ => simp only [fresh]
  | .struct _, .vec _ | .struct _, .object _ _ | .struct _, .variant _ _ => simp only [fresh]
  | .enum _, .vec _ | .enum _, .object _ _ | .enum _, .struct _ => simp only [fresh]
  | .object [], .vec _ | .object [], .struct _ | .object [], .object _ _ | .object [], .variant _ _ => simp only [fresh]
  | .object (_ :: _), .vec _ | .object (_ :: _), .struct _ | .object (_ :: _), .object _ [] | .object (_ :: _), .variant _ _ => simp only [fresh]
theorem shift_freshFs (ts : List Ty) (vs : List Val) (p : Pos) (e : Nat) (b : Bool) : freshFs ts vs (shift p e) b = freshFs ts vs p b := by
  match ts, vs with
  | [], [] => rw [freshFs, freshFs]
  | t :: ts, v :: vs =>
    rw [freshFs, freshFs, shift_fresh t v, shift_next]
    congr 1; funext b'
    exact shift_freshFs ts vs _ e b'
  | [], _ :: _ => simp only [freshFs]
  | _ :: _, [] => simp only [freshFs]
theorem shift_freshVar (vss : List (List Ty)) (i : Nat) (vs : List Val) (q : Pos) (e s : Nat) :
    freshVar vss i vs (shift q e) (s + e) = freshVar vss i vs q s := by
  match vss, i with
  | fs :: _, 0 =>
    rw [freshVar, freshVar, shift_freshFs fs vs, shift_nexts]
    congr 1; funext b
    unfold shift; simp
  | _ :: vss, i + 1 => rw [freshVar, freshVar]; exact shift_freshVar vss i vs q e s
  | [], _ => rw [freshVar, freshVar]
end

/-- Back from an inner cell. -/
theorem DSim.leave {a c c' n : Nat} {p q : Pos} {b b' : Bool} (h : DSim σ a p b) (h1 : Deced (scr c) c c' σ σ' n q b') (hc : σ.nextFree ≤ c) :
    Deced (scr a) a a σ σ' n p false := by
  have h2 := h.inside
  have h3 := h.cell
  have h4 := h.base
  have h5 := h1.later.nextFree
  refine ⟨h1.later.outer hc, h1.host, ⟨h1.sim.heap, h1.sim.statics, h3, by omega, ?_, h.off, fun h => by simp at h⟩, h1.cost, .inl rfl⟩
  rw [h1.later.beNat h2 fun x hx hx' => by unfold scr sizeTable hashBuf; unfold Cell at h3; omega, h.slot]

theorem decObject_run {fs : List Ty} (hfs : DecsRun E T fs) (hT : Tags T) : DecRun E T (.object (uidTy :: fs)) := by
  intro σ R K o v a p b b' d dp sp so ow k s l is Q hp hl hk
  have hh := hp.holds
  cases v with
  | object own vs =>
    cases vs with
    | nil => simp only [Layout.Holds] at hh
    | cons uid vs =>
    simp only [Layout.Holds] at hh
    obtain ⟨hh1, hh2, hh3⟩ := hh
    have hty := hp.typed
    simp only [Layout.Typed] at hty
    obtain ⟨⟨n, rfl, hn⟩, hty⟩ := hty
    have eid : idOf (.struct [.struct [.num n]]) = n := rfl
    rw [eid] at hh1 hh2 hh3
    obtain ⟨c, hc⟩ : ∃ c, c = objectSlot K o n := ⟨_, rfl⟩
    rw [← hc] at hh2 hh3
    have hf := hp.fresh
    simp only [Layout.fresh, Option.map_eq_some_iff] at hf
    obtain ⟨bm, hf, rfl⟩ := hf
    have hf' := shift_freshFs fs vs (0, 8) c true
    rw [hf, show shift (0, 8) c = (c, 8) by unfold shift; simp] at hf'
    have hfit := hp.fit
    simp only [dcost] at hfit hk
    have hnar := hp.narrow
    simp only [Layout.narrow, Layout.narrowFs, uidTy, Bool.or_eq_true] at hnar
    have hseg := hp.segs
    simp only [Layout.segs, eid, ← hc, List.mem_cons] at hseg
    have hbnd : (nexts fs (c, 8)).1 < 2 ^ 256 := hseg (c, (nexts fs (c, 8)).1) (.inl rfl)
    have hlen := hl.len
    simp only [nlDec] at hlen
    have hsim := hp.sim
    have hsok := hl.sok
    have hspk := hl.spk
    have hdpk := hl.dpk
    have howk := hl.owk
    have hb := hsim.base
    have hin := hsim.inside
    have hbo := Within.bounds hl.owner.1 hp.safe (by omega)
    simp only [decT, List.append_assoc]
    wstep
    refine wp_allocR hsim.heap hfit.1 (by omega) fun σ1 a1 => ?_
    have n1 := a1.nextFree
    have i1 := a1.inside
    have t1 := a1.heap.alloc.size_lt
    wstep
    rw [hl.spv, wp_storageLoad (by omega) (by omega), a1.mem, hsim.slot, a1.host]
    have e2 := a1.extends.write (m := putBe σ.mem σ.nextFree 32 (σ.host.storage (place p (width (.object (uidTy :: fs)))).1))
      (fun x hx => by rw [a1.mem]; exact putBe_out (by omega)) fun x hx => by rw [a1.mem]; exact putBe_out (by omega)
    obtain ⟨σ2, h2⟩ : ∃ σ2, σ2 = σ1.setMem (putBe σ.mem σ.nextFree 32 (σ.host.storage (place p (width (.object (uidTy :: fs)))).1)) := ⟨_, rfl⟩
    have v2 : beNat σ2.mem σ.nextFree 32 = n := by
      rw [h2, setMem_mem, beNat_putBe_same, ← hh1]; unfold dig; simp only [Nat.pow_zero, Nat.div_one]; rfl
    have n2 : σ2.nextFree = σ.nextFree + 32 := by rw [h2]; exact n1
    rw [← h2] at e2 ⊢
    have hfit2 : Fit σ2 d (80 + 4 * fs.length + dcostFs fs vs) :=
      hfit.after (k := 32) (by omega) n2 e2.maxPages e2.size id
    wstep
    refine wp_allocR (e2.heap hsim.heap) hfit2.1 (show 32 ≤ _ by omega) fun σ3 a3 => ?_
    have n3 := a3.nextFree
    have i3 := a3.inside
    have t3 := a3.heap.alloc.size_lt
    have e3 := e2.trans a3.extends
    wstep
    have st3 : Statics σ3 := (e3.later (R := fun _ => False) hsim.heap).statics hb hsim.statics fun _ _ h => h
    refine wp_call3 (writeObjectSlot_spec (by omega) st3.objects (by omega) (by omega) (by omega) (Or.inr (by omega)) (Or.inr (by omega)) (by omega)) ?_
    rintro r σ4 ⟨rfl, hslot, ht⟩
    rw [e3.host, hp.keccak, e3.beNat (show lget l ow + 32 ≤ σ.nextFree by omega), hl.owner.2, a3.mem, v2, ← hc] at hslot
    have t4 : Later (scr σ2.nextFree) σ3 σ4 := (ht.later a3.heap fun x hx => by unfold hashBuf at hx; omega).mono fun x _ hx => by
      unfold scr; rcases hx with hx | hx
      · exact .inr (.inr (.inl hx))
      · exact .inr (.inr (.inr hx))
    have t4' := (e3.later (R := scr σ2.nextFree) hsim.heap).trans t4
    have n4 : σ4.nextFree = σ3.nextFree := by rw [ht.eq]; rfl
    have hcell : Cell σ2.nextFree := Or.inr (by omega)
    have d4 : Deced (scr σ2.nextFree) σ2.nextFree σ2.nextFree σ σ4 64 (c, 0) false := by
      refine ⟨t4', by rw [ht.eq]; exact e3.host, ⟨t4'.heap, t4'.statics hb hsim.statics fun x hx => scr_static hcell hx, hcell, by omega, hslot,
        by simp, fun h => by simp at h⟩, by omega, .inl rfl⟩
    have v4 : beNat σ4.mem σ.nextFree 32 = n := by
      rw [ht.beNat (fun x h1 h2 => by unfold hashBuf; omega), a3.mem, v2]
    obtain ⟨L, hL⟩ : ∃ L, L = lset (lset (lset l (k + 3) σ.nextFree) (k + 4) σ2.nextFree) so 0 := ⟨_, rfl⟩
    have eL : ∀ j, j < k → j ≠ so → lget L j = lget l j := fun j hj hjs => by subst hL; lsimp
    have eLl : L.length = l.length := by subst hL; lsimp
    have e3' : lget L (k + 3) = σ.nextFree := by subst hL; lsimp
    have e4' : lget L (k + 4) = σ2.nextFree := by subst hL; lsimp
    wstep
    rw [← hL]
    have eow : lget L ow = lget l ow := eL ow howk hl.owo
    have s4 : Safe σ4 (Between σ.nextFree (σ.nextFree + 32)) σ2.nextFree := fun x hx => by obtain ⟨g1, g2⟩ := hx; omega
    refine wp_object hfs hT (R := Between σ.nextFree (σ.nextFree + 32)) (n := n) (vs := vs) rfl d4.sim s4
      (d4.later.keccak.trans hp.keccak) (by rw [d4.host]; exact hh2) (by rw [e3']; exact fun x g1 g2 => ⟨g1, g2⟩) (by rw [e3', v4])
      (by rw [eow]; omega) e4' (by rw [d4.host]; exact hh3) hty hf' (hfit.deced d4 (by omega)) (fun h => hnar (.inr h)) hbnd
      (fun g hg => hseg g (.inr hg)) ⟨by omega, by omega, by omega, by omega, by omega, by omega, by omega, by omega, by omega, by omega, by omega,
        by omega, by omega, by omega, by omega, by omega, by omega, by omega, by omega, by omega, by omega⟩ (by simp; omega) (by omega) ?_
    intro σ5 l5 c5 vs' d5 hrep her hl5 hk5 pres5
    wstep
    have n5 := d5.later.nextFree
    have d6 := hsim.leave (d4.then d5) (by omega)
    have eq2 : (place p (width (.object (uidTy :: fs)))).2 = 32 := by
      show (place p 32).2 = 32
      unfold place; split <;> simp; omega
    have hdps := hl.dps
    have hdpo := hl.dpo
    have hspo := hl.spo
    rw [next_placed (show 0 < width (.object (uidTy :: fs)) from by simp [width])] at hk
    have hle : σ4.nextFree + 32 ≤ σ5.nextFree := by
      obtain ⟨_, -, -, hw, -⟩ := id hrep
      rcases hw (σ4.nextFree + 31) (by omega) (by omega) with ⟨g1, g2⟩ | ⟨g1, g2, -⟩ <;> omega
    refine hk σ5 _ a _ _ (d6.mono ?_) ⟨(Arg.change (fld := true) (fun _ _ => rfl) (fun x hx => ?_) (show Arg σ5.mem _ true _ _ _ from hrep)), ?_, hle,
      fun h => by simp [Ty.scalar] at h⟩ ?_ ?_ ?_ ?_ fun j hj g1 g2 g3 => ?_
    · show _ ≤ 112 + 4 * fs.length + dcostFs fs vs
      omega
    · rcases hx with ⟨g1, g2⟩ | ⟨g1, g2, -⟩
      · exact ⟨g1, by omega, by omega⟩
      · exact ⟨by omega, g2, by omega⟩
    · simp only [Val.erase, eraseL, her]
    · rw [lset_length, lset_length]; omega
    · rw [lget_lset_ne (by omega), lget_lset_ne (by omega), pres5 sp (by omega) (by omega) (by omega) (by omega) (by omega) hspo (by omega), eL sp hspk hspo, hl.spv]
    · rw [lget_lset_ne (by omega), lget_lset_same (by omega), eq2]
    · rw [lget_lset_same (by rw [lset_length]; omega), hk5]
    · rw [lget_lset_ne g3, lget_lset_ne g1, pres5 j (by omega) (by omega) (by omega) (by omega) (by omega) g1 (by omega), eL j hj g1]
  | _ => simp only [Layout.Holds] at hh

end Rt
