import Verif.Proof.StorageEnc7

/-!
The emitted code for deleting a stored value computes `del`, a function on storage.
-/

namespace Layout
open Mv Rt

/-- State of the deletion: storage, current slot, bytes of it passed, bytes of memory allocated. -/
structure DSt where
  stor : Nat → Nat
  slot : Nat
  off : Nat
  used : Nat

namespace DSt

/-- The current slot is zeroed. -/
def wipe (st : DSt) : DSt := { st with stor := upd st.stor st.slot 0 }

def acc (st : DSt) (n : Nat) : Option DSt :=
  if st.off + n ≤ 32 then some { st with off := st.off + n }
  else if st.slot + 1 < 2 ^ 256 then some ⟨upd st.stor st.slot 0, st.slot + 1, n, st.used⟩ else none

end DSt

/-- `n` consecutive elements of the same type. -/
def delEls (w : Nat) (f : DSt → Option DSt) : Nat → DSt → Option DSt
  | 0, st => some st
  | n + 1, st => (st.acc w).bind fun s1 => (f s1).bind fun s2 => delEls w f n s2

/-- Storage with the slots from `a` to before `b` zeroed. -/
def zeroed (S : Nat → Nat) (a b : Nat) : Nat → Nat := fun x => if a ≤ x ∧ x < b then 0 else S x

mutual
/-- `delT`, after the slot has been advanced. -/
def del (K : List UInt8 → Nat) : Ty → DSt → Option DSt
  | .struct fs, st => (dels K fs st).map DSt.wipe
  | .enum vss, st =>
      let q := next (.enum vss) (st.slot, st.off)
      if q.1 < 2 ^ 256 then some ⟨zeroed st.stor st.slot q.1, q.1, q.2, st.used + 68⟩ else none
  | .vec t, st =>
      if st.stor st.slot % 2 ^ 32 = 0 then some ⟨upd st.stor st.slot 0, st.slot, st.off, st.used + 32⟩ else
        (delEls (width t) (fun s => del K t s) (st.stor st.slot % 2 ^ 32)
          ⟨upd st.stor st.slot 0, elems K st.slot, 0, st.used + 32⟩).map fun s =>
          ⟨s.wipe.stor, st.slot, st.off, s.used⟩
  | _, st => some st
def dels (K : List UInt8 → Nat) : List Ty → DSt → Option DSt
  | [], st => some st
  | t :: ts, st => (st.acc (width t)).bind fun s1 => (del K t s1).bind fun s2 => dels K ts s2
end

theorem DSt.acc_used {st st' : DSt} {n : Nat} (h : st.acc n = some st') : st'.used = st.used := by
  unfold DSt.acc at h
  split at h
  · rw [← Option.some.inj h]
  · split at h
    · rw [← Option.some.inj h]
    · exact absurd h (by simp)

theorem delEls_used {w n : Nat} {f : DSt → Option DSt} (hf : ∀ s s', f s = some s' → s.used ≤ s'.used) {st st' : DSt}
    (h : delEls w f n st = some st') : st.used ≤ st'.used := by
  induction n generalizing st with
  | zero => simp only [delEls] at h; rw [Option.some.inj h]
  | succ n ih =>
    simp only [delEls, Option.bind_eq_some_iff] at h
    obtain ⟨s1, h1, s2, h2, h3⟩ := h
    have e1 := DSt.acc_used h1
    have e2 := hf _ _ h2
    have e3 := ih h3
    omega

mutual
theorem del_used {K : List UInt8 → Nat} : ∀ (t : Ty) {st st' : DSt}, del K t st = some st' → st.used ≤ st'.used
  | .struct fs, st, st', h => by
    simp only [del, Option.map_eq_some_iff] at h
    obtain ⟨s1, h, rfl⟩ := h
    have := dels_used fs h
    simpa only [DSt.wipe] using this
  | .enum vss, st, st', h => by
    simp only [del] at h
    split at h
    · rw [← Option.some.inj h]; exact Nat.le_add_right ..
    · exact absurd h (by simp)
  | .vec t, st, st', h => by
    simp only [del] at h
    split at h
    · rw [← Option.some.inj h]; exact Nat.le_add_right ..
    · obtain ⟨s1, h1, rfl⟩ := Option.map_eq_some_iff.mp h
      have := delEls_used (fun s s' => del_used t) h1
      simp only at this ⊢
      omega
  | .bool, _, _, h | .u8, _, _, h | .u16, _, _, h | .u32, _, _, h | .u64, _, _, h | .u128, _, _, h
  | .u256, _, _, h | .address, _, _, h | .object _, _, _, h => by simp only [del] at h; rw [Option.some.inj h]
theorem dels_used {K : List UInt8 → Nat} : ∀ (ts : List Ty) {st st' : DSt}, dels K ts st = some st' → st.used ≤ st'.used
  | [], st, st', h => by simp only [dels] at h; rw [Option.some.inj h]
  | t :: ts, st, st', h => by
    simp only [dels, Option.bind_eq_some_iff] at h
    obtain ⟨s1, h1, s2, h2, h3⟩ := h
    have e1 := DSt.acc_used h1
    have e2 := del_used t h2
    have e3 := dels_used ts h3
    omega
end

end Layout

namespace Rt
open Wasm Slots Mv Layout

variable {σ σ' σ'' : Store} {E : ErrPtrs}

/-- The step from `σ` to `σ'` leads from `st` to `st'`; the current slot is in the cell at `a`. -/
def Deleted (a : Nat) (σ σ' : Store) (n : Nat) (st' : DSt) : Prop :=
  ∃ buf, Enced a σ σ' n ⟨st'.stor, buf, st'.slot, st'.off⟩

/-- The emitted code for values of the type computes `del`. -/
def DelRun (E : ErrPtrs) (t : Ty) : Prop :=
  ∀ (σ : Store) (K : List UInt8 → Nat) (a : Nat) (st st' : DSt) (buf sp so k : Nat) (s l : List Nat) (is : List Instr)
    (Q : Res → Prop),
    Sim σ a ⟨st.stor, buf, st.slot, st.off⟩ → σ.host.keccak = K → del K t st = some st' →
    Room σ (st'.used - st.used) → lget l sp = a → lget l so = st.off → sp < k → so < k → sp ≠ so →
    k + nlDel t ≤ l.length →
    (∀ σ' l', Deleted a σ σ' (st'.used - st.used) st' → l'.length = l.length → lget l' so = st'.off →
      (∀ j, j < k → j ≠ so → lget l' j = lget l j) → wp is s l' σ' Q) →
    wp (delT E sp so t k ++ is) s l σ Q

def DelsRun (E : ErrPtrs) (ts : List Ty) : Prop :=
  ∀ (σ : Store) (K : List UInt8 → Nat) (a : Nat) (st st' : DSt) (buf sp so k : Nat) (s l : List Nat) (is : List Instr)
    (Q : Res → Prop),
    Sim σ a ⟨st.stor, buf, st.slot, st.off⟩ → σ.host.keccak = K → dels K ts st = some st' →
    Room σ (st'.used - st.used) → lget l sp = a → lget l so = st.off → sp < k → so < k → sp ≠ so →
    k + nlDelFs ts ≤ l.length →
    (∀ σ' l', Deleted a σ σ' (st'.used - st.used) st' → l'.length = l.length → lget l' so = st'.off →
      (∀ j, j < k → j ≠ so → lget l' j = lget l j) → wp is s l' σ' Q) →
    wp (delFs E sp so ts k ++ is) s l σ Q

theorem Sim.wipe {a : Nat} {st : St} (h : Sim σ a st) :
    Enced a σ (stored σ (beNat σ.mem a 32) (beNat σ.mem 0 32)) 0 { st with stor := upd st.stor st.slot 0 } := by
  rw [h.slot, zero_be h.statics]; exact h.store _ _

theorem wp_accDField {a n buf sp so : Nat} {st s1 : DSt} {is s l Q} (h : Sim σ a ⟨st.stor, buf, st.slot, st.off⟩)
    (hn : n ≤ 32) (hacc : st.acc n = some s1) (hsp : lget l sp = a) (hso : lget l so = st.off)
    (hk : ∀ σ1, Enced a σ σ1 0 ⟨s1.stor, buf, s1.slot, s1.off⟩ → wp is s (lset l so s1.off) σ1 Q) :
    wp (code[Op.lget sp, Op.lget so, Op.c32 n, (accD E).call, Op.lset so] ++ is) s l σ Q := by
  have ho := h.off
  unfold DSt.acc at hacc
  wstep
  rw [hsp, hso]
  refine wp_call3 (accD_spec h.cellAt (zero_be h.statics) ho hn ?_) ?_
  · rw [h.slot]
    split at hacc
    · left; assumption
    · split at hacc
      · right; assumption
      · exact absurd hacc (by simp)
  · intro r σ1 hr
    by_cases hc : st.off + n ≤ 32
    · rw [if_pos hc] at hacc
      rw [if_pos (by exact hc)] at hr
      obtain rfl := Option.some.inj hacc
      obtain ⟨rfl, rfl⟩ := hr
      wstep
      exact hk _ (Sim.reoff h.refl hc)
    · rw [if_neg hc] at hacc
      rw [if_neg (by exact hc)] at hr
      split at hacc
      · rename_i hlt
        obtain rfl := Option.some.inj hacc
        obtain ⟨rfl, rfl⟩ := hr
        wstep
        have h1 := h.wipe
        rw [zero_be h.statics] at h1
        have h2 := h1.trans (h1.sim.next hlt)
        exact hk _ (Sim.reoff h2 hn)
      · exact absurd hacc (by simp)

theorem delAtom_run {t : Ty} (ht : ∀ sp so k, delT E sp so t k = []) (hd : ∀ K st, del K t st = some st) : DelRun E t := by
  intro σ K a st st' buf sp so k s l is Q hsim hK hrun hroom hsp hso hspk hsok hne hlen hk
  rw [hd] at hrun
  obtain rfl := Option.some.inj hrun
  rw [ht]
  exact hk σ l ⟨buf, hsim.refl.mono (Nat.zero_le _)⟩ rfl hso fun _ _ _ => rfl

theorem delFs_nil : DelsRun E [] := by
  intro σ K a st st' buf sp so k s l is Q hsim hK hrun hroom hsp hso hspk hsok hne hlen hk
  simp only [dels] at hrun
  obtain rfl := Option.some.inj hrun
  simp only [delFs, List.nil_append]
  exact hk σ l ⟨buf, hsim.refl.mono (Nat.zero_le _)⟩ rfl hso fun _ _ _ => rfl

theorem delFs_cons {t : Ty} {ts : List Ty} (ht : DelRun E t) (hts : DelsRun E ts) : DelsRun E (t :: ts) := by
  intro σ K a st st' buf sp so k s l is Q hsim hK hrun hroom hsp hso hspk hsok hne hlen hk
  simp only [dels, Option.bind_eq_some_iff] at hrun
  obtain ⟨s1, h1, s2, h2, h3⟩ := hrun
  have u1 := DSt.acc_used h1
  have u2 := del_used t h2
  have u3 := dels_used ts h3
  simp only [nlDelFs] at hlen
  simp only [delFs, List.append_assoc, fsize_eq]
  refine wp_accDField hsim (width_le t) h1 hsp hso fun σ1 e1 => ?_
  have c1 := e1.cost
  refine ht σ1 K a s1 s2 buf sp so k s _ _ Q e1.sim (e1.later.keccak.trans hK) h2
    (hroom.mono (by omega) |>.after (k := 0) (by omega) e1.later.maxPages) (by rw [lget_lset_ne hne, hsp])
    (lget_lset_same (by omega)) hspk hsok hne (by rw [lset_length]; omega) ?_
  rintro σ2 l2 ⟨buf2, e2⟩ hl2 hso2 hpres2
  rw [lset_length] at hl2
  have c2 := e2.cost
  have e12 := e1.trans e2
  refine hts σ2 K a s2 st' buf2 sp so (k + nlDel t) s l2 is Q e2.sim (e12.later.keccak.trans hK) h3
    (hroom.mono (by omega) |>.after (k := s2.used - st.used) (by omega) e12.later.maxPages)
    (by rw [hpres2 sp hspk hne, lget_lset_ne hne, hsp]) hso2 (by omega) (by omega) hne (by omega) ?_
  rintro σ3 l3 ⟨buf3, e3⟩ hl3 hso3 hpres3
  refine hk σ3 l3 ⟨buf3, (e12.trans e3).mono (by omega)⟩ (by omega) hso3 fun j hj hjs => ?_
  rw [hpres3 j (by omega) hjs, hpres2 j hj hjs, lget_lset_ne hjs]

theorem delStruct_run {fs : List Ty} (hfs : DelsRun E fs) : DelRun E (.struct fs) := by
  intro σ K a st st' buf sp so k s l is Q hsim hK hrun hroom hsp hso hspk hsok hne hlen hk
  simp only [del, Option.map_eq_some_iff] at hrun
  obtain ⟨s1, hrun, rfl⟩ := hrun
  simp only [nlDel] at hlen
  simp only [delT, List.append_assoc]
  refine hfs σ K a st s1 buf sp so k s l _ Q hsim hK hrun hroom hsp hso hspk hsok hne hlen ?_
  rintro σ1 l1 ⟨buf1, e1⟩ hl1 hso1 hpres1
  have f1 := e1.sim.nf
  have f2 := e1.sim.base
  have f3 := e1.sim.inside
  wstep
  rw [hpres1 sp hspk hne, hsp, wp_storageCache (by omega) (by omega)]
  exact hk _ l1 ⟨buf1, (e1.trans e1.sim.wipe).mono (by simp only [DSt.wipe]; omega)⟩ hl1 hso1 hpres1


theorem zeroed_self (S : Nat → Nat) (a : Nat) : zeroed S a a = S := by
  funext x; unfold zeroed; rw [if_neg (by omega)]

theorem zeroed_succ (S : Nat → Nat) {a b : Nat} (h : a ≤ b) : upd (zeroed S a b) b 0 = zeroed S a (b + 1) := by
  funext x
  unfold zeroed upd
  by_cases h1 : x = b
  · rw [if_pos h1, if_pos (by omega)]
  · rw [if_neg h1]
    dsimp only
    by_cases h2 : a ≤ x ∧ x < b
    · rw [if_pos h2, if_pos (by omega)]
    · rw [if_neg h2, if_neg (by omega)]

theorem delEnum_run {vss : List (List Ty)} (hsz : SizeOk vss) : DelRun E (.enum vss) := by
  intro σ K a st st' buf sp so k s l is Q hsim hK hrun hroom hsp hso hspk hsok hne hlen hk
  simp only [del] at hrun
  split at hrun
  case isFalse => exact absurd hrun (by simp)
  rename_i hq
  obtain rfl := Option.some.inj hrun
  simp only [nlDel] at hlen
  simp only [Nat.add_sub_cancel_left] at hroom hk
  have f1 := hsim.nf
  have f2 := hsim.base
  have f3 := hsim.lt
  have f4 := hsim.inside
  have ho : st.off ≤ 32 := hsim.off
  simp only [delT]
  wstep
  rw [hsp, hso]
  refine wp_call2 (tailPos_spec hsim.heap hsim.statics hroom hsim.inside hsim.cell ho
    (hsz _ (Nat.mod_lt _ (by omega))) (by rw [hsim.slot]; exact hq)) ?_
  rintro r σ1 ⟨rfl, l1, hh1, n1, n2, q1, q2⟩
  rw [hsim.slot] at q1 q2
  simp only at q1 q2
  obtain ⟨q, hqe⟩ : ∃ q, q = next (.enum vss) (st.slot, st.off) := ⟨_, rfl⟩
  rw [← hqe] at q1 q2 hq hk
  have hle : st.slot ≤ q.1 := by
    have := (next_Le (.enum vss) (p := (st.slot, st.off)) ho).2
    rw [← hqe] at this
    exact this
  have hq2 : q.2 < 32 := by rw [hqe]; simp only [next]; omega
  have h1 : Enced a σ σ1 68 ⟨st.stor, buf, st.slot, st.off⟩ := by
    have l2 : Later (scr a) σ σ1 := l1.mono fun x _ hx => Or.inr (Or.inl hx)
    refine ⟨l2, ⟨l2.heap, l1.statics f2 hsim.statics fun x hx => by unfold sizeTable; omega, hsim.cell,
      hsim.inside.trans l2.nextFree, ?_, ho, by rw [hh1, hsim.stor], ?_⟩, n2⟩
    · have hc := hsim.cell
      rw [l1.beNat hsim.inside fun x h1 h2 => by unfold sizeTable; unfold Cell at hc; omega, hsim.slot]
    · rw [l1.beNat (by omega) fun x h1 h2 => by unfold sizeTable; omega, hsim.buf]
  wstep
  obtain ⟨L, hL⟩ : ∃ L, L = lset l k σ.nextFree := ⟨_, rfl⟩
  rw [← hL]
  have eL : L.length = l.length := by subst hL; lsimp
  have dk : lget L k = σ.nextFree := by subst hL; lsimp
  have dsp : lget L sp = a := by subst hL; lsimp; exact hsp
  refine wp_loop (fun m l' σ' => l' = L ∧ ∃ c, m = q.1 - c ∧ st.slot ≤ c ∧ c ≤ q.1 ∧
      Enced a σ1 σ' 0 ⟨zeroed st.stor st.slot c, buf, c, q.2⟩) (q.1 - st.slot)
      ⟨rfl, st.slot, rfl, Nat.le_refl _, hle, ?_⟩ ?_
  · rw [zeroed_self]; exact Sim.reoff h1.sim.refl (by omega)
  rintro m l' σ' ⟨rfl, c, rfl, hc1, hc2, en⟩
  have k1 := en.sim.nf
  have k2 := en.sim.base
  have k3 := en.sim.lt
  have k4 := en.sim.inside
  have k5 := en.later.nextFree
  have tail : beNat σ'.mem σ.nextFree 32 = q.1 := by
    rw [en.later.beNat (by omega) fun x hx hx' => by unfold scr sizeTable hashBuf; omega, q1]
  have toff : leNat σ'.mem (σ.nextFree + 32) 4 = q.2 := by
    rw [en.later.leNat (by omega) fun x hx hx' => by unfold scr sizeTable hashBuf; omega, q2]
  wstep
  rw [dsp, dk]
  refine wp_slotEq k3 (by omega) (by omega) en.sim.slot tail ?_
  by_cases hcc : c = q.1
  · rw [b2n_pos hcc]
    subst hcc
    wstep
    rw [dk, toff]
    refine hk _ _ ⟨buf, (h1.trans en).mono (by omega)⟩ (by rw [lset_length, eL]) ?_ fun j hj hjs => ?_
    · rw [lget_lset_same (by omega)]
    · rw [lget_lset_ne hjs]; subst hL; lsimp
  · rw [b2n_neg hcc]
    wstep
    rw [dsp, wp_storageCache (by omega) (by omega)]
    have en1 := en.trans en.sim.wipe
    generalize Rt.stored σ' (beNat σ'.mem a 32) (beNat σ'.mem 0 32) = σ3 at en1
    simp only at en1
    rw [zeroed_succ _ hc1] at en1
    wstep
    rw [dsp]
    refine wp_nextSlot en1.sim.cellAt (by rw [en1.sim.slot]; simp only; omega) ?_
    have en2 := en1.trans (en1.sim.next (by simp only; omega))
    generalize σ3.setMem (putBe σ3.mem a 32 (beNat σ3.mem a 32 + 1)) = σ5 at en2
    wstep
    rw [lset_self (by omega) dsp]
    exact ⟨q.1 - (c + 1), by omega, rfl, c + 1, rfl, by omega, by omega, en2⟩

theorem delVec_run {t : Ty} (ht : DelRun E t) : DelRun E (.vec t) := by
  intro σ K a st st' buf sp so k s l is Q hsim hK hrun hroom hsp hso hspk hsok hne hlen hk
  have hused := del_used (.vec t) hrun
  simp only [del] at hrun
  obtain ⟨n, hn⟩ : ∃ n, n = st.stor st.slot % 2 ^ 32 := ⟨_, rfl⟩
  rw [← hn] at hrun
  have hnl : n < 2 ^ 32 := by omega
  have hu32 : st.used + 32 ≤ st'.used := by
    split at hrun
    · rw [← Option.some.inj hrun]
    · obtain ⟨s1, h1, rfl⟩ := Option.map_eq_some_iff.mp hrun
      exact delEls_used (fun s s' => del_used t) h1
  simp only [nlDel] at hlen
  have f1 := hsim.nf
  have f2 := hsim.base
  have f3 := hsim.lt
  have f4 := hsim.inside
  have ho : st.off ≤ 32 := hsim.off
  simp only [delT, List.append_assoc]
  wstep
  refine wp_allocR hsim.heap hroom (n := 32) (by omega) fun σ2 a2 => ?_
  have en2 := hsim.enter a2
  generalize hb : σ.nextFree = b at en2
  have g1 := en2.sim.nf
  have g2 := en2.sim.lt
  have g3 := a2.nextFree
  have hcell := hsim.cell_inner (by omega) en2.later
  wstep
  rw [hsp, wp_storageLoad (by omega) (by omega), hcell, en2.sim.stor]
  have en3 := en2.trans (en2.sim.loadBuf (x := st.stor st.slot))
  have hrd := len_read en3.sim.buf
  simp only at en3
  generalize σ2.setMem (putBe σ2.mem 64 32 (st.stor st.slot)) = σ3 at en3 hrd
  have k1 := en3.sim.nf
  have k2 := en3.sim.lt
  have k3 := en3.sim.base
  have k4 := en3.later.nextFree
  wstep
  refine wp_call1 swap32_spec ?_
  rintro r σ4 ⟨rfl, rfl⟩
  rw [hrd, ← hn]
  wstep
  obtain ⟨L, hL⟩ : ∃ L, L = lset (lset l (k + 1) b) k n := ⟨_, rfl⟩
  rw [← hL]
  have eq : ∀ j, j < k → lget L j = lget l j := fun j hj => by subst hL; lsimp
  have eL : L.length = l.length := by subst hL; lsimp
  have d0 : lget L k = n := by subst hL; lsimp
  have d1 : lget L (k + 1) = b := by subst hL; lsimp
  have hcell3 := hsim.cell_inner (by omega) en3.later
  simp only at hcell3
  rw [hsp, wp_storageCache (by omega) (by omega), hcell3, zero_be en3.sim.statics]
  have en4 := en3.trans (en3.sim.store st.slot 0)
  have hcell4 : beNat (Rt.stored σ4 st.slot 0).mem a 32 = st.slot := hcell3
  simp only at en4
  generalize Rt.stored σ4 st.slot 0 = σ5 at en4 hcell4
  have m0 := en4.sim.nf
  have m1 := en4.sim.inside
  have m2 := en4.sim.lt
  have m3 := en4.sim.base
  wstep
  -- leaving the code
  have fin : ∀ σ' l' c stx, Enced b σ σ' c stx → c ≤ st'.used - st.used →
      st' = ⟨stx.stor, st.slot, st.off, st'.used⟩ → l'.length = L.length → (∀ j, j < k → lget l' j = lget L j) →
      wp is s l' σ' Q := by
    intro σ' l' c stx h1 hn hst hl' hpres
    have h2 := (hsim.leave (by omega) h1 st.off ho).mono hn
    refine hk σ' l' ⟨stx.buf, ?_⟩ (by omega) ?_ fun j hj hjs => ?_
    · rw [hst]; exact h2
    · rw [hpres so hsok, eq so hsok, hso, hst]
    · rw [hpres j hj, eq j hj]
  refine .intro (fun h0 => ?_) (fun h0 => ?_)
  · rw [d0] at h0
    rw [if_pos h0] at hrun
    refine fin σ5 L _ _ en4 (by omega) ?_ rfl fun _ _ => rfl
    rw [← Option.some.inj hrun]
  rw [d0] at h0
  rw [if_neg h0] at hrun
  obtain ⟨s1, hels, rfl⟩ := Option.map_eq_some_iff.mp hrun
  simp only at hroom
  rw [d1, eq sp hspk, hsp, wp_keccak (by omega) (by omega), rdBytes_word hcell4, en4.later.keccak, hK]
  have en5 := Sim.reoff (en4.trans (en4.sim.move (σ' := σ5.setMem (putBe σ5.mem b 32 (K (Abi.word st.slot))))
    (v := elems K st.slot) (Touches.set fun x hx => putBe_out (by omega)) ?_)) (n := 0) (by omega)
  swap
  · rw [setMem_mem, beNat_putBe_same]; rfl
  simp only at en5
  generalize σ5.setMem (putBe σ5.mem b 32 (K (Abi.word st.slot))) = σ6 at en5
  wstep
  obtain ⟨L', hL'⟩ : ∃ L', L' = lset (lset L (k + 2) 0) (k + 3) 0 := ⟨_, rfl⟩
  rw [← hL']
  have eq' : ∀ j, j < k + 2 → lget L' j = lget L j := fun j hj => by subst hL'; lsimp
  have eL' : L'.length = L.length := by subst hL'; lsimp
  have d2 : lget L' (k + 2) = 0 := by subst hL'; lsimp
  have d3 : lget L' (k + 3) = 0 := by subst hL'; lsimp
  refine wp_loop (fun m l' σ' => ∃ i c stc bufc, m + i = n ∧ i < n ∧ l'.length = L.length ∧
    (∀ j, j < k + 2 → lget l' j = lget L j) ∧ lget l' (k + 2) = i ∧ lget l' (k + 3) = stc.off ∧
    Enced b σ σ' c ⟨stc.stor, bufc, stc.slot, stc.off⟩ ∧ st.used + c ≤ stc.used ∧
    delEls (width t) (fun s => del K t s) m stc = some s1) n
    ⟨0, 32, ⟨upd st.stor st.slot 0, elems K st.slot, 0, st.used + 32⟩, _, by omega, by omega, eL', eq', d2, d3, en5, by simp only; omega, hels⟩ ?_
  rintro m l' σ7 ⟨i, c, stc, bufc, hm, hi, hl', hpres, hi2, hi3, en, hcost, hrun⟩
  obtain ⟨m, rfl⟩ : ∃ m', m = m' + 1 := ⟨m - 1, by omega⟩
  simp only [delEls, Option.bind_eq_some_iff] at hrun
  obtain ⟨sa, hacc, sb, hdel, hrun⟩ := hrun
  have u1 := DSt.acc_used hacc
  have u2 := del_used t hdel
  have u3 := delEls_used (fun s s' => del_used t) hrun
  simp only [fsize_eq]
  refine wp_accDField (sp := k + 1) (so := k + 3) (is := _) en.sim (width_le t) hacc ?_ hi3 fun σ8 h8 => ?_
  · rw [hpres (k + 1) (by omega), d1]
  have en8 := en.trans h8
  have c8 := en8.cost
  simp only [List.append_eq]
  refine ht σ8 K b sa sb bufc (k + 1) (k + 3) (k + 4) _ _ _ _ en8.sim (en8.later.keccak.trans hK) hdel
    (hroom.mono (by omega) |>.after (k := c) (by omega) en8.later.maxPages)
    ?_ (lget_lset_same (by omega)) (by omega) (by omega) (by omega) (by rw [lset_length]; omega) ?_
  · rw [lget_lset_ne (by omega), hpres (k + 1) (by omega), d1]
  rintro σ9 l9 ⟨buf9, e9⟩ hl9 hso9 hpres9
  rw [lset_length] at hl9
  have hA := en8.trans e9
  have v1 := hA.sim.nf
  have v2 := hA.sim.lt
  have v3 := hA.sim.inside
  have v4 := hA.sim.base
  have p0 : lget l9 k = n := by
    rw [hpres9 _ (by omega) (by omega), lget_lset_ne (by omega), hpres _ (by omega), d0]
  have p1 : lget l9 (k + 1) = b := by
    rw [hpres9 _ (by omega) (by omega), lget_lset_ne (by omega), hpres _ (by omega), d1]
  have p2 : lget l9 (k + 2) = i := by
    rw [hpres9 _ (by omega) (by omega), lget_lset_ne (by omega), hi2]
  have hsub : W.w32.sub n 1 = n - 1 := by simp only [W.sub, W.mod]; omega
  wstep
  rw [p0, p2]
  refine .intro (fun hlast => ?_) (fun hlast => ?_)
  · obtain rfl : m = 0 := by omega
    simp only [delEls] at hrun
    obtain rfl := Option.some.inj hrun
    rw [p1, wp_storageCache (by omega) (by omega)]
    have hB := hA.trans hA.sim.wipe
    wstep
    refine fin _ l9 _ _ hB (by simp only; omega) rfl (by omega) fun j hj => ?_
    rw [hpres9 _ (by omega) (by omega), lget_lset_ne (by omega), hpres _ (by omega)]
  · refine ⟨m, by omega, i + 1, _, sb, buf9, by omega, by omega, ?_, fun j hj => ?_, ?_, ?_, hA, by omega, hrun⟩
    · rw [lset_length]; omega
    · rw [lget_lset_ne (by omega), hpres9 _ (by omega) (by omega), lget_lset_ne (by omega), hpres _ hj]
    · rfl
    · exact hso9

end Rt
