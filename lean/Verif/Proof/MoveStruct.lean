import Verif.Proof.MoveCode
import Verif.Proof.VecEq
import Verif.Proof.VecOps3

/-! Structs and references: packing, unpacking, comparing, writing. -/

namespace Move
open Wasm Rt

variable {E : ErrPtrs} {σ σ' : Store} {w a b l : Nat}
variable {is : List Instr} {s loc : List Nat} {Q : Res → Prop}

theorem Data.tys_eq (ds : List Data) : Data.tys ds = ds.map Data.ty := by
  induction ds with
  | nil => rfl
  | cons d ds ih => simp only [Data.tys, ih, List.map_cons]

theorem datas_some : ∀ {os : List Opd} {ds : List Data}, datas os = some ds → os = ds.map Opd.data
  | [], ds, h => by cases h; rfl
  | .data d :: os, ds, h => by
    simp only [datas, Option.map_eq_some_iff] at h
    obtain ⟨ds', h1, rfl⟩ := h
    rw [datas_some h1]; rfl
  | .ref _ :: os, ds, h => by cases h

/-! ### Unpacking -/

theorem wp_unpackFields {Fz : Nat → Prop} {ρ : List Nat} {p : Nat} (hσ : Heap σ) (hF : ∀ x, Fz x → x < σ.nextFree)
    (hl : lget loc l = p) : ∀ (ds : List Data) (off : Nat) (s : List Nat) (m : Nat → Nat), HoldsFs σ Fz ds (p + off) m →
      (∀ ws m', OpdsRep σ Fz ρ (ds.map .data) ws m' → (∀ x, m' x ≤ m x) → wp is (ws.reverse ++ s) loc σ Q) →
      wp (unpackFields (Data.tys ds) l off ++ is) s loc σ Q
  | [], off, s, m, h, hk => hk [] (fun _ => 0) (fun _ => rfl) (fun _ => Nat.zero_le _)
  | d :: ds, off, s, m, h, hk => by
    have hle := hσ.alloc.nextFree_le
    simp only [HoldsFs] at h
    obtain ⟨m1, m2, ⟨h1, h2⟩, h3, h4⟩ := h
    have hb := hF _ (h1 (p + off + 3) (by omega) (by omega))
    simp only [Data.tys, unpackFields, List.append_assoc, List.cons_append, List.nil_append, wp_lget, hl]
    rw [wp_load (by omega)]
    refine wp_loadOpd (ρ := ρ) hσ h2 ?_
    intro w m1' hw hm1
    rw [Nat.add_assoc] at h3
    refine wp_unpackFields (ρ := ρ) hσ hF hl ds (off + 4) _ m2 h3 ?_
    intro ws m2' hws hm2
    have := hk (w :: ws) (fun x => m1' x + m2' x) ⟨m1', m2', hw, hws, fun _ => rfl⟩ (fun x => by
      have := hm1 x; have := hm2 x; have := h4 x; show m1' x + m2' x ≤ m x; omega)
    simpa using this

/-! ### Packing -/

/-- What is frozen while the first `n` fields are not yet stored. -/
def PackFz (Fz : Nat → Prop) (σ0 σ : Store) (n : Nat) (m : Nat → Nat) (x : Nat) : Prop :=
  Fz x ∨ (σ0.nextFree + 4 * n ≤ x ∧ x < σ.nextFree ∧ m x = 0)

theorem wp_packFields {Fz : Nat → Prop} {ρ : List Nat} {σ0 : Store} {N p : Nat} {m : Nat → Nat} (h0 : Heap σ0)
    (hF : ∀ x, Fz x → x < σ0.nextFree) :
    ∀ (rs : List Data) (ws s loc : List Nat) (l : Nat) (σ : Store) (tail : List Data) (mr md : Nat → Nat),
      lget loc p = σ0.nextFree → p + 1 < l → l + rs.length ≤ loc.length → Extends σ0 σ → Room σ (8 * rs.length) →
      σ0.nextFree + 4 * N ≤ σ.nextFree → rs.length ≤ N → OpdsRep σ0 Fz ρ (rs.map .data) ws mr →
      (∀ x, x < σ0.nextFree → md x + mr x ≤ m x) → (∀ x, mr x ≠ 0 → x < σ0.nextFree) →
      (∀ x, σ0.nextFree ≤ x → md x ≤ 1 ∧ (md x ≠ 0 → x < σ.nextFree)) →
      (∀ x, σ0.nextFree ≤ x → x < σ0.nextFree + 4 * N → md x = 0) →
      HoldsFs σ (PackFz Fz σ0 σ rs.length md) tail (σ0.nextFree + 4 * rs.length) md →
      (∀ loc' σ' m', Extends σ0 σ' → σ'.nextFree ≤ σ.nextFree + 8 * rs.length →
        (∀ x, x < σ0.nextFree → m' x ≤ m x) → (∀ x, σ0.nextFree ≤ x → m' x ≤ 1 ∧ (m' x ≠ 0 → x < σ'.nextFree)) →
        HoldsFs σ' (PackFz Fz σ0 σ' 0 m') (rs.reverse ++ tail) σ0.nextFree m' →
        lget loc' p = σ0.nextFree → SameLocs (p + 1) loc loc' → wp is s loc' σ' Q) →
      wp (packFields (Data.tys rs) p l rs.length ++ is) (ws ++ s) loc σ Q
  | [], [], s, loc, l, σ, tail, mr, md, hp, hpl, hl, hx, hr, hN, hn, hs, hlow, hmr, hhi, hblk, ht, hk => by
    refine hk loc σ md hx (by omega) (fun x h => by have := hlow x h; omega) hhi ?_ hp .refl
    simpa using ht
  | [], w :: ws, s, loc, l, σ, tail, mr, md, hp, hpl, hl, hx, hr, hN, hn, hs, hlow, hmr, hhi, hblk, ht, hk => hs.elim
  | d :: rs, [], s, loc, l, σ, tail, mr, md, hp, hpl, hl, hx, hr, hN, hn, hs, hlow, hmr, hhi, hblk, ht, hk => hs.elim
  | d :: rs, w :: ws, s, loc, l, σ, tail, mr, md, hp, hpl, hl, hx, hr, hN, hn, hs, hlow, hmr, hhi, hblk, ht, hk => by
    obtain ⟨m1, m2, hd, hrest, hsum⟩ := hs
    simp only [List.length_cons] at hl hr hn ht hk
    have hσ := hx.heap h0
    have hle := hσ.alloc.nextFree_le
    have hlt := hσ.alloc.size_lt
    have hnx := hx.nextFree
    -- the field has been put into a cell at `q`, owning `m1'`; its slot is written, and the rest follows
    have main : ∀ loc1 l1 σ1 m1' q, l ≤ l1 → l1 + rs.length ≤ loc1.length → SameLocs (p + 1) loc loc1 →
        lget loc1 p = σ0.nextFree → lget loc1 (p + 1) = q → q < 2 ^ 32 → Extends σ0 σ1 → σ.nextFree ≤ σ1.nextFree →
        Extends σ σ1 →
        σ1.nextFree ≤ σ.nextFree + 8 → (∀ x, x < σ0.nextFree → m1' x ≤ m1 x) →
        (∀ x, σ0.nextFree ≤ x → m1' x ≤ 1 ∧ (m1' x ≠ 0 → σ.nextFree ≤ x ∧ x < σ1.nextFree)) →
        Holds σ1 Fz d q m1' →
        wp (code[Op.lget p, Op.lget (p + 1), Op.store 4 (4 * rs.length)] ++ (packFields (Data.tys rs) p l1 rs.length ++ is))
          (ws ++ s) loc1 σ1 Q := by
      intro loc1 l1 σ1 m1' q hl1 hlen1 hs1 hp1 hq hq32 hx1 hnf hxσ hnf' hlo hhi1 hh
      have hσ1 := hx1.heap h0
      have hle1 := hσ1.alloc.nextFree_le
      simp only [List.cons_append, List.nil_append, wp_lget, hp1, hq]
      rw [wp_store (by omega)]
      have hx2 := hx1.putLe (p := σ0.nextFree + 4 * rs.length) (n := 4) (v := q) (by omega) (by omega)
      have hw : ∀ x, x < σ0.nextFree + 4 * rs.length ∨ σ0.nextFree + 4 * (rs.length + 1) ≤ x →
          putLe σ1.mem (σ0.nextFree + 4 * rs.length) 4 q x = σ1.mem x := fun x h => putLe_out (by omega)
      have hslot : leNat (putLe σ1.mem (σ0.nextFree + 4 * rs.length) 4 q) (σ0.nextFree + 4 * rs.length) 4 = q := by
        rw [leNat_putLe_same, Nat.mod_eq_of_lt (by omega)]
      have hmd1 : ∀ x, σ0.nextFree ≤ x → md x + m1' x ≤ 1 ∧ (md x + m1' x ≠ 0 → x < σ1.nextFree) := by
        intro x h
        have h1 := hhi x h
        have h2 := hhi1 x h
        by_cases hc : x < σ.nextFree
        · omega
        · have : md x = 0 := by by_contra h3; exact hc (h1.2 h3)
          omega
      have hFz : ∀ x, Fz x → putLe σ1.mem (σ0.nextFree + 4 * rs.length) 4 q x = σ1.mem x := fun x h => by
        have := hF x h
        exact hw x (by omega)
      refine wp_packFields (N := N) (ρ := ρ) (m := m) h0 hF rs ws s loc1 l1 _ (d :: tail) m2 (fun x => m1' x + md x) hp1 (by omega) hlen1 hx2
        ((Room.after (k := 8) (n := 8 * rs.length) (by rwa [show 8 + 8 * rs.length = 8 * (rs.length + 1) by omega]) hnf' (hxσ.maxPages)))
        (by simp only [setMem_nextFree]; omega) (by omega) hrest ?_ ?_ ?_ ?_ ?_ ?_
      · intro x h
        have := hlow x h; have := hlo x h; have := hsum x
        omega
      · intro x h
        refine hmr x ?_
        have := hsum x; omega
      · intro x h
        have := hmd1 x h
        simp only [setMem_nextFree]; omega
      · intro x h1 h2
        have e1 := hblk x h1 h2
        have e2 := hhi1 x h1
        skip
        by_contra h3
        have := e2.2 (by omega)
        omega
      · simp only [HoldsFs, setMem_mem]
        refine ⟨m1', md, ⟨?_, ?_⟩, ?_, fun _ => rfl⟩
        · intro x h1 h2
          refine .inr ⟨h1, by simp only [setMem_nextFree]; omega, ?_⟩
          have e1 := hblk x (by omega) (by omega)
          have e2 := hhi1 x (by omega)
          dsimp only
          by_contra h3
          have := e2.2 (by omega)
          omega
        · rw [hslot]
          refine hh.change (σ := σ1) (σ' := σ1.setMem (putLe σ1.mem (σ0.nextFree + 4 * rs.length) 4 q)) (Nat.le_refl _) (fun x h => Or.inl h) hFz ?_
          · intro x h
            by_cases hc : x < σ0.nextFree
            · exact hw x (by omega)
            · have := (hhi1 x (by omega)).2 h
              exact hw x (by omega)
        · rw [show σ0.nextFree + 4 * rs.length + 4 = σ0.nextFree + 4 * (rs.length + 1) by omega]
          refine ht.change (by simp only [setMem_nextFree]; omega) ?_ ?_ ?_
          · rintro x (h | ⟨h1, h2, h3⟩)
            · exact .inl h
            · refine .inr ⟨by omega, by simp only [setMem_nextFree]; omega, ?_⟩
              have e2 := hhi1 x (by omega)
              dsimp only
              by_contra h4
              have := e2.2 (by omega)
              omega
          · rintro x (h | ⟨h1, h2, h3⟩)
            · rw [setMem_mem, hFz x h]; have := hF x h; exact hxσ.mem x (by omega)
            · rw [setMem_mem, hw x (by omega)]; exact hxσ.mem x h2
          · intro x h
            by_cases hc : x < σ0.nextFree
            · rw [setMem_mem, hw x (by omega)]; exact hxσ.mem x (by omega)
            · have e1 := (hhi x (by omega)).2 h
              have e2 := hblk x (by omega)
              rw [setMem_mem, hw x (by omega)]; exact hxσ.mem x e1
      · intro loc' σ' m' g1 g2 g3 g4 g5 g6 g7
        simp only [setMem_nextFree] at g2
        refine hk loc' σ' m' g1 (by omega) g3 g4 (by simpa using g5) g6 ⟨g7.length.trans hs1.length, fun i hi => ?_⟩
        rw [g7.get i hi, hs1.get i hi]
    simp only [Data.tys, packFields, Nat.add_sub_cancel, List.length_cons, List.cons_append, List.append_assoc]
    have hsame : ∀ {v : Nat} {k : Nat}, p + 1 ≤ k → SameLocs (p + 1) loc (lset loc k v) := fun hk => SameLocs.refl.lset hk
    by_cases hg : d.isReg = true
    · obtain ⟨v, rfl, hv⟩ := Data.reg_cases hg
      simp only [OpdRep, hv, if_true] at hd
      have hB := STy.size_le v.ty
      have hlt' := hd.1.lt h0
      rw [if_pos (by exact hg), if_pos (by exact hg)]
      simp only [List.cons_append, List.nil_append, Data.ty, Ty.size]
      rw [wp_lset, wp_c32, Nat.mod_eq_of_lt (by omega)]
      refine wp_allocR hσ hr (by omega) ?_
      intro σ1 h1
      have n1 := h1.nextFree
      have hσ1 := h1.heap
      have i1 := h1.inside
      have hlt1 := hσ1.alloc.size_lt
      rw [wp_ltee, wp_lget, lget_lset_ne (by omega), lget_lset_same (by omega), wp_store (by omega)]
      simp only [Nat.add_zero]
      have hx1 : Extends σ (σ1.setMem (putLe σ1.mem σ.nextFree v.ty.size w)) := h1.extends.putLe (by omega) (by omega)
      refine main _ (l + 1) _ (ind σ.nextFree v.ty.size) σ.nextFree (by omega) (by simp only [lset_length]; omega)
        ((hsame (k := l) (v := w) (by omega)).lset (Nat.le_refl _)) ?_ ?_ (by omega) (hx.trans hx1) hx1.nextFree hx1 ?_ ?_ ?_ ?_
      · rw [lget_lset_ne (by omega), lget_lset_ne (by omega), hp]
      · rw [lget_lset_same (by simp only [lset_length]; omega)]
      · simp only [setMem_nextFree]; omega
      · intro x h
        have : ind σ.nextFree v.ty.size x = 0 := by by_contra h3; rw [← ne_eq, ind_pos] at h3; omega
        omega
      · intro x h
        refine ⟨ind_le, fun h3 => ?_⟩
        rw [ind_pos] at h3
        simp only [setMem_nextFree]; omega
      · simp only [Holds, Cell, hv, if_true, STy.bytes, implies_true, and_true]
        refine ⟨by simp only [setMem_nextFree]; omega, ?_⟩
        rw [setMem_mem, leNat_putLe_same, Nat.mod_eq_of_lt hlt']
        exact (hd.1.mono hx).mono hx1
    · have hg' : d.isReg = false := by simpa using hg
      rw [if_neg (by exact hg), if_neg (by exact hg)]
      simp only [List.cons_append, List.nil_append]
      rw [wp_lset]
      have hh := hd.holds hg'
      have hm1 : ∀ x, m1 x ≠ 0 → x < σ0.nextFree := fun x h => hmr x (by have := hsum x; omega)
      refine main _ l σ m1 w (by omega) (by simp only [lset_length]; omega) (hsame (by omega)) ?_ ?_ (hh.lt h0) hx
        (Nat.le_refl _) hσ.refl (by omega) (fun _ _ => Nat.le_refl _) ?_ ?_
      · rw [lget_lset_ne (by omega), hp]
      · rw [lget_lset_same (by omega)]
      · intro x h; have := hm1 x; omega
      · exact hh.change hnx (fun _ h => h) (fun x h => hx.mem x (hF x h)) (fun x h => hx.mem x (hm1 x h))

/-- A struct is built from the operands. -/
theorem wp_pack {Fz : Nat → Prop} {ρ : List Nat} {ds : List Data} {ws : List Nat} {m : Nat → Nat} {id : Nat} (hσ : Heap σ)
    (hr : Room σ (12 * ds.length)) (hF : ∀ x, Fz x → x < σ.nextFree) (hm : ∀ x, m x ≠ 0 → x < σ.nextFree)
    (hs : OpdsRep σ Fz ρ (ds.map .data).reverse ws m) (hl : l + packLocals (Data.tys ds) ≤ loc.length)
    (hk : ∀ loc' σ' w m', Trades σ σ' m m' → σ'.nextFree ≤ σ.nextFree + 12 * ds.length →
      OpdRep σ' (fun x => Fz x ∨ New σ σ' m' x) ρ (.data (.struct id ds)) w m' → SameLocs l loc loc' →
      wp is (w :: s) loc' σ' Q) :
    wp (packCode (Data.tys ds) l ++ is) (ws ++ s) loc σ Q := by
  have hlen : (Data.tys ds).length = ds.length := by rw [Data.tys_eq, List.length_map]
  have hrm := hr.1
  unfold packLocals at hl
  unfold packCode
  simp only [List.append_assoc, List.cons_append, List.nil_append, hlen]
  rw [wp_c32, Nat.mod_eq_of_lt (by omega)]
  refine wp_allocR hσ hr (by omega) ?_
  intro σ1 h1
  have n1 := h1.nextFree
  rw [wp_lset]
  have e : (Data.tys ds).reverse = Data.tys ds.reverse := by rw [Data.tys_eq, Data.tys_eq, List.map_reverse]
  have e2 : ds.length = ds.reverse.length := by simp
  rw [e, e2]
  rw [hlen] at hl
  refine wp_packFields (ρ := ρ) (m := m) (N := ds.length) hσ hF ds.reverse ws s _ (l + 2) σ1 [] m (fun _ => 0) (lget_lset_same (by omega)) (by omega)
    (by simp only [lset_length, List.length_reverse]; omega) h1.extends ?_ (by omega) (by simp) (by simpa using hs)
    (fun x _ => by omega) hm (fun x _ => ⟨by omega, fun h => absurd rfl h⟩) (fun _ _ _ => rfl) ?_ ?_
  · rw [List.length_reverse]
    exact Room.after (k := 4 * ds.length) (by rwa [show 4 * ds.length + 8 * ds.length = 12 * ds.length by omega]) (by omega) h1.maxPages
  · simp only [HoldsFs, implies_true]
  · intro loc' σ' m' g1 g2 g3 g4 g5 g6 g7
    simp only [List.length_reverse] at g2
    simp only [wp_lget, g6]
    refine hk loc' σ' _ m' ⟨g1, g3, g4⟩ (by omega) ?_ ⟨by rw [g7.length, lset_length], fun i hi => by
      rw [g7.get i (by omega), lget_lset_ne (by omega)]⟩
    simp only [OpdRep, Holds]
    refine ⟨g1.nextFree, ?_⟩
    rw [List.append_nil, List.reverse_reverse] at g5
    refine g5.change (Nat.le_refl _) ?_ (fun _ _ => rfl) (fun _ _ => rfl)
    rintro x (h | ⟨h1, h2, h3⟩)
    · exact .inl h
    · exact .inr ⟨by omega, h2, h3⟩

/-! ### Comparing -/

mutual
theorem Data.mv_inj : ∀ {d d' : Data}, d.ty = d'.ty → (d.mv.erase = d'.mv.erase ↔ d = d')
  | .num v, .num v', h => by
    simp only [Data.ty, Ty.sc.injEq] at h
    simp only [Data.mv, Mv.Val.erase, Mv.Val.num.injEq, Data.num.injEq]
    obtain ⟨t, n⟩ := v
    obtain ⟨t', n'⟩ := v'
    simp only at h
    simp [h]
  | .struct id ds, .struct id' ds', h => by
    simp only [Data.ty, Ty.struct.injEq] at h
    simp only [Data.mv, Mv.Val.erase, Mv.Val.struct.injEq, Data.struct.injEq, h.1, true_and]
    exact Data.mvs_inj h.2
  | .num _, .struct _ _, h => by simp [Data.ty] at h
  | .struct _ _, .num _, h => by simp [Data.ty] at h
theorem Data.mvs_inj : ∀ {ds ds' : List Data}, Data.tys ds = Data.tys ds' →
    (Mv.eraseL (Data.mvs ds) = Mv.eraseL (Data.mvs ds') ↔ ds = ds')
  | [], [], _ => by simp
  | [], _ :: _, h => by simp [Data.tys] at h
  | _ :: _, [], h => by simp [Data.tys] at h
  | d :: ds, d' :: ds', h => by
    simp only [Data.tys, List.cons.injEq] at h
    simp only [Data.mvs, Mv.eraseL, List.cons.injEq]
    rw [Data.mv_inj h.1, Data.mvs_inj h.2]
end

mutual
theorem Data.clear : ∀ {d d' : Data}, d.ty = d'.ty → Mv.Clear d.ty.mv d.mv d'.mv
  | .num v, .num v', h => by
    simp only [Data.ty, Ty.mv, Data.mv]
    rcases v.ty with _ | (r | _ | _) | _ <;> [skip; cases r; skip; skip; skip] <;> simp only [STy.mv, Mv.Clear]
  | .struct id ds, .struct id' ds', h => by
    simp only [Data.ty, Ty.struct.injEq] at h
    simp only [Data.ty, Ty.mv, Data.mv, Mv.Clear]
    exact Data.clears h.2
  | .num _, .struct _ _, h => by simp [Data.ty] at h
  | .struct _ _, .num _, h => by simp [Data.ty] at h
theorem Data.clears : ∀ {ds ds' : List Data}, Data.tys ds = Data.tys ds' → Mv.ClearFs (Ty.mvs (Data.tys ds)) (Data.mvs ds) (Data.mvs ds')
  | [], [], _ => by simp [Data.tys, Ty.mvs, Data.mvs, Mv.ClearFs]
  | [], _ :: _, h => by simp [Data.tys] at h
  | _ :: _, [], h => by simp [Data.tys] at h
  | d :: ds, d' :: ds', h => by
    simp only [Data.tys, List.cons.injEq] at h
    simp only [Data.tys, Ty.mvs, Data.mvs, Mv.ClearFs]
    exact ⟨Data.clear h.1, Data.clears h.2⟩
end

theorem Data.mv_scalar (d : Data) : d.ty.mv.scalar = d.isReg := by
  cases d with
  | num v => exact STy.mv_scalar v.ty
  | struct id ds => rfl

theorem Data.mv_size {d : Data} (h : d.isReg = true) : d.ty.mv.size = d.ty.size := by
  obtain ⟨v, rfl, -⟩ := Data.reg_cases h
  exact STy.mv_size v.ty

/-- Two values in memory are compared. -/
theorem wp_eqData {d d' : Data} {R : Nat → Prop} {w w' : Nat} (hσ : Heap σ) (ht : d.ty = d'.ty)
    (hR : ∀ x, R x → x < σ.nextFree) (h : Mv.Rep σ.mem R d.ty.mv d.mv w) (h' : Mv.Rep σ.mem R d.ty.mv d'.mv w')
    (hl : l + nlE d.ty.mv ≤ loc.length)
    (hk : ∀ loc', SameLocs l loc loc' → wp is ((if d = d' then 1 else 0) :: s) loc' σ Q) :
    wp (eqP E d.ty.mv l ++ is) (w' :: w :: s) loc σ Q := by
  have h1 := hσ.alloc.nextFree_le
  refine eqP_ok E _ σ R d.mv d'.mv w w' l s loc is Q ⟨hσ.alloc.size_lt, fun x h => by have := hR x h; omega, h, h', Data.clear ht⟩ hl ?_
  intro b l' hb g1 g2
  rw [Data.mv_inj ht] at hb
  rcases hb with ⟨rfl, hb⟩ | ⟨rfl, hb⟩
  · have := hk l' ⟨g1, g2⟩; rwa [if_pos hb] at this
  · have := hk l' ⟨g1, g2⟩; rwa [if_neg hb] at this

/-- Two structs are compared. -/
theorem wp_eqTy_data {Fz : Nat → Prop} {ρ : List Nat} {d d' : Data} {m m' : Nat → Nat} {w w' k : Nat} {is0 : List Instr} (hσ : Heap σ)
    (ht : d.ty = d'.ty) (hF : ∀ x, Fz x → x < σ.nextFree) (h : OpdRep σ Fz ρ (.data d) w m)
    (h' : OpdRep σ Fz ρ (.data d') w' m') (hr : d.isReg = false) (hc : eqTy E d.ty l = some (is0, k))
    (hl : l + k ≤ loc.length)
    (hk : ∀ loc', SameLocs l loc loc' → wp is ((if d = d' then 1 else 0) :: s) loc' σ Q) :
    wp (is0 ++ is) (w' :: w :: s) loc σ Q := by
  have hr' : d'.isReg = false := by rw [← hr]; exact congrArg Ty.isReg ht.symm
  have e : eqTy E d.ty l = some (eqP E d.ty.mv l, nlE d.ty.mv) := by cases d <;> rfl
  rw [e] at hc
  cases hc
  have h1 := ((h.holds hr).mv hF).2
  have h2 := ((h'.holds hr').mv hF).2
  rw [Data.mv_scalar, hr, if_neg (by simp)] at h1
  rw [Data.mv_scalar, hr', if_neg (by simp), ← ht] at h2
  exact wp_eqData hσ ht (fun _ h => h) h1 h2 hl hk

/-- Two references are compared. -/
theorem wp_eqTy_ref {Fz : Nat → Prop} {ρ : List Nat} {M : Mem} {own : Nat → Nat} {mb : Bool} {d d' : Data} {p p' : Place} {w w' k : Nat}
    {is0 : List Instr} (hW : World σ ρ M own) (ht : d.ty = d'.ty) (hF : ∀ x, Fz x → x < σ.nextFree)
    (h : SlotAt σ Fz ρ p w) (h' : SlotAt σ Fz ρ p' w') (hd : p.read M = some d) (hd' : p'.read M = some d')
    (hc : eqTy E (.ref mb d.ty) l = some (is0, k)) (hl : l + k ≤ loc.length)
    (hk : ∀ loc', SameLocs l loc loc' → wp is ((if d = d' then 1 else 0) :: s) loc' σ Q) :
    wp (is0 ++ is) (w' :: w :: s) loc σ Q := by
  have hσ := hW.heap
  have hle := hσ.alloc.nextFree_le
  obtain ⟨m, hh⟩ := PlaceAt.holds hW.cells h.2 hd
  obtain ⟨m', hh'⟩ := PlaceAt.holds hW.cells h'.2 hd'
  have e : eqTy E (.ref mb d.ty) l = some (code[Op.load 4 0, Op.lset l, Op.load 4 0, Op.lset (l + 1),
      Op.lget l] ++ (if d.ty.isReg then code[Op.load d.ty.size 0] else []) ++
      code[Op.lget (l + 1)] ++ (if d.ty.isReg then code[Op.load d.ty.size 0] else []) ++
      eqP E d.ty.mv (l + 2), 2 + nlE d.ty.mv) := by cases d <;> rfl
  rw [e] at hc
  cases hc
  have hb := hF _ (h.1 (w + 3) (by omega) (by omega))
  have hb' := hF _ (h'.1 (w' + 3) (by omega) (by omega))
  obtain ⟨g1, g2⟩ := hh.mv hF
  obtain ⟨g1', g2'⟩ := hh'.mv hF
  rw [← ht] at g1' g2'
  rw [Data.mv_scalar] at g1 g2 g1' g2'
  have fin : ∀ loc', SameLocs (l + 2) (lset (lset loc l (leNat σ.mem w' 4)) (l + 1) (leNat σ.mem w 4)) loc' →
      wp is ((if d' = d then 1 else 0) :: s) loc' σ Q := by
    intro loc' g
    have := hk loc' ⟨by rw [g.length]; simp only [lset_length], fun i hi => by
      rw [g.get i (by omega), lget_lset_ne (by omega), lget_lset_ne (by omega)]⟩
    rwa [show (if d' = d then 1 else 0 : Nat) = if d = d' then 1 else 0 by
      by_cases h : d = d' <;> simp [h, eq_comm]]
  simp only [List.append_assoc, List.cons_append, List.nil_append]
  wstep
  by_cases hg : d.isReg = true
  · have hg2 : d.ty.isReg = true := hg
    have hg' : d'.isReg = true := by rw [← hg]; exact congrArg Ty.isReg ht.symm
    rw [hg, if_pos rfl, Data.mv_size hg] at g2 g2'
    have b1 : leNat σ.mem w 4 + d.ty.size ≤ σ.nextFree := by
      obtain ⟨v, rfl, hv⟩ := Data.reg_cases hg
      simp only [Holds, Cell, hv, if_true] at hh
      exact hh.1.1
    have b2 : leNat σ.mem w' 4 + d.ty.size ≤ σ.nextFree := by
      rw [ht]
      obtain ⟨v, rfl, hv⟩ := Data.reg_cases hg'
      simp only [Holds, Cell, hv, if_true] at hh'
      exact hh'.1.1
    rw [if_pos hg2]
    simp only [List.cons_append, List.nil_append]
    rw [wp_load (by omega), wp_lget, lget_lset_same (by simp only [lset_length]; omega), wp_load (by omega)]
    simp only [Nat.add_zero]
    rw [ht] at g2 g2' ⊢
    refine wp_eqData hσ ht.symm (fun _ h => h) g2' g2 (by simp only [lset_length]; rw [← ht]; omega) ?_
    exact fin
  · have hg2 : ¬ d.ty.isReg = true := hg
    rw [if_neg hg] at g2 g2'
    rw [if_neg hg2]
    simp only [List.cons_append, List.nil_append]
    rw [wp_lget, lget_lset_same (by simp only [lset_length]; omega)]
    rw [ht] at g2 g2' ⊢
    refine wp_eqData hσ ht.symm (fun _ h => h) g2' g2 (by simp only [lset_length]; rw [← ht]; omega) ?_
    exact fin

/-! ### Writing -/

/-- A number is written through a reference. -/
theorem wp_writeNum {v : MVal} {q r : Nat} (hσ : Heap σ) (hr : r + 4 ≤ σ.nextFree) (hq : leNat σ.mem r 4 = q)
    (hb : q + v.ty.bytes ≤ σ.nextFree) (hv : RepV σ v w)
    (hd : v.ty.isReg = false → ∀ x, ind q v.ty.bytes x + ind w v.ty.bytes x ≤ 1) (hl : l + 2 ≤ loc.length)
    (hk : ∀ f loc', (∀ x, ind q v.ty.bytes x = 0 → f x = σ.mem x) → Cell (σ.setMem f) v q → SameLocs l loc loc' →
      wp is s loc' (σ.setMem f) Q) :
    wp (writeRef v.ty.mv l ++ is) (r :: w :: s) loc σ Q := by
  have h1 := hσ.alloc.nextFree_le
  have h2 := hσ.alloc.size_lt
  by_cases hg : v.ty.isReg = true
  · have hco : writeRef v.ty.mv l = code[Op.load 4 0] ++ swap (l + 1) l ++ code[Op.store v.ty.size 0] := by
      have := STy.mv_scalar v.ty
      rw [← STy.mv_size v.ty]
      obtain ⟨t, n⟩ := v
      rcases t with _ | (r | _ | _) | _ <;> [skip; cases r; skip; skip; skip] <;> first | rfl | cases hg
    have hbs : v.ty.bytes = v.ty.size := by unfold STy.bytes; rw [if_pos hg]
    have hlt := hv.lt hσ
    rw [hbs] at hb hk
    rw [hco]
    unfold swap
    simp only [List.append_assoc, List.cons_append, List.nil_append]
    wstep
    rw [hq]
    refine hk _ _ (fun x h => putLe_out ?_) ?_ ?_
    · by_contra h0
      rw [ind_in (by omega) (by omega)] at h
      omega
    · unfold Cell
      rw [if_pos hg]
      refine ⟨hb, ?_⟩
      rw [setMem_mem, leNat_putLe_same, Nat.mod_eq_of_lt hlt]
      exact hv.change (Nat.le_refl _) fun h => by simp [hg] at h
    · exact (SameLocs.refl.lset (by omega)).lset (by omega)
  · have hg' : v.ty.isReg = false := by simpa using hg
    have hbs : v.ty.bytes = v.ty.heapSize := by unfold STy.bytes; rw [if_neg hg]
    have hcell : ∀ f, (Cell (σ.setMem f) v q ↔ RepV (σ.setMem f) v q) := fun f => by unfold Cell; rw [if_neg hg]
    have hd' := hd hg'
    obtain ⟨t, n⟩ := v
    have fin : ∀ N, N = t.bytes → 0 < N → w + N ≤ σ.nextFree → (q + N ≤ w ∨ w + N ≤ q) ∧ Cell (σ.setMem (copyBytes σ.mem q w N)) ⟨t, n⟩ q ∧
        ∀ x, ind q t.bytes x = 0 → copyBytes σ.mem q w N x = σ.mem x := by
      intro N hNe hN hw
      dsimp only at hd' hb
      rw [← hNe] at hd' hb ⊢
      have hdis : q + N ≤ w ∨ w + N ≤ q := by
        by_contra h0
        by_cases hc : q ≤ w
        · have := hd' w
          rw [ind_in hc (by omega), ind_in (Nat.le_refl _) (by omega)] at this
          omega
        · have := hd' q
          rw [ind_in (Nat.le_refl _) (by omega), ind_in (by omega) (by omega)] at this
          omega
      refine ⟨hdis, ?_, fun x h => copyBytes_out ?_⟩
      · rw [hcell]
        have e1 := leNat_copyBytes_same σ.mem q w N
        have e2 : beNat (copyBytes σ.mem q w N) q N = beNat σ.mem w N := beNat_ext fun i hi => by
          rw [copyBytes_in (by omega) (by omega)]; congr 1; omega
        rcases t with _ | (r | _ | _) | _
        · cases hg'
        · cases hg'
        · obtain rfl : N = 16 := hNe
          exact ⟨hv.1, hb, e1.trans hv.2.2⟩
        · obtain rfl : N = 32 := hNe
          exact ⟨hv.1, hb, e1.trans hv.2.2⟩
        · obtain rfl : N = 32 := hNe
          exact ⟨hv.1, hb, e2.trans hv.2.2⟩
      · by_contra h0
        rw [ind_in (by omega) (by omega)] at h
        omega
    have hz : σ = σ.setMem (copyBytes σ.mem q w 0) := by
      have : copyBytes σ.mem q w 0 = σ.mem := funext fun x => copyBytes_out (by omega)
      rw [this]; rfl
    have hsame : SameLocs l loc (lset (lset loc (l + 1) q) l w) := (SameLocs.refl.lset (by omega)).lset (by omega)
    have g1 : lget (lset (lset loc (l + 1) q) l w) (l + 1) = q := by
      rw [lget_lset_ne (by omega), lget_lset_same (by omega)]
    have g2 : lget (lset (lset loc (l + 1) q) l w) l = w := lget_lset_same (by rw [lset_length]; omega)
    rcases t with _ | (r | _ | _) | _
    · cases hg'
    · cases hg'
    · obtain ⟨k1, k2, k3⟩ := fin 16 rfl (by omega) hv.2.1
      have hb' : q + 16 ≤ σ.nextFree := hb
      have hw' : w + 16 ≤ σ.nextFree := hv.2.1
      simp only [STy.mv, writeRef, List.cons_append, List.nil_append, List.append_assoc]
      wstep
      rw [hq]
      conv => arg 4; rw [hz]
      refine wp_writeChunk (N := 16) h2 (by omega) (by omega) (by omega) (by omega) g1 g2 ?_
      refine wp_writeChunk (N := 16) h2 (by omega) (by omega) (by omega) (by omega) g1 g2 ?_
      exact hk _ _ k3 k2 hsame
    all_goals
      obtain ⟨k1, k2, k3⟩ := fin 32 rfl (by omega) hv.2.1
      have hb' : q + 32 ≤ σ.nextFree := hb
      have hw' : w + 32 ≤ σ.nextFree := hv.2.1
      simp only [STy.mv, writeRef, List.cons_append, List.nil_append, List.append_assoc]
      wstep
      rw [hq]
      conv => arg 4; rw [hz]
      refine wp_writeChunk (N := 32) h2 (by omega) (by omega) (by omega) (by omega) g1 g2 ?_
      refine wp_writeChunk (N := 32) h2 (by omega) (by omega) (by omega) (by omega) g1 g2 ?_
      refine wp_writeChunk (N := 32) h2 (by omega) (by omega) (by omega) (by omega) g1 g2 ?_
      refine wp_writeChunk (N := 32) h2 (by omega) (by omega) (by omega) (by omega) g1 g2 ?_
      exact hk _ _ k3 k2 hsame

/-! ### Fields -/

theorem PlacesAt.get {Fz : Nat → Prop} {ρ : List Nat} : ∀ {ps : List Place} {a k : Nat} {p : Place},
    PlacesAt σ Fz ρ ps a → ps[k]? = some p → SlotAt σ Fz ρ p (a + 4 * k)
  | [], _, _, _, _, h => by simp at h
  | p' :: ps, a, 0, p, h, hk => by
    simp only [PlacesAt] at h
    simp only [List.getElem?_cons_zero, Option.some.injEq] at hk
    subst hk
    exact h.1
  | p' :: ps, a, k + 1, p, h, hk => by
    simp only [PlacesAt] at h
    have := PlacesAt.get h.2 (k := k) (by simpa using hk)
    rwa [show a + 4 + 4 * k = a + 4 * (k + 1) by omega] at this

/-- A field is borrowed. -/
theorem wp_borrowField {Fz : Nat → Prop} {ρ : List Nat} {ps : List Place} {p : Place} {id k : Nat} (hσ : Heap σ)
    (hF : ∀ x, Fz x → x < σ.nextFree) (h : SlotAt σ Fz ρ (.node id ps) a) (hp : ps[k]? = some p)
    (hk : ∀ w, SlotAt σ Fz ρ p w → wp is (w :: s) loc σ Q) :
    wp (borrowFieldCode k ++ is) (a :: s) loc σ Q := by
  have h1 := hσ.alloc.nextFree_le
  have h2 := hσ.alloc.size_lt
  have hb := hF _ (h.1 (a + 3) (by omega) (by omega))
  have hpl := h.2
  simp only [PlaceAt] at hpl
  have hs := hpl.2.get hp
  have hb2 := hF _ (hs.1 _ (Nat.le_refl _) (by omega))
  unfold borrowFieldCode
  simp only [List.cons_append, List.nil_append]
  wstep
  exact hk _ hs

end Move
