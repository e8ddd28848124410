import Verif.Rt.Transaction
import Verif.Proof.Router4
import Verif.Proof.MoveCalls

/-! Arguments decoded from the calldata as arguments of a compiled Move function, and its results as
results to encode. -/

namespace Move
open Wasm Rt Abi

variable {σ σ' : Store}

theorem STy.mty_scalar (t : STy) : t.mty.isScalar = t.isReg := by
  rcases t with _ | ((_ | _ | _ | _) | _ | _) | _ <;> rfl

theorem STy.mty_size (t : STy) : t.mty.size = t.size := by
  rcases t with _ | ((_ | _ | _ | _) | _ | _) | _ <;> rfl

theorem STy.mty_plain (t : STy) : t.mty.plain = true := by
  rcases t with _ | ((_ | _ | _ | _) | _ | _) | _ <;> rfl

theorem Ty.mty_plain : ∀ t : Ty, t.mty.plain = true
  | .sc t => t.mty_plain
  | .struct _ _ => by simp [Ty.mty, MTy.plain]
  | .ref _ t => by rw [Ty.mty]; exact t.mty_plain

/-- Bytes of a field. -/
def fld (t : MTy) (v : Val) : Nat := if t.isScalar then t.size else need t v

theorem fld_num (v : MVal) : fld v.ty.mty (.word v.n) = v.ty.bytes := by
  obtain ⟨t, n⟩ := v
  rcases t with _ | ((_ | _ | _ | _) | _ | _) | _ <;>
    simp [fld, STy.mty, MTy.isScalar, MTy.size, need, STy.bytes, STy.isReg, STy.size, STy.heapSize]

theorem Ty.mtys_length : ∀ ds : List Data, (Ty.mtys (Data.tys ds)).length = ds.length
  | [] => rfl
  | d :: ds => by simp [Data.tys, Ty.mtys, Ty.mtys_length ds]

mutual
/-- The bytes owned by a value laid out from `a` on. -/
def Data.own : Data → Nat → Nat → Nat
  | .num v, a, x => ind a v.ty.bytes x
  | .struct _ ds, a, x => Data.owns ds (a + 4 * ds.length) x
def Data.owns : List Data → Nat → Nat → Nat
  | [], _, _ => 0
  | d :: ds, a, x => d.own a x + Data.owns ds (a + fld d.ty.mty d.val) x
end

theorem fld_struct {id : Nat} {ds : List Data} : fld (Data.ty (.struct id ds)).mty (Data.val (.struct id ds)) =
    4 * ds.length + needFs (Ty.mtys (Data.tys ds)) (Data.vals ds) := by
  rw [Data.ty, Ty.mty, Data.val, fld, need, Ty.mtys_length]; rfl

theorem needFs_cons' (d : Data) (ds : List Data) : needFs (Ty.mtys (Data.tys (d :: ds))) (Data.vals (d :: ds)) =
    fld d.ty.mty d.val + needFs (Ty.mtys (Data.tys ds)) (Data.vals ds) := by
  rw [Data.tys, Ty.mtys, Data.vals, needFs]; rfl

theorem ind_mem {p n x : Nat} (h : ind p n x ≠ 0) : p ≤ x ∧ x < p + n := by
  unfold ind at h; split_ifs at h with h1
  · exact h1
  · exact absurd rfl h

theorem ind_le1 (p n x : Nat) : ind p n x ≤ 1 := by unfold ind; split_ifs <;> omega

mutual
theorem Data.own_in : ∀ (d : Data) {a x : Nat}, d.own a x ≠ 0 → a ≤ x ∧ x < a + fld d.ty.mty d.val
  | .num v, a, x, h => by
    rw [Data.own] at h
    have := ind_mem h
    rw [Data.ty, Ty.mty, Data.val, fld_num]
    exact this
  | .struct id ds, a, x, h => by
    rw [Data.own] at h
    have := Data.owns_in ds h
    rw [fld_struct]
    omega
theorem Data.owns_in : ∀ (ds : List Data) {a x : Nat}, Data.owns ds a x ≠ 0 →
    a ≤ x ∧ x < a + needFs (Ty.mtys (Data.tys ds)) (Data.vals ds)
  | [], a, x, h => by simp [Data.owns] at h
  | d :: ds, a, x, h => by
    rw [needFs_cons']
    rw [Data.owns] at h
    by_cases h1 : d.own a x = 0
    · have := Data.owns_in ds (a := a + fld d.ty.mty d.val) (x := x) (by omega)
      omega
    · have := d.own_in h1
      omega
end

mutual
theorem Data.own_le : ∀ (d : Data) (a x : Nat), d.own a x ≤ 1
  | .num v, a, x => by rw [Data.own]; exact ind_le1 _ _ _
  | .struct id ds, a, x => by rw [Data.own]; exact Data.owns_le ds _ x
theorem Data.owns_le : ∀ (ds : List Data) (a x : Nat), Data.owns ds a x ≤ 1
  | [], a, x => by simp [Data.owns]
  | d :: ds, a, x => by
    rw [Data.owns]
    by_cases h1 : d.own a x = 0
    · have := Data.owns_le ds (a + fld d.ty.mty d.val) x
      omega
    · have h2 := d.own_in h1
      have h3 := d.own_le a x
      by_cases h4 : Data.owns ds (a + fld d.ty.mty d.val) x = 0
      · omega
      · have := Data.owns_in ds h4
        omega
end

/-! ### Numbers -/

theorem Rep.num {v : MVal} {w : Nat} (h : Rep σ.mem σ.nextFree v.ty.mty (.word v.n) w) (hv : v.n < 2 ^ v.ty.bits) :
    RepV σ v w := by
  obtain ⟨t, n⟩ := v
  refine ⟨hv, ?_⟩
  rcases t with _ | ((_ | _ | _ | _) | _ | _) | _ <;> simp only [STy.mty, Rep] at h ⊢
  · exact h.1
  · exact h.1
  · exact h.1
  · exact h.1
  · exact h.1
  · exact h
  · exact h
  · exact h

theorem RepV.rep {v : MVal} {w : Nat} (h : RepV σ v w) : Rep σ.mem σ.nextFree v.ty.mty (.word v.n) w := by
  obtain ⟨t, n⟩ := v
  obtain ⟨h1, h2⟩ := h
  rcases t with _ | ((_ | _ | _ | _) | _ | _) | _ <;> simp only [STy.mty, Rep] at h1 h2 ⊢
  · exact ⟨h2, by simpa [STy.bits, IntTy.bits, RegInt.bits] using h1⟩
  · exact ⟨h2, by simpa [STy.bits, IntTy.bits, RegInt.bits] using h1⟩
  · exact ⟨h2, by simpa [STy.bits, IntTy.bits, RegInt.bits] using h1⟩
  · exact ⟨h2, by simpa [STy.bits, IntTy.bits, RegInt.bits] using h1⟩
  · exact ⟨h2, by simpa [STy.bits, IntTy.bits, RegInt.bits] using h1⟩
  · exact h2
  · exact h2
  · exact h2

/-! ### Values decoded from the calldata -/

/-- The representation of a field. -/
def RepFld (f : Bytes) (lim : Nat) (t : MTy) (v : Val) (a : Nat) : Prop :=
  (t.isScalar = true → a + t.size ≤ lim) ∧ Rep f lim t v (if t.isScalar then leNat f a t.size else a)

mutual
theorem Data.holds {Fz : Nat → Prop} : ∀ (d : Data) {a : Nat}, d.wf → RepFld σ.mem σ.nextFree d.ty.mty d.val a →
    Laid σ.mem d.ty.mty d.val a →
    (∀ x, a ≤ x → x < a + fld d.ty.mty d.val → d.own a x = 0 → Fz x) → Move.Holds σ Fz d a (d.own a)
  | .num v, a, hwf, h, _, _ => by
    rw [Data.ty, Ty.mty, Data.val] at h
    rw [Data.wf] at hwf
    unfold RepFld at h
    rw [STy.mty_scalar, STy.mty_size] at h
    rw [Move.Holds]
    refine ⟨?_, fun x => by rw [Data.own]⟩
    unfold Cell
    cases hr : v.ty.isReg with
    | true =>
      rw [hr, if_pos rfl] at h
      rw [if_pos rfl]
      exact ⟨h.1 rfl, Rep.num h.2 hwf⟩
    | false =>
      rw [hr, if_neg (by simp)] at h
      rw [if_neg (by simp)]
      exact Rep.num h.2 hwf
  | .struct id ds, a, hwf, h, hl, hf => by
    rw [fld_struct] at hf
    rw [Data.ty, Ty.mty, Data.val] at h hl
    rw [Data.wf] at hwf
    unfold RepFld at h
    rw [show (MTy.struct (Ty.mtys (Data.tys ds))).isScalar = false from rfl, if_neg (by simp), Rep] at h
    rw [Laid, Ty.mtys_length] at hl
    rw [Move.Holds]
    refine ⟨h.2.1, ?_⟩
    have := Data.holdsFs (Fz := Fz) ds hwf h.2.2 hl (fun x h1 h2 => hf x (by omega) (by omega) ?_)
      (fun x h1 h2 h3 => hf x (by omega) (by omega) h3)
    · exact this
    · rw [Data.own]
      by_contra hc
      have := Data.owns_in ds hc
      omega
theorem Data.holdsFs {Fz : Nat → Prop} : ∀ (ds : List Data) {q a : Nat}, Data.wfs ds →
    RepFs σ.mem σ.nextFree (Ty.mtys (Data.tys ds)) (Data.vals ds) q →
    LaidFs σ.mem (Ty.mtys (Data.tys ds)) (Data.vals ds) q a →
    (∀ x, q ≤ x → x < q + 4 * ds.length → Fz x) →
    (∀ x, a ≤ x → x < a + needFs (Ty.mtys (Data.tys ds)) (Data.vals ds) → Data.owns ds a x = 0 → Fz x) →
    Move.HoldsFs σ Fz ds q (Data.owns ds a)
  | [], q, a, _, _, _, _, _ => by
    rw [Move.HoldsFs]
    intro x; rw [Data.owns]
  | d :: ds, q, a, hwf, h, hl, hq, hf => by
    rw [needFs_cons'] at hf
    rw [Data.tys, Ty.mtys, Data.vals] at h hl
    rw [Data.wfs] at hwf
    rw [RepFs] at h
    rw [LaidFs] at hl
    rw [List.length_cons] at hq
    obtain ⟨e1, e2⟩ := hl.1 (Ty.mty_plain _)
    rw [e1] at h
    rw [Move.HoldsFs]
    have hf1 : ∀ x, a ≤ x → x < a + fld d.ty.mty d.val → d.own a x = 0 → Fz x := by
      intro x h1 h2 h3
      refine hf x h1 (by omega) ?_
      rw [Data.owns, h3]
      by_contra hc
      have := Data.owns_in ds (a := a + fld d.ty.mty d.val) (x := x) (by omega)
      omega
    have hf2 : ∀ x, a + fld d.ty.mty d.val ≤ x → x < a + fld d.ty.mty d.val + needFs (Ty.mtys (Data.tys ds)) (Data.vals ds) →
        Data.owns ds (a + fld d.ty.mty d.val) x = 0 → Fz x := by
      intro x h1 h2 h3
      refine hf x (by omega) (by omega) ?_
      rw [Data.owns, h3]
      by_contra hc
      have := d.own_in (a := a) (x := x) (by omega)
      omega
    refine ⟨d.own a, Data.owns ds (a + fld d.ty.mty d.val), ⟨fun x h1 h2 => hq x h1 (by omega), ?_⟩,
      Data.holdsFs ds hwf.2 h.2.2.2 hl.2 (fun x h1 h2 => hq x (by omega) (by omega)) hf2, fun x => by rw [Data.owns]⟩
    rw [e1]
    exact Data.holds d hwf.1 ⟨h.2.1, h.2.2.1⟩ e2 hf1
end

/-! ### Arguments -/

/-- Memory taken by an argument. -/
def Arg.need : Arg → Nat
  | .val d => Rt.need d.ty.mty d.val
  | .ref _ d => fld d.ty.mty d.val
  | .ctx _ _ => 4

def Arg.needs : List Arg → Nat
  | [] => 0
  | A :: As => A.need + Arg.needs As

theorem Arg.needActs : ∀ As : List Arg, Rt.needActs (As.map Arg.aty) (Arg.vals As) = Arg.needs As
  | [] => by simp [Rt.needActs, Arg.needs]
  | .val d :: As => by
    rw [List.map_cons, Arg.aty, Arg.vals, Rt.needActs, Arg.needActs As, Arg.needs, needA, Arg.need]
  | .ref _ d :: As => by
    rw [List.map_cons, Arg.aty, Arg.vals, Rt.needActs, Arg.needActs As, Arg.needs, needA, Arg.need, fld]
  | .ctx _ _ :: As => by
    rw [List.map_cons, Arg.aty, Arg.vals, Rt.needActs, Arg.needActs As, Arg.needs, Arg.need]

/-- The bytes owned by an argument laid out from `a` on. -/
def Arg.own : Arg → Nat → Nat → Nat
  | .val d, a, x => if d.isReg then 0 else d.own a x
  | .ref _ d, a, x => d.own a x
  | .ctx _ _, _, _ => 0

def Arg.owns : List Arg → Nat → Nat → Nat
  | [], _, _ => 0
  | A :: As, a, x => A.own a x + Arg.owns As (a + A.need) x

theorem Data.scalar (d : Data) : d.ty.mty.isScalar = d.isReg := by
  cases d with
  | num v => rw [Data.ty, Ty.mty, STy.mty_scalar]; rfl
  | struct id ds => rw [Data.ty, Ty.mty]; rfl

theorem Arg.own_in (A : Arg) {a x : Nat} (h : A.own a x ≠ 0) : a ≤ x ∧ x < a + A.need := by
  cases A with
  | val d =>
    rw [Arg.own] at h
    split_ifs at h with h1
    · exact absurd rfl h
    · have := d.own_in h
      rw [fld, Data.scalar, if_neg h1] at this
      exact this
  | ref m d => exact d.own_in h
  | ctx => exact absurd rfl h

theorem Arg.own_le (A : Arg) (a x : Nat) : A.own a x ≤ 1 := by
  cases A with
  | val d =>
    rw [Arg.own]
    have := d.own_le a x
    split_ifs <;> omega
  | ref m d => exact d.own_le a x
  | ctx => exact Nat.zero_le _

theorem Arg.owns_in : ∀ (As : List Arg) {a x : Nat}, Arg.owns As a x ≠ 0 → a ≤ x ∧ x < a + Arg.needs As
  | [], a, x, h => absurd rfl h
  | A :: As, a, x, h => by
    rw [Arg.needs]
    rw [Arg.owns] at h
    by_cases h1 : A.own a x = 0
    · have := Arg.owns_in As (a := a + A.need) (x := x) (by omega)
      omega
    · have := A.own_in h1
      omega

theorem Arg.owns_le : ∀ (As : List Arg) (a x : Nat), Arg.owns As a x ≤ 1
  | [], a, x => Nat.zero_le _
  | A :: As, a, x => by
    rw [Arg.owns]
    by_cases h1 : A.own a x = 0
    · have := Arg.owns_le As (a + A.need) x
      omega
    · have h2 := A.own_in h1
      have h3 := A.own_le a x
      by_cases h4 : Arg.owns As (a + A.need) x = 0
      · omega
      · have := Arg.owns_in As h4
        omega

/-- The arguments decoded from the calldata are arguments for a compiled Move function. -/
theorem Arg.rep {Fz : Nat → Prop} (hσ : Heap σ) : ∀ (As : List Arg) {a : Nat} {ws : List Nat} {ρ : List Nat} {M : Mem},
    (∀ A ∈ As, A.wf) → RepActs σ.mem σ.nextFree (As.map Arg.aty) (Arg.vals As) ws →
    LaidActs σ.mem (As.map Arg.aty) (Arg.vals As) ws a →
    (∀ x, a ≤ x → x < a + Arg.needs As → Arg.owns As a x = 0 → Fz x) → ρ.length = M.length →
    ∃ qs news m, (Arg.start As M).2 = M ++ news ∧ qs.length = news.length ∧
      (∀ x, live qs news x + m x = Arg.owns As a x) ∧
      (∀ (l : Nat) v q, news[l]? = some (some v) → qs[l]? = some q → Cell σ v q) ∧
      ArgsRep σ Fz (ρ ++ qs) (Arg.start As M).1 ws m
  | [], a, ws, ρ, M, _, hr, _, _, _ => by
    cases ws with
    | cons => simp [RepActs, Arg.vals] at hr
    | nil =>
      exact ⟨[], [], fun _ => 0, by simp [Arg.start], rfl, fun x => rfl, fun l v q h => by simp at h, fun _ => rfl⟩
  | A :: As, a, ws, ρ, M, hwf, hr, hl, hf, hlen => by
    have hwf1 := hwf A (by simp)
    have hf1 : ∀ x, a ≤ x → x < a + A.need → A.own a x = 0 → Fz x := by
      intro x h1 h2 h3
      refine hf x h1 (by rw [Arg.needs]; omega) ?_
      rw [Arg.owns, h3]
      by_contra hc
      have := Arg.owns_in As (a := a + A.need) (x := x) (by omega)
      omega
    have hf2 : ∀ x, a + A.need ≤ x → x < a + A.need + Arg.needs As → Arg.owns As (a + A.need) x = 0 → Fz x := by
      intro x h1 h2 h3
      refine hf x (by omega) (by rw [Arg.needs]; omega) ?_
      rw [Arg.owns, h3]
      by_contra hc
      have := A.own_in (a := a) (x := x) (by omega)
      omega
    have hwf2 : ∀ A ∈ As, A.wf := fun B hB => hwf B (by simp [hB])
    cases ws with
    | nil => cases A <;> simp [RepActs, Arg.aty, Arg.vals] at hr
    | cons w ws =>
    cases A with
    | val d =>
      rw [List.map_cons, Arg.aty, Arg.vals, RepActs, RepA] at hr
      rw [List.map_cons, Arg.aty, Arg.vals, LaidActs, LaidA, needA] at hl
      obtain ⟨hat, hld⟩ := hl.1 (Ty.mty_plain _)
      obtain ⟨qs, news, m, e1, e2, e3, e4, e5⟩ := Arg.rep hσ As (ρ := ρ) (M := M) hwf2 hr.2 hl.2 hf2 hlen
      cases hreg : d.isReg with
      | true =>
        obtain ⟨v, rfl, hv⟩ := Data.reg_cases hreg
        rw [Data.ty, Ty.mty, Data.val] at hr
        refine ⟨qs, news, m, e1, e2, fun x => ?_, e4, fun _ => 0, m, ?_, e5, fun x => (Nat.zero_add _).symm⟩
        · rw [e3, Arg.owns, Arg.own, if_pos hreg, Nat.zero_add]; rfl
        · exact ⟨Rep.num hr.1 hwf1, fun x => by rw [if_pos hv]⟩
      | false =>
        have hs : d.ty.mty.isScalar = false := by rw [Data.scalar, hreg]
        obtain rfl := hat hs
        have hh : Move.Holds σ Fz d w (d.own w) := by
          refine Data.holds d hwf1 ⟨fun h => absurd h (by simp [hs]), by rw [hs, if_neg (by simp)]; exact hr.1⟩ hld ?_
          intro x h1 h2 h3
          rw [fld, hs, if_neg (by simp)] at h2
          exact hf1 x h1 h2 (by rw [Arg.own, hreg, if_neg (by simp)]; exact h3)
        refine ⟨qs, news, fun x => d.own w x + m x, e1, e2, fun x => ?_, e4, d.own w, m, hh.opd hreg, e5, fun x => rfl⟩
        have := e3 x
        rw [Arg.owns, Arg.own, hreg, if_neg (by simp)]
        show live qs news x + (d.own w x + m x) = d.own w x + Arg.owns As (w + Rt.need d.ty.mty d.val) x
        have : live qs news x + m x = Arg.owns As (w + Rt.need d.ty.mty d.val) x := this
        omega
    | ref mt d =>
      rw [List.map_cons, Arg.aty, Arg.vals, RepActs, RepA] at hr
      rw [List.map_cons, Arg.aty, Arg.vals, LaidActs, LaidA, needA] at hl
      obtain ⟨rfl, hld⟩ := hl.1 (Ty.mty_plain _)
      have hh : Move.Holds σ Fz d w (d.own w) := by
        refine Data.holds d hwf1 ?_ hld hf1
        have h1 := hr.1
        unfold RepFld
        split_ifs at h1 ⊢ with hs
        · exact ⟨fun _ => h1.1, h1.2⟩
        · exact ⟨fun h => absurd h (by simp [hs]), h1⟩
      have hlt := Holds.lt hσ hh
      obtain ⟨qs, news, f1, f2, f3, f4, f5⟩ := hh.bind hlen
      obtain ⟨qs', news', m, e1, e2, e3, e4, e5⟩ := Arg.rep hσ As (ρ := ρ ++ qs) (M := (d.place M).2) hwf2 hr.2 hl.2 hf2
        (by rw [f1]; simp [hlen, f2])
      refine ⟨qs ++ qs', news ++ news', m, ?_, by simp [e2, f2], fun x => ?_, fun l v q g1 g2 => ?_, ?_⟩
      · rw [Arg.start]; show (Arg.start As (d.place M).2).2 = _; rw [e1, f1, List.append_assoc]
      · rw [live_append f2, f3, Arg.owns]
        have : live qs' news' x + m x = Arg.owns As (w + (Arg.ref mt d).need) x := e3 x
        show _ = d.own w x + Arg.owns As _ x
        omega
      · by_cases hlt : l < news.length
        · rw [List.getElem?_append_left hlt] at g1
          rw [List.getElem?_append_left (by omega)] at g2
          exact f4 l v q g1 g2
        · rw [List.getElem?_append_right (by omega)] at g1 g2
          rw [f2] at g2
          exact e4 _ v q g1 g2
      · rw [← List.append_assoc]
        refine ⟨fun _ => 0, m, ⟨⟨hlt, ?_⟩, fun _ => rfl⟩, e5, fun x => (Nat.zero_add _).symm⟩
        exact f5.change (Nat.le_refl _) (fun _ h => h) (fun _ _ => rfl) (List.prefix_append ..)
    | ctx mt id =>
      rw [List.map_cons, Arg.aty, Arg.vals, RepActs] at hr
      rw [List.map_cons, Arg.aty, Arg.vals, LaidActs] at hl
      obtain ⟨qs, news, m, e1, e2, e3, e4, e5⟩ := Arg.rep hσ As (ρ := ρ) (M := M) hwf2 hr.2 hl.2 hf2 hlen
      have h1 := hσ.alloc.nextFree_le
      have h2 := hσ.alloc.size_lt
      refine ⟨qs, news, m, e1, e2, fun x => ?_, e4, fun _ => 0, m, ⟨⟨by omega, ?_⟩, fun _ => rfl⟩, e5, fun x => (Nat.zero_add _).symm⟩
      · rw [e3, Arg.owns, Arg.own, Nat.zero_add]; rfl
      · simp only [PlaceAt, PlacesAt, and_true]
        omega

/-- The initial state of the Move machine is represented by the state in which the entry point calls the
function. -/
theorem Arg.world {As : List Arg} {a : Nat} {ws : List Nat} (hσ : Heap σ) (ha : reserved ≤ a)
    (hn : σ.nextFree = a + Arg.needs As)
    (hwf : ∀ A ∈ As, A.wf) (hr : RepActs σ.mem σ.nextFree (As.map Arg.aty) (Arg.vals As) ws)
    (hl : LaidActs σ.mem (As.map Arg.aty) (Arg.vals As) ws a) :
    ∃ ρ m, World σ ρ (Arg.start As []).2 (Own ρ (Arg.start As []).2 m (fun _ => 0)) ∧
      (∀ x, Own ρ (Arg.start As []).2 m (fun _ => 0) x ≠ 0 → a ≤ x) ∧
      ArgsRep σ (Frozen σ (Own ρ (Arg.start As []).2 m (fun _ => 0))) ρ (Arg.start As []).1 ws m := by
  obtain ⟨qs, news, m, e1, e2, e3, e4, e5⟩ := Arg.rep (Fz := Frozen σ (Arg.owns As a)) hσ As (ρ := []) (M := []) hwf hr hl
    (fun x h1 h2 h3 => ⟨by omega, h3⟩) rfl
  rw [List.nil_append] at e1 e5
  have ho : Own qs (Arg.start As []).2 m (fun _ => 0) = Arg.owns As a := by
    funext x
    rw [Own, e1, Nat.add_zero, e3]
  refine ⟨qs, m, ?_, ?_, by rw [ho]; exact e5⟩
  · rw [ho, e1]
    refine ⟨hσ, e2, e4, Arg.owns_le As a, fun x hx => ?_⟩
    have := Arg.owns_in As hx
    omega
  · intro x hx
    rw [ho] at hx
    exact (Arg.owns_in As hx).1

/-! ### Results -/

mutual
theorem Holds.repFld {Fz : Nat → Prop} (hF : ∀ x, Fz x → x < σ.nextFree) : ∀ {d : Data} {q : Nat} {m : Nat → Nat},
    Move.Holds σ Fz d q m → RepFld σ.mem σ.nextFree d.ty.mty d.val q
  | .num v, q, m, h => by
    rw [Move.Holds] at h
    have h := h.1
    rw [Data.ty, Ty.mty, Data.val]
    unfold RepFld
    rw [STy.mty_scalar, STy.mty_size]
    unfold Cell at h
    split_ifs at h ⊢ with hr
    · exact ⟨fun _ => h.1, h.2.rep⟩
    · exact ⟨fun h => absurd h hr, h.rep⟩
  | .struct id ds, q, m, h => by
    rw [Move.Holds] at h
    rw [Data.ty, Ty.mty, Data.val]
    unfold RepFld
    rw [show (MTy.struct (Ty.mtys (Data.tys ds))).isScalar = false from rfl, if_neg (by simp), Rep]
    exact ⟨by simp, h.1, HoldsFs.repFs hF h.2⟩
theorem HoldsFs.repFs {Fz : Nat → Prop} (hF : ∀ x, Fz x → x < σ.nextFree) : ∀ {ds : List Data} {q : Nat} {m : Nat → Nat},
    Move.HoldsFs σ Fz ds q m → RepFs σ.mem σ.nextFree (Ty.mtys (Data.tys ds)) (Data.vals ds) q
  | [], q, m, h => by rw [Data.tys, Ty.mtys, Data.vals, RepFs]; trivial
  | d :: ds, q, m, h => by
    rw [Move.HoldsFs] at h
    obtain ⟨m1, m2, ⟨h1, h2⟩, h3, -⟩ := h
    rw [Data.tys, Ty.mtys, Data.vals, RepFs]
    have h4 := Holds.repFld hF h2
    have := hF _ (h1 (q + 3) (by omega) (by omega))
    exact ⟨by omega, h4.1, h4.2, HoldsFs.repFs hF h3⟩
end

theorem OpdRep.repP {Fz : Nat → Prop} {ρ : List Nat} {M : Mem} (hF : ∀ x, Fz x → x < σ.nextFree)
    (hc : ∀ (l : Nat) v a, M[l]? = some (some v) → ρ[l]? = some a → Cell σ v a) {o : Opd} {w : Nat} {m : Nat → Nat}
    {d : Data} (h : OpdRep σ Fz ρ o w m) (hv : o.value M = some d) : RepP σ.mem σ.nextFree o.ty.pty d.val w := by
  rcases o with (v | ⟨id, ds⟩) | r
  · obtain rfl := Option.some.inj hv
    exact h.1.rep
  · obtain rfl := Option.some.inj hv
    have := Holds.repFld hF (d := .struct id ds) h
    exact this.2
  · simp only [Opd.value] at hv
    split at hv
    · rename_i d' hd
      split_ifs at hv with ht
      obtain rfl := Option.some.inj hv
      obtain ⟨⟨h1, h2⟩, -⟩ := h
      obtain ⟨m', hm⟩ := PlaceAt.holds hc h2 hd
      have h4 := Holds.repFld hF hm
      have := hF _ (h1 (w + 3) (by omega) (by omega))
      show RepFs σ.mem σ.nextFree [r.ty.mty] [d'.val] w
      rw [← ht, RepFs, RepFs]
      exact ⟨by omega, h4.1, h4.2, trivial⟩
    · cases hv

theorem OpdsRep.repAll {Fz : Nat → Prop} {ρ : List Nat} {M : Mem} (hF : ∀ x, Fz x → x < σ.nextFree)
    (hc : ∀ (l : Nat) v a, M[l]? = some (some v) → ρ[l]? = some a → Cell σ v a) : ∀ {os : List Opd} {ws : List Nat}
    {m : Nat → Nat} {ds : List Data}, OpdsRep σ Fz ρ os ws m → values M os = some ds →
    RepAll σ.mem σ.nextFree (os.map fun o => o.ty.pty) (ds.map Data.val) ws
  | [], [], m, ds, h, hv => by
    obtain rfl := Option.some.inj hv
    simp [RepAll]
  | o :: os, w :: ws, m, ds, h, hv => by
    obtain ⟨m1, m2, h1, h2, -⟩ := h
    simp only [values] at hv
    split at hv
    · rename_i d ds' hd hds
      obtain rfl := Option.some.inj hv
      exact ⟨OpdRep.repP hF hc h1 hd, OpdsRep.repAll hF hc h2 hds⟩
    · cases hv

theorem Ty.pty_size (t : Ty) : t.pty.size = t.size := by
  cases t with
  | sc t => exact t.mty_size
  | struct => rfl
  | ref => rfl

theorem TupleAt.retTuple : ∀ {ts : List Ty} {ws : List Nat} {p : Nat}, TupleAt σ ts ws p → p ≤ σ.nextFree →
    RetTuple σ.mem σ.nextFree (ts.map Ty.pty) ws p
  | [], [], p, _, hp => hp
  | t :: ts, w :: ws, p, h, hp => by
    obtain ⟨⟨h1, h2⟩, h3⟩ := h
    rw [List.map_cons, RetTuple, Ty.pty_size]
    exact ⟨h2, TupleAt.retTuple h3 h1⟩

/-- The results of a compiled Move function are results the wrapper can encode. -/
theorem Results.returned {Fz : Nat → Prop} {ρ : List Nat} {M : Mem} {vs : List Opd} {r : List Nat} {m : Nat → Nat}
    {rs : List Data} (hF : ∀ x, Fz x → x < σ.nextFree)
    (hc : ∀ (l : Nat) v a, M[l]? = some (some v) → ρ[l]? = some a → Cell σ v a)
    (h : Results σ Fz ρ vs r m) (hv : values M vs = some rs) :
    Returned σ ((vs.map (·.ty)).map Ty.pty) (rs.map Data.val) r := by
  unfold Returned
  rcases h with ⟨rfl, rfl, -⟩ | ⟨hne, p, ws, rfl, ht, ho⟩
  · obtain rfl := Option.some.inj hv
    simp
  · rw [if_neg (by simpa using hne)]
    refine ⟨p, ws, rfl, ht.retTuple ?_, ?_⟩
    · cases vs with
      | nil => exact absurd rfl hne
      | cons v vs =>
        cases ws with
        | nil => exact ht.elim
        | cons w ws => have := ht.1.1; omega
    · rw [List.map_map]
      exact OpdsRep.repAll hF hc ho hv

/-! ### Side conditions of decoding -/

mutual
theorem Data.hasTy : ∀ (d : Data), d.wf → HasTy d.ty.mty d.val
  | .num v, h => by
    rw [Data.wf] at h
    rw [Data.ty, Ty.mty, Data.val]
    obtain ⟨t, n⟩ := v
    rcases t with _ | ((_ | _ | _ | _) | _ | _) | _ <;> simpa [STy.mty, HasTy, STy.bits, IntTy.bits, RegInt.bits] using h
  | .struct id ds, h => by
    rw [Data.wf] at h
    rw [Data.ty, Ty.mty, Data.val, HasTy]
    exact Data.hasTys ds h
theorem Data.hasTys : ∀ (ds : List Data), Data.wfs ds → HasTys (Ty.mtys (Data.tys ds)) (Data.vals ds)
  | [], _ => by rw [Data.tys, Ty.mtys, Data.vals, HasTys]; trivial
  | d :: ds, h => by
    rw [Data.wfs] at h
    rw [Data.tys, Ty.mtys, Data.vals, HasTys]
    exact ⟨Data.hasTy d h.1, Data.hasTys ds h.2⟩
end

mutual
theorem Data.fits (sz : Nat) : ∀ (d : Data) (a : Nat), Fits sz d.ty.mty d.val a
  | .num v, a => by
    rw [Data.ty, Ty.mty, Data.val]
    obtain ⟨t, n⟩ := v
    rcases t with _ | ((_ | _ | _ | _) | _ | _) | _ <;> simp [STy.mty, Fits]
  | .struct id ds, a => by
    rw [Data.ty, Ty.mty, Data.val, Fits]
    exact Data.fitsFs sz ds _
theorem Data.fitsFs (sz : Nat) : ∀ (ds : List Data) (a : Nat), FitsFs sz (Ty.mtys (Data.tys ds)) (Data.vals ds) a
  | [], a => by rw [Data.tys, Ty.mtys, Data.vals, FitsFs]; trivial; simp
  | d :: ds, a => by
    rw [Data.tys, Ty.mtys, Data.vals, FitsFs]
    exact ⟨Data.fits sz d _, Data.fitsFs sz ds _⟩
end

mutual
theorem Data.enums : ∀ (d : Data), EnumsOk d.ty.mty
  | .num v => by
    rw [Data.ty, Ty.mty]
    obtain ⟨t, n⟩ := v
    rcases t with _ | ((_ | _ | _ | _) | _ | _) | _ <;> simp [STy.mty, EnumsOk]
  | .struct id ds => by
    rw [Data.ty, Ty.mty, EnumsOk]
    exact Data.enumsFs ds
theorem Data.enumsFs : ∀ (ds : List Data), EnumsOkFs (Ty.mtys (Data.tys ds))
  | [] => by rw [Data.tys, Ty.mtys, EnumsOkFs]; trivial
  | d :: ds => by
    rw [Data.tys, Ty.mtys, EnumsOkFs]
    exact ⟨Data.enums d, Data.enumsFs ds⟩
end

theorem Arg.hasTys : ∀ (As : List Arg), (∀ A ∈ As, A.wf) → HasTys ((ATy.vals (As.map Arg.aty)).map PTy.ty) (Arg.vals As)
  | [], _ => by simp [ATy.vals, Arg.vals, HasTys]
  | .val d :: As, h => by
    rw [List.map_cons, Arg.aty, ATy.vals, Arg.vals, List.map_cons, HasTys]
    exact ⟨Data.hasTy d (h (.val d) (by simp)), Arg.hasTys As fun B hB => h B (by simp [hB])⟩
  | .ref m d :: As, h => by
    rw [List.map_cons, Arg.aty, ATy.vals, Arg.vals, List.map_cons, HasTys]
    exact ⟨Data.hasTy d (h (.ref m d) (by simp)), Arg.hasTys As fun B hB => h B (by simp [hB])⟩
  | .ctx m id :: As, h => by
    rw [List.map_cons, Arg.aty, ATy.vals, Arg.vals]
    exact Arg.hasTys As fun B hB => h B (by simp [hB])

theorem Arg.enums : ∀ (As : List Arg), EnumsOkArgs (ATy.vals (As.map Arg.aty))
  | [] => by simp [ATy.vals, EnumsOkArgs]
  | .val d :: As => by
    rw [List.map_cons, Arg.aty, ATy.vals]
    intro t ht
    rcases List.mem_cons.mp ht with rfl | ht
    · exact Data.enums d
    · exact Arg.enums As t ht
  | .ref m d :: As => by
    rw [List.map_cons, Arg.aty, ATy.vals]
    intro t ht
    rcases List.mem_cons.mp ht with rfl | ht
    · exact Data.enums d
    · exact Arg.enums As t ht
  | .ctx m id :: As => by
    rw [List.map_cons, Arg.aty, ATy.vals]
    exact Arg.enums As

theorem Arg.fits (sz : Nat) : ∀ (As : List Arg) (a : Nat), FitsActs sz (As.map Arg.aty) (Arg.vals As) a
  | [], a => by simp [FitsActs]
  | .val d :: As, a => by
    rw [List.map_cons, Arg.aty, Arg.vals, FitsActs]
    exact ⟨Data.fits sz d _, Arg.fits sz As _⟩
  | .ref m d :: As, a => by
    rw [List.map_cons, Arg.aty, Arg.vals, FitsActs]
    exact ⟨Data.fits sz d _, Arg.fits sz As _⟩
  | .ctx m id :: As, a => by
    rw [List.map_cons, Arg.aty, Arg.vals, FitsActs]
    exact Arg.fits sz As _

end Move
