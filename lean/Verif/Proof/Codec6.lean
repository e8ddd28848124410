import Verif.Proof.Codec5
import Verif.Proof.StorageEnc8

/-! Saving an object: the encoder and the code that computes it, together. -/

namespace Layout
open Mv Rt

variable {K : List UInt8 → Nat} {T : Ty → Nat} {S : Nat → Nat} {o : Nat} {P Q : Nat → Nat → Prop}

mutual
theorem Heads.mono (t : Ty) {o : Nat} {v : Val} {p : Pos} (hPQ : ∀ x n, P x n → Q x n) (h : Heads P K S o t v p) :
    Heads Q K S o t v p := by
  match t, v with
  | .struct fs, .struct vs => rw [Heads] at h ⊢; exact HeadsFs.mono fs hPQ h
  | .enum vss, .variant i vs => rw [Heads] at h ⊢; exact HeadsVar.mono vss hPQ h
  | .vec t, .vec vs =>
    rw [Heads] at h ⊢
    exact ⟨hPQ _ _ h.1, fun e he => Heads.mono t hPQ (h.2 e he)⟩
  | .object (_ :: fs), .object _ (_ :: vs) => rw [Heads] at h ⊢; exact HeadsFs.mono fs hPQ h
  | .bool, v | .u8, v | .u16, v | .u32, v | .u64, v | .u128, v | .u256, v | .address, v => cases v <;> simp [Heads]
  | .struct _, .num _ | .struct _, .vec _ | .struct _, .object _ _ | .struct _, .variant _ _ => simp [Heads]
  | .enum _, .num _ | .enum _, .vec _ | .enum _, .object _ _ | .enum _, .struct _ => simp [Heads]
  | .vec _, .num _ | .vec _, .struct _ | .vec _, .object _ _ | .vec _, .variant _ _ => simp [Heads]
  | .object _, .num _ | .object _, .struct _ | .object _, .vec _ | .object _, .variant _ _ => simp [Heads]
  | .object [], .object _ _ | .object (_ :: _), .object _ [] => simp [Heads]
theorem HeadsFs.mono (ts : List Ty) {o : Nat} {vs : List Val} {p : Pos} (hPQ : ∀ x n, P x n → Q x n)
    (h : HeadsFs P K S o ts vs p) : HeadsFs Q K S o ts vs p := by
  match ts, vs with
  | t :: ts, v :: vs => rw [HeadsFs] at h ⊢; exact ⟨Heads.mono t hPQ h.1, HeadsFs.mono ts hPQ h.2⟩
  | [], _ | _ :: _, [] => simp [HeadsFs]
theorem HeadsVar.mono (vss : List (List Ty)) {o i : Nat} {vs : List Val} {p : Pos} (hPQ : ∀ x n, P x n → Q x n)
    (h : HeadsVar P K S o vss i vs p) : HeadsVar Q K S o vss i vs p := by
  match vss, i with
  | fs :: _, 0 => rw [HeadsVar] at h ⊢; exact HeadsFs.mono fs hPQ h
  | _ :: vss, i + 1 => rw [HeadsVar] at h ⊢; exact HeadsVar.mono vss hPQ h
  | [], _ => simp [HeadsVar]
end

mutual
theorem heads_noVec (t : Ty) {o : Nat} {v : Val} {p : Pos} (h : noVec t = true) : Heads P K S o t v p := by
  match t, v with
  | .struct fs, .struct vs => rw [noVec] at h; rw [Heads]; exact headsFs_noVec fs h
  | .enum vss, .variant i vs => rw [noVec] at h; rw [Heads]; exact headsVar_noVec vss h
  | .vec t, .vec vs => simp [noVec] at h
  | .object (u :: fs), .object _ (_ :: vs) =>
    rw [noVec, noVecFs] at h; rw [Heads]; exact headsFs_noVec fs (by simp only [Bool.and_eq_true] at h; exact h.2)
  | .bool, v | .u8, v | .u16, v | .u32, v | .u64, v | .u128, v | .u256, v | .address, v => cases v <;> simp [Heads]
  | .struct _, .num _ | .struct _, .vec _ | .struct _, .object _ _ | .struct _, .variant _ _ => simp [Heads]
  | .enum _, .num _ | .enum _, .vec _ | .enum _, .object _ _ | .enum _, .struct _ => simp [Heads]
  | .vec _, .num _ | .vec _, .struct _ | .vec _, .object _ _ | .vec _, .variant _ _ => simp [Heads]
  | .object _, .num _ | .object _, .struct _ | .object _, .vec _ | .object _, .variant _ _ => simp [Heads]
  | .object [], .object _ _ | .object (_ :: _), .object _ [] => simp [Heads]
theorem headsFs_noVec (ts : List Ty) {o : Nat} {vs : List Val} {p : Pos} (h : noVecFs ts = true) : HeadsFs P K S o ts vs p := by
  match ts, vs with
  | t :: ts, v :: vs =>
    rw [noVecFs] at h; simp only [Bool.and_eq_true] at h
    rw [HeadsFs]; exact ⟨heads_noVec t h.1, headsFs_noVec ts h.2⟩
  | [], _ | _ :: _, [] => simp [HeadsFs]
theorem headsVar_noVec (vss : List (List Ty)) {o i : Nat} {vs : List Val} {p : Pos} (h : noVecVs vss = true) :
    HeadsVar P K S o vss i vs p := by
  match vss, i with
  | fs :: _, 0 => rw [noVecVs] at h; simp only [Bool.and_eq_true] at h; rw [HeadsVar]; exact headsFs_noVec fs h.1
  | _ :: vss, i + 1 => rw [noVecVs] at h; simp only [Bool.and_eq_true] at h; rw [HeadsVar]; exact headsVar_noVec vss h.2
  | [], _ => simp [HeadsVar]
end

mutual
theorem heads_zero (t : Ty) {o : Nat} {v : Val} {p : Pos} : Heads Blank K (fun _ => 0) o t v p := by
  match t, v with
  | .struct fs, .struct vs => rw [Heads]; exact headsFs_zero fs
  | .enum vss, .variant i vs => rw [Heads]; exact headsVar_zero vss
  | .vec t, .vec vs => rw [Heads]; exact ⟨rfl, fun e he => heads_zero t⟩
  | .object (u :: fs), .object _ (_ :: vs) => rw [Heads]; exact headsFs_zero fs
  | .bool, v | .u8, v | .u16, v | .u32, v | .u64, v | .u128, v | .u256, v | .address, v => cases v <;> simp [Heads]
  | .struct _, .num _ | .struct _, .vec _ | .struct _, .object _ _ | .struct _, .variant _ _ => simp [Heads]
  | .enum _, .num _ | .enum _, .vec _ | .enum _, .object _ _ | .enum _, .struct _ => simp [Heads]
  | .vec _, .num _ | .vec _, .struct _ | .vec _, .object _ _ | .vec _, .variant _ _ => simp [Heads]
  | .object _, .num _ | .object _, .struct _ | .object _, .vec _ | .object _, .variant _ _ => simp [Heads]
  | .object [], .object _ _ | .object (_ :: _), .object _ [] => simp [Heads]
theorem headsFs_zero (ts : List Ty) {o : Nat} {vs : List Val} {p : Pos} : HeadsFs Blank K (fun _ => 0) o ts vs p := by
  match ts, vs with
  | t :: ts, v :: vs => rw [HeadsFs]; exact ⟨heads_zero t, headsFs_zero ts⟩
  | [], _ | _ :: _, [] => simp [HeadsFs]
theorem headsVar_zero (vss : List (List Ty)) {o i : Nat} {vs : List Val} {p : Pos} :
    HeadsVar Blank K (fun _ => 0) o vss i vs p := by
  match vss, i with
  | fs :: _, 0 => rw [HeadsVar]; exact headsFs_zero fs
  | _ :: vss, i + 1 => rw [HeadsVar]; exact headsVar_zero vss
  | [], _ => simp [HeadsVar]
end

theorem Blank.grows (x n : Nat) (h : Blank x n) : Grows x n := by
  unfold Blank at h; unfold Grows; omega

theorem Spread.sep {fs : List Ty} {uid : Val} {vs : List Val} {c : Nat} (h : Spread K fs uid vs c) :
    Sep c (nexts fs (c, 8)).1 (segsFs K (idOf uid) fs vs (c, 8)) := by
  have := h.apart
  rw [area] at this
  exact ⟨(List.pairwise_cons.mp this).2, fun g hg => (List.pairwise_cons.mp this).1 g hg⟩

/-- Saving succeeds, lays the object out and changes nothing else. -/
theorem save_ok (hT : ∀ t, T t < 2 ^ 64) {fs : List Ty} {uid : Val} {vs : List Val} {c X : Nat} (hX : X < 2 ^ 64) (hfs : StorableFs fs)
    (hv : SmallFs fs vs) (hsp : Spread K fs uid vs c) (hgr : HeadsFs Grows K S (idOf uid) fs vs (c, 8)) :
    ∃ st', encs K T (idOf uid) fs vs ⟨S, X, c, 8⟩ = some st' ∧ dig (st'.view c) 0 8 = X ∧
      HoldsFs K T st'.view (idOf uid) fs vs (c, 8) ∧ ∀ x, Off (area K fs uid vs c) x → st'.view x = S x := by
  have hg : ∀ g ∈ segsFs K (idOf uid) fs vs (c, 8), g.2 < 2 ^ 256 := fun g hg => hsp.lt g (List.mem_cons_of_mem _ hg)
  have hn : (nexts fs (c, 8)).1 < 2 ^ 256 := hsp.lt _ List.mem_cons_self
  obtain ⟨st', h⟩ := encs_tot hT fs (idOf uid) vs ⟨S, X, c, 8⟩ (by simp) hfs hv hsp.sep hn hg
    ⟨fun _ _ _ => .inl rfl, fun _ _ _ _ _ => .inl rfl, fun _ => .inl rfl⟩ hgr
  obtain ⟨w, r⟩ := encs_ok hT fs (idOf uid) vs ⟨S, X, c, 8⟩ st' (by simp) hv hsp.sep h
  refine ⟨st', h, ?_, r, fun x hx => ?_⟩
  · rw [← dig_self (x := X) (n := 8) (by norm_num; omega)]
    refine dig_congr fun j _ hj => ?_
    exact w.low j (by simp only; omega)
  · have h0 := hx _ List.mem_cons_self
    have e : st'.slot = (nexts fs (c, 8)).1 := congrArg Prod.fst w.pos
    have hl := (nexts_Le fs (p := (c, 8)) (by simp)).slot
    simp only at h0 hl
    rw [w.frame x (by simp only; omega) fun g hg => hx g (List.mem_cons_of_mem _ hg)]
    exact view_ne _ (by simp only; omega)

/-- What is saved does not depend on what was stored, if the slots of vectors were empty. -/
theorem save_same (hT : ∀ t, T t < 2 ^ 64) {S' : Nat → Nat} {fs : List Ty} {uid : Val} {vs : List Val} {c X : Nat} {a b : St}
    (hfs : StorableFs fs) (hv : SmallFs fs vs) (hsp : Spread K fs uid vs c) (h1 : HeadsFs Blank K S (idOf uid) fs vs (c, 8))
    (h2 : HeadsFs Blank K S' (idOf uid) fs vs (c, 8)) (ha : encs K T (idOf uid) fs vs ⟨S, X, c, 8⟩ = some a)
    (hb : encs K T (idOf uid) fs vs ⟨S', X, c, 8⟩ = some b) : ∀ x, ¬ Off (area K fs uid vs c) x → a.view x = b.view x := by
  have ag := encs_same hT fs S S' (idOf uid) vs ⟨S, X, c, 8⟩ ⟨S', X, c, 8⟩ a b ⟨rfl, rfl⟩ (by simp) hfs hv hsp.sep
    ⟨fun _ _ _ => .inl rfl, fun _ _ _ _ _ => .inl rfl, fun _ => .inl rfl⟩
    ⟨fun _ _ _ => .inl rfl, fun _ _ _ _ _ => .inl rfl, fun _ => .inl rfl⟩ h1 h2 ha hb
  have ep := (encs_clean fs (idOf uid) vs ⟨S, X, c, 8⟩ a (by simp) hfs ha).1
  have e : a.slot = (nexts fs (c, 8)).1 := congrArg Prod.fst ep
  intro x hx
  unfold Off at hx
  push_neg at hx
  obtain ⟨g, hg, g1, g2⟩ := hx
  rw [area] at hg
  rcases List.mem_cons.mp hg with rfl | hg
  · exact ag.slots x g1 (by rw [e]; exact g2)
  · exact ag.far g hg x g1 g2

end Layout
