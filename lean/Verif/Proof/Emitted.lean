import Verif.Rt.Emitted
import Mathlib.Tactic.SplitIfs
import Mathlib.Data.List.Basic

/-! # Listed events and errors: the search covers all modules that may be called -/

namespace Emitted
open Export

theorem scanAll_mem {p : Pkg} {c : CMod} : ∀ {is : List Ins} {a b d}, scanAll p c is = some (a, b, d) →
    ∀ i ∈ is, ∃ a' b' d', scanIns p c i = some (a', b', d') ∧ a' ⊆ a ∧ b' ⊆ b ∧ d' ⊆ d
  | [], _, _, _, _, i, hi => by simp at hi
  | j :: js, _, _, _, h, i, hi => by
    rw [scanAll] at h
    simp only [Option.bind_eq_bind, Option.bind_eq_some_iff] at h
    obtain ⟨⟨a1, b1, d1⟩, h1, ⟨a2, b2, d2⟩, h2, h3⟩ := h
    cases h3
    rcases List.mem_cons.mp hi with rfl | hi
    · exact ⟨a1, b1, d1, h1, by simp, by simp, by simp⟩
    · obtain ⟨a', b', d', e1, e2, e3, e4⟩ := scanAll_mem h2 i hi
      exact ⟨a', b', d', e1, fun x hx => by simp [e2 hx], fun x hx => by simp [e3 hx], fun x hx => by simp [e4 hx]⟩

/-- The calls of the module are accounted for. -/
def Covered (p : Pkg) (c : CMod) (es : List EventStruct) (rs : List SName) (done : List Mod) : Prop :=
  ∃ a b d, scanAll p c c.code = some (a, b, d) ∧ a ⊆ es ∧ b ⊆ rs ∧ d ⊆ done

theorem Covered.mono {p : Pkg} {c : CMod} {es es' : List EventStruct} {rs rs' : List SName} {done done' : List Mod} (h : Covered p c es rs done)
    (h1 : es ⊆ es') (h2 : rs ⊆ rs') (h3 : done ⊆ done') : Covered p c es' rs' done' := by
  obtain ⟨a, b, d, e1, e2, e3, e4⟩ := h
  exact ⟨a, b, d, e1, fun x hx => h1 (e2 hx), fun x hx => h2 (e3 hx), fun x hx => h3 (e4 hx)⟩

def ProcOk (p : Pkg) (fuel : Nat) : Prop := ∀ c done es rs done', p.module c.id = some c → process p fuel c done = some (es, rs, done') →
  done ⊆ done' ∧ c.id ∈ done' ∧ ∀ m ∈ done', m ∈ done ∨ ∃ c', p.module m = some c' ∧ Covered p c' es rs done'

def ChildOk (p : Pkg) (fuel : Nat) : Prop := ∀ self ms done es rs done', children p fuel self ms done = some (es, rs, done') →
  done ⊆ done' ∧ (∀ m ∈ ms, m = self ∨ m ∈ done') ∧ ∀ m ∈ done', m ∈ done ∨ ∃ c', p.module m = some c' ∧ Covered p c' es rs done'

theorem module_id {p : Pkg} {m : Mod} {c : CMod} (h : p.module m = some c) : c.id = m := by
  have := List.find?_some h
  simpa using this

theorem childOk {p : Pkg} {fuel : Nat} (h : ProcOk p fuel) : ChildOk p fuel := by
  intro self ms
  induction ms with
  | nil =>
    intro done es rs done' hc
    rw [children] at hc
    cases hc
    exact ⟨fun _ h => h, by simp, fun m hm => .inl hm⟩
  | cons m ms ih =>
    intro done es rs done' hc
    rw [children] at hc
    split_ifs at hc with hm
    · obtain ⟨h1, h2, h3⟩ := ih _ _ _ _ hc
      refine ⟨h1, fun x hx => ?_, h3⟩
      rcases List.mem_cons.mp hx with rfl | hx
      · exact hm.imp_right (fun h => h1 h)
      · exact h2 x hx
    · simp only [Option.bind_eq_bind, Option.bind_eq_some_iff] at hc
      obtain ⟨c, hcm, ⟨es1, rs1, d1⟩, hp, ⟨es2, rs2, d2⟩, hr, he⟩ := hc
      cases he
      have hid := module_id hcm
      obtain ⟨p1, p2, p3⟩ := h c done es1 rs1 d1 (by rw [hid]; exact hcm) hp
      obtain ⟨q1, q2, q3⟩ := ih _ _ _ _ hr
      refine ⟨fun x hx => q1 (p1 hx), fun x hx => ?_, fun x hx => ?_⟩
      · rcases List.mem_cons.mp hx with rfl | hx
        · exact .inr (q1 (hid ▸ p2))
        · exact q2 x hx
      · rcases q3 x hx with hx | ⟨c', h1, h2⟩
        · rcases p3 x hx with hx | ⟨c', h1, h2⟩
          · exact .inl hx
          · exact .inr ⟨c', h1, h2.mono (by simp) (by simp) q1⟩
        · exact .inr ⟨c', h1, h2.mono (by simp) (by simp) (fun _ h => h)⟩

theorem procOk (p : Pkg) : ∀ fuel, ProcOk p fuel
  | 0 => by
    intro c done es rs done' _ h
    rw [process] at h
    cases h
  | fuel + 1 => by
    intro c done es rs done' hc h
    rw [process] at h
    simp only [Option.bind_eq_bind, Option.bind_eq_some_iff] at h
    obtain ⟨⟨a, b, d⟩, hs, ⟨es2, rs2, d2⟩, hr, he⟩ := h
    cases he
    obtain ⟨q1, q2, q3⟩ := childOk (procOk p fuel) _ _ _ _ _ _ hr
    have hid : c.id ∈ d2 := q1 (by simp)
    refine ⟨fun x hx => q1 (by simp [hx]), hid, fun m hm => ?_⟩
    rcases q3 m hm with hm | ⟨c', h1, h2⟩
    · rcases List.mem_cons.mp hm with rfl | hm
      · refine .inr ⟨c, hc, a, b, d, hs, by simp, by simp, fun x hx => ?_⟩
        rcases q2 x hx with rfl | h
        · exact hid
        · exact h
      · exact .inl hm
    · exact .inr ⟨c', h1, h2.mono (by simp) (by simp) (fun _ h => h)⟩

theorem mem_code {c : CMod} {d : FDef} {is : List Ins} {i : Ins} (hd : d ∈ c.funs) (hc : d.code = some is) (hi : i ∈ is) : i ∈ c.code :=
  List.mem_flatMap.mpr ⟨d, hd, by rw [hc]; exact hi⟩

theorem scan_call {p : Pkg} {c : CMod} {m : Mod} {f : String} {a b d} (h : scanIns p c (.call m f) = some (a, b, d)) : m ∈ d := by
  cases h
  simp

theorem scan_callGeneric {p : Pkg} {c : CMod} {m : Mod} {f : String} {tys : List Tok} {a b d} (h : scanIns p c (.callGeneric m f tys) = some (a, b, d)) : m ∈ d := by
  unfold scanIns at h
  dsimp only at h
  split_ifs at h
  · cases tys with
    | nil => cases h
    | cons t ts =>
      simp only [Option.map_eq_some_iff] at h
      obtain ⟨e, _, h⟩ := h
      cases h
      simp
  · cases tys with
    | nil => cases h
    | cons t ts =>
      simp only [Option.map_eq_some_iff] at h
      obtain ⟨e, _, h⟩ := h
      cases h
      simp
  · cases h
    simp

/-- What the search started with the module `root` has found. -/
theorem reach_done {p : Pkg} {root : CMod} {fuel : Nat} {es rs done} (hroot : p.module root.id = some root)
    (h : process p fuel root [] = some (es, rs, done)) {m : Mod} {f : String} {as : List RTy} (hr : Reach p root.id m f as) : m ∈ done := by
  obtain ⟨-, h2, h3⟩ := procOk p fuel _ _ _ _ _ hroot h
  induction hr with
  | start f as => exact h2
  | call _ hm hd _ hc hi ih =>
    obtain h | ⟨c', hc', a, b, d, hs, -, -, hd'⟩ := h3 _ ih
    · simp at h
    · rw [hm] at hc'
      cases hc'
      obtain ⟨a', b', d', e1, -, -, e4⟩ := scanAll_mem hs _ (mem_code hd hc hi)
      exact hd' (e4 (scan_call e1))
  | callGeneric _ hm hd _ hc hi _ ih =>
    obtain h | ⟨c', hc', a, b, d, hs, -, -, hd'⟩ := h3 _ ih
    · simp at h
    · rw [hm] at hc'
      cases hc'
      obtain ⟨a', b', d', e1, -, -, e4⟩ := scanAll_mem hs _ (mem_code hd hc hi)
      exact hd' (e4 (scan_callGeneric e1))

/-- The call of a generic function that is reached, in the module of the caller. -/
theorem reach_generic {p : Pkg} {root : CMod} {fuel : Nat} {es rs done} (hroot : p.module root.id = some root)
    (h : process p fuel root [] = some (es, rs, done)) {m : Mod} {f : String} {as : List RTy} (hr : Reach p root.id m f as) (hm : m ≠ root.id) (has : as ≠ []) :
    ∃ c tys ts bs a b d, p.module c.id = some c ∧ .callGeneric m f tys ∈ c.code ∧ Tok.resolves c.handles tys = some ts ∧ as = RTy.substs bs ts ∧
      scanIns p c (.callGeneric m f tys) = some (a, b, d) ∧ a ⊆ es ∧ b ⊆ rs := by
  obtain ⟨-, h2, h3⟩ := procOk p fuel _ _ _ _ _ hroot h
  cases hr with
  | start => exact absurd rfl hm
  | call => exact absurd rfl has
  | callGeneric hr' hm' hd _ hc hi ht =>
    obtain h | ⟨c', hc', a, b, d, hs, ha, hb, hd'⟩ := h3 _ (reach_done hroot h hr')
    · simp at h
    · rw [hm'] at hc'
      cases hc'
      obtain ⟨a', b', d', e1, e2, e3, -⟩ := scanAll_mem hs _ (mem_code hd hc hi)
      exact ⟨_, _, _, _, a', b', d', by rw [module_id hm']; exact hm', mem_code hd hc hi, ht, rfl, e1, fun x hx => ha (e2 hx), fun x hx => hb (e3 hx)⟩

/-- Without parameters. -/
def RTy.closed : RTy → Bool
  | .prim _ => true
  | .param _ => false
  | .vec t | .ref t | .mutRef t => t.closed
  | .struct _ [] => true
  | .struct n (t :: ts) => t.closed && RTy.closed (.struct n ts)

mutual
theorem subst_closed (as : List RTy) : ∀ {t : RTy}, t.closed = true → t.subst as = t
  | .prim _, _ => rfl
  | .param _, h => by simp [RTy.closed] at h
  | .vec t, h => by rw [RTy.subst, subst_closed as (by simpa [RTy.closed] using h)]
  | .ref t, h => by rw [RTy.subst, subst_closed as (by simpa [RTy.closed] using h)]
  | .mutRef t, h => by rw [RTy.subst, subst_closed as (by simpa [RTy.closed] using h)]
  | .struct n ts, h => by rw [RTy.subst, substs_closed as n h]
theorem substs_closed (as : List RTy) (n : SName) : ∀ {ts : List RTy}, RTy.closed (.struct n ts) = true → RTy.substs as ts = ts
  | [], _ => rfl
  | t :: ts, h => by
    simp only [RTy.closed, Bool.and_eq_true] at h
    rw [RTy.substs, subst_closed as h.1, substs_closed as n h.2]
end

/-! ## The search ends -/

/-- Modules that are not processed. -/
def todo (p : Pkg) (done : List Mod) : Nat := (p.filter fun c => c.id ∉ done).length

theorem todo_mono {p : Pkg} {done done' : List Mod} (h : done ⊆ done') : todo p done' ≤ todo p done := by
  unfold todo
  rw [← List.countP_eq_length_filter, ← List.countP_eq_length_filter]
  refine List.countP_mono_left fun c _ hc => ?_
  simp only [decide_eq_true_eq] at hc ⊢
  exact fun hd => hc (h hd)

theorem todo_lt {p : Pkg} {c : CMod} {done : List Mod} (hc : c ∈ p) (hd : c.id ∉ done) : todo p (c.id :: done) < todo p done := by
  unfold todo
  rw [← List.countP_eq_length_filter, ← List.countP_eq_length_filter]
  induction p with
  | nil => simp at hc
  | cons x xs ih =>
    have hle : xs.countP (fun c' => decide (c'.id ∉ c.id :: done)) ≤ xs.countP (fun c' => decide (c'.id ∉ done)) :=
      List.countP_mono_left fun c' _ h => by
        simp only [decide_eq_true_eq, List.mem_cons, not_or] at h ⊢
        exact h.2
    rcases List.mem_cons.mp hc with rfl | hc
    · rw [List.countP_cons_of_neg (by simp), List.countP_cons_of_pos (by simpa using hd)]
      omega
    · have := ih hc
      rw [List.countP_cons, List.countP_cons]
      by_cases h1 : x.id ∈ done
      · have h2 : x.id ∈ c.id :: done := by simp [h1]
        simp only [h1, h2, not_true_eq_false, decide_false, Bool.false_eq_true, if_false]
        omega
      · by_cases h2 : x.id ∈ c.id :: done
        · simp only [h1, h2, not_true_eq_false, not_false_eq_true, decide_false, decide_true, Bool.false_eq_true, if_false, if_true]
          omega
        · simp only [h1, h2, not_false_eq_true, decide_true, if_true]
          omega

/-- The calls of the package name modules of the package, and the arguments of `emit` and `revert` are structs. -/
def Complete (p : Pkg) : Prop := ∀ c ∈ p, ∃ a b d, scanAll p c c.code = some (a, b, d) ∧ ∀ m ∈ d, ∃ c', p.module m = some c'

theorem module_mem {p : Pkg} {m : Mod} {c : CMod} (h : p.module m = some c) : c ∈ p := List.mem_of_find?_eq_some h

theorem process_some {p : Pkg} (hp : Complete p) : ∀ fuel c done, p.module c.id = some c → c.id ∉ done → todo p done ≤ fuel → ∃ r, process p fuel c done = some r
  | 0, c, done, hc, hd, hf => absurd (todo_lt (module_mem hc) hd) (by omega)
  | fuel + 1, c, done, hc, hd, hf => by
    obtain ⟨a, b, d, hs, hm⟩ := hp c (module_mem hc)
    have hlt := todo_lt (module_mem hc) hd
    have key : ∀ ms done, (∀ m ∈ ms, ∃ c', p.module m = some c') → todo p done ≤ fuel → ∃ r, children p fuel c.id ms done = some r := by
      intro ms
      induction ms with
      | nil => intro done _ _; exact ⟨_, by rw [children]⟩
      | cons m ms ih =>
        intro done hm hf
        rw [children]
        split_ifs with hi
        · exact ih done (fun x hx => hm x (by simp [hx])) hf
        · obtain ⟨c', hc'⟩ := hm m (by simp)
          have hid := module_id hc'
          obtain ⟨⟨es, rs, d1⟩, h1⟩ := process_some hp fuel c' done (by rw [hid]; exact hc') (by rw [hid]; exact fun h => hi (.inr h)) hf
          have hsub := (procOk p fuel _ _ _ _ _ (by rw [hid]; exact hc') h1).1
          obtain ⟨r, h2⟩ := ih d1 (fun x hx => hm x (by simp [hx])) (Nat.le_trans (todo_mono hsub) hf)
          refine ⟨(es ++ r.1, rs ++ r.2.1, r.2.2), ?_⟩
          simp only [hc', h1, h2, Option.bind_eq_bind, Option.bind_some]
          rfl
    obtain ⟨r, hr⟩ := key d (c.id :: done) hm (by omega)
    refine ⟨(a ++ r.1, b ++ r.2.1, r.2.2), ?_⟩
    rw [process]
    simp only [hs, hr, Option.bind_eq_bind, Option.bind_some]
    rfl

end Emitted
