import Verif.Valid
import Verif.Tac

/-!
# Valid code runs on values of its types

Preservation: code that passes validation, started on values of the types it was validated for, leaves values of the types validation
promises.
-/

namespace Wasm

/-- The number of values of a type. -/
def VT.size : VT → Nat
  | .i32 => 4294967296
  | .i64 => 18446744073709551616

/-- Values of the given types. -/
inductive Typed : List VT → List Nat → Prop
  | nil : Typed [] []
  | cons {t v ts vs} : v < t.size → Typed ts vs → Typed (t :: ts) (v :: vs)

/-- The globals are of type i32 and the memory is at most 4 GiB. -/
structure StoreOk (σ : Store) : Prop where
  nextFree : σ.nextFree < 4294967296
  avail : σ.avail < 4294967296
  reader : σ.reader < 4294967296
  pages : σ.maxPages ≤ 65536
  size : σ.size / 65536 ≤ 65536

theorem Typed.length {ts vs} (h : Typed ts vs) : vs.length = ts.length := by
  induction h with
  | nil => rfl
  | cons _ _ ih => simp [ih]

theorem Typed.append {ts vs ts' vs'} (h : Typed ts vs) (h' : Typed ts' vs') : Typed (ts ++ ts') (vs ++ vs') := by
  induction h with
  | nil => exact h'
  | cons a _ ih => exact .cons a ih

theorem Typed.split {ts ts' vs} (h : Typed (ts ++ ts') vs) : Typed ts (vs.take ts.length) ∧ Typed ts' (vs.drop ts.length) := by
  induction ts generalizing vs with
  | nil => exact ⟨.nil, h⟩
  | cons t ts ih =>
    cases h with
    | cons a h => exact ⟨.cons a (ih h).1, (ih h).2⟩

theorem Typed.take {ts vs n} (h : Typed ts vs) (hn : n = ts.length) : Typed ts (vs.take n) := by
  rw [hn, ← h.length, List.take_length]; exact h

theorem Typed.reverse {ts vs} (h : Typed ts vs) : Typed ts.reverse vs.reverse := by
  induction h with
  | nil => exact .nil
  | cons a _ ih =>
    rw [List.reverse_cons, List.reverse_cons]
    exact ih.append (.cons a .nil)

theorem VT.size_pos (t : VT) : 0 < t.size := by cases t <;> decide

theorem Typed.zeros (ts : List VT) : Typed ts (List.replicate ts.length 0) := by
  induction ts with
  | nil => exact .nil
  | cons t ts ih => exact .cons t.size_pos ih

theorem Typed.lget {L l} (h : Typed L l) : ∀ {i : Nat} {t}, L[i]? = some t → Wasm.lget l i < t.size := by
  induction h with
  | nil => intro i t hi; simp at hi
  | cons a _ ih =>
    intro i t hi
    cases i with
    | zero => cases hi; exact a
    | succ i => exact ih (by simpa using hi)

theorem Typed.lset {L l} (h : Typed L l) : ∀ {i : Nat} {t v}, L[i]? = some t → v < t.size → Typed L (Wasm.lset l i v) := by
  induction h with
  | nil => intro i t v hi; simp at hi
  | cons a h ih =>
    intro i t v hi hv
    cases i with
    | zero => cases hi; exact .cons hv h
    | succ i => exact .cons a (ih (by simpa using hi) hv)

theorem b2n_le {p : Prop} [Decidable p] : b2n p ≤ 1 := by unfold b2n; split <;> decide

theorem W.vt_size (w : W) : w.vt.size = w.mod := by cases w <;> rfl

theorem W.mod_two (w : W) : w.mod = 2 ^ w.bits := by cases w <;> rfl

theorem binop_typed {w o a b r} (ha : a < w.vt.size) (hb : b < w.vt.size) (h : BinOp.eval w a b o = some r) :
    r < (if o.isCmp then VT.i32 else w.vt).size := by
  have hp : 0 < w.mod := by cases w <;> decide
  have hb1 : ∀ {p : Prop} [Decidable p], b2n p < VT.i32.size := fun {p} _ => Nat.lt_of_le_of_lt b2n_le (by decide)
  rw [W.vt_size] at ha hb
  have ho : ∀ z, ofSigned w z < w.mod := fun z => by
    unfold ofSigned
    have h1 := Int.emod_lt_of_pos z (show (0 : Int) < w.mod by exact_mod_cast hp)
    have h2 := Int.emod_nonneg z (show (w.mod : Int) ≠ 0 by exact_mod_cast hp.ne')
    omega
  cases o
  case divU =>
    simp only [BinOp.eval] at h
    split_ifs at h
    cases h
    simp only [BinOp.isCmp, Bool.false_eq_true, if_false, W.vt_size]
    exact Nat.lt_of_le_of_lt (Nat.div_le_self ..) ha
  case remU =>
    simp only [BinOp.eval] at h
    split_ifs at h
    cases h
    simp only [BinOp.isCmp, Bool.false_eq_true, if_false, W.vt_size]
    exact Nat.lt_of_le_of_lt (Nat.mod_le ..) ha
  case divS =>
    simp only [BinOp.eval] at h
    split_ifs at h
    cases h
    simp only [BinOp.isCmp, Bool.false_eq_true, if_false, W.vt_size]
    exact ho _
  case remS =>
    simp only [BinOp.eval] at h
    split_ifs at h
    cases h
    simp only [BinOp.isCmp, Bool.false_eq_true, if_false, W.vt_size]
    exact ho _
  all_goals
    cases h
    simp only [BinOp.isCmp, Bool.false_eq_true, if_false, if_true, W.vt_size]
    first
      | exact hb1
      | exact Nat.mod_lt _ hp
      | exact Nat.lt_of_le_of_lt (Nat.div_le_self ..) ha
      | exact Nat.lt_of_le_of_lt Nat.and_le_left ha
      | (rw [W.mod_two] at *; exact Nat.or_lt_two_pow ha hb)
      | (rw [W.mod_two] at *; exact Nat.xor_lt_two_pow ha hb)

theorem StoreOk.glob {σ} (h : StoreOk σ) (g : Glob) : σ.getGlob g < VT.i32.size := by
  cases g
  · exact h.nextFree
  · exact h.avail
  · exact h.reader

theorem StoreOk.setGlob {σ} (h : StoreOk σ) (g : Glob) {v} (hv : v < VT.i32.size) : StoreOk (σ.setGlob g v) := by
  cases g
  · exact ⟨hv, h.2, h.3, h.4, h.5⟩
  · exact ⟨h.1, hv, h.3, h.4, h.5⟩
  · exact ⟨h.1, h.2, hv, h.4, h.5⟩

theorem StoreOk.setMem {σ} (h : StoreOk σ) (m) : StoreOk (σ.setMem m) := ⟨h.1, h.2, h.3, h.4, h.5⟩
theorem StoreOk.setHost {σ} (h : StoreOk σ) (m) : StoreOk (σ.setHost m) := ⟨h.1, h.2, h.3, h.4, h.5⟩

theorem sendMsg_typed {σ m o s s' σ' st} (h : Store.sendMsg σ m o s = some (s', σ')) (hs : Typed st s) (hσ : StoreOk σ) :
    Typed (.i32 :: st) s' ∧ StoreOk σ' := by
  unfold Store.sendMsg at h
  split_ifs at h
  cases h
  exact ⟨.cons (Nat.mod_lt _ (by decide)) hs, (hσ.setHost _).setMem _⟩

theorem host_typed {f : HostFn} {st s s' σ σ'} (hs : Typed (f.sig.1 ++ st) s) (hσ : StoreOk σ) (h : f.eval σ s = some (s', σ')) :
    Typed (f.sig.2 ++ st) s' ∧ StoreOk σ' := by
  cases f <;> simp only [HostFn.sig, List.cons_append, List.nil_append] at hs ⊢
  case timestamp => cases h; exact ⟨.cons (Nat.mod_lt _ (by decide)) hs, hσ⟩
  case blockNumber => cases h; exact ⟨.cons (Nat.mod_lt _ (by decide)) hs, hσ⟩
  case gasLimit => cases h; exact ⟨.cons (Nat.mod_lt _ (by decide)) hs, hσ⟩
  case chainId => cases h; exact ⟨.cons (Nat.mod_lt _ (by decide)) hs, hσ⟩
  case codeSize =>
    obtain _ | ⟨-, hs⟩ := hs
    simp only [HostFn.eval] at h
    split_ifs at h
    cases h
    exact ⟨.cons (Nat.mod_lt _ (by decide)) hs, hσ⟩
  case callContract =>
    obtain _ | ⟨-, _ | ⟨-, _ | ⟨-, _ | ⟨-, _ | ⟨-, _ | ⟨-, hs⟩⟩⟩⟩⟩⟩ := hs
    simp only [HostFn.eval] at h
    split_ifs at h
    exact sendMsg_typed h hs hσ
  case staticCall =>
    obtain _ | ⟨-, _ | ⟨-, _ | ⟨-, _ | ⟨-, _ | ⟨-, hs⟩⟩⟩⟩⟩ := hs
    simp only [HostFn.eval] at h
    split_ifs at h
    exact sendMsg_typed h hs hσ
  case delegateCall =>
    obtain _ | ⟨-, _ | ⟨-, _ | ⟨-, _ | ⟨-, _ | ⟨-, hs⟩⟩⟩⟩⟩ := hs
    simp only [HostFn.eval] at h
    split_ifs at h
    exact sendMsg_typed h hs hσ
  case readReturn =>
    obtain _ | ⟨hn, _ | ⟨-, _ | ⟨-, hs⟩⟩⟩ := hs
    simp only [HostFn.eval] at h
    split_ifs at h
    cases h
    refine ⟨.cons (Nat.lt_of_le_of_lt ?_ hn) hs, hσ.setMem _⟩
    rw [List.length_take]
    exact Nat.min_le_left ..
  case storageFlush =>
    obtain _ | ⟨-, hs⟩ := hs
    cases h
    exact ⟨hs, hσ.setHost _⟩
  all_goals
    first
      | (obtain _ | ⟨-, _ | ⟨-, _ | ⟨-, hs⟩⟩⟩ := hs
         simp only [HostFn.eval] at h
         split_ifs at h
         cases h
         first | exact ⟨hs, hσ.setMem _⟩ | exact ⟨hs, hσ.setHost _⟩)
      | (obtain _ | ⟨-, _ | ⟨-, hs⟩⟩ := hs
         simp only [HostFn.eval] at h
         split_ifs at h
         cases h
         first | exact ⟨hs, hσ.setMem _⟩ | exact ⟨hs, hσ.setHost _⟩)
      | (obtain _ | ⟨-, hs⟩ := hs
         simp only [HostFn.eval] at h
         split_ifs at h
         cases h
         first | exact ⟨hs, hσ.setMem _⟩ | exact ⟨hs, hσ.setHost _⟩)

theorem load_typed {k : Nat} {t : VT} (h : t ∈ memTys k) (m : Bytes) (a : Nat) : leNat m a k < t.size := by
  unfold memTys at h
  split_ifs at h with h1 h2 h3
  · subst h1
    simp only [List.mem_singleton] at h
    subst h
    exact leNat_lt8 m a
  · simp only [List.mem_singleton] at h
    subst h
    rcases h2 with rfl | rfl
    · exact leNat_lt4 m a
    · exact Nat.lt_of_lt_of_le (leNat_lt2 m a) (by decide)
  · subst h3
    have h4 := leNat_lt1 m a
    cases t
    · exact Nat.lt_of_lt_of_le h4 (by decide)
    · exact Nat.lt_of_lt_of_le h4 (by decide)
  · simp at h

theorem op_typed {L o st st' s s' l l' σ σ'} (h : st' ∈ opTys L o st) (hs : Typed st s) (hl : Typed L l) (hσ : StoreOk σ)
    (he : o.exec s l σ = some (s', l', σ')) : Typed st' s' ∧ Typed L l' ∧ StoreOk σ' := by
  cases o with
  | c32 v =>
    simp only [opTys, List.mem_singleton] at h; subst h; cases he
    exact ⟨.cons (Nat.mod_lt _ (by decide)) hs, hl, hσ⟩
  | c64 v =>
    simp only [opTys, List.mem_singleton] at h; subst h; cases he
    exact ⟨.cons (Nat.mod_lt _ (by decide)) hs, hl, hσ⟩
  | lget i =>
    simp only [opTys, Option.mem_toList, Option.mem_def, Option.map_eq_some_iff] at h
    obtain ⟨t, ht, rfl⟩ := h
    cases he
    exact ⟨.cons (hl.lget ht) hs, hl, hσ⟩
  | lset i =>
    cases hs with
    | nil => simp [opTys] at h
    | cons a hs =>
      simp only [opTys] at h
      split_ifs at h with hi
      · simp only [List.mem_singleton] at h; subst h; cases he
        exact ⟨hs, hl.lset hi a, hσ⟩
      · simp at h
  | ltee i =>
    cases hs with
    | nil => simp [opTys] at h
    | cons a hs =>
      simp only [opTys] at h
      split_ifs at h with hi
      · simp only [List.mem_singleton] at h; subst h; cases he
        exact ⟨.cons a hs, hl.lset hi a, hσ⟩
      · simp at h
  | gget g =>
    simp only [opTys, List.mem_singleton] at h; subst h; cases he
    exact ⟨.cons (hσ.glob g) hs, hl, hσ⟩
  | gset g =>
    cases hs with
    | nil => simp [opTys] at h
    | @cons t v ts vs a hs =>
      cases t
      · simp only [opTys, List.mem_singleton] at h; subst h; cases he
        exact ⟨hs, hl, hσ.setGlob g a⟩
      · simp [opTys] at h
  | bin w o =>
    cases hs with
    | nil => simp [opTys] at h
    | cons b hs =>
      cases hs with
      | nil => simp [opTys] at h
      | cons a hs =>
        simp only [opTys] at h
        split_ifs at h with hi hcmp hcmp
        · simp only [List.mem_singleton] at h; subst h
          simp only [Op.exec] at he
          split at he
          · next r hr =>
            cases he
            obtain ⟨rfl, rfl⟩ := hi
            have := binop_typed a b hr
            rw [if_pos hcmp] at this
            exact ⟨.cons this hs, hl, hσ⟩
          · cases he
        · simp only [List.mem_singleton] at h; subst h
          simp only [Op.exec] at he
          split at he
          · next r hr =>
            cases he
            obtain ⟨rfl, rfl⟩ := hi
            have := binop_typed a b hr
            rw [if_neg hcmp] at this
            exact ⟨.cons this hs, hl, hσ⟩
          · cases he
        · simp at h
  | un o =>
    cases hs with
    | nil => cases o <;> simp [opTys] at h
    | @cons t v ts vs a hs =>
      cases o with
      | eqz =>
        simp only [opTys, List.mem_singleton] at h; subst h; cases he
        exact ⟨.cons (Nat.lt_of_le_of_lt b2n_le (by decide)) hs, hl, hσ⟩
      | wrap =>
        cases t
        · simp [opTys] at h
        · simp only [opTys, List.mem_singleton] at h; subst h; cases he
          exact ⟨.cons (Nat.mod_lt _ (by decide)) hs, hl, hσ⟩
      | extend =>
        cases t
        · simp only [opTys, List.mem_singleton] at h; subst h; cases he
          exact ⟨.cons (Nat.lt_of_lt_of_le a (by decide)) hs, hl, hσ⟩
        · simp [opTys] at h
  | load k off =>
    cases hs with
    | nil => simp [opTys] at h
    | @cons t v ts vs a hs =>
      cases t
      · simp only [opTys, List.mem_map] at h
        obtain ⟨t, ht, rfl⟩ := h
        simp only [Op.exec] at he
        split_ifs at he
        cases he
        exact ⟨.cons (load_typed ht ..) hs, hl, hσ⟩
      · simp [opTys] at h
  | store k off =>
    cases hs with
    | nil => simp [opTys] at h
    | cons b hs =>
      cases hs with
      | nil => simp [opTys] at h
      | @cons t v ts vs a hs =>
        cases t
        · simp only [opTys] at h
          simp only [Op.exec] at he
          split_ifs at he
          cases he
          split_ifs at h
          · simp only [List.mem_singleton] at h; subst h
            exact ⟨hs, hl, hσ.setMem _⟩
          · simp at h
        · simp [opTys] at h
  | memCopy =>
    simp only [opTys] at h
    split at h <;> simp_all only [reduceCtorEq, List.mem_singleton, List.not_mem_nil, implies_true, not_true_eq_false]
    obtain _ | ⟨-, _ | ⟨-, _ | ⟨-, hs⟩⟩⟩ := hs
    simp only [Op.exec] at he
    split_ifs at he
    cases he
    exact ⟨hs, hl, hσ.setMem _⟩
  | memFill =>
    simp only [opTys] at h
    split at h <;> simp_all only [reduceCtorEq, List.mem_singleton, List.not_mem_nil, implies_true, not_true_eq_false]
    obtain _ | ⟨-, _ | ⟨-, _ | ⟨-, hs⟩⟩⟩ := hs
    simp only [Op.exec] at he
    split_ifs at he
    cases he
    exact ⟨hs, hl, hσ.setMem _⟩
  | memGrow =>
    cases hs with
    | nil => simp [opTys] at h
    | @cons t v ts vs a hs =>
      cases t
      · simp only [opTys, List.mem_singleton] at h; subst h
        simp only [Op.exec] at he
        have h4 := hσ.pages
        have h5 := hσ.size
        split_ifs at he with hg
        · cases he
          refine ⟨.cons ?_ hs, hl, ⟨hσ.1, hσ.2, hσ.3, hσ.4, ?_⟩⟩
          · show _ < 4294967296
            omega
          · show (σ.size + v * 65536) / 65536 ≤ 65536
            omega
        · cases he
          exact ⟨.cons (by decide) hs, hl, hσ⟩
      · simp [opTys] at h
  | drop =>
    cases hs with
    | nil => simp [opTys] at h
    | cons a hs =>
      simp only [opTys, List.mem_singleton] at h; subst h; cases he
      exact ⟨hs, hl, hσ⟩
  | unreachable => cases he
  | host f =>
    simp only [opTys, Option.mem_toList, Option.mem_def, Option.map_eq_some_iff] at h
    obtain ⟨r, hr, rfl⟩ := h
    rw [popTys_eq hr] at hs
    simp only [Op.exec] at he
    split at he
    · next s1 σ1 hf =>
      cases he
      obtain ⟨a, b⟩ := host_typed hs hσ hf
      exact ⟨a, hl, b⟩
    · cases he

/-- What validation promises of an outcome. -/
def Promise (L R : List VT) (ls : List (List VT)) (st : List VT) : Res → Prop
  | .ok s l σ => Typed st s ∧ Typed L l ∧ StoreOk σ
  | .br k s l σ => (∃ rs s0, ls[k]? = some rs ∧ Typed (rs ++ s0) s) ∧ Typed L l ∧ StoreOk σ
  | .ret s σ => (∃ s0, Typed (R ++ s0) s) ∧ StoreOk σ
  | .trap => True
  | .oof => True

theorem Ok.preserved : ∀ (n : Nat) {L R ls is st st' s l σ}, Ok L R ls is st st' → Typed st s → Typed L l → StoreOk σ →
    Promise L R ls st' (run n is s l σ)
  | 0, _, _, _, _, _, _, _, _, _, _, _, _, _ => trivial
  | n + 1, L, R, ls, is, st, st', s, l, σ, h, hs, hl, hσ => by
    cases h with
    | nil => exact ⟨hs, hl, hσ⟩
    | op ho h =>
      simp only [run]
      split
      · next s1 l1 σ1 he =>
        obtain ⟨a, b, c⟩ := op_typed ho hs hl hσ he
        exact Ok.preserved n h a b c
      · trivial
    | unreachable h =>
      simp only [run, Op.exec]
      trivial
    | @block _ _ _ is b s0 s2 rs hb h =>
      simp only [run]
      have := Ok.preserved n hb .nil hl hσ
      split
      · next s1 l1 σ1 he =>
        rw [he] at this
        obtain ⟨a, b, c⟩ := this
        exact Ok.preserved n h ((a.take rfl).append hs) b c
      · next s1 l1 σ1 he =>
        rw [he] at this
        obtain ⟨⟨rs', s0', hk, a⟩, b, c⟩ := this
        cases hk
        exact Ok.preserved n h (a.split.1.append hs) b c
      · next k s1 l1 σ1 he =>
        rw [he] at this
        exact this
      · next hr1 hr2 hr3 =>
        generalize run n b [] l σ = r at *
        cases r with
        | ok => exact (hr1 _ _ _ rfl).elim
        | br k => cases k with
          | zero => exact (hr2 _ _ _ rfl).elim
          | succ k => exact (hr3 _ _ _ _ rfl).elim
        | ret => exact this
        | trap => trivial
        | oof => trivial
    | @loop _ _ _ is b s0 s2 rs hb h =>
      simp only [run]
      have := Ok.preserved n hb .nil hl hσ
      split
      · next s1 l1 σ1 he =>
        rw [he] at this
        obtain ⟨a, b, c⟩ := this
        exact Ok.preserved n h ((a.take rfl).append hs) b c
      · next s1 l1 σ1 he =>
        rw [he] at this
        obtain ⟨-, b, c⟩ := this
        exact Ok.preserved n (Ok.loop hb h) hs b c
      · next k s1 l1 σ1 he =>
        rw [he] at this
        exact this
      · next hr1 hr2 hr3 =>
        generalize run n b [] l σ = r at *
        cases r with
        | ok => exact (hr1 _ _ _ rfl).elim
        | br k => cases k with
          | zero => exact (hr2 _ _ _ rfl).elim
          | succ k => exact (hr3 _ _ _ _ rfl).elim
        | ret => exact this
        | trap => trivial
        | oof => trivial
    | @ite _ _ _ is b c s0 s2 rs hb hc h =>
      cases hs with
      | @cons t v ts vs a hs =>
      simp only [run]
      have hbc : Ok L R (rs :: ls) (if v ≠ 0 then b else c) [] rs := by split <;> assumption
      have := Ok.preserved n hbc .nil hl hσ
      split
      · next s1 l1 σ1 he =>
        rw [he] at this
        obtain ⟨a, b, c⟩ := this
        exact Ok.preserved n h ((a.take rfl).append hs) b c
      · next s1 l1 σ1 he =>
        rw [he] at this
        obtain ⟨⟨rs', s0', hk, a⟩, b, c⟩ := this
        cases hk
        exact Ok.preserved n h (a.split.1.append hs) b c
      · next k s1 l1 σ1 he =>
        rw [he] at this
        exact this
      · next hr1 hr2 hr3 =>
        generalize run n (if v ≠ 0 then b else c) [] l σ = r at *
        cases r with
        | ok => exact (hr1 _ _ _ rfl).elim
        | br k => cases k with
          | zero => exact (hr2 _ _ _ rfl).elim
          | succ k => exact (hr3 _ _ _ _ rfl).elim
        | ret => exact this
        | trap => trivial
        | oof => trivial
    | br hk h =>
      simp only [run]
      exact ⟨⟨_, _, hk, hs⟩, hl, hσ⟩
    | brIf hk h =>
      cases hs with
      | cons a hs =>
      simp only [run]
      split
      · exact ⟨⟨_, _, hk, hs⟩, hl, hσ⟩
      · exact Ok.preserved n h hs hl hσ
    | ret h =>
      simp only [run]
      exact ⟨⟨_, hs⟩, hσ⟩
    | @call _ _ _ is ps rs ls' b s0 s2 hb h =>
      simp only [run]
      have hsp := hs.split
      rw [List.length_reverse] at hsp
      have hloc := hsp.1.reverse.append (Typed.zeros ls')
      rw [List.reverse_reverse] at hloc
      have := Ok.preserved n hb .nil hloc hσ
      split
      · trivial
      · split
        · next s1 l1 σ1 he =>
          rw [he] at this
          exact Ok.preserved n h ((this.1.take rfl).append hsp.2) hl this.2.2
        · next s1 l1 σ1 he =>
          rw [he] at this
          obtain ⟨⟨rs', s0', hk, a⟩, -, c⟩ := this
          cases hk
          exact Ok.preserved n h (a.split.1.append hsp.2) hl c
        · trivial
        · next s1 σ1 he =>
          rw [he] at this
          obtain ⟨⟨s0', a⟩, c⟩ := this
          exact Ok.preserved n h (a.split.1.append hsp.2) hl c
        · trivial
        · trivial

/-- A valid function called with arguments of its types that returns, returns results of its types. -/
theorem Fn.Valid.returns {f : Fn} {ps rs : List VT} (h : f.Valid ps rs) {args : List Nat} {σ : Store} (ha : Typed ps args)
    (hσ : StoreOk σ) {P : List Nat → Store → Prop} (hc : f.Calls args σ P) :
    f.Calls args σ (fun r σ' => P r σ' ∧ Typed rs r ∧ StoreOk σ') := by
  obtain ⟨L, h1, h2, h3, h4⟩ := h
  obtain ⟨hn, hw⟩ := hc
  refine ⟨hn, ?_⟩
  obtain ⟨n, hne, hq⟩ := hw
  refine ⟨n, hne, ?_⟩
  have := Ok.preserved n h4 .nil (ha.append (Typed.zeros L)) hσ
  rw [h3] at this
  generalize run n f.body [] (args ++ List.replicate f.nl 0) σ = r at *
  rw [← h2] at hq ⊢
  cases r with
  | ok s l σ' => exact ⟨hq, this.1.take rfl, this.2.2⟩
  | br k s l σ' =>
    cases k with
    | zero =>
      obtain ⟨⟨rs', s0', hk, a⟩, -, c⟩ := this
      cases hk
      exact ⟨hq, a.split.1, c⟩
    | succ k => exact hq.elim
  | ret s σ' =>
    obtain ⟨⟨s0', a⟩, c⟩ := this
    exact ⟨hq, a.split.1, c⟩
  | trap => exact hq.elim
  | oof => exact hq.elim

end Wasm
