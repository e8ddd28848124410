import Verif.Proof.Tree
import Verif.Rt.Transfer

/-!
The emitted code that removes the objects inside a value from the storage of their previous owners computes `drops`, a function on
storage.
-/

namespace Layout
open Mv Rt

/-- Removal of one object: storage afterwards, and bytes of memory allocated. -/
def drop (K : List UInt8 → Nat) (k : Kid) (S : Nat → Nat) : Option ((Nat → Nat) × Nat) :=
  if k.owner = 0 ∨ k.pid = some k.owner then some (S, 0)
  else if k.pid = none ∨ k.owner = 2 then none
  else (dels K k.fs ⟨S, Slots.objectSlot K k.owner k.id, 8, 0⟩).map fun st => (st.wipe.stor, st.used)

/-- Removal of objects one after the other. -/
def drops (K : List UInt8 → Nat) : List Kid → (Nat → Nat) → Option ((Nat → Nat) × Nat)
  | [], S => some (S, 0)
  | k :: ks, S => (drop K k S).bind fun r => (drops K ks r.1).map fun q => (q.1, r.2 + q.2)

theorem drops_append {K : List UInt8 → Nat} {ks ks' : List Kid} {S : Nat → Nat} {r : (Nat → Nat) × Nat}
    (h : drops K (ks ++ ks') S = some r) :
    ∃ S1 n1 n2, drops K ks S = some (S1, n1) ∧ drops K ks' S1 = some (r.1, n2) ∧ r.2 = n1 + n2 := by
  induction ks generalizing S r with
  | nil => exact ⟨S, 0, r.2, rfl, h, by omega⟩
  | cons k ks ih =>
    simp only [List.cons_append, drops, Option.bind_eq_some_iff, Option.map_eq_some_iff] at h
    obtain ⟨r1, h1, r2, h2, rfl⟩ := h
    obtain ⟨S1, n1, n2, e1, e2, e3⟩ := ih h2
    refine ⟨S1, r1.2 + n1, n2, ?_, e2, by simp only; omega⟩
    simp only [drops, h1, Option.bind_some, e1, Option.map_some]

end Layout

namespace Rt
open Wasm Slots Mv Layout

variable {σ σ' σ'' : Store} {E : ErrPtrs}

/-- The step from `σ` to `σ'` writes the region `R` and leaves storage `S'`, allocating at most `n` bytes. -/
structure Moved (R : Nat → Prop) (σ σ' : Store) (S' : Nat → Nat) (n : Nat) : Prop where
  later : Later (fun x => scr 128 x ∨ R x) σ σ'
  stor : σ'.host.storage = S'
  cost : σ'.nextFree ≤ σ.nextFree + n
  statics : Statics σ'

theorem Moved.refl {R : Nat → Prop} (h : Heap σ) (hst : Statics σ) : Moved R σ σ σ.host.storage 0 :=
  ⟨Later.refl _ h, rfl, Nat.le_refl _, hst⟩

theorem Moved.mono {R R' : Nat → Prop} {S' : Nat → Nat} {n n' : Nat} (h : Moved R σ σ' S' n) (hR : ∀ x, R x → R' x) (hn : n ≤ n') :
    Moved R' σ σ' S' n' :=
  ⟨h.later.mono fun x _ hx => hx.imp_right (hR x), h.stor, by have := h.cost; omega, h.statics⟩

theorem Moved.trans {R : Nat → Prop} {S1 S2 : Nat → Nat} {n m : Nat} (h : Moved R σ σ' S1 n) (h' : Moved R σ' σ'' S2 m) :
    Moved R σ σ'' S2 (n + m) :=
  ⟨h.later.trans h'.later, h'.stor, by have := h.cost; have := h'.cost; omega, h'.statics⟩

/-- What is apart from the region is unchanged. -/
theorem Moved.same {R C : Nat → Prop} {S' : Nat → Nat} {n : Nat} (h : Moved R σ σ' S' n) (hC : Safe σ C 128) (hd : ∀ x, C x → ¬ R x) :
    ∀ x, C x → σ'.mem x = σ.mem x :=
  fun x hx => h.later.mem x (hC x hx).2.1 fun h' => h'.elim (hC.not_scr hx) (hd x hx)

theorem statics_safe {R : Nat → Prop} (hσ : Heap σ) (hst : Statics σ) (hs : Safe σ R 128) (h : Later (fun x => scr 128 x ∨ R x) σ σ') :
    Statics σ' := by
  have hb := hσ.base
  refine h.statics (by unfold reserved at hb; omega) hst fun x hx hc => ?_
  rcases hc with hc | hc
  · exact scr_static (.inl rfl) hx hc
  · have := hs x hc; omega

theorem Safe.sub {R S : Nat → Prop} {a : Nat} (h : Safe σ R a) (hS : ∀ x, S x → R x) : Safe σ S a := fun x hx => h x (hS x hx)

/-- The parent at `p`: a struct, or an object with its id outside of the region that is written. -/
def Par (f : Bytes) (C : Nat → Prop) (pid : Option Nat) (p : Nat) : Prop :=
  ∀ i, pid = some i → ∃ uid p1 p2 q, UidAt f C uid p p1 p2 q ∧ idOf uid = i

theorem Par.change {f g : Bytes} {C : Nat → Prop} {pid : Option Nat} {p : Nat} (h : Par f C pid p) (hm : ∀ x, C x → g x = f x) :
    Par g C pid p := fun i hi => by
  obtain ⟨uid, p1, p2, q, hu, e⟩ := h i hi
  exact ⟨uid, p1, p2, q, hu.change hm fun _ h => h, e⟩

/-- A field, the pointer to which is at `p`. -/
def TreeF (f : Bytes) (R : Nat → Prop) (t : Ty) (v : Val) (p : Nat) : Prop :=
  (t.scalar = true → Within R (leNat f p 4) t.size) ∧
    Mv.Tree f R t v (if t.scalar then leNat f (leNat f p 4) t.size else leNat f p 4)

theorem TreeF.change {f g : Bytes} {R : Nat → Prop} {t : Ty} {v : Val} {p : Nat} (h : TreeF f R t v p)
    (hm : ∀ x, R x → g x = f x) (hp : leNat g p 4 = leNat f p 4) : TreeF g R t v p := by
  unfold TreeF at h ⊢
  rw [hp]
  refine ⟨h.1, ?_⟩
  have h2 := h.2
  by_cases hs : t.scalar = true
  · rw [if_pos hs] at h2 ⊢
    rw [(h.1 hs).leNat hm]; exact Tree.change hm (fun _ h => h) t h2
  · rw [if_neg hs] at h2 ⊢
    exact Tree.change hm (fun _ h => h) t h2

/-- The objects in the fields of a value. -/
def inKids : Ty → Val → List Kid
  | .struct fs, .struct vs => kidsFs none fs vs
  | .object fs, .object _ vs => kidsFs (some (idOf (vs.headD (.num 0)))) fs vs
  | _, _ => []

def inSettle : Ty → Val → Val
  | .struct fs, .struct vs => .struct (settleFs none fs vs)
  | .object fs, .object ow vs => .object ow (settleFs (some (idOf (vs.headD (.num 0)))) fs vs)
  | _, v => v

/-- `ttoFn` removes the objects in the fields. -/
def TtoRun (E : ErrPtrs) (t : Ty) : Prop :=
  ∀ (σ : Store) (R : Nat → Prop) (v : Val) (w : Nat) (S' : Nat → Nat) (n : Nat), Heap σ → Statics σ → Safe σ R 128 →
    Mv.Tree σ.mem R t v w → drops σ.host.keccak (inKids t v) σ.host.storage = some (S', n) → Room σ n →
    (ttoFn E t).Calls [w] σ (fun r σ' => r = [] ∧ Moved R σ σ' S' n ∧ Mv.Tree σ'.mem R t (inSettle t v) w)

/-- The code for a field. -/
def FieldRun (E : ErrPtrs) (t : Ty) : Prop :=
  ∀ (σ : Store) (A C : Nat → Prop) (pid : Option Nat) (v : Val) (p off k : Nat) (S' : Nat → Nat) (n : Nat) (s l : List Nat)
    (is : List Instr) (Q : Res → Prop), Heap σ → Statics σ → Safe σ A 128 → Safe σ C 128 → (∀ x, C x → ¬ A x) →
    Par σ.mem C pid p → Safe σ (Span (p + off) (p + off + 4)) 128 → Disj A (Span (p + off) (p + off + 4)) →
    TreeF σ.mem A t v (p + off) → drops σ.host.keccak (kids pid t v) σ.host.storage = some (S', n) → Room σ n →
    lget l 0 = p → 0 < k → k + nlTto t ≤ l.length →
    (∀ σ' l', Moved A σ σ' S' n → TreeF σ'.mem A t (settle pid t v) (p + off) → l'.length = l.length → lget l' 0 = p →
      wp is s l' σ' Q) →
    wp (ttoT E t k off ++ is) s l σ Q

/-- The code for fields. -/
def FieldsRun (E : ErrPtrs) (ts : List Ty) : Prop :=
  ∀ (σ : Store) (R C : Nat → Prop) (pid : Option Nat) (vs : List Val) (p off k : Nat) (S' : Nat → Nat) (n : Nat) (s l : List Nat)
    (is : List Instr) (Q : Res → Prop), Heap σ → Statics σ → Safe σ R 128 → Safe σ C 128 → (∀ x, C x → ¬ R x) →
    Par σ.mem C pid p → TreeFs σ.mem R ts vs (p + off) → drops σ.host.keccak (kidsFs pid ts vs) σ.host.storage = some (S', n) →
    Room σ n → lget l 0 = p → 0 < k → k + (ts.map nlTto).sum ≤ l.length →
    (∀ σ' l', Moved R σ σ' S' n → TreeFs σ'.mem R ts (settleFs pid ts vs) (p + off) → l'.length = l.length → lget l' 0 = p →
      wp is s l' σ' Q) →
    wp (ttoFs E ts k off ++ is) s l σ Q

theorem fields_nil : FieldsRun E [] := by
  intro σ R C pid vs p off k S' n s l is Q hσ hst hsR hsC hd hpar ht hdr hroom hl hk hlen hQ
  simp only [TreeFs] at ht
  subst ht
  simp only [kidsFs, drops, Option.some.injEq, Prod.mk.injEq] at hdr
  obtain ⟨rfl, rfl⟩ := hdr
  simp only [ttoFs, List.nil_append]
  exact hQ σ l (Moved.refl hσ hst) (by simp only [settleFs, TreeFs]) rfl hl

theorem fields_cons {t : Ty} {ts : List Ty} (ht : FieldRun E t) (hts : FieldsRun E ts) : FieldsRun E (t :: ts) := by
  intro σ R C pid vs p off k S' n s l is Q hσ hst hsR hsC hd hpar htr hdr hroom hl hk hlen hQ
  simp only [TreeFs] at htr
  obtain ⟨v, vs', A, B, rfl, h1, h2, h3, h4, hA, hB, hAB, hAp, hBp⟩ := htr
  simp only [kidsFs] at hdr
  obtain ⟨S1, n1, n2, d1, d2, d3⟩ := drops_append hdr
  simp only at d2 d3
  simp only [List.map_cons, List.sum_cons] at hlen
  simp only [ttoFs, List.append_assoc]
  have hsA := hsR.sub hA
  have hsB := hsR.sub hB
  have hsP : Safe σ (Span (p + off) (p + off + 4)) 128 := hsR.sub fun x hx => h1 x hx.1 hx.2
  refine ht σ A C pid v p off k S1 n1 s l _ Q hσ hst hsA hsC (fun x hx ha => hd x hx (hA x ha)) hpar hsP hAp ⟨h2, h3⟩ d1
    (hroom.mono (by omega)) hl hk (by omega) ?_
  intro σ1 l1 m1 t1 hl1 hp1
  have eC : ∀ x, C x → σ1.mem x = σ.mem x := m1.same hsC fun x hx ha => hd x hx (hA x ha)
  have eB : ∀ x, B x → σ1.mem x = σ.mem x := m1.same hsB fun x hb ha => hAB x ha hb
  refine hts σ1 B C pid vs' p (off + 4) (k + nlTto t) S' n2 s l1 is Q m1.later.heap m1.statics (hsB.later m1.later)
    (hsC.later m1.later) (fun x hx hb => hd x hx (hB x hb)) (hpar.change eC)
    (TreeFs.change eB (fun _ h => h) ts h4) (by rw [m1.later.keccak, m1.stor]; exact d2)
    (Room.after (k := n1) (hroom.mono (by omega)) (by have := m1.cost; omega) m1.later.maxPages) hp1 (by omega) (by omega) ?_
  intro σ2 l2 m2 t2 hl2 hp2
  have eA : ∀ x, A x → σ2.mem x = σ1.mem x := m2.same (hsA.later m1.later) hAB
  have eP : ∀ x, Span (p + off) (p + off + 4) x → σ2.mem x = σ1.mem x :=
    m2.same (hsP.later m1.later) fun x hx hb => hBp x hb hx
  refine hQ σ2 l2 ((m1.mono hA (Nat.le_refl _)).trans (m2.mono hB (Nat.le_refl _)) |>.mono (fun _ h => h) (by omega)) ?_ (by omega) hp2
  have t3 := t1.change eA (leNat_congr fun x h1 h2 => eP x ⟨h1, by omega⟩)
  simp only [settleFs, TreeFs]
  exact ⟨_, _, A, B, rfl, h1, t3.1, t3.2, t2, hA, hB, hAB, hAp, hBp⟩

/-- Fields that are no structs or vectors of structs. -/
theorem field_skip {t : Ty} (ht : ∀ k off, ttoT E t k off = []) (hk : ∀ pid v, kids pid t v = []) (hs : ∀ pid v, settle pid t v = v) :
    FieldRun E t := by
  intro σ A C pid v p off k S' n s l is Q hσ hst hsA hsC hd hpar hsP hAp htr hdr hroom hl hk0 hlen hQ
  rw [hk] at hdr
  simp only [drops, Option.some.injEq, Prod.mk.injEq] at hdr
  obtain ⟨rfl, rfl⟩ := hdr
  rw [ht]
  exact hQ σ l (Moved.refl hσ hst) (by rw [hs]; exact htr) rfl hl

/-! ### One object -/

theorem headD_settle (pid : Option Nat) (uid : Val) (fs : List Ty) (vs : List Val) :
    settleFs pid (uidTy :: fs) (uid :: vs) = settle pid uidTy uid :: settleFs pid fs vs := by simp only [settleFs]

theorem settle_uid (pid : Option Nat) (n : Nat) : settle pid uidTy (.struct [.struct [.num n]]) = .struct [.struct [.num n]] := by
  simp [uidTy, settle, settleFs]

theorem kids_uid (pid : Option Nat) (n : Nat) : kids pid uidTy (.struct [.struct [.num n]]) = [] := by
  simp [uidTy, kids, kidsFs]

/-- `deleteTto` removes an object. -/
theorem deleteTto_object {R C : Nat → Prop} {fs gs : List Ty} {uid : Val} {vs : List Val} {w p ow : Nat} {pid : Option Nat}
    {S' : Nat → Nat} {n : Nat} (hfs : StorableFs fs) (hσ : Heap σ) (hst : Statics σ) (hsR : Safe σ R 128)
    (hsC : Safe σ C 128) (hpar : Par σ.mem C pid p)
    (htr : Mv.Tree σ.mem R (.object (uidTy :: gs)) (.object ow (uid :: vs)) w)
    (hdr : drop σ.host.keccak ⟨pid, ow, idOf uid, fs⟩ σ.host.storage = some (S', n)) (hroom : Room σ n) :
    (deleteTto E (.object (uidTy :: fs))).Calls [p, w] σ (fun r σ' => r = [] ∧ Moved R σ σ' S' n ∧
      Mv.Tree σ'.mem R (.object (uidTy :: gs)) (.object (if pid = some ow then ow else 0) (uid :: vs)) w) := by
  have hrep := htr.rep
  obtain ⟨u, hid, hu, ho, hw, hwin⟩ := rep_idAt hσ hsR hrep
  have f1 := hσ.alloc.nextFree_le
  have f2 := hσ.base
  have f3 := hσ.alloc.size_lt
  have f4 := hid.owner
  unfold reserved at f2
  refine ⟨rfl, ?_⟩
  unfold deleteTto
  wstep
  refine wp_call1 (getStructOwner_spec (by omega) (by omega)) ?_
  rintro r σ1 ⟨rfl, rfl⟩
  wstep
  refine wp_call2 (isZero_spec (k := 8) f3 (by omega)) ?_
  rintro r σ1 ⟨rfl, rfl⟩
  rw [show 4 * 8 = 32 from rfl]
  have ez : leNat σ1.mem (w - 32) 32 = 0 ↔ ow = 0 := by rw [leNat_zero_iff_beNat, ho]
  simp only [drop] at hdr
  by_cases h0 : ow = 0
  · rw [if_pos (.inl h0)] at hdr
    simp only [Option.some.injEq, Prod.mk.injEq] at hdr
    obtain ⟨rfl, rfl⟩ := hdr
    rw [b2n_pos (ez.mpr h0)]
    wstep
    refine ⟨Moved.refl hσ hst, ?_⟩
    rw [show (if pid = some ow then ow else 0) = ow by split <;> omega]
    exact htr
  · rw [b2n_neg fun h => h0 (ez.mp h)]
    wstep
    cases hp : pid with
    | none => rw [hp, if_neg (by simp [h0]), if_pos (by simp)] at hdr; exact absurd hdr (by simp)
    | some i =>
    subst hp
    obtain ⟨puid, p1, p2, q, hpu, hi⟩ := hpar i rfl
    have b1 := Within.bounds hpu.within hsC (by omega)
    refine wp_call1 (hpu.ptr hsC hσ) ?_
    rintro r σ2 ⟨rfl, rfl⟩
    wstep
    refine wp_slotEq f3 (by omega) (by omega) (x := i) (y := ow) (by rw [← hi, hpu.idOf]) ho ?_
    by_cases hio : i = ow
    · rw [if_pos (.inr (by rw [hio]))] at hdr
      simp only [Option.some.injEq, Prod.mk.injEq] at hdr
      obtain ⟨rfl, rfl⟩ := hdr
      rw [b2n_pos hio]
      wstep
      refine ⟨Moved.refl hσ hst, ?_⟩
      rw [if_pos (by rw [hio])]
      exact htr
    · have hio' : ¬ (some i = some ow) := fun h => hio (Option.some.inj h)
      rw [if_neg (by simp [h0, hio])] at hdr
      by_cases h2 : ow = 2
      · rw [if_pos (.inr h2)] at hdr; exact absurd hdr (by simp)
      rw [if_neg (by simp [h2])] at hdr
      obtain ⟨st', hrun, e⟩ := Option.map_eq_some_iff.mp hdr
      simp only [Prod.mk.injEq] at e
      obtain ⟨rfl, rfl⟩ := e
      rw [b2n_neg hio]
      wstep
      refine wp_call1 (deleteObject_spec hfs hσ hst hsR hrep h2 hroom hrun) ?_
      rintro r σ3 ⟨rfl, hl, hh, hc, hz⟩
      wstep
      have hl' : Later (fun x => scr 128 x ∨ R x) σ2 σ3 :=
        hl.mono fun x _ hx => hx.imp_right fun h => hwin x h.1 (by have := h.2; omega)
      refine ⟨⟨hl', by rw [hh], hc, statics_safe hσ hst hsR hl'⟩, ?_⟩
      rw [if_neg hio']
      simp only [Mv.Tree] at htr ⊢
      obtain ⟨vs0, S, g1, g2, g3, g4, g5, g6⟩ := htr
      simp only [Val.object.injEq] at g2
      refine ⟨vs0, S, g1, by rw [hz, g2.2], g3, g4, g5, TreeFs.change (fun x hx => ?_) (fun _ h => h) _ g6⟩
      have hx' := hsR x (g4 x hx)
      exact hl.mem x hx'.2.1 fun h => h.elim (hsR.not_scr (g4 x hx)) (g5 x hx)

/-- The code that removes a struct or object, and what is in it. -/
theorem wp_child {t : Ty} (ht : t.fielded = true) (hsto : Storable t) (hrun : TtoRun E t) {R C : Nat → Prop} {v : Val}
    {w p c : Nat} {pid : Option Nat} {S' : Nat → Nat} {n : Nat} {s l is Q} (hσ : Heap σ) (hst : Statics σ) (hsR : Safe σ R 128)
    (hsC : Safe σ C 128) (hd : ∀ x, C x → ¬ R x) (hpar : Par σ.mem C pid p) (htr : Mv.Tree σ.mem R t v w)
    (hdr : drops σ.host.keccak (kids pid t v) σ.host.storage = some (S', n)) (hroom : Room σ n)
    (hc : lget l c = w) (h0 : lget l 0 = p)
    (hQ : ∀ σ', Moved R σ σ' S' n → Mv.Tree σ'.mem R t (settle pid t v) w → wp is s l σ' Q) :
    wp (code[Op.lget c, (ttoFn E t).call, Op.lget 0, Op.lget c, (deleteTto E t).call] ++ is) s l σ Q := by
  cases t with
  | struct fs =>
    have htr' := htr
    simp only [Mv.Tree] at htr'
    obtain ⟨vs, rfl, -⟩ := htr'
    wstep
    rw [hc]
    refine wp_call1 (hrun σ R _ w S' n hσ hst hsR htr (by simpa only [inKids, kids] using hdr) hroom) ?_
    rintro r σ1 ⟨rfl, m1, t1⟩
    wstep
    rw [hc, h0]
    refine wp_call2 (P := fun r σ' => r = [] ∧ σ' = σ1) ⟨rfl, ?_⟩ ?_
    · unfold deleteTto
      wstep
    rintro r σ2 ⟨rfl, rfl⟩
    exact hQ _ m1 (by simpa only [inSettle, settle] using t1)
  | object fs =>
    have htr' := htr
    simp only [Mv.Tree] at htr'
    obtain ⟨vs, S, -, ev, -, -, -, hfs⟩ := htr'
    cases fs with
    | nil => rw [Storable] at hsto; exact hsto.elim
    | cons u fs =>
    rw [Storable] at hsto
    obtain ⟨rfl, hsto⟩ := hsto
    obtain ⟨uid, vs', p1, p2, q, rfl, hu, -⟩ := uid_rep hfs.rep
    generalize beNat σ.mem (w - 32) 32 = ow at ev
    subst ev
    simp only [kids, List.headD_cons, List.tail_cons] at hdr
    obtain ⟨S1, n1, n2, d1, d2, d3⟩ := drops_append hdr
    simp only at d2 d3
    simp only [drops, Option.bind_eq_some_iff, Option.map_eq_some_iff] at d2
    obtain ⟨r2, d2, q2, d4, d5⟩ := d2
    simp only [Option.some.injEq] at d4
    subst d4
    simp only [Prod.mk.injEq] at d5
    obtain ⟨d5, d6⟩ := d5
    simp only [Nat.add_zero] at d6
    wstep
    rw [hc]
    refine wp_call1 (hrun σ R _ w S1 n1 hσ hst hsR htr (by simpa only [inKids, List.headD_cons] using d1) (hroom.mono (by omega))) ?_
    rintro r σ1 ⟨rfl, m1, t1⟩
    wstep
    rw [hc, h0]
    simp only [inSettle, headD_settle, List.headD_cons] at t1
    rw [hu.uid, settle_uid, ← hu.uid] at t1
    refine wp_call2 (deleteTto_object (S' := r2.1) (n := r2.2) (C := C) (pid := pid) hsto m1.later.heap m1.statics (hsR.later m1.later) (hsC.later m1.later)
      (hpar.change (m1.same hsC hd)) t1 (by rw [m1.later.keccak, m1.stor]; exact d2)
      (Room.after (k := n1) (hroom.mono (by omega)) (by have := m1.cost; omega) m1.later.maxPages)) ?_
    rintro r σ2 ⟨rfl, m2, t2⟩
    refine hQ σ2 ((m1.trans m2).mono (n' := n) (fun _ h => h) (by omega) |> fun h => by rw [d5] at h; exact h) ?_
    simp only [settle, headD_settle, List.headD_cons]
    rw [hu.uid, settle_uid, ← hu.uid]
    exact t2
  | _ => exact absurd ht (by simp [Ty.fielded])

theorem field_fielded {t : Ty} (ht : t.fielded = true) (hsto : Storable t) (hrun : TtoRun E t) : FieldRun E t := by
  intro σ A C pid v p off k S' n s l is Q hσ hst hsA hsC hd hpar hsP hAp htr hdr hroom hl hk0 hlen hQ
  have e : ttoT E t k off = code[Op.lget 0, Op.load 4 off, Op.lset k] ++
      code[Op.lget k, (ttoFn E t).call, Op.lget 0, Op.lget k, (deleteTto E t).call] := by
    cases t <;> first | rfl | exact absurd ht (by simp [Ty.fielded])
  have hs : t.scalar = false := by cases t <;> first | rfl | exact absurd ht (by simp [Ty.fielded])
  have hn : nlTto t = 1 := by cases t <;> first | rfl | exact absurd ht (by simp [Ty.fielded])
  have htr2 := htr.2
  rw [hs] at htr2
  simp only [Bool.false_eq_true, if_false] at htr2
  have f1 := hσ.alloc.nextFree_le
  have f3 := hσ.alloc.size_lt
  have b1 := hsP (p + off + 3) ⟨by omega, by omega⟩
  rw [e, List.append_assoc]
  obtain ⟨X, hX⟩ : ∃ X, X = code[Op.lget k, (ttoFn E t).call, Op.lget 0, Op.lget k, (deleteTto E t).call] ++ is := ⟨_, rfl⟩
  rw [← hX]
  wstep
  rw [hl, hX]
  refine wp_child ht hsto hrun hσ hst hsA hsC hd hpar htr2 hdr hroom (lget_lset_same (by omega)) (by rw [lget_lset_ne (by omega), hl])
    fun σ1 m1 t1 => ?_
  refine hQ σ1 _ m1 ?_ (by rw [lset_length]) (by rw [lget_lset_ne (by omega), hl])
  refine ⟨by rw [hs]; simp, ?_⟩
  rw [hs]
  simp only [Bool.false_eq_true, if_false]
  rw [leNat_congr fun x h1 h2 => m1.same hsP (fun x hx ha => hAp x ha hx) x ⟨h1, by omega⟩]
  exact t1

theorem tto_struct {fs : List Ty} (hfs : FieldsRun E fs) : TtoRun E (.struct fs) := by
  intro σ R v w S' n hσ hst hs htr hdr hroom
  simp only [Mv.Tree] at htr
  obtain ⟨vs, rfl, htr⟩ := htr
  simp only [inKids] at hdr
  refine ⟨rfl, ?_⟩
  simp only [ttoFn]
  rw [← List.append_nil (ttoFs E fs 1 0)]
  refine hfs σ R (fun _ => False) none vs w 0 1 S' n _ _ _ _ hσ hst hs (fun x h => h.elim) (fun x h => h.elim) (fun i h => absurd h (by simp))
    htr hdr hroom rfl (by omega) (by simp; omega) ?_
  intro σ' l' m t hl' hl0
  wstep
  refine ⟨m, ?_⟩
  simp only [inSettle, Mv.Tree]
  exact ⟨_, rfl, t⟩

/-- The code for the `UID` does nothing. -/
theorem wp_uidField {R : Nat → Prop} {uid : Val} {w p1 p2 q k : Nat} {s l is Q} (hu : UidAt σ.mem R uid w p1 p2 q) (hs : Safe σ R 128)
    (hσ : Heap σ) (hl : lget l 0 = w) (hk : 0 < k) (hlen : k < l.length) (hQ : wp is s (lset l k p1) σ Q) :
    wp (ttoT E uidTy k 0 ++ is) s l σ Q := by
  have b1 := Within.bounds hu.w1 hs (by omega)
  have b2 := Within.bounds hu.w2 hs (by omega)
  have b3 := Within.bounds hu.w3 hs (by omega)
  have f1 := hσ.alloc.nextFree_le
  have f3 := hσ.alloc.size_lt
  unfold uidTy
  simp only [ttoT, ttoFs, List.append_nil, List.nil_append, List.append_assoc]
  wstep
  rw [hl]
  rw [hu.e1]
  refine wp_call1 (P := fun r σ' => r = [] ∧ σ' = σ) ⟨rfl, ?_⟩ ?_
  · wstep
    rw [hu.e2]
    refine wp_call1 (P := fun r σ' => r = [] ∧ σ' = σ) ⟨rfl, ?_⟩ ?_
    · wstep
    rintro r σ1 ⟨rfl, rfl⟩
    wstep
    refine wp_call2 (P := fun r σ' => r = [] ∧ σ' = σ1) ⟨rfl, ?_⟩ ?_
    · unfold deleteTto
      wstep
    rintro r σ2 ⟨rfl, rfl⟩
    wstep
  rintro r σ1 ⟨rfl, rfl⟩
  wstep
  refine wp_call2 (P := fun r σ' => r = [] ∧ σ' = σ1) ⟨rfl, ?_⟩ ?_
  · unfold deleteTto
    wstep
  rintro r σ2 ⟨rfl, rfl⟩
  exact hQ

theorem tto_object {fs : List Ty} (hfs : FieldsRun E fs) : TtoRun E (.object (uidTy :: fs)) := by
  intro σ R v w S' n hσ hst hs htr hdr hroom
  simp only [Mv.Tree] at htr
  obtain ⟨vs, S, h32, ev, hwin, hS, hSd, htr⟩ := htr
  simp only [TreeFs] at htr
  obtain ⟨uid, vs', A, B, rfl, h1, -, h3, h4, hA, hB, hAB, hAp, hBp⟩ := htr
  -- the id and the pointers to it
  have hu : ∃ p1 p2 q, UidAt σ.mem (fun x => A x ∨ Span w (w + 4) x) uid w p1 p2 q := by
    have := h3.rep
    simp only [uidTy, Ty.scalar, Bool.false_eq_true, if_false, Mv.Rep, Mv.RepFs] at this
    obtain ⟨vs1, rfl, v1, vs2, rfl, g2, -, ⟨vs3, rfl, v2, vs4, rfl, g3, -, ⟨rfl, g4⟩, rfl⟩, rfl⟩ := this
    exact ⟨_, _, _, rfl, rfl, rfl, fun x a b => .inr ⟨a, b⟩, g2.mono fun _ h => .inl h, g3.mono fun _ h => .inl h,
      g4.mono fun _ h => .inl h, rfl⟩
  obtain ⟨p1, p2, q, hu⟩ := hu
  have hsS := hs.sub hS
  have hsC : Safe σ (fun x => A x ∨ Span w (w + 4) x) 128 := hsS.sub fun x hx => hx.elim (hA x) fun h => h1 x h.1 h.2
  generalize hg : beNat σ.mem (w - 32) 32 = ow at ev
  subst ev
  simp only [inKids, kidsFs, List.headD_cons] at hdr
  have eu := hu.uid
  rw [eu, kids_uid, List.nil_append, ← eu] at hdr
  refine ⟨rfl, ?_⟩
  simp only [ttoFn, ttoFs]
  rw [← List.append_nil (ttoFs E fs _ _)]
  refine wp_uidField hu hsC hσ rfl (by omega) (by simp [nlTto, uidTy]) ?_
  refine hfs σ B (fun x => A x ∨ Span w (w + 4) x) (some (idOf uid)) vs' w 4 2 S' n _ _ _ _ hσ hst (hsS.sub hB) hsC
    (fun x hx hb => hx.elim (fun h => hAB x h hb) (hBp x hb)) (fun i hi => ⟨uid, p1, p2, q, hu, Option.some.inj hi⟩) h4 hdr hroom
    rfl (by omega) (by simp [nlTto, uidTy, lset_length]; omega) ?_
  intro σ' l' m t hl' hl0
  wstep
  have eC := m.same hsC fun x hx hb => hx.elim (fun h => hAB x h hb) (hBp x hb)
  have hsO : Safe σ (Span (w - 32) w) 128 := hs.sub fun x hx => hwin x hx.1 (by have := hx.2; omega)
  have eO := m.same hsO fun x hx hb => hSd x (hB x hb) hx
  refine ⟨m.mono (fun x hx => hS x (hB x hx)) (Nat.le_refl _), ?_⟩
  simp only [inSettle, headD_settle, List.headD_cons, Mv.Tree]
  rw [eu, settle_uid, ← eu]
  refine ⟨uid :: settleFs (some (idOf uid)) fs vs', S, h32, ?_, hwin, hS, hSd, ?_⟩
  · rw [beNat_congr fun x a b => eO x ⟨a, by omega⟩, hg]
  · simp only [TreeFs]
    have e4 : leNat σ'.mem w 4 = leNat σ.mem w 4 := leNat_congr fun x a b => eC x (.inr ⟨a, b⟩)
    refine ⟨uid, _, A, B, rfl, h1, fun h => absurd h (by simp [uidTy, Ty.scalar]), ?_, t, hA, hB, hAB, hAp, hBp⟩
    have hsc : uidTy.scalar = false := rfl
    rw [hsc] at h3 ⊢
    simp only [Bool.false_eq_true, if_false] at h3 ⊢
    rw [e4]
    exact Tree.change (fun x hx => eC x (.inl hx)) (fun _ h => h) _ h3

theorem drops_take {K : List UInt8 → Nat} {pid : Option Nat} {t : Ty} {vs : List Val} {S : Nat → Nat} {r : (Nat → Nat) × Nat}
    (h : drops K (vs.flatMap fun v => kids pid t v) S = some r) (i : Nat) :
    ∃ S1 n1 n2, drops K ((vs.take i).flatMap fun v => kids pid t v) S = some (S1, n1) ∧
      drops K ((vs.drop i).flatMap fun v => kids pid t v) S1 = some (r.1, n2) ∧ r.2 = n1 + n2 := by
  rw [← List.take_append_drop i vs, List.flatMap_append] at h
  exact drops_append h

theorem isStruct_eq (t : Ty) : isStruct t = t.fielded := by cases t <;> rfl

theorem field_vec {t : Ty} (hsto : Storable t) (hrun : t.fielded = true → TtoRun E t) : FieldRun E (.vec t) := by
  cases ht : t.fielded with
  | false =>
    refine field_skip ?_ ?_ ?_
    · intro k off; simp only [ttoT, isStruct_eq, ht]; rfl
    · intro pid v; cases v <;> simp only [kids, ht]; rfl
    · intro pid v; cases v <;> simp only [settle, ht]; rfl
  | true =>
  replace hrun := hrun ht
  have hz : t.size = 4 := by cases t <;> first | rfl | exact absurd ht (by simp [Ty.fielded])
  intro σ A C pid v p off k S' n s l is Q hσ hst hsA hsC hd hpar hsP hAp htr hdr hroom hl hk0 hlen hQ
  have htr2 := htr.2
  simp only [Ty.scalar, Bool.false_eq_true, if_false, Mv.Tree] at htr2
  obtain ⟨w, hw⟩ : ∃ w, w = leNat σ.mem (p + off) 4 := ⟨_, rfl⟩
  rw [← hw] at htr2
  obtain ⟨vs, P, rfl, h2, h3, h4, h5, h6, h7⟩ := htr2
  simp only [kids, ht, if_true] at hdr
  have f1 := hσ.alloc.nextFree_le
  have f3 := hσ.alloc.size_lt
  have b1 := hsP (p + off + 3) ⟨by omega, by omega⟩
  have b2 := Within.bounds h4 hsA (by omega)
  simp only [nlTto, isStruct_eq, ht, if_true] at hlen
  simp only [ttoT, isStruct_eq, ht, if_true]
  have len4 := leNat_lt σ.mem w 4
  wstep
  rw [hl, ← hw]
  wstep
  rw [h2]
  obtain ⟨L, hL⟩ : ∃ L, L = lset (lset l k w) (k + 1) vs.length := ⟨_, rfl⟩
  rw [← hL]
  have d0 : lget L 0 = p := by subst hL; lsimp; exact hl
  have dk : lget L k = w := by subst hL; lsimp
  have dk1 : lget L (k + 1) = vs.length := by subst hL; lsimp
  have dL : L.length = l.length := by subst hL; lsimp
  have fin : ∀ (σ' : Store) (l' : List Nat), Moved A σ σ' S' n →
      (∀ x, Span w (w + (8 + leNat σ.mem (w + 4) 4 * t.size)) x → σ'.mem x = σ.mem x) →
      (∀ j (hj : j < vs.length), Mv.Tree σ'.mem (P j) t (settle pid t vs[j]) (leNat σ.mem (w + 8 + j * t.size) t.size)) →
      l'.length = L.length → lget l' 0 = p → wp is s l' σ' Q := by
    intro σ' l' m hsp hel hl' h0'
    refine hQ σ' l' m ?_ (by omega) h0'
    refine ⟨fun h => absurd h (by simp [Ty.scalar]), ?_⟩
    simp only [Ty.scalar, Bool.false_eq_true, if_false, settle, ht, if_true, Mv.Tree]
    rw [leNat_congr fun x h1 h2 => m.same hsP (fun x hx ha => hAp x ha hx) x ⟨h1, by omega⟩, ← hw]
    have e4 : leNat σ'.mem (w + 4) 4 = leNat σ.mem (w + 4) 4 := leNat_congr fun x a b => hsp x ⟨by omega, by omega⟩
    refine ⟨_, P, rfl, ?_, ?_, ?_, ?_, ?_, ?_⟩
    · rw [leNat_congr fun x a b => hsp x ⟨by omega, by omega⟩, h2, List.length_map]
    · rw [e4, List.length_map]; exact h3
    · rw [e4]; exact h4
    · rw [e4, List.length_map]; exact h5
    · rw [List.length_map]; exact h6
    · intro i hi
      rw [List.length_map] at hi
      have hi1 : i * t.size + t.size ≤ leNat σ.mem (w + 4) 4 * t.size := by
        rw [← Nat.succ_mul]; exact Nat.mul_le_mul_right _ (by omega)
      rw [List.getElem_map, leNat_congr fun x a b => hsp x ⟨by omega, by omega⟩]
      exact hel i hi
  refine IfP.intro (fun h0 => ?_) fun h0 => ?_
  · have hv : vs = [] := List.length_eq_zero_iff.mp h0
    subst hv
    simp only [List.flatMap_nil, drops, Option.some.injEq, Prod.mk.injEq] at hdr
    obtain ⟨rfl, rfl⟩ := hdr
    exact fin σ L (Moved.refl hσ hst) (fun _ _ => rfl) (fun j hj => absurd hj (by simp)) rfl d0
  · refine wp_loop (fun m l' σ' => ∃ i Si ni, m + i = vs.length ∧ i < vs.length ∧ l'.length = L.length ∧
      (∀ j, j < k + 2 → lget l' j = lget L j) ∧ lget l' (k + 2) = i ∧ Moved A σ σ' Si ni ∧
      drops σ.host.keccak ((vs.take i).flatMap fun v => kids pid t v) σ.host.storage = some (Si, ni) ∧
      (∀ x, Span w (w + (8 + leNat σ.mem (w + 4) 4 * t.size)) x → σ'.mem x = σ.mem x) ∧
      (∀ j (hj : j < vs.length), Mv.Tree σ'.mem (P j) t (if j < i then settle pid t vs[j] else vs[j])
        (leNat σ.mem (w + 8 + j * t.size) t.size))) vs.length
      ⟨0, σ.host.storage, 0, by omega, by omega, by rw [lset_length], fun j hj => lget_lset_ne (by omega), lget_lset_same (by omega),
        Moved.refl hσ hst, by simp [drops], fun _ _ => rfl, fun j hj => by simpa using h7 j hj⟩ ?_
    rintro m l' σ1 ⟨i, Si, ni, hm, hi, hl', hpres, hi2, m1, hdi, hsp, hel⟩
    change wp (vecElemPtr k (k + 2) 4 ++ (code[Op.load 4 0, Op.lset (k + 3)] ++
      (code[Op.lget (k + 3), (ttoFn E t).call, Op.lget 0, Op.lget (k + 3), (deleteTto E t).call] ++
        code[Op.lget (k + 2), Op.lget (k + 1), Op.c32 1, Op.bin .w32 .sub, Op.bin .w32 .eq, .brIf 1,
          Op.lget (k + 2), Op.c32 1, Op.bin .w32 .add, Op.lset (k + 2), .br 0]))) _ _ _ _
    obtain ⟨X, hX⟩ : ∃ X, X = code[Op.lget (k + 3), (ttoFn E t).call, Op.lget 0, Op.lget (k + 3), (deleteTto E t).call] ++
        code[Op.lget (k + 2), Op.lget (k + 1), Op.c32 1, Op.bin .w32 .sub, Op.bin .w32 .eq, .brIf 1,
          Op.lget (k + 2), Op.c32 1, Op.bin .w32 .add, Op.lset (k + 2), .br 0] := ⟨_, rfl⟩
    rw [← hX]
    have g1 := m1.later.heap.alloc.nextFree_le
    have g2 := m1.later.nextFree
    have g3 := m1.later.heap.alloc.size_lt
    have hi1 : i * t.size + t.size ≤ leNat σ.mem (w + 4) 4 * t.size := by
      rw [← Nat.succ_mul]; exact Nat.mul_le_mul_right _ (by omega)
    have eel : leNat σ1.mem (w + 8 + i * t.size) t.size = leNat σ.mem (w + 8 + i * t.size) t.size :=
      leNat_congr fun x a b => hsp x ⟨by omega, by omega⟩
    rw [hz] at b2 hi1 eel
    unfold vecElemPtr skipVecHeader
    wstep
    rw [hpres k (by omega), dk, hi2]
    wstep
    rw [eel, hX]
    obtain ⟨Sa, na, nb, hda, hdb, hsum⟩ := drops_take hdr i
    rw [hda] at hdi
    simp only [Option.some.injEq, Prod.mk.injEq] at hdi
    obtain ⟨rfl, rfl⟩ := hdi
    rw [List.drop_eq_getElem_cons hi, List.flatMap_cons] at hdb
    obtain ⟨S2, n2, n3, hd2, hd3, hsum2⟩ := drops_append hdb
    simp only at hd3 hsum hsum2
    have hPi := (h5 i hi).1
    have hsPi : Safe σ (P i) 128 := hsA.sub hPi
    have eC1 := m1.same hsC hd
    have hti := hel i hi
    rw [if_neg (Nat.lt_irrefl i), hz] at hti
    refine wp_child ht hsto hrun (C := C) (pid := pid) m1.later.heap m1.statics (hsPi.later m1.later) (hsC.later m1.later)
      (fun x hx hp => hd x hx (hPi x hp)) (hpar.change eC1) hti (by rw [m1.later.keccak, m1.stor]; exact hd2)
      (Room.after (k := na) (hroom.mono (by omega)) (by have := m1.cost; omega) m1.later.maxPages)
      (lget_lset_same (by omega)) (by rw [lget_lset_ne (by omega), hpres 0 (by omega), d0]) fun σ2 m2 t2 => ?_
    have m12 := m1.trans (m2.mono hPi (Nat.le_refl _))
    have hsSp : Safe σ (Span w (w + (8 + leNat σ.mem (w + 4) 4 * t.size))) 128 := hsA.sub fun x hx => h4 x hx.1 hx.2
    have hsp2 : ∀ x, Span w (w + (8 + leNat σ.mem (w + 4) 4 * t.size)) x → σ2.mem x = σ.mem x := fun x hx => by
      rw [m2.same (hsSp.later m1.later) (fun x hx hp => (h5 i hi).2 x hp hx) x hx, hsp x hx]
    have hel2 : ∀ j (hj : j < vs.length), Mv.Tree σ2.mem (P j) t (if j < i + 1 then settle pid t vs[j] else vs[j])
        (leNat σ.mem (w + 8 + j * t.size) t.size) := by
      intro j hj
      by_cases hji : j = i
      · subst hji
        rw [if_pos (by omega), hz]; exact t2
      · have e := hel j hj
        rw [show (if j < i + 1 then settle pid t vs[j] else vs[j]) = if j < i then settle pid t vs[j] else vs[j] by
          by_cases h : j < i
          · rw [if_pos h, if_pos (by omega)]
          · rw [if_neg h, if_neg (by omega)]]
        refine Tree.change (m2.same ((hsA.sub (h5 j hj).1).later m1.later) fun x hx hp => ?_) (fun _ h => h) t e
        rcases Nat.lt_or_gt_of_ne hji with h | h
        · exact h6 j i h hi x hx hp
        · exact h6 i j h hj x hp hx
    have hd4 : drops σ.host.keccak ((vs.take (i + 1)).flatMap fun v => kids pid t v) σ.host.storage = some (S2, na + n2) := by
      obtain ⟨Sb, nb', nc', hb1, hb2, hb3⟩ := drops_take hdr (i + 1)
      rw [List.take_add_one, List.getElem?_eq_getElem hi, List.flatMap_append] at hb1 ⊢
      obtain ⟨Sx, nx, ny, x1, x2, x3⟩ := drops_append hb1
      rw [hda] at x1
      simp only [Option.some.injEq, Prod.mk.injEq] at x1
      obtain ⟨rfl, rfl⟩ := x1
      simp only [Option.toList_some, List.flatMap_cons, List.flatMap_nil, List.append_nil] at x2 hb1 ⊢
      rw [hd2] at x2
      simp only [Option.some.injEq, Prod.mk.injEq] at x2
      simp only at x3
      rw [hb1, x2.1, x2.2, x3]
    obtain ⟨L2, hL2⟩ : ∃ L2, L2 = lset l' (k + 3) (leNat σ.mem (w + 8 + i * 4) 4) := ⟨_, rfl⟩
    rw [← hL2]
    have q2 : lget L2 (k + 2) = i := by subst hL2; lsimp; exact hi2
    have qq : ∀ j, j < k + 2 → lget L2 j = lget L j := fun j hj => by subst hL2; lsimp; exact hpres j hj
    have qL : L2.length = L.length := by subst hL2; lsimp; exact hl'
    wstep
    rw [q2, qq (k + 1) (by omega), dk1]
    wstep
    refine IfP.intro (fun he => ?_) fun he => ?_
    · rw [List.take_of_length_le (by omega), hdr] at hd4
      simp only [Option.some.injEq, Prod.mk.injEq] at hd4
      obtain ⟨rfl, rfl⟩ := hd4
      refine fin σ2 L2 m12 hsp2 (fun j hj => ?_) qL (by rw [qq 0 (by omega), d0])
      have := hel2 j hj
      rwa [if_pos (by omega)] at this
    · exact ⟨m - 1, by omega, i + 1, S2, na + n2, by omega, by omega, by rw [lset_length, qL],
        fun j hj => by rw [lget_lset_ne (by omega)]; exact qq j hj, rfl, m12, hd4, hsp2, hel2⟩

mutual
theorem field_run (t : Ty) (h : Storable t) : FieldRun E t := by
  match t with
  | .bool | .u8 | .u16 | .u32 | .u64 | .u128 | .u256 | .address | .enum _ =>
    exact field_skip (fun k off => by simp only [ttoT]) (fun pid v => by cases v <;> simp only [kids])
      (fun pid v => by cases v <;> simp only [settle])
  | .struct fs => exact field_fielded rfl h (tto_struct (fields_run fs (by rw [Storable] at h; exact h.2)))
  | .object [] => rw [Storable] at h; exact h.elim
  | .object (u :: fs) =>
    have h' := h
    rw [Storable] at h'
    obtain ⟨rfl, h'⟩ := h'
    exact field_fielded rfl h (tto_object (fields_run fs h'))
  | .vec t =>
    rw [Storable] at h
    exact field_vec h fun hf => tto_run t h hf
theorem fields_run (ts : List Ty) (h : StorableFs ts) : FieldsRun E ts := by
  match ts with
  | [] => exact fields_nil
  | t :: ts => rw [StorableFs] at h; exact fields_cons (field_run t h.1) (fields_run ts h.2)
theorem tto_run (t : Ty) (h : Storable t) (hf : t.fielded = true) : TtoRun E t := by
  match t with
  | .bool | .u8 | .u16 | .u32 | .u64 | .u128 | .u256 | .address | .enum _ | .vec _ => exact absurd hf (by simp [Ty.fielded])
  | .struct fs => exact tto_struct (fields_run fs (by rw [Storable] at h; exact h.2))
  | .object [] => rw [Storable] at h; exact h.elim
  | .object (u :: fs) =>
    rw [Storable] at h
    obtain ⟨rfl, h⟩ := h
    exact tto_object (fields_run fs h)
end

end Rt
