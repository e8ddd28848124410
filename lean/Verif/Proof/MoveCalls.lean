import Verif.Proof.MoveStruct
import Verif.Proof.Errors
import Verif.Proof.Ascii

/-! Returning, calling, aborting. -/

namespace Move
open Wasm Rt

variable {E : ErrPtrs} {σ σ' : Store} {v x y : MVal} {w a b l : Nat}
variable {is : List Instr} {s loc : List Nat} {Q : Res → Prop} {ty : RetTy}

/-! ### Returning -/

theorem wp_popCode : ∀ (ws : List Nat) (l : Nat) (loc : List Nat), l + ws.length ≤ loc.length →
    (∀ loc', SameLocs l loc loc' → (∀ i (h : i < ws.length), lget loc' (l + i) = ws[i]) →
      wp is s loc' σ Q) →
    wp (popCode ws.length l ++ is) (ws ++ s) loc σ Q
  | [], l, loc, _, hk => hk loc .refl (fun i h => absurd h (by simp))
  | w :: ws, l, loc, hl, hk => by
    simp only [List.length_cons] at hl
    have e : popCode (w :: ws).length l = (Op.lset l : Instr) :: popCode ws.length (l + 1) := by
      unfold popCode
      rw [List.length_cons, List.range_succ_eq_map, List.map_cons, List.map_map]
      refine congrArg₂ _ rfl (List.map_congr_left fun i _ => ?_)
      simp only [Function.comp]
      rw [show l + (i + 1) = l + 1 + i by omega]
    rw [e]
    simp only [List.cons_append, wp_lset]
    refine wp_popCode ws (l + 1) _ (by rw [lset_length]; omega) ?_
    intro loc' h1 h2
    refine hk loc' ⟨by rw [h1.length, lset_length], fun i hi => by
      rw [h1.get i (by omega), lget_lset_ne (by omega)]⟩ ?_
    intro i hi
    cases i with
    | zero => rw [Nat.add_zero, h1.get l (by omega), lget_lset_same (by omega)]; rfl
    | succ i =>
      have := h2 i (by simpa using hi)
      rw [show l + (i + 1) = l + 1 + i by omega, this]
      rfl

theorem tupleSize_cons (t : Ty) (ts : List Ty) : tupleSize (t :: ts) = t.size + tupleSize ts := by
  simp [tupleSize]

theorem OpdsRep.lts {Fz : Nat → Prop} {ρ : List Nat} (hσ : Heap σ) (hF : ∀ x, Fz x → x < σ.nextFree) :
    ∀ {os : List Opd} {ws : List Nat} {m : Nat → Nat}, OpdsRep σ Fz ρ os ws m →
      List.Forall₂ (fun (t : Ty) w => w < 256 ^ t.size) (os.map (·.ty)) ws
  | [], [], _, _ => .nil
  | _ :: _, _ :: _, _, h => by
    obtain ⟨m1, m2, h1, h2, _⟩ := h
    exact .cons (h1.lt hσ hF) (h2.lts hσ hF)

/-- Writes after a slot keep it. -/
theorem wp_storeRets {σ0 : Store} {res p : Nat} (hres : lget loc res = p) (hp : σ0.nextFree ≤ p) :
    ∀ (ts : List Ty) (ws : List Nat) (off : Nat) (σ : Store), Extends σ0 σ →
      List.Forall₂ (fun (t : Ty) w => w < 256 ^ t.size) ts ws →
      (∀ i (h : i < ws.length), lget loc (l + (ws.length - 1 - i)) = ws[i]) →
      p + off + tupleSize ts ≤ σ.nextFree →
      (∀ m, (∀ x, x < p + off → m x = σ.mem x) → Extends σ0 (σ.setMem m) →
        TupleAt (σ.setMem m) ts ws (p + off) → wp is s loc (σ.setMem m) Q) →
      wp (storeRets res l ts off ++ is) s loc σ Q
  | [], [], off, σ, hx, hf, hl, hs, hk => by
    have := hk σ.mem (fun _ _ => rfl) (by rw [setMem_self]; exact hx) trivial
    rwa [setMem_self] at this
  | [], _ :: _, off, σ, hx, hf, hl, hs, hk => by cases hf
  | t :: ts, [], off, σ, hx, hf, hl, hs, hk => by cases hf
  | t :: ts, w :: ws, off, σ, hx, hf, hl, hs, hk => by
    obtain ⟨hw, hf'⟩ := List.forall₂_cons.mp hf
    have hlen : ts.length = ws.length := hf'.length_eq
    simp only [tupleSize_cons] at hs
    have hle := hx.alloc.nextFree_le
    have h00 : lget loc (l + ws.length) = w := hl 0 (by simp)
    simp only [storeRets, List.append_assoc, List.cons_append, List.nil_append, wp_lget, hres, hlen, h00]
    rw [wp_store (by omega)]
    have hx1 := hx.putLe (p := p + off) (n := t.size) (v := w) (by omega) (by omega)
    refine wp_storeRets hres hp ts ws (off + t.size) _ hx1 hf' ?_ (by simp only [setMem_nextFree]; omega) ?_
    · intro i hi
      have := hl (i + 1) (by simpa using hi)
      simp only [List.length_cons] at this
      rw [show ws.length - 1 - i = ws.length + 1 - 1 - (i + 1) by omega, this]
      rfl
    · intro m hm hxm ht
      simp only [setMem_setMem, setMem_mem] at hm hxm ht ⊢
      refine hk m ?_ hxm ⟨⟨?_, ?_⟩, ?_⟩
      · intro x hx'
        rw [hm x (by omega), putLe_out (by omega)]
      · simp only [setMem_nextFree]; omega
      · rw [setMem_mem, leNat_congr (g := putLe σ.mem (p + off) t.size w) fun x h1 h2 => hm x (by omega),
          leNat_putLe_same, Nat.mod_eq_of_lt hw]
      · rw [Nat.add_assoc]; exact ht

/-- The results are popped into locals and stored in a new tuple. -/
theorem wp_retCode {ts : List Ty} {ws : List Nat} {res d : Nat} (hσ : Heap σ)
    (hr : Room σ (tupleSize ts)) (hf : List.Forall₂ (fun (t : Ty) w => w < 256 ^ t.size) ts ws.reverse) (hres : res < l)
    (hl : l + ws.length ≤ loc.length)
    (hk : ∀ loc' σ', Extends σ σ' → σ'.nextFree ≤ σ.nextFree + tupleSize ts →
      (ts = [] ∨ TupleAt σ' ts ws.reverse (lget loc' res)) → Q (.br d [] loc' σ')) :
    wp (retCode ts res d l ++ is) ws loc σ Q := by
  unfold retCode
  by_cases hv : ts = []
  · subst hv
    have : ws.reverse = [] := List.length_eq_zero_iff.mp hf.length_eq.symm
    obtain rfl : ws = [] := by simpa using this
    simp only [↓reduceIte, List.nil_append, List.cons_append, wp_br]
    exact hk loc σ hσ.refl (by omega) (.inl rfl)
  · have hlen : ws.length = ts.length := by rw [hf.length_eq, List.length_reverse]
    rw [if_neg hv]
    simp only [List.append_assoc, ← hlen]
    have := wp_popCode (is := code[Op.c32 (tupleSize ts), alloc.call, Op.lset res] ++
      (storeRets res l ts 0 ++ (code[.br d] ++ is))) (s := []) (σ := σ) (Q := Q) ws l loc hl
    rw [List.append_nil] at this
    refine this ?_
    intro loc1 h1 h2
    have hlt := hr.1
    simp only [List.cons_append, List.nil_append]
    rw [wp_c32, Nat.mod_eq_of_lt (by omega)]
    refine wp_allocR hσ hr (Nat.le_refl _) ?_
    intro σ1 ha
    have hn := ha.nextFree
    rw [wp_lset]
    have hl1 := h1.length
    refine wp_storeRets (σ0 := σ) (p := σ.nextFree) (lget_lset_same (by omega)) (Nat.le_refl _) ts ws.reverse 0 σ1 ha.extends hf ?_ (by omega) ?_
    · intro i hi
      rw [List.length_reverse] at hi
      rw [lget_lset_ne (by omega), List.length_reverse, h2 _ (by omega), List.getElem_reverse]
    · intro m _ hxm ht
      rw [wp_br]
      refine hk _ _ hxm (by rw [setMem_nextFree]; omega) (.inr ?_)
      rw [lget_lset_same (by omega)]
      exact ht

/-! ### Calls -/

theorem wp_loadRets {p : Nat} (hσ : Heap σ) (hl : lget loc l = p) :
    ∀ (ts : List Ty) (ws : List Nat) (off : Nat) (s : List Nat), TupleAt σ ts ws (p + off) →
      wp is (ws.reverse ++ s) loc σ Q → wp (loadRets l ts off ++ is) s loc σ Q
  | [], [], off, s, _, hk => hk
  | [], _ :: _, off, s, h, hk => h.elim
  | _ :: _, [], off, s, h, hk => h.elim
  | t :: ts, w :: ws, off, s, ht, hk => by
    have hle := hσ.alloc.nextFree_le
    obtain ⟨⟨h1, h2⟩, h3⟩ := ht
    simp only [loadRets, List.append_assoc, List.cons_append, List.nil_append, wp_lget, hl]
    rw [wp_load (by omega), h2]
    rw [Nat.add_assoc] at h3
    refine wp_loadRets hσ hl ts ws _ _ h3 ?_
    simpa using hk

theorem alters_errWord {R : Nat → Prop} {p : Nat} (h : Alters R (errStore σ p) σ') (hσ : Heap σ) (hp : p < 2 ^ 32)
    (hR : ∀ x, R x → reserved ≤ x) : errWord σ' = p := by
  have hb := hσ.base
  unfold reserved at hb hR
  unfold errWord
  rw [h.leNat (by show abortPtr + 4 ≤ σ.nextFree; unfold abortPtr; omega) fun x h1 h2 hr => by
    have := hR x hr; unfold abortPtr at h2; omega]
  unfold errStore
  rw [setMem_mem, leNat_putLe_same, Nat.mod_eq_of_lt (show p < 256 ^ 4 by omega)]

theorem Failed.err {consts : List Const} {R : Nat → Prop} {h : Halt} (hE : E.Valid) (hσ : Heap σ)
    (hR : ∀ x, R x → reserved ≤ x) (hf : Failed E consts R σ h σ') : 260 ≤ σ'.size ∧ errWord σ' ≠ 0 := by
  have key : ∀ p, 0 < p → p < 2 ^ 32 → Alters R (errStore σ p) σ' → 260 ≤ σ'.size ∧ errWord σ' ≠ 0 := by
    intro p h0 h1 hx
    have := hx.alloc.first
    exact ⟨by omega, by rw [alters_errWord hx hσ h1 hR]; omega⟩
  cases h with
  | ret vs => exact hf.elim
  | divZero => exact hf.elim
  | abort c => obtain ⟨p, _, h0, h1, hx, -⟩ := hf; exact key p h0 h1 hx
  | arith f => obtain ⟨e, -, hx⟩ := hf; exact key _ (hE e).1 (hE e).2 hx

/-- What happens after a call. -/
def CallK (E : ErrPtrs) (consts : List Const) (is : List Instr) (s loc : List Nat) (l : Nat)
    (σ : Store) (room : Nat) (ρ : List Nat) (own fr : Nat → Nat) (Q : Res → Prop) : Halt → Prop
  | .ret vs M => ∀ ws loc' σ' ρ' m, ρ <+: ρ' → World σ' ρ' M (Own ρ' M m fr) → Grows fr σ own σ' (Own ρ' M m fr) →
      σ'.nextFree ≤ σ.nextFree + room → OpdsRep σ' (Frozen σ' (Own ρ' M m fr)) ρ' vs ws m →
      SameLocs l loc loc' → wp is (ws.reverse ++ s) loc' σ' Q
  | .divZero => Q .trap
  | h => ∀ stk σ', Failed E consts (fun x => own x ≠ 0 ∧ fr x = 0) σ h σ' → Q (.ret stk σ')

theorem wp_callCode {consts : List Const} {f : Fn} {rets : List Ty} {ws : List Nat} {room : Nat} {ρ : List Nat}
    {own fr : Nat → Nat} {h : Halt}
    (hE : E.Valid) (hσ : Heap σ) (ho : ∀ x, own x ≠ 0 → reserved ≤ x) (hl : l < loc.length)
    (he : Ends E consts f ws σ room ρ own fr h)
    (hr : ∀ vs M, h = .ret vs M → vs.map (·.ty) = rets)
    (hk : CallK E consts is s loc l σ room ρ own fr Q h) :
    wp (callCode ty f rets l ++ is) (ws.reverse ++ s) loc σ Q := by
  unfold callCode
  simp only [List.append_assoc, List.cons_append, List.nil_append]
  have fail : ∀ h', h' = h → f.Calls ws σ (fun _ σ' => Failed E consts (fun x => own x ≠ 0 ∧ fr x = 0) σ h' σ') →
      (∀ stk σ', Failed E consts (fun x => own x ≠ 0 ∧ fr x = 0) σ h σ' → Q (.ret stk σ')) →
      wp (f.call :: propagate ty :: ((if rets = [] then [] else (Op.lset l : Instr) :: loadRets l rets 0) ++ is))
        (ws.reverse ++ s) loc σ Q := by
    rintro h' rfl hc hk
    refine wp_call hc ?_
    intro r σ' hf
    obtain ⟨h1, h2⟩ := hf.err hE hσ (fun x hx => ho x hx.1)
    rw [wp_propagate h1, IfP.neg h2]
    exact hk _ _ hf
  cases h with
  | ret vs M =>
    refine wp_call he ?_
    rintro r σ' ⟨ρ', m, hp, hW, hG, hn, hres⟩
    have h' := hW.heap
    have hs := h'.ready.size
    rw [wp_propagate (by omega), IfP.pos h'.ready.noErr]
    have hty := hr vs M rfl
    rcases hres with ⟨rfl, rfl, hm⟩ | ⟨hne, p, ws', rfl, ht, hrep⟩
    · obtain rfl : rets = [] := by rw [← hty]; rfl
      rw [if_pos rfl]
      exact hk [] loc σ' ρ' m hp hW hG hn hm .refl
    · have hre : rets ≠ [] := by rw [← hty]; simpa using hne
      rw [if_neg hre]
      simp only [List.cons_append, List.nil_append, wp_lset]
      rw [← hty]
      refine wp_loadRets (p := p) h' (lget_lset_same hl) _ ws' 0 s ht ?_
      exact hk ws' _ σ' ρ' m hp hW hG hn hrep (SameLocs.refl.lset (Nat.le_refl l))
  | divZero => exact wp_call_trap he hk
  | abort c => exact fail _ rfl he hk
  | arith g => exact fail _ rfl he hk

/-! ### Arguments -/

theorem Data.not_ref (d : Data) : d.ty.isRef = false := by cases d <;> rfl

theorem ArgsRep.ext {Fz : Nat → Prop} {ρ : List Nat} {os : List Opd} {ws : List Nat} {m m' : Nat → Nat}
    (h : ArgsRep σ Fz ρ os ws m) (hm : ∀ x, m x = m' x) : ArgsRep σ Fz ρ os ws m' := (funext hm : m = m') ▸ h

theorem ArgsRep.append {Fz : Nat → Prop} {ρ : List Nat} {os' : List Opd} {ws' : List Nat} {m' : Nat → Nat}
    (h' : ArgsRep σ Fz ρ os' ws' m') : ∀ {os : List Opd} {ws : List Nat} {m : Nat → Nat},
    ArgsRep σ Fz ρ os ws m → ArgsRep σ Fz ρ (os ++ os') (ws ++ ws') (fun x => m x + m' x)
  | [], [], m, h => h'.ext fun x => by rw [h x]; omega
  | _ :: _, _ :: _, m, h => by
    obtain ⟨m1, m2, h1, h2, h3⟩ := h
    exact ⟨m1, _, h1, h'.append h2, fun x => by have := h3 x; show m x + m' x = _; omega⟩

theorem ArgsRep.reverse {Fz : Nat → Prop} {ρ : List Nat} : ∀ {os : List Opd} {ws : List Nat} {m : Nat → Nat},
    ArgsRep σ Fz ρ os ws m → ArgsRep σ Fz ρ os.reverse ws.reverse m
  | [], [], _, h => h
  | o :: os, w :: ws, m, h => by
    obtain ⟨m1, m2, h1, h2, h3⟩ := h
    rw [List.reverse_cons, List.reverse_cons]
    refine (ArgsRep.append (os' := [o]) (ws' := [w]) (m' := m1) ⟨m1, fun _ => 0, h1, fun _ => rfl, fun _ => rfl⟩
      h2.reverse).ext fun x => by rw [h3]; omega

/-- Without references nothing has to be done. -/
theorem OpdsRep.args {Fz : Nat → Prop} {ρ : List Nat} : ∀ {os : List Opd} {ws : List Nat} {m : Nat → Nat},
    OpdsRep σ Fz ρ os ws m → (os.map (·.ty)).any Ty.isRef = false → ArgsRep σ Fz ρ os ws m
  | [], [], _, h, _ => h
  | o :: os, w :: ws, m, h, hr => by
    obtain ⟨m1, m2, h1, h2, h3⟩ := h
    simp only [List.map_cons, List.any_cons, Bool.or_eq_false_iff] at hr
    refine ⟨m1, m2, ?_, h2.args hr.2, h3⟩
    cases o with
    | data d => exact h1
    | ref r => cases hr.1

theorem wp_spill {Fz : Nat → Prop} {ρ : List Nat} (hσ : Heap σ) (hF : ∀ x, Fz x → x < σ.nextFree) :
    ∀ (os : List Opd) (ws : List Nat) (m : Nat → Nat) (l : Nat) (loc : List Nat), OpdsRep σ Fz ρ os ws m →
      l + ws.length ≤ loc.length →
      (∀ ws' loc', ArgsRep σ Fz ρ os ws' m → SameLocs l loc loc' →
        (∀ i (h : i < ws'.length), lget loc' (l + i) = ws'[i]) → wp is s loc' σ Q) →
      wp (spillArgs (os.map (·.ty)) l ++ is) (ws ++ s) loc σ Q
  | [], [], m, l, loc, h, hl, hk => hk [] loc h .refl (fun i h => absurd h (by simp))
  | [], _ :: _, m, l, loc, h, hl, hk => h.elim
  | _ :: _, [], m, l, loc, h, hl, hk => h.elim
  | o :: os, w :: ws, m, l, loc, h, hl, hk => by
    obtain ⟨m1, m2, h1, h2, h3⟩ := h
    have hle := hσ.alloc.nextFree_le
    simp only [List.length_cons] at hl
    have main : ∀ w', ArgRep σ Fz ρ o w' m1 → wp (spillArgs (os.map (·.ty)) (l + 1) ++ is) (ws ++ s) (lset loc l w') σ Q := by
      intro w' hw'
      refine wp_spill hσ hF os ws m2 (l + 1) _ h2 (by rw [lset_length]; omega) ?_
      intro ws' loc' g1 g2 g3
      refine hk (w' :: ws') loc' ⟨m1, m2, hw', g1, h3⟩ ⟨by rw [g2.length, lset_length], fun i hi => by
        rw [g2.get i (by omega), lget_lset_ne (by omega)]⟩ ?_
      intro i hi
      cases i with
      | zero => rw [Nat.add_zero, g2.get l (by omega), lget_lset_same (by omega)]; rfl
      | succ i =>
        have := g3 i (by simpa using hi)
        rw [show l + (i + 1) = l + 1 + i by omega, this]
        rfl
    simp only [List.map_cons, spillArgs, List.append_assoc, List.cons_append, List.nil_append]
    cases o with
    | data d =>
      rw [if_neg (by show ¬ d.ty.isRef = true; rw [d.not_ref]; simp)]
      simp only [List.nil_append, wp_lset]
      exact main w h1
    | ref r =>
      rw [if_pos (show (Opd.ref r).ty.isRef = true from rfl)]
      have hb := hF _ (h1.1.1 (w + 3) (by omega) (by omega))
      simp only [List.cons_append, List.nil_append]
      rw [wp_load (by omega), wp_lset, Nat.add_zero]
      exact main _ ⟨⟨leNat_lt _ _ _, h1.1.2⟩, h1.2⟩

theorem wp_unspill {ws : List Nat} (hw : ∀ i (h : i < ws.length), lget loc (l + i) = ws[i]) :
    ∀ (n : Nat) (s : List Nat), n ≤ ws.length → wp is (ws.take n ++ s) loc σ Q → wp (unspill n l ++ is) s loc σ Q
  | 0, s, _, h => h
  | n + 1, s, hn, h => by
    simp only [unspill, List.cons_append, wp_lget, hw n (by omega)]
    refine wp_unspill hw n _ (by omega) ?_
    rwa [List.take_succ_eq_append_getElem (by omega), List.append_assoc] at h

/-- The arguments are prepared for the call. -/
theorem wp_prepArgs {Fz : Nat → Prop} {ρ : List Nat} {args : List Opd} {ws : List Nat} {m : Nat → Nat} (hσ : Heap σ)
    (hF : ∀ x, Fz x → x < σ.nextFree) (h : OpdsRep σ Fz ρ args.reverse ws m)
    (hl : l + (prepArgs (args.map (·.ty)) l).2 ≤ loc.length)
    (hk : ∀ ws' loc', ArgsRep σ Fz ρ args ws' m → SameLocs l loc loc' → wp is (ws'.reverse ++ s) loc' σ Q) :
    wp ((prepArgs (args.map (·.ty)) l).1 ++ is) (ws ++ s) loc σ Q := by
  have hlen := h.length
  rw [List.length_reverse] at hlen
  by_cases hr : (args.map (·.ty)).any Ty.isRef = true
  · have e : prepArgs (args.map (·.ty)) l = (spillArgs (args.map (·.ty)).reverse l ++ unspill (args.map (·.ty)).length l,
      (args.map (·.ty)).length) := by unfold prepArgs; rw [if_pos hr]
    rw [e] at hl ⊢
    simp only [List.append_assoc, List.length_map, ← List.map_reverse] at hl ⊢
    refine wp_spill hσ hF _ ws m l loc h (by omega) ?_
    intro ws' loc' g1 g2 g3
    have hlen' := g1.length
    rw [List.length_reverse] at hlen'
    refine wp_unspill g3 _ s (by omega) ?_
    rw [List.take_of_length_le (by omega)]
    have := hk ws'.reverse loc' (by simpa using g1.reverse) g2
    simpa using this
  · have e : prepArgs (args.map (·.ty)) l = ([], 0) := by unfold prepArgs; rw [if_neg hr]
    rw [e]
    have := hk ws.reverse loc (OpdsRep.args (by simpa using h.reverse) (by simpa using hr)) .refl
    simpa using this

/-! ### Aborts -/

theorem failed_of_blob {consts : List Const} {R : Nat → Prop} {c p : Nat} {text : List UInt8} (hσ : Heap σ)
    (hp : σ.nextFree ≤ p) (hq : p + 72 + padded text.length ≤ σ'.nextFree) (hb : ErrBlob σ'.mem p text)
    (hx : Extends (errStore σ p) σ') (ht : AbortText consts c text) :
    Failed E consts R σ (.abort c) σ' := by
  have hlt := hx.alloc.size_lt
  have hnf := hx.alloc.nextFree_le
  have hbase := hσ.base
  unfold reserved at hbase
  have hlen := errorString_length text
  obtain ⟨h1, h2⟩ := hb.isRevert
  refine ⟨p, text, by omega, by omega, hx.alters, ht, by omega, h1, ?_⟩
  intro i hi
  have := rdBytes_getElem (f := σ'.mem) (a := p + 4) (n := (Abi.errorString text).length) (i := i)
    (by rw [rdBytes_length]; exact hi)
  rw [← this]
  congr 1

set_option maxHeartbeats 2000000 in
theorem wp_abortMessage {n : Nat} (hn : n < 2 ^ 64) (hσ : Heap σ) (hr : Room σ 200)
    (hl : l + 5 ≤ loc.length)
    (hk : ∀ stk σ' p L, DecLen n L → σ.nextFree ≤ p → p + 72 + padded L ≤ σ'.nextFree →
      ErrBlob σ'.mem p (decText n L) → Extends (errStore σ p) σ' → Q (.ret stk σ')) :
    wp (abortMessage l ++ abortEnd (l + 2) ++ is) (n :: s) loc σ Q := by
  unfold abortMessage abortEnd
  simp only [List.append_assoc, List.cons_append, List.nil_append]
  refine wp_call1 (ascii_spec hn hσ (hr.mono (by omega))) ?_
  rintro r σ1 ⟨rfl, hx1, L, hL, hnf1, hlen, hdig⟩
  obtain ⟨hL0, hL20⟩ := hL.le hn
  have h1 := hx1.heap hσ
  have hpL : padded L = 32 := by unfold padded; omega
  have hle := h1.alloc.nextFree_le
  have hlt := h1.alloc.size_lt
  wstep
  rw [leNat_one, hlen]
  have hr1 : Room σ1 (72 + padded L) := by
    refine (Room.after (k := 21) (n := 179) hr ?_ hx1.maxPages).mono ?_ <;> omega
  refine wp_abiErrorStructure h1 (by omega) hr1 (by rw [lget_lset_ne (by omega), lget_lset_same (by simp only [lset_length]; omega)])
    (by simp only [lset_length]; omega) (by simp only [lset_length]; omega) (by simp only [lset_length]; omega)
    (by omega) (by omega) (by omega) (by omega) (by omega) (by omega) ?_
  intro σ2 hx2 hnf2 hhead hz
  have h2 := hx2.heap h1
  have hle2 := h2.alloc.nextFree_le
  have hlt2 := h2.alloc.size_lt
  have hb := hσ.base
  unfold reserved at hb
  simp only [abortPtr]
  wstep
  refine hk _ _ σ1.nextFree L hL (by omega) (by simp only [setMem_nextFree]; omega) ?_ ?_
  · have hlenT : (decText n L).length = L := by simp [decText]
    have hout : ∀ x, σ1.nextFree ≤ x → putLe (copyBytes σ2.mem (σ1.nextFree + 72) (σ.nextFree + 1) L)
        256 4 σ1.nextFree x = copyBytes σ2.mem (σ1.nextFree + 72) (σ.nextFree + 1) L x :=
      fun x hx => putLe_out (by omega)
    simp only [setMem_mem]
    constructor
    · rw [hlenT]
      refine hhead.congr fun x h1 h2 => ?_
      rw [hout x h1, copyBytes_out (by omega)]
    · intro i hi
      rw [hlenT] at hi
      rw [hout _ (by omega), copyBytes_in (by omega) (by omega), Nat.add_sub_cancel_left,
        hx2.mem _ (by omega)]
      apply UInt8.toNat_inj.mp
      rw [hdig i hi]
      simp only [decText, List.getElem_map, List.getElem_range]
      have := decDigit_lt (n := n) (L := L) (i := i)
      rw [UInt8.toNat_ofNat', Nat.mod_eq_of_lt (by omega)]
    · intro i h1 h2
      rw [hlenT] at h1
      rw [hout _ (by omega), copyBytes_out (by omega)]
      exact hz _ (by omega)
  · have hxx := (hx1.trans hx2).write (m := copyBytes σ2.mem (σ1.nextFree + 72) (σ.nextFree + 1) L)
      (fun x hx => copyBytes_out (by omega)) (fun x hx => copyBytes_out (by omega))
    exact hxx.err hσ

set_option maxHeartbeats 2000000 in
theorem wp_abortConst {n : Nat} {msg : List UInt8} (hn : n < 2 ^ 64) (hm : msg.length < 256) (hσ : Heap σ)
    (hr : Room σ 400) (hl : l + 4 ≤ loc.length)
    (hk : ∀ stk σ' p, σ.nextFree ≤ p → p + 72 + padded msg.length ≤ σ'.nextFree →
      ErrBlob σ'.mem p msg → Extends (errStore σ p) σ' → Q (.ret stk σ')) :
    wp (code[Op.c64 n, Op.bin .w64 .eq, .ite 0 code[] code[Op.unreachable]] ++
      abortMessageConst msg l ++ abortEnd (l + 1) ++ is) (n :: s) loc σ Q := by
  have hn' : n < 18446744073709551616 := hn
  unfold abortMessageConst abortEnd
  simp only [List.append_assoc, List.cons_append, List.nil_append]
  wstep
  have hp : padded msg.length ≤ msg.length + 31 := by unfold padded; omega
  have hup : up8 msg.length ≤ padded msg.length := by unfold padded up8; omega
  have hup' : msg.length ≤ up8 msg.length := by unfold up8; omega
  refine wp_abiErrorStructure (n := msg.length) hσ (by omega) (hr.mono (by omega)) (lget_lset_same (by omega))
    (by simp only [lset_length]; omega) (by simp only [lset_length]; omega) (by simp only [lset_length]; omega)
    (by omega) (by omega) (by omega) (by omega) (by omega) (by omega) ?_
  intro σ2 hx2 hnf2 hhead hz
  have h2 := hx2.heap hσ
  have hle2 := h2.alloc.nextFree_le
  have hlt2 := h2.alloc.size_lt
  have hb := hσ.base
  unfold reserved at hb
  simp only [abortPtr]
  refine wp_writeChunks (p := σ.nextFree) (lget_lset_same (by simp only [lset_length]; omega)) _ _ _ hlt2 (by omega) ?_
  wstep
  have hin : ∀ x, σ.nextFree ≤ x → putLe (chunkMem σ2.mem (σ.nextFree + 72) msg)
      256 4 σ.nextFree x = chunkMem σ2.mem (σ.nextFree + 72) msg x :=
    fun x hx => putLe_out (by omega)
  have hout : ∀ x, x < σ.nextFree + 72 ∨ σ.nextFree + 72 + up8 msg.length ≤ x →
      chunkMem σ2.mem (σ.nextFree + 72) msg x = σ2.mem x := by
    intro x hx; unfold chunkMem; rw [if_neg]; omega
  refine hk _ _ σ.nextFree (Nat.le_refl _) (by simp only [setMem_nextFree]; omega) ⟨?_, ?_, ?_⟩ ?_
  · refine hhead.congr fun x h1 h2 => ?_
    rw [setMem_mem, hin x h1, hout x (by omega)]
  · intro i hi
    rw [setMem_mem, hin _ (by omega)]
    unfold chunkMem
    rw [if_pos (by omega), Nat.add_sub_cancel_left, List.getD_eq_getElem?_getD,
      List.getElem?_eq_getElem hi]
    rfl
  · intro i h1 h2
    rw [setMem_mem, hin _ (by omega)]
    unfold chunkMem
    split
    · rw [Nat.add_sub_cancel_left, List.getD_eq_getElem?_getD, List.getElem?_eq_none h1]; rfl
    · exact hz _ (by omega)
  · have hxx := hx2.write (m := chunkMem σ2.mem (σ.nextFree + 72) msg)
      (fun x hx => hout x (by omega)) (fun x hx => hout x (by omega))
    exact hxx.err hσ

theorem cleverMsg_some {data msg : List UInt8} (h : cleverMsg data = some msg) :
    data = UInt8.ofNat msg.length :: msg ∧ msg.length < 256 := by
  unfold cleverMsg at h
  split at h
  · cases h
  · rename_i b bs
    split_ifs at h with hl
    cases h
    have := b.toNat_lt
    refine ⟨?_, by omega⟩
    rw [hl, UInt8.ofNat_toNat]

/-- `abort`. -/
theorem wp_abort {consts : List Const} {R : Nat → Prop} {clever : Option Nat} {n k : Nat} {is0 : List Instr} (hn : n < 2 ^ 64)
    (hσ : Heap σ) (hr : Room σ 400) (hc : abortCode consts clever l = some (is0, k))
    (hl : l + k ≤ loc.length) (hcl : ∀ e, clever = some e → n = e ∧ e / 2 ^ 48 = 0x8000)
    (hk : ∀ stk σ', Failed E consts R σ (.abort n) σ' → Q (.ret stk σ')) :
    wp (is0 ++ is) (n :: s) loc σ Q := by
  unfold abortCode at hc
  cases clever with
  | none =>
    cases hc
    refine wp_abortMessage hn hσ (hr.mono (by omega)) hl ?_
    intro stk σ' p L hL hp hq hb hx
    rw [decText_eq hL] at hb
    have hlen : (Abi.text (toString n)).length = L := by rw [← decText_eq hL]; simp [decText]
    exact hk _ _ (failed_of_blob hσ hp (by rw [hlen]; exact hq) hb hx (.inl rfl))
  | some e =>
    obtain ⟨rfl, ht⟩ := hcl e rfl
    simp only at hc
    split at hc
    · rename_i msg hmsg
      cases hc
      obtain ⟨c, hc1, hc2⟩ := Option.bind_eq_some_iff.mp hmsg
      obtain ⟨h1, h2⟩ := cleverMsg_some hc2
      refine wp_abortConst hn h2 hσ hr hl ?_
      intro stk σ' p hp hq hb hx
      exact hk _ _ (failed_of_blob hσ hp hq hb hx (.inr ⟨ht, c, hc1, h1, h2⟩))
    · cases hc

end Move
