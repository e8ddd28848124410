import Verif.Proof.Unpack5
import Verif.Proof.Pack4

/-! The canonical encoding of arguments is decoded to the arguments. -/

namespace Rt
open Wasm Abi

variable {σ σ' σ'' : Store} {E : ErrPtrs}

/-- Memory contains `bs` at `p`, below `lim`. -/
def Holds (f : Bytes) (lim p : Nat) (bs : List UInt8) : Prop :=
  p + bs.length ≤ lim ∧ rdBytes f p bs.length = bs

theorem Holds.append {f : Bytes} {lim p : Nat} {xs ys : List UInt8} (h : Holds f lim p (xs ++ ys)) :
    Holds f lim p xs ∧ Holds f lim (p + xs.length) ys := by
  obtain ⟨h1, h2⟩ := h
  rw [List.length_append] at h1 h2
  rw [rdBytes_append] at h2
  obtain ⟨h3, h4⟩ := List.append_inj h2 (by rw [rdBytes_length])
  exact ⟨⟨by omega, h3⟩, ⟨by omega, h4⟩⟩

theorem Holds.beNat {f : Bytes} {lim p n : Nat} (h : Holds f lim p (word n)) (hn : n < 2 ^ 256) :
    p + 32 ≤ lim ∧ Wasm.beNat f p 32 = n := by
  obtain ⟨h1, h2⟩ := h
  rw [word_length] at h1 h2
  refine ⟨h1, ?_⟩
  rw [beNat_congr (g := wrBytes f p (word n)), wr_word, beNat_putBe_same]
  · exact Nat.mod_eq_of_lt hn
  · intro x hx1 hx2
    have e : x = p + (x - p) := by omega
    have hl : x - p < (word n).length := by rw [word_length]; omega
    have h3 : (rdBytes f p 32)[x - p]'(by rw [rdBytes_length]; omega) = (word n)[x - p] := by
      simp only [h2]
    rw [rdBytes_getElem] at h3
    rw [e, wrBytes_in hl, ← h3]

/-- Where the encoding of a component is: at its head, or where the offset in the head says. -/
def Located (f : Bytes) (lim : Nat) (v : Val) (b p : Nat) : Prop :=
  if dyn v then ∃ q, Points f lim b p q ∧ Holds f lim q (enc v) else Holds f lim p (enc v)

/-- Heads and tails of a tuple locate its components. -/
theorem located_cons {f : Bytes} {lim b p off : Nat} {v : Val} {vs : List Val} (hlim : lim < 2 ^ 256)
    (hh : Holds f lim p (heads off (v :: vs))) (ht : anyDyn (v :: vs) = true → Holds f lim (b + off) (tails (v :: vs))) :
    Located f lim v b p ∧ ∃ off', Holds f lim (p + (if dyn v then 32 else (enc v).length)) (heads off' vs) ∧
      (anyDyn vs = true → Holds f lim (b + off') (tails vs)) := by
  rw [heads] at hh
  rw [tails, anyDyn] at ht
  unfold Located
  cases hd : dyn v
  · rw [hd] at hh ht
    simp only [Bool.false_eq_true, if_false, Bool.false_or] at hh ht ⊢
    exact ⟨hh.append.1, off, hh.append.2, ht⟩
  · rw [hd] at hh ht
    simp only [if_true, Bool.true_or, forall_const] at hh ht ⊢
    have h1 := hh.append
    have h2 := ht.append
    have h3 := h2.1.1
    rw [word_length] at h1
    obtain ⟨h4, h5⟩ := h1.1.beNat (by omega)
    exact ⟨⟨_, ⟨h4, by rw [h5]⟩, h2.1⟩, _, h1.2, fun _ => by rw [← Nat.add_assoc]; exact h2.2⟩

theorem located_get {f : Bytes} {lim b : Nat} (hlim : lim < 2 ^ 256) {t : MTy} :
    ∀ {vs : List Val} {p off : Nat}, (∀ v ∈ vs, HasTy t v) → Holds f lim p (heads off vs) →
    (anyDyn vs = true → Holds f lim (b + off) (tails vs)) → ∀ i (h : i < vs.length), Located f lim vs[i] b (p + i * t.headSize) := by
  intro vs
  induction vs with
  | nil => intro p off _ _ _ i h; exact absurd h (by simp)
  | cons v vs ih =>
    intro p off hty hh ht i h
    obtain ⟨h1, off', h2, h3⟩ := located_cons hlim hh ht
    cases i with
    | zero => simpa using h1
    | succ i =>
      obtain ⟨e1, e2⟩ := HasTy.shape t (hty v (by simp))
      have e : (if dyn v = true then 32 else (enc v).length) = t.headSize := by
        unfold MTy.headSize
        rw [e1]
        cases hd : t.dyn
        · rw [← e2 hd]
        · rfl
      rw [e] at h2
      have := ih (fun v hv => hty v (by simp [hv])) h2 h3 i (by simpa using h)
      rw [List.getElem_cons_succ, show p + (i + 1) * t.headSize = p + t.headSize + i * t.headSize by
        rw [Nat.add_mul, Nat.one_mul]; omega]
      exact this

theorem headLen_heads (off : Nat) (vs : List Val) : (heads off vs).length = headLen vs := heads_length ..

mutual
theorem located_dec {f : Bytes} {lim : Nat} (hlim : lim < 2 ^ 256) (t : MTy) {v : Val} {b p : Nat}
    (hty : HasTy t v) (hl : Located f lim v b p) (hn : need t v < 2 ^ 256) : Dec f lim t v b p := by
  match t, v, hty with
  | .bool, .word n, hty =>
    rw [HasTy] at hty; rw [Dec]; have := Holds.beNat (by simpa [Located, dyn, enc] using hl) (n := n) (by omega)
    exact ⟨this.1, this.2, hty⟩
  | .u8, .word n, hty =>
    rw [HasTy] at hty; rw [Dec]; have := Holds.beNat (by simpa [Located, dyn, enc] using hl) (n := n) (by omega)
    exact ⟨this.1, this.2, hty⟩
  | .u16, .word n, hty =>
    rw [HasTy] at hty; rw [Dec]; have := Holds.beNat (by simpa [Located, dyn, enc] using hl) (n := n) (by omega)
    exact ⟨this.1, this.2, hty⟩
  | .u32, .word n, hty =>
    rw [HasTy] at hty; rw [Dec]; have := Holds.beNat (by simpa [Located, dyn, enc] using hl) (n := n) (by omega)
    exact ⟨this.1, this.2, hty⟩
  | .u64, .word n, hty =>
    rw [HasTy] at hty; rw [Dec]; have := Holds.beNat (by simpa [Located, dyn, enc] using hl) (n := n) (by omega)
    exact ⟨this.1, this.2, hty⟩
  | .u128, .word n, hty =>
    rw [HasTy] at hty; rw [Dec]; have := Holds.beNat (by simpa [Located, dyn, enc] using hl) (n := n) (by omega)
    exact ⟨this.1, this.2, hty⟩
  | .u256, .word n, hty =>
    rw [HasTy] at hty; rw [Dec]; have := Holds.beNat (by simpa [Located, dyn, enc] using hl) (n := n) (by omega)
    exact this
  | .address, .word n, hty =>
    rw [HasTy] at hty; rw [Dec]; have := Holds.beNat (by simpa [Located, dyn, enc] using hl) (n := n) (by omega)
    exact this
  | .enum k, .word n, hty =>
    rw [HasTy] at hty; rw [Dec]; have := Holds.beNat (by simpa [Located, dyn, enc] using hl) (n := n) (by omega)
    exact ⟨this.1, this.2, hty⟩
  | .vec t, .array vs, hty =>
    rw [HasTy] at hty
    rw [Dec]
    simp only [Located, dyn, if_true, enc] at hl
    obtain ⟨q, hq, hh⟩ := hl
    obtain ⟨h1, h2⟩ := hh.append
    rw [need] at hn
    have hlen : vs.length ≤ vs.length * t.size := Nat.le_mul_of_pos_right _ t.size_pos.1
    obtain ⟨h3, h4⟩ := h1.beNat (by omega)
    rw [word_length] at h2
    obtain ⟨h5, h6⟩ := h2.append
    rw [heads_length] at h6
    exact ⟨q, hq, h3, h4, fun i h => located_dec hlim t (hty _ (List.getElem_mem h))
      (located_get hlim hty h5 (fun _ => h6) i h) (by
        have : need t vs[i] ≤ (vs.map (need t)).sum :=
          List.le_sum_of_mem (List.mem_map_of_mem (List.getElem_mem h))
        omega)⟩
  | .struct fs, .tuple vs, hty =>
    obtain ⟨e1, -⟩ := HasTy.shape _ hty
    rw [HasTy] at hty
    rw [Dec]
    rw [need] at hn
    unfold Located at hl
    rw [e1, MTy.dyn] at hl
    split_ifs at hl ⊢ with hd
    · obtain ⟨q, hq, hh⟩ := hl
      rw [enc] at hh
      obtain ⟨h5, h6⟩ := hh.append
      rw [heads_length] at h6
      exact ⟨q, hq, located_decFs hlim fs hty h5 (fun _ => h6) (by omega)⟩
    · rw [enc] at hl
      rw [dyn, MTy.dyn] at e1
      exact located_decFs hlim fs hty hl.append.1 (fun h => absurd (e1.symm.trans h) hd) (by omega)
  | .string, .bytes bs, hty =>
    rw [Dec]
    simp only [Located, dyn, if_true, enc, bytes] at hl
    obtain ⟨q, hq, hh⟩ := hl
    obtain ⟨h1, h2⟩ := hh.append
    rw [word_length] at h2
    unfold pad at h2
    have h5 := h2.append.1
    have h6 := h5.1
    obtain ⟨h3, h4⟩ := h1.beNat (by omega)
    exact ⟨q, hq, h6, h4, h5.2⟩
theorem located_decFs {f : Bytes} {lim : Nat} (hlim : lim < 2 ^ 256) (ts : List MTy) {vs : List Val}
    {b p off : Nat} (hty : HasTys ts vs) (hh : Holds f lim p (heads off vs))
    (ht : anyDyn vs = true → Holds f lim (b + off) (tails vs)) (hn : needFs ts vs < 2 ^ 256) : DecFs f lim ts vs b p := by
  match ts, vs, hty with
  | [], [], _ => rw [DecFs]; have := hh.1; omega
  | t :: ts, v :: vs, hty =>
    rw [HasTys] at hty
    obtain ⟨h1, off', h2, h3⟩ := located_cons hlim hh ht
    rw [DecFs]
    rw [needFs] at hn
    refine ⟨located_dec hlim t hty.1 h1 ?_, ?_⟩
    · split_ifs at hn with hs
      · rw [need_scalar hs]; omega
      · omega
    obtain ⟨e1, e2⟩ := HasTy.shape t hty.1
    have e : (if dyn v = true then 32 else (enc v).length) = t.headSize := by
      unfold MTy.headSize
      rw [e1]
      cases hd : t.dyn
      · rw [← e2 hd]
      · rfl
    rw [e] at h2
    exact located_decFs hlim ts hty.2 h2 h3 (by omega)
end

/-! ### Writing below the free memory -/

theorem Heap.setMem {f : Bytes} (hσ : Heap σ) (h0 : leNat f 256 4 = leNat σ.mem 256 4)
    (h1 : ∀ x, σ.nextFree ≤ x → f x = σ.mem x) : Heap (σ.setMem f) :=
  ⟨⟨hσ.ready.size, hσ.ready.size_lt, by
      show leNat f 256 4 = 0
      rw [h0]; exact hσ.ready.noErr⟩, hσ.alloc.setMem, hσ.base,
    fun x hx => by show f x = 0; rw [h1 x hx]; exact hσ.fresh x hx⟩

theorem Heap.putBe {p n v : Nat} (hσ : Heap σ) (h1 : 260 ≤ p) (h2 : p + n ≤ σ.nextFree) :
    Heap (σ.setMem (putBe σ.mem p n v)) := by
  refine hσ.setMem (leNat_congr fun x _ hx => ?_) fun x hx => ?_
  · rw [putBe_out (by omega)]
  · rw [putBe_out (by omega)]

/-! ### Rejected offsets and lengths -/

/-- An offset of 2^32 or more. -/
theorem findData_err1 {p b x2 x3 : Nat} {rest : List Nat} {is Q} (hE : E.Valid) (hσ : Ready σ)
    (hp : p + 32 ≤ σ.size) (ho : 2 ^ 32 ≤ beNat σ.mem p 32)
    (h : Q (.ret (badStk .i32) (errStore σ (E .memoryAccessOutOfBounds)))) :
    wp (findData E ++ is) [] (p :: b :: x2 :: x3 :: rest) σ Q := by
  unfold findData
  simp only [List.cons_append, List.nil_append]
  wstep
  refine wp_validate hE hσ.size hp hσ.noErr ?_
  rw [IfP.neg (by omega)]
  exact h

/-- A length of 2^32 or more. -/
theorem findData_err2 {p b q x2 x3 : Nat} {rest : List Nat} {is Q} (hE : E.Valid) (hσ : Ready σ)
    (hp : p + 32 ≤ σ.size) (ho : beNat σ.mem p 32 < 2 ^ 32) (hb : (beNat σ.mem p 32 + b) % 4294967296 = q)
    (hq : q + 32 ≤ σ.size) (hl : 2 ^ 32 ≤ beNat σ.mem q 32)
    (h : Q (.ret (badStk .i32) (errStore { σ with reader := p + 32 } (E .memoryAccessOutOfBounds)))) :
    wp (findData E ++ is) [] (p :: b :: x2 :: x3 :: rest) σ Q := by
  have h2 := hσ.size_lt
  have e1 : beNat σ.mem (p + 28) 4 = beNat σ.mem p 32 := beNat_low rfl rfl (by
    have : (256 : Nat) ^ 4 = 2 ^ 32 := rfl
    omega)
  unfold findData
  simp only [List.cons_append, List.nil_append]
  wstep
  refine wp_validate hE hσ.size hp hσ.noErr ?_
  rw [IfP.pos ho]
  wstep
  refine wp_eval1 swap32_spec ?_
  rw [bswap_leNat, e1]
  rw [wp_lget, wp_add, W.mod32, lget_succ, lget_zero, hb]
  wstep
  generalize hσ1 : ({ σ with reader := p + 32 } : Store) = σ1 at h ⊢
  have hm1 : σ1.mem = σ.mem := by rw [← hσ1]
  have hs1 : σ1.size = σ.size := by rw [← hσ1]
  have he1 : errWord σ1 = 0 := by rw [← hσ1]; exact hσ.noErr
  have hz := hσ.size
  refine wp_validate hE (by omega) (by omega) he1 ?_
  rw [IfP.neg (by rw [hm1]; exact Nat.not_lt.mpr hl)]
  exact h

/-- A call that ends with the error set. -/
def Fails (f : Fn) (args : List Nat) (σ : Store) (e : Nat) : Prop :=
  f.Calls args σ (fun r σ' => r.length = f.nr ∧ errWord σ' = e ∧ 260 ≤ σ'.size)

/-- The offset at `p`, or the length it leads to, is 2^32 or more. -/
def BadPtr (σ : Store) (b p : Nat) : Prop := p + 32 ≤ σ.size ∧ (2 ^ 32 ≤ beNat σ.mem p 32 ∨
  (beNat σ.mem p 32 < 2 ^ 32 ∧ (beNat σ.mem p 32 + b) % 4294967296 + 32 ≤ σ.size ∧
    2 ^ 32 ≤ beNat σ.mem ((beNat σ.mem p 32 + b) % 4294967296) 32))

theorem errWord_ptr (hE : E.Valid) (e : RtErr) : errWord (errStore σ (E e)) = E e := by
  rw [errWord_errStore, Nat.mod_eq_of_lt (hE e).2]

theorem findData_bad {p b x2 x3 : Nat} {rest : List Nat} {is} (hE : E.Valid) (hσ : Ready σ)
    (hbad : BadPtr σ b p) :
    wp (findData E ++ is) [] (p :: b :: x2 :: x3 :: rest) σ
      (retK 1 fun r σ' => r.length = 1 ∧ errWord σ' = E .memoryAccessOutOfBounds ∧ 260 ≤ σ'.size) := by
  have hz := hσ.size
  obtain ⟨hp, ho | ⟨ho, hq, hl⟩⟩ := hbad
  · refine findData_err1 hE hσ hp ho ?_
    exact ⟨rfl, errWord_ptr hE _, by show 260 ≤ σ.size; omega⟩
  · refine findData_err2 hE hσ hp ho rfl hq hl ?_
    exact ⟨rfl, errWord_ptr hE _, by show 260 ≤ σ.size; omega⟩

theorem unpackString_bad {p b : Nat} (hE : E.Valid) (hσ : Ready σ) (hbad : BadPtr σ b p) :
    Fails (unpackString E) [p, b] σ (E .memoryAccessOutOfBounds) := by
  refine ⟨rfl, ?_⟩
  unfold unpackString
  simp only [List.append_assoc, List.cons_append, List.nil_append, List.replicate]
  exact findData_bad hE hσ hbad

theorem unpackVec_bad {p b size : Nat} {inner : List Instr} (hE : E.Valid) (hσ : Ready σ)
    (hbad : BadPtr σ b p) : Fails (unpackVec E size inner) [p, b] σ (E .memoryAccessOutOfBounds) := by
  refine ⟨rfl, ?_⟩
  unfold unpackVec
  simp only [List.append_assoc, List.cons_append, List.nil_append, List.replicate]
  exact findData_bad hE hσ hbad

theorem unpackStruct_bad {p b n size : Nat} {fields : List Instr} (hE : E.Valid) (hσ : Ready σ)
    (hp : p + 32 ≤ σ.size) (ho : 2 ^ 32 ≤ beNat σ.mem p 32) :
    Fails (unpackStruct E n size true fields) [p, b] σ (E .memoryAccessOutOfBounds) := by
  have hz := hσ.size
  refine ⟨rfl, ?_⟩
  unfold unpackStruct
  simp only [List.append_assoc, List.cons_append, List.nil_append, List.replicate_succ, if_true,
    show 4 + n = n + 3 + 1 by omega]
  wstep
  refine wp_validate hE hσ.size hp hσ.noErr ?_
  rw [IfP.neg (by omega)]
  exact ⟨rfl, errWord_ptr hE _, by show 260 ≤ σ.size; omega⟩

end Rt
