import Verif.Proof.Unpack6
import Verif.Props.Pack

/-! Properties C22–C25, C52, C53, C55: decoding of arguments. -/

namespace Props
open Wasm Rt

variable {σ : Store} {E : ErrPtrs}

/-! ### C22 -/

/-- bool, u8, u16, u32: encoding `v` at `p` and decoding the word yields `v`; the reader is then
behind the word. -/
theorem C22_u32 {v p : Nat} (hv : v < 2 ^ 32) (hb : Blank σ p) (hs : σ.size < 2 ^ 32) :
    packU32.Calls [v, p] σ (fun _ σ' => unpackU32.Calls [p, 32] σ' (fun r σ'' =>
      r = [v] ∧ σ'' = { σ' with reader := p + 32 })) := by
  have h := hb.inside
  refine (packU32_spec hb.inside).mono ?_
  rintro r σ' ⟨rfl, rfl⟩
  refine (unpackU32_spec (σ := σ.setMem _) (by rw [setMem_size]; exact h)).mono ?_
  rintro r σ'' ⟨rfl, rfl⟩
  rw [setMem_mem, beNat_putBe_same, Nat.mod_eq_of_lt (by simpa using hv), Nat.mod_eq_of_lt (by omega)]
  exact ⟨rfl, rfl⟩

theorem C22_u64 {v p : Nat} (hv : v < 2 ^ 64) (hb : Blank σ p) (hs : σ.size < 2 ^ 32) :
    packU64.Calls [v, p] σ (fun _ σ' => unpackU64.Calls [p] σ' (fun r σ'' =>
      r = [v] ∧ σ'' = { σ' with reader := p + 32 })) := by
  have h := hb.inside
  refine (packU64_spec hv hb.inside).mono ?_
  rintro r σ' ⟨rfl, rfl⟩
  refine (unpackU64_spec (σ := σ.setMem _) (by rw [setMem_size]; exact h) (by exact hs)).mono ?_
  rintro r σ'' ⟨rfl, rfl⟩
  rw [setMem_mem, beNat_putBe_same, Nat.mod_eq_of_lt (by simpa using hv)]
  exact ⟨rfl, rfl⟩

/-- A new number of `n` bytes with value `v` is returned, the reader is at `rd` and memory below the
previously free memory is unchanged. -/
def Decoded (σ : Store) (n v rd : Nat) (r : List Nat) (σ' : Store) : Prop :=
  ∃ q, r = [q] ∧ σ.nextFree ≤ q ∧ q + n ≤ σ'.nextFree ∧ leNat σ'.mem q n = v ∧ σ'.reader = rd ∧
    ∀ x, x < σ.nextFree → σ'.mem x = σ.mem x

theorem C22_u128 {w p : Nat} (hσ : Heap σ) (hw : w + 16 ≤ p) (hp : reserved ≤ p)
    (hfit : p + 32 ≤ σ.nextFree) (hroom : Room σ 16) :
    packU128.Calls [w, p] σ (fun _ σ' => unpackU128.Calls [p] σ'
      (Decoded σ' 16 (leNat σ.mem w 16) (p + 32))) := by
  have hr : reserved = 468 := rfl
  refine (packU128_spec hw (by have := hσ.alloc.nextFree_le; omega)).mono ?_
  rintro r σ' ⟨rfl, rfl⟩
  refine (unpackU128_spec (σ := σ.setMem _) (hσ.putBe (by omega) (by omega)) hfit
    (hroom.canAlloc hσ.alloc (Nat.le_refl _))).mono ?_
  rintro r σ'' ⟨rfl, hg, h1, h2, h3⟩
  refine ⟨_, rfl, Nat.le_refl _, by omega, ?_, h1, hg.mem⟩
  rw [h3, leNat_putLe_same, setMem_mem, beNat_putBe_same, Nat.mod_mod, Nat.mod_eq_of_lt (leNat_lt _ _ _)]

theorem C22_u256 {w p : Nat} (hσ : Heap σ) (hw : w + 32 ≤ p) (hp : reserved ≤ p)
    (hfit : p + 32 ≤ σ.nextFree) (hroom : Room σ 32) :
    packU256.Calls [w, p] σ (fun _ σ' => unpackU256.Calls [p] σ'
      (Decoded σ' 32 (leNat σ.mem w 32) (p + 32))) := by
  have hr : reserved = 468 := rfl
  refine (packU256_spec hw (by have := hσ.alloc.nextFree_le; omega)).mono ?_
  rintro r σ' ⟨rfl, rfl⟩
  refine (unpackU256_spec (σ := σ.setMem _) (hσ.putBe (by omega) (by omega)) hfit
    (hroom.canAlloc hσ.alloc (Nat.le_refl _))).mono ?_
  rintro r σ'' ⟨rfl, hg, h1, h2, h3⟩
  refine ⟨_, rfl, Nat.le_refl _, by omega, ?_, h1, hg.mem⟩
  rw [h3, leNat_putLe_same, setMem_mem, beNat_putBe_same, Nat.mod_mod, Nat.mod_eq_of_lt (leNat_lt _ _ _)]

example : packU32.Calls [70000, 2000] store0 (fun _ σ' => unpackU32.Calls [2000, 32] σ' (fun r σ'' =>
    r = [70000] ∧ σ'' = { σ' with reader := 2032 })) := C22_u32 (by decide) store0_blank (by decide)
example : packU64.Calls [2 ^ 40, 2000] store0 (fun _ σ' => unpackU64.Calls [2000] σ' (fun r σ'' =>
    r = [2 ^ 40] ∧ σ'' = { σ' with reader := 2032 })) := C22_u64 (by decide) store0_blank (by decide)
example : packU128.Calls [500, 900] (store2 (2 ^ 100) 0) (fun _ σ' => unpackU128.Calls [900] σ'
    (Decoded σ' 16 (2 ^ 100) 932)) := by
  have h := C22_u128 (σ := store2 (2 ^ 100) 0) (w := 500) (p := 900) (store2_heap _ _) (by decide)
    (by decide) (by decide) ⟨by decide, by decide⟩
  rwa [store2_fst (by decide)] at h
example : packU256.Calls [500, 900] (store2 (2 ^ 200) 0) (fun _ σ' => unpackU256.Calls [900] σ'
    (Decoded σ' 32 (2 ^ 200) 932)) := by
  have h := C22_u256 (σ := store2 (2 ^ 200) 0) (w := 500) (p := 900) (store2_heap _ _) (by decide)
    (by decide) (by decide) ⟨by decide, by decide⟩
  rwa [store2_fst (by decide)] at h

/-! ### C25 -/

/-- Decoding copies the word, whatever it is, to new memory. -/
theorem C25_decode {p : Nat} (hσ : Heap σ) (hp : p + 32 ≤ σ.nextFree) (hroom : Room σ 32) :
    unpackAddress.Calls [p] σ (fun r σ' => ∃ q, r = [q] ∧ σ.nextFree ≤ q ∧ q + 32 ≤ σ'.nextFree ∧
      rdBytes σ'.mem q 32 = rdBytes σ.mem p 32 ∧ σ'.reader = p + 32 ∧
      ∀ x, x < σ.nextFree → σ'.mem x = σ.mem x) := by
  refine (unpackAddress_spec hσ hp (hroom.canAlloc hσ.alloc (Nat.le_refl _))).mono ?_
  rintro r σ' ⟨rfl, hg, h1, h2, h3⟩
  refine ⟨_, rfl, Nat.le_refl _, by omega, ?_, h1, hg.mem⟩
  apply List.ext_getElem (by rw [rdBytes_length, rdBytes_length])
  intro i hi _
  rw [rdBytes_length] at hi
  rw [rdBytes_getElem, rdBytes_getElem, h3, copyBytes_in (by omega) (by omega), Nat.add_sub_cancel_left]

/-- Encoding the address at `w` and decoding it again. -/
theorem C25_roundtrip {w p : Nat} (hσ : Heap σ) (hw : w + 32 ≤ p) (hp : reserved ≤ p)
    (hfit : p + 32 ≤ σ.nextFree) (hroom : Room σ 32) :
    packAddress.Calls [w, p] σ (fun _ σ' => unpackAddress.Calls [p] σ' (fun r σ'' => ∃ q, r = [q] ∧
      σ'.nextFree ≤ q ∧ q + 32 ≤ σ''.nextFree ∧ rdBytes σ''.mem q 32 = rdBytes σ.mem w 32 ∧
      σ''.reader = p + 32 ∧ ∀ x, x < σ'.nextFree → σ''.mem x = σ'.mem x)) := by
  have hr : reserved = 468 := rfl
  refine (packAddress_spec hw (by have := hσ.alloc.nextFree_le; omega)).mono ?_
  rintro r σ' ⟨rfl, rfl⟩
  refine (C25_decode (σ := σ.setMem _) (hσ.putBe (by omega) (by omega)) hfit hroom).mono ?_
  rintro r σ'' ⟨q, h1, h2, h3, h4, h5⟩
  refine ⟨q, h1, h2, h3, ?_, h5⟩
  rw [h4, setMem_mem, rdBytes_word rfl, beNat_putBe_same, Nat.mod_eq_of_lt (beNat_lt _ _ _), rdBytes_word rfl]

example : unpackAddress.Calls [500] (store2 77 0) (fun r σ' => ∃ q, r = [q] ∧ 1000 ≤ q ∧
    q + 32 ≤ σ'.nextFree ∧ rdBytes σ'.mem q 32 = rdBytes (store2 77 0).mem 500 32 ∧ σ'.reader = 532 ∧
    ∀ x, x < 1000 → σ'.mem x = (store2 77 0).mem x) :=
  C25_decode (store2_heap _ _) (by decide) ⟨by decide, by decide⟩
example : packAddress.Calls [500, 900] (store2 77 0) (fun _ σ' => unpackAddress.Calls [900] σ'
    (fun r σ'' => ∃ q, r = [q] ∧ σ'.nextFree ≤ q ∧ q + 32 ≤ σ''.nextFree ∧
      rdBytes σ''.mem q 32 = rdBytes (store2 77 0).mem 500 32 ∧
      σ''.reader = 932 ∧ ∀ x, x < σ'.nextFree → σ''.mem x = σ'.mem x)) :=
  C25_roundtrip (store2_heap _ _) (by decide) (by decide) (by decide) ⟨by decide, by decide⟩

/-! ### C52 -/

/-- A function that receives the address of the encoded arguments of a public function of parameter
types `ts` and leaves the decoded arguments on the stack, as the entry point does before calling the
function. -/
def decodeArgs (E : ErrPtrs) (ts : List PTy) : Fn :=
  ⟨1, ts.length, 2, unpackAll E (propagate .i32) 0 1 ts⟩

theorem RepArgs_length {f : Bytes} {lim : Nat} : ∀ {ts : List PTy} {vs : List Abi.Val} {ws : List Nat},
    RepArgs f lim ts vs ws → ws.length = ts.length := by
  intro ts
  induction ts with
  | nil => intro vs ws h; cases vs <;> cases ws <;> simp_all [RepArgs]
  | cons t ts ih =>
    intro vs ws h
    cases vs with
    | nil => cases ws <;> simp [RepArgs] at h
    | cons v vs =>
      cases ws with
      | nil => simp [RepArgs] at h
      | cons w ws => rw [RepArgs] at h; simp [ih h.2]

theorem needFs_le : ∀ {ts : List PTy} {vs : List Abi.Val}, HasTys (ts.map PTy.ty) vs →
    needFs (ts.map PTy.ty) vs ≤ needArgs ts vs + Abi.headLen vs := by
  intro ts
  induction ts with
  | nil => intro vs h; cases vs <;> simp [needFs]
  | cons t ts ih =>
    intro vs h
    cases vs with
    | nil => simp [needFs]
    | cons v vs =>
      rw [List.map_cons, HasTys] at h
      have := ih h.2
      rw [List.map_cons, needFs, needArgs, headLen_cons]
      have h1 : (if t.ty.isScalar then t.ty.size else need t.ty v) ≤
          needA t v + (if Abi.dyn v then 32 else (Abi.enc v).length) := by
        cases t with
        | ref t => rw [needA]; exact Nat.le_add_right _ _
        | val t =>
          rw [needA]
          have ht := h.1
          show (if t.isScalar then _ else _) ≤ _
          by_cases hs : t.isScalar = true
          · rw [if_pos hs]
            have : t.size ≤ 32 := by have := t.size_pos; omega
            have e : (if Abi.dyn v then 32 else (Abi.enc v).length) = 32 := by
              cases t <;> simp [MTy.isScalar] at hs <;> cases v <;> simp only [PTy.ty, HasTy] at ht <;>
                simp [Abi.dyn, Abi.enc, word_length]
            rw [e]
            show t.size ≤ _
            omega
          · rw [if_neg hs]; exact Nat.le_add_right _ _
      omega

/-- The canonical encoding at `p` is decoded to the arguments. -/
theorem dec_canonical {ts : List PTy} {vs : List Abi.Val} {p : Nat} (hσ : Heap σ)
    (hty : HasTys (ts.map PTy.ty) vs) (hp : p + (Abi.encTuple vs).length ≤ σ.nextFree)
    (hbs : rdBytes σ.mem p (Abi.encTuple vs).length = Abi.encTuple vs) (hroom : Room σ (needArgs ts vs)) :
    DecFs σ.mem σ.nextFree (ts.map PTy.ty) vs p p := by
  have h1 := hσ.alloc.nextFree_le
  have h2 := hσ.alloc.size_lt
  have h3 := hroom.1
  have hh : Holds σ.mem σ.nextFree p (Abi.encTuple vs) := ⟨hp, hbs⟩
  unfold Abi.encTuple at hh
  rw [Abi.enc] at hh
  obtain ⟨h5, h6⟩ := hh.append
  have h7 := h5.1
  rw [heads_length] at h6 h7
  have := needFs_le hty
  exact located_decFs (by omega) _ hty h5 (fun _ => h6) (by omega)

/-- For all parameter types and arguments: if the bytes at `p` are the ABI encoding of the arguments
`vs`, the values pushed represent `vs`, in new memory.  There must be room for them, and no string
may end right at the end of memory (`FitsArgs`). -/
theorem C52_arguments {ts : List PTy} {vs : List Abi.Val} {p : Nat} (hE : E.Valid) (hσ : Heap σ)
    (hty : HasTys (ts.map PTy.ty) vs) (hen : EnumsOkArgs ts)
    (hp : p + (Abi.encTuple vs).length ≤ σ.nextFree)
    (hbs : rdBytes σ.mem p (Abi.encTuple vs).length = Abi.encTuple vs)
    (hroom : Room σ (needArgs ts vs)) (hfit : FitsArgs σ.size ts vs σ.nextFree) :
    (decodeArgs E ts).Calls [p] σ (fun r σ' => ∃ ws, r = ws.reverse ∧
      RepArgs σ'.mem σ'.nextFree ts vs ws ∧ errWord σ' = 0 ∧
      (∀ x, x < σ.nextFree → σ'.mem x = σ.mem x) ∧ σ'.host = σ.host) := by
  refine ⟨rfl, ?_⟩
  unfold decodeArgs
  rw [← List.append_nil (unpackAll _ _ _ _ _)]
  refine unpackAll_ok hE (propagate_ok _) ts hen hσ (Nat.le_refl _)
    (dec_canonical hσ hty hp hbs hroom) hroom hfit (by simp) ?_
  intro ws σ' l' hg hn hrep hl hlo
  rw [wp_nil, retK_ok, List.take_of_length_le (by simp [RepArgs_length hrep])]
  exact ⟨ws, List.append_nil _, hrep, (hg.heap hσ).ready.noErr, hg.mem, hg.host⟩

theorem _root_.Rt.RepAll.hasTys {f : Bytes} {lim : Nat} : ∀ {ts : List PTy} {vs : List Abi.Val} {ws : List Nat},
    RepAll f lim ts vs ws → HasTys (ts.map PTy.ty) vs := by
  intro ts
  induction ts with
  | nil => intro vs ws h; cases vs <;> cases ws <;> simp_all [RepAll, HasTys]
  | cons t ts ih =>
    intro vs ws h
    cases vs with
    | nil => cases ws <;> simp [RepAll] at h
    | cons v vs =>
      cases ws with
      | nil => simp [RepAll] at h
      | cons w ws =>
        rw [RepAll] at h
        rw [List.map_cons, HasTys]
        refine ⟨?_, ih h.2⟩
        cases t with
        | val t => exact Rep.hasTy t h.1
        | ref t =>
          have := RepFs.hasTys [t] (show RepFs f lim [t] [v] w from h.1)
          rw [HasTys] at this
          exact this.1

/-! ### C53 -/

/-- Encoding results and decoding them as arguments of the same types: the values come back. -/
theorem C53_roundtrip {ts : List PTy} {vs : List Abi.Val} {ws : List Nat} {d : Nat} (hE : E.Valid)
    (hσ : Heap σ) (hr : RepAll σ.mem σ.nextFree ts vs ws) (hen : EnumsOkArgs ts)
    (hroom : Room σ ((Abi.encTuple vs).length + needArgs ts vs))
    (hfit : FitsArgs σ.size ts vs (σ.nextFree + (Abi.encTuple vs).length)) :
    (encodeResults E d ts).Calls ws σ (fun r σ' => ∃ ptr len, r = [len, ptr] ∧
      (decodeArgs E ts).Calls [ptr] σ' (fun r' σ'' => ∃ ws', r' = ws'.reverse ∧
        RepArgs σ''.mem σ''.nextFree ts vs ws')) := by
  obtain ⟨hlw, hlv⟩ := hr.lengths
  have hty : HasTys (ts.map PTy.ty) vs := hr.hasTys
  refine ⟨hlw, ?_⟩
  refine wp_pushes (xs := ws) hlw ?_ ?_
  · intro i hi
    rw [Nat.zero_add]
    exact lget_append hi
  · refine packAll_ok (propagate_ok _) (propagateTo_ok _ _) hσ hr (hroom.mono (by omega))
      (by simp [encodeResults, hlw]; omega) ?_
    intro σ' l' h1 h2 h3 h4 h5 h6 h7
    wstep
    rw [h5, h6]
    refine ⟨_, _, rfl, ?_⟩
    refine (C52_arguments hE (h2.heap hσ) hty hen (by omega) h3 (hroom.after (by omega) h2.maxPages) ?_).mono ?_
    · rw [h4]; exact FitsArgs.mono h2.size ts hfit
    · rintro r σ'' ⟨ws', e, hrep, -⟩
      exact ⟨ws', e, hrep⟩

/-! ### C24 -/

theorem decode_fail {t : MTy} {p : Nat} (hE : E.Valid) (h : ∀ σ' : Store, σ' = { σ with reader := p } →
      (∃ f, (∀ pc r b, unpackT E pc r b t = code[Op.lget r, Op.lget b, f.call, pc, Op.gget .reader, Op.lset r]) ∧
        f.nr = 1 ∧ Fails f [p, p] σ' (E .memoryAccessOutOfBounds)) ∨
      (t = .string ∧ Fails (unpackString E) [p, p] σ' (E .memoryAccessOutOfBounds))) :
    (decodeArgs E [.val t]).Calls [p] σ (fun _ σ' => errWord σ' = E .memoryAccessOutOfBounds) := by
  have hE' := hE .memoryAccessOutOfBounds
  refine ⟨rfl, ?_⟩
  unfold decodeArgs unpackAll
  simp only [List.flatMap_cons, List.flatMap_nil, List.append_nil, unpackP, List.cons_append, List.nil_append,
    List.length_cons, List.length_nil, List.replicate]
  rcases h _ rfl with ⟨f, hf, hn, hc⟩ | ⟨rfl, hc⟩
  · rw [hf]
    wstep
    refine wp_callF_err (args := [p, p]) hc ?_
    rintro r σ' ⟨-, h1, h2⟩
    exact ⟨h2, by omega, h1⟩
  · rw [unpackT]
    wstep
    refine wp_call2 hc ?_
    rintro r σ' ⟨-, h1, h2⟩
    wstep
    exact h1

/-- The head of a dynamic argument is an offset of 2^32 or more: decoding sets the error. -/
theorem C24_offset {t : MTy} {p : Nat} (hE : E.Valid) (hσ : Ready σ) (ht : t.dyn = true)
    (hp : p + 32 ≤ σ.size) (ho : 2 ^ 32 ≤ beNat σ.mem p 32) :
    (decodeArgs E [.val t]).Calls [p] σ (fun _ σ' => errWord σ' = E .memoryAccessOutOfBounds) := by
  refine decode_fail hE ?_
  rintro σ' rfl
  have hσ' : Ready { σ with reader := p } := ⟨hσ.size, hσ.size_lt, hσ.noErr⟩
  have hbad : BadPtr { σ with reader := p } p p := ⟨hp, .inl ho⟩
  cases t <;> simp only [MTy.dyn, Bool.false_eq_true] at ht
  case vec t => exact .inl ⟨_, fun _ _ _ => by rw [unpackT], rfl, unpackVec_bad hE hσ' hbad⟩
  case string => exact .inr ⟨rfl, unpackString_bad hE hσ' hbad⟩
  case struct fs =>
    refine .inl ⟨_, fun _ _ _ => by rw [unpackT], rfl, ?_⟩
    rw [ht]
    exact unpackStruct_bad hE hσ' hp ho

/-- The length of a vector or string is 2^32 or more. -/
theorem C24_length {t : MTy} {p : Nat} (hE : E.Valid) (hσ : Ready σ)
    (ht : t = .string ∨ ∃ t', t = .vec t')
    (hp : p + 32 ≤ σ.size) (ho : beNat σ.mem p 32 < 2 ^ 32)
    (hq : (p + beNat σ.mem p 32) % 2 ^ 32 + 32 ≤ σ.size)
    (hl : 2 ^ 32 ≤ beNat σ.mem ((p + beNat σ.mem p 32) % 2 ^ 32) 32) :
    (decodeArgs E [.val t]).Calls [p] σ (fun _ σ' => errWord σ' = E .memoryAccessOutOfBounds) := by
  refine decode_fail hE ?_
  rintro σ' rfl
  have hσ' : Ready { σ with reader := p } := ⟨hσ.size, hσ.size_lt, hσ.noErr⟩
  rw [Nat.add_comm p] at hq hl
  have hbad : BadPtr { σ with reader := p } p p := ⟨hp, .inr ⟨ho, hq, hl⟩⟩
  rcases ht with rfl | ⟨t, rfl⟩
  · exact .inr ⟨rfl, unpackString_bad hE hσ' hbad⟩
  · exact .inl ⟨_, fun _ _ _ => by rw [unpackT], rfl, unpackVec_bad hE hσ' hbad⟩

/-! ### C23 -/

/-- What decoding bool, u8, u16 and u32 does, for every word: the number formed by the last four
bytes of the word is passed on, unchecked. -/
theorem C23_unchecked {t : MTy} {p : Nat} (ht : t = .bool ∨ t = .u8 ∨ t = .u16 ∨ t = .u32)
    (hp : p + 32 ≤ σ.size) (hs : σ.size < 2 ^ 32) :
    (decodeArgs E [.val t]).Calls [p] σ (fun r σ' => r = [beNat σ.mem p 32 % 2 ^ 32] ∧
      σ' = { σ with reader := p + 32 }) := by
  refine ⟨rfl, ?_⟩
  have e : unpackT E (propagate .i32) 1 2 t =
      code[Op.lget 1, Op.c32 32, unpackU32.call, Op.gget .reader, Op.lset 1] := by
    rcases ht with rfl | rfl | rfl | rfl <;> rfl
  unfold decodeArgs unpackAll
  simp only [List.flatMap_cons, List.flatMap_nil, List.append_nil, unpackP, List.cons_append, List.nil_append,
    List.length_cons, List.length_nil, List.replicate, e]
  wstep
  refine wp_call2 (unpackU32_spec (σ := { σ with reader := p }) hp) ?_
  rintro r σ' ⟨rfl, rfl⟩
  wstep
  rw [← beNat_mod σ.mem p 28 4, show (256 : Nat) ^ 4 = 4294967296 from rfl]

/-- Memory with the bytes `bs` at 500. -/
def storeB (bs : List UInt8) : Store := store0.setMem (wrBytes store0.mem 500 bs)

theorem storeB_heap {bs : List UInt8} (h : bs.length ≤ 500) : Heap (storeB bs) := by
  refine store0_heap.setMem (leNat_congr fun x _ hx => ?_) fun x hx => ?_
  · rw [wrBytes_out (by omega)]
  · have : 1000 ≤ x := hx
    rw [wrBytes_out (by omega)]

theorem storeB_read (bs : List UInt8) : rdBytes (storeB bs).mem 500 bs.length = bs := rdBytes_wr _ _ _

theorem storeB_word {n : Nat} (h : n < 2 ^ 256) : beNat (storeB (Abi.word n)).mem 500 32 = n :=
  (C21_word_value h _ _).2

example : (decodeArgs E [.val .bool]).Calls [500] (storeB (Abi.word (2 ^ 255 + 7))) (fun r σ' => r = [7] ∧
    σ' = { storeB (Abi.word (2 ^ 255 + 7)) with reader := 532 }) := by
  have h := C23_unchecked (E := E) (σ := storeB (Abi.word (2 ^ 255 + 7))) (t := .bool) (p := 500) (.inl rfl)
    (by decide) (by decide)
  rwa [storeB_word (by decide)] at h

/-- The property is false: the word 256 is accepted as a `u8`, and the function receives 256. -/
theorem C23_false : ∃ (σ : Store) (p : Nat), Heap σ ∧ p + 32 ≤ σ.nextFree ∧ beNat σ.mem p 32 = 256 ∧
    (decodeArgs E [.val .u8]).Calls [p] σ (fun r σ' => r = [256] ∧ errWord σ' = 0) := by
  have hh : Heap (storeB (Abi.word 256)) := storeB_heap (by rw [word_length]; decide)
  refine ⟨storeB (Abi.word 256), 500, hh, by decide, storeB_word (by decide), ?_⟩
  refine (C23_unchecked (t := .u8) (.inr (.inl rfl)) (by decide) (by decide)).mono ?_
  rintro r σ' ⟨rfl, rfl⟩
  rw [storeB_word (by decide)]
  exact ⟨rfl, hh.ready.noErr⟩

/-- Enums are checked against the number of variants (the last four bytes only): missing are words
whose upper 28 bytes are not zero, and the other small types. -/
theorem C23_enum_partial {p n : Nat} (hE : E.Valid) (hσ : Ready σ) (hn : 0 < n ∧ n ≤ 2 ^ 32)
    (hp : p + 32 ≤ σ.size) (hv : n ≤ beNat σ.mem p 32 % 2 ^ 32) :
    (decodeArgs E [.val (.enum n)]).Calls [p] σ (fun _ σ' => errWord σ' = E .outOfBounds) := by
  refine ⟨rfl, ?_⟩
  unfold decodeArgs unpackAll
  simp only [List.flatMap_cons, List.flatMap_nil, List.append_nil, unpackP, List.cons_append, List.nil_append,
    List.length_cons, List.length_nil, List.replicate, unpackT]
  wstep
  refine wp_call1 (unpackEnum_err (σ := { σ with reader := p }) hσ.size_lt hσ.size hE hn hp ?_) ?_
  · rw [← beNat_mod]; exact hv
  rintro r σ' ⟨rfl, rfl⟩
  wstep
  exact errWord_ptr hE _

example : (decodeArgs E0 [.val (.enum 3)]).Calls [500] (storeB (Abi.word 3)) (fun _ σ' =>
    errWord σ' = E0 .outOfBounds) := by
  refine C23_enum_partial E0_valid (storeB_heap (by rw [word_length]; decide)).ready ⟨by decide, by decide⟩
    (by decide) ?_
  rw [storeB_word (by decide)]; decide

/-! ### Examples for C24, C52 and C53 -/

example : (decodeArgs E0 [.val (.struct [.u8, .string])]).Calls [500] (storeB (Abi.word (2 ^ 32)))
    (fun _ σ' => errWord σ' = E0 .memoryAccessOutOfBounds) := by
  refine C24_offset E0_valid (storeB_heap (by rw [word_length]; decide)).ready (by simp [MTy.dyn, MTy.dynFs])
    (by decide) ?_
  rw [storeB_word (by decide)]

example : (decodeArgs E0 [.val (.vec .u8)]).Calls [500] (storeB (Abi.word 32 ++ Abi.word (2 ^ 32 + 1)))
    (fun _ σ' => errWord σ' = E0 .memoryAccessOutOfBounds) := by
  have hr := storeB_read (Abi.word 32 ++ Abi.word (2 ^ 32 + 1))
  have hh : Holds (storeB (Abi.word 32 ++ Abi.word (2 ^ 32 + 1))).mem 2000 500
      (Abi.word 32 ++ Abi.word (2 ^ 32 + 1)) := ⟨by simp [word_length], hr⟩
  have h1 := (hh.append.1.beNat (by decide)).2
  have h2 := (hh.append.2.beNat (by decide)).2
  rw [word_length] at h2
  refine C24_length E0_valid (storeB_heap (by simp [word_length])).ready (.inr ⟨_, rfl⟩) (by decide) ?_ ?_ ?_
  · rw [h1]; decide
  · rw [h1]; decide
  · rw [h1]; show _ ≤ beNat _ (500 + 32) 32; rw [h2]; exact Nat.le_succ _

/-- Calldata for a vector, a string and a number. -/
def argBytes : List UInt8 := Abi.encTuple [.array [.word 5, .word 6], .bytes [5, 6], .word 7]

theorem argBytes_length : argBytes.length = 256 := by
  simp [argBytes, Abi.encTuple, Abi.enc, Abi.heads, Abi.tails, Abi.dyn, Abi.bytes, word_length,
    pad_length, padded]

example : (decodeArgs E0 [.val (.vec .u8), .val .string, .ref .u64]).Calls [500] (storeB argBytes)
    (fun r σ' => ∃ ws, r = ws.reverse ∧
      RepArgs σ'.mem σ'.nextFree [.val (.vec .u8), .val .string, .ref .u64]
        [.array [.word 5, .word 6], .bytes [5, 6], .word 7] ws ∧ errWord σ' = 0 ∧
      (∀ x, x < 1000 → σ'.mem x = (storeB argBytes).mem x) ∧ σ'.host = host0) := by
  have hl : (Abi.encTuple [.array [.word 5, .word 6], .bytes [5, 6], .word 7]).length = 256 := argBytes_length
  refine C52_arguments (σ := storeB argBytes) E0_valid (storeB_heap (by rw [argBytes_length]; decide)) ?_ ?_ ?_
    (storeB_read _) ?_ ?_
  · simp [HasTys, HasTy, PTy.ty]
  · intro t ht
    simp at ht
    rcases ht with rfl | rfl | rfl <;> simp [EnumsOk, PTy.ty]
  · rw [hl]; decide
  · simp [needArgs, needA, need, MTy.isScalar, MTy.size, Room, storeB, store0, Store.setMem]
  · simp [FitsArgs, Fits, PTy.ty, SafeEnd, needA, need, storeB, store0, Store.setMem, MTy.size]

example : (encodeResults E0 3 [.val (.vec .u8), .val .string, .val .u64]).Calls [500, 540, 7] storeV
    (fun r σ' => ∃ ptr len, r = [len, ptr] ∧
      (decodeArgs E0 [.val (.vec .u8), .val .string, .val .u64]).Calls [ptr] σ' (fun r' σ'' =>
        ∃ ws', r' = ws'.reverse ∧ RepArgs σ''.mem σ''.nextFree [.val (.vec .u8), .val .string, .val .u64]
          [.array [.word 5, .word 6], .bytes [5, 6], .word 7] ws')) := by
  have hl : (Abi.encTuple [.array [.word 5, .word 6], .bytes [5, 6], .word 7]).length = 256 := argBytes_length
  refine C53_roundtrip (σ := storeV) E0_valid (store2_heap _ _) ?_ ?_ ?_ ?_
  · simp only [RepAll, RepP, and_true]
    refine ⟨?_, ?_, ?_⟩
    · rw [Rep]
      refine ⟨by decide, by decide, ?_⟩
      intro i hi
      have : i = 0 ∨ i = 1 := by simp at hi; omega
      rcases this with rfl | rfl
      · show Rep _ _ .u8 (.word 5) _
        rw [Rep]; decide
      · show Rep _ _ .u8 (.word 6) _
        rw [Rep]; decide
    · rw [Rep]; decide
    · rw [Rep]; decide
  · intro t ht
    simp at ht
    rcases ht with rfl | rfl | rfl <;> simp [EnumsOk, PTy.ty]
  · rw [hl]; simp [needArgs, needA, need, MTy.size, Room, storeV, store2, store0, Store.setMem]
  · rw [hl]; simp [FitsArgs, Fits, PTy.ty, SafeEnd, needA, need, storeV, store2, store0, Store.setMem, MTy.size]

/-! ### C54 -/

/-- A `BytesN` argument is decoded by `unpackBytes` (abi_types/unpacking.rs 262-270), but a `BytesN`
result is encoded like any struct, by its declared field, a `bool` (there is no case for it in
abi_types/packing.rs).  So a function returning its `Bytes32` argument does not return it: for the
argument 0x01000…0 the return data is the zero word. -/
theorem C54_false : ∃ (σ : Store) (p : Nat), Heap σ ∧ p + 32 ≤ σ.nextFree ∧ beNat σ.mem p 32 = 2 ^ 248 ∧
    unpackBytes.Calls [p] σ (fun r σ' => ∃ w, r = [w] ∧
      (encodeResults E 3 [.val (.struct [.bool])]).Calls [w] σ' (fun r' σ'' => ∃ ptr len, r' = [len, ptr] ∧
        errWord σ'' = 0 ∧ rdBytes σ''.mem ptr len = Abi.word 0)) := by
  have hh : Heap (storeB (Abi.word (2 ^ 248))) := storeB_heap (by rw [word_length]; decide)
  refine ⟨storeB (Abi.word (2 ^ 248)), 500, hh, by decide, storeB_word (by decide), ?_⟩
  refine (unpackBytes_spec (by decide)).mono ?_
  rintro r σ' ⟨rfl, h⟩
  refine ⟨500, rfl, ?_⟩
  have hσ' : Heap σ' := by rw [h]; exact hh.setReader
  have hm : σ'.mem = (storeB (Abi.word (2 ^ 248))).mem := by rw [h]
  have hn : σ'.nextFree = 1000 := by rw [h]; rfl
  have hx : σ'.maxPages = 128 := by rw [h]; rfl
  have e : Abi.encTuple [.tuple [.word 0]] = Abi.word 0 := by
    simp [Abi.encTuple, Abi.enc, Abi.heads, Abi.tails, Abi.dyn, Abi.anyDyn]
  have hc := C51_results (E := E) (d := 3) (ts := [.val (.struct [.bool])]) (vs := [.tuple [.word 0]])
    (ws := [500]) hσ' ?_ ?_
  · refine hc.mono ?_
    rintro r σ'' ⟨ptr, len, h1, h2, h3, h4, h5⟩
    refine ⟨ptr, len, h1, ?_, by rw [h2, e]⟩
    have := hσ'.ready.noErr
    unfold errWord at this ⊢
    rw [← this]
    exact leNat_congr fun x _ hx => h4 x (by have : abortPtr = 256 := rfl; omega)
  · have h4 : leNat σ'.mem 500 4 = 1 := by rw [hm]; decide
    rw [RepAll, RepP, Rep, RepFs, RepFs, h4, hn, hm]
    refine ⟨⟨by decide, by decide, fun _ => by decide, ?_, trivial⟩, trivial⟩
    show Rep _ _ .bool (.word 0) (leNat _ 1 _)
    rw [Rep]
    decide
  · rw [e, word_length]; exact ⟨by decide, by rw [hn, hx]; decide⟩

/-! ### C55 -/

/-- One page of memory, almost full: nine bytes are free. -/
def storeF : Store :=
  ⟨wrBytes store0.mem 500 (Abi.encTuple [.bytes [65]]), 65536, 128, 65527, 9, 0, host0⟩

/-- Decoding a string can trap although the arguments are valid and memory can be extended: the
string "A" is placed in the last nine bytes of memory, and its character is written with a four-byte
store. -/
theorem C55_false (hE : E.Valid) : Heap storeF ∧
    rdBytes storeF.mem 500 (Abi.encTuple [.bytes [65]]).length = Abi.encTuple [.bytes [65]] ∧
    Room storeF (needArgs [.val .string] [.bytes [65]]) ∧
    (decodeArgs E [.val .string]).Traps [500] storeF := by
  have hl : (Abi.encTuple [.bytes [65]]).length = 96 := by
    simp [Abi.encTuple, Abi.enc, Abi.heads, Abi.tails, Abi.dyn, Abi.bytes, word_length, pad_length, padded]
  have hh : Heap storeF := by
    refine ⟨⟨by decide, by decide, ?_⟩, ⟨by decide, by decide, by decide, by decide, by decide, by decide⟩,
      by decide, fun x hx => ?_⟩
    · show leNat (wrBytes _ _ _) 256 4 = 0
      rw [leNat_congr (g := store0.mem) (fun x _ hx => wrBytes_out (by omega))]; rfl
    · have : 65527 ≤ x := hx
      show wrBytes _ _ _ x = 0
      rw [wrBytes_out (by omega)]; rfl
  have hrd : rdBytes storeF.mem 500 (Abi.encTuple [.bytes [65]]).length = Abi.encTuple [.bytes [65]] :=
    rdBytes_wr _ _ _
  have hroom : Room storeF (needArgs [.val .string] [.bytes [65]]) := by
    simp [needArgs, needA, need, Room, storeF]
  refine ⟨hh, hrd, hroom, rfl, ?_⟩
  have hd := dec_canonical (ts := [.val .string]) hh (by simp [HasTys, HasTy, PTy.ty])
    (by rw [hl]; decide) hrd hroom
  rw [List.map_cons, DecFs] at hd
  have hd := hd.1
  rw [PTy.ty, Dec] at hd
  obtain ⟨q, ⟨hp, hq⟩, hq1, hq2, hq3⟩ := hd
  unfold decodeArgs unpackAll
  simp only [List.flatMap_cons, List.flatMap_nil, List.append_nil, unpackP, List.cons_append, List.nil_append,
    List.length_cons, List.length_nil, List.replicate, unpackT]
  wstep
  refine wp_call_trap (args := [500, 500]) ⟨rfl, ?_⟩ rfl
  have hn0 : storeF.nextFree = 65527 := rfl
  generalize hσ1 : ({ storeF with reader := 500 } : Store) = σ1
  have hh1 : Heap σ1 := by rw [← hσ1]; exact hh.setReader
  have hm1 : σ1.mem = storeF.mem := by rw [← hσ1]
  have hn1 : σ1.nextFree = 65527 := by rw [← hσ1]; rfl
  have hx1 : σ1.maxPages = 128 := by rw [← hσ1]; rfl
  have hs1 : σ1.size = 65536 := by rw [← hσ1]; rfl
  have ha1 : σ1.avail = 9 := by rw [← hσ1]; rfl
  unfold unpackString skipVecHeader
  simp only [List.append_assoc, List.cons_append, List.nil_append, List.replicate]
  refine wp_findData hE hh1 (q := q) (len := 1) (by omega) (by rw [hm1]; exact hq) (by omega)
    (by rw [hm1]; exact hq2) (by decide) ?_
  wstep
  generalize hσ2 : ({ σ1 with reader := 532 } : Store) = σ2
  have hh2 : Heap σ2 := by rw [← hσ2]; exact hh1.setReader
  have hn2 : σ2.nextFree = 65527 := by rw [← hσ2]; exact hn1
  have hs2 : σ2.size = 65536 := by rw [← hσ2]; exact hs1
  have ha2 : σ2.avail = 9 := by rw [← hσ2]; exact ha1
  have hc : CanAlloc σ2 9 := ⟨by decide, .inl (by omega)⟩
  have hsz : (allocated σ2 9).size = 65536 := by
    unfold allocated; rw [if_pos (by omega)]; exact hs2
  refine wp_call3 (P := fun r σ' => r = [65527] ∧ σ'.size = 65536) ⟨rfl, ?_⟩ ?_
  · unfold allocVec
    simp only [List.cons_append, List.nil_append, List.replicate]
    wstep
    refine wp_alloc hh2 hc ?_
    rw [hn2]
    generalize allocated σ2 9 = σ3 at *
    wstep
    exact hsz
  · rintro r σ3 ⟨rfl, h3⟩
    wstep
    have hq4 : q + 32 + 1 ≤ 65536 := by simp at hq1; omega
    refine wp_loop_unfold ?_
    wstep
    rw [wp_op]
    have hb : ¬ (65535 + 0 + 4 ≤ σ3.size) := by omega
    simp only [Op.exec, hb, if_false]

end Props
