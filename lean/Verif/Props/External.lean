import Verif.Props.Natives
import Verif.Proof.External

/-! # C71: calls to other contracts -/

namespace Props
open Wasm Rt Abi

variable {σ : Store} {E : ErrPtrs}

theorem callMsg_eq {static payable : Bool} {a d g v : Nat} {data : List UInt8} {m : Msg} (hd : d < 2)
    (hm : m.to = a ∧ m.gas = g ∧ m.data = data ∧
      m.kind = (if static then .static else if d = 1 then .delegate else .call) ∧
      m.value = (if payable ∧ m.kind = .call then v else 0)) :
    m = callMsg static payable a d g v data := by
  obtain ⟨k, a', data, v', g'⟩ := m
  obtain ⟨rfl, rfl, rfl, h1, h2⟩ := hm
  dsimp only at h1 h2 ⊢
  have : d = 0 ∨ d = 1 := by omega
  unfold callMsg
  cases static <;> cases payable <;> rcases this with rfl | rfl <;> simp_all

/-- **C71** A call sends one message: to the contract of the object, with its gas limit, with the selector
followed by the encoding of the arguments as data; a static message for `pure` and `view` functions, a
delegated one if the object says so, an ordinary one otherwise; with the value of the object if the function
is payable and the message ordinary, with no value otherwise.  The result begins with the status the
message had, and the caller's memory is unchanged apart from the value of the object.

Missing: references to integers as arguments (`C71_false_reference`), the value of the object after the call
(`C71_false_value`), storage objects as arguments. -/
theorem C71_call_partial {static payable : Bool} {sel : Nat} {args : List PTy} {vs : List Val} {ws : List Nat}
    {s a d g v p : Nat} {m : Msg} (hE : E.Valid) (hσ : Heap σ) (hsel : sel < 2 ^ 32)
    (ho : CallObj σ.mem σ.nextFree s a d g v p)
    (href : ∀ t, PTy.ref t ∈ args → t.isScalar = false)
    (hr : ∀ f : Bytes, (∀ x, x < σ.nextFree → (payable = true → x < p ∨ p + 32 ≤ x) → f x = σ.mem x) →
      RepArgs f σ.nextFree args vs ws)
    (hm : m.to = a ∧ m.gas = g ∧ m.data = selBytes sel ++ encTuple vs ∧
      m.kind = (if static then .static else if d = 1 then .delegate else .call) ∧
      m.value = (if payable ∧ m.kind = .call then v else 0))
    (hroom : Room σ (52 + (encTuple vs).length)) (hst : σ.host.status m < 2 ^ 8) :
    (externalCall E static payable sel args none).Calls (s :: ws) σ (fun rs σ' => ∃ r, rs = [r] ∧
      σ'.host = σ.host.send m ∧
      Rep σ'.mem σ'.nextFree (.struct [.u8]) (.tuple [.word (σ.host.status m)]) r ∧
      ∀ x, x < σ.nextFree → (payable = true → x < p ∨ p + 32 ≤ x) → σ'.mem x = σ.mem x) := by
  obtain ⟨o, pa, pd, pg, -, -, -, -, -, -, -, -, -, -, -, hd, -⟩ := ho.parts
  have hm' := callMsg_eq hd hm
  refine (externalCall_spec (x := .word 0) (m := m) hE hσ hsel ho (fun f hf => (hr f hf).vals href) hm' hroom (by omega)
    (fun t ht => by cases ht)).mono ?_
  rintro rs σ' ⟨r, rfl, h1, h2, h3, h4, h5, h6, -⟩
  refine ⟨r, rfl, h1, ?_, h2.mem⟩
  have h7 : leNat σ'.mem (leNat σ'.mem r 4) 1 = σ.host.status m := by
    rw [leNat_split _ _ 4 1 (by omega)] at h6
    have := leNat_lt σ'.mem (leNat σ'.mem r 4) 1
    omega
  simp only [Rep, RepFs, MTy.isScalar, MTy.size, if_true, h7]
  exact ⟨by omega, h4, fun _ => by omega, ⟨trivial, hst⟩, trivial⟩

/-- **C71** If the function has a result, what the callee returned is decoded: when the message succeeded and
the returned data is the encoding of a value of the type of the result, the result is status zero and that value;
when it failed, the result still carries its status and nothing is decoded. -/
theorem C71_result_partial {static payable : Bool} {sel : Nat} {args : List PTy} {vs : List Val} {ws : List Nat}
    {s a d g v p : Nat} {m : Msg} {t : MTy} {x : Val} (hE : E.Valid) (hσ : Heap σ) (hsel : sel < 2 ^ 32)
    (ho : CallObj σ.mem σ.nextFree s a d g v p)
    (href : ∀ t, PTy.ref t ∈ args → t.isScalar = false)
    (hr : ∀ f : Bytes, (∀ x, x < σ.nextFree → (payable = true → x < p ∨ p + 32 ≤ x) → f x = σ.mem x) →
      RepArgs f σ.nextFree args vs ws)
    (hm : m.to = a ∧ m.gas = g ∧ m.data = selBytes sel ++ encTuple vs ∧
      m.kind = (if static then .static else if d = 1 then .delegate else .call) ∧
      m.value = (if payable ∧ m.kind = .call then v else 0))
    (hst : σ.host.status m < 2 ^ 8) (hty : HasTy t x) (hen : EnumsOk t)
    (hret : σ.host.status m = 0 → (σ.host.send m).returned = encTuple [x])
    (hroom : Room σ (60 + (encTuple vs).length + (encTuple [x]).length + need t x))
    (hfit : Fits σ.size t x
      (σ.nextFree + (if payable then 20 else 52) + (encTuple vs).length + (encTuple [x]).length)) :
    (externalCall E static payable sel args (some t)).Calls (s :: ws) σ (fun rs σ' => ∃ r, rs = [r] ∧
      σ'.host = σ.host.send m ∧
      leNat σ'.mem (leNat σ'.mem r 4) 1 = σ.host.status m ∧
      (σ.host.status m = 0 → Rep σ'.mem σ'.nextFree (.struct [.u8, t]) (.tuple [.word 0, x]) r) ∧
      ∀ x, x < σ.nextFree → (payable = true → x < p ∨ p + 32 ≤ x) → σ'.mem x = σ.mem x) := by
  obtain ⟨o, pa, pd, pg, -, -, -, -, -, -, -, -, -, -, -, hd, -⟩ := ho.parts
  have hm' := callMsg_eq hd hm
  refine (externalCall_spec (x := x) (m := m) hE hσ hsel ho (fun f hf => (hr f hf).vals href) hm'
    (hroom.mono (by omega)) (by omega) (fun t' ht hs => ?_)).mono ?_
  · cases ht
    exact ⟨hty, hen, hret hs, hroom, hfit⟩
  rintro rs σ' ⟨r, rfl, h1, h2, h3, h4, h5, h6, h8⟩
  have h7 : leNat σ'.mem (leNat σ'.mem r 4) 1 = σ.host.status m := by
    rw [leNat_split _ _ 4 1 (by omega)] at h6
    have := leNat_lt σ'.mem (leNat σ'.mem r 4) 1
    omega
  refine ⟨r, rfl, h1, h7, ?_, h2.mem⟩
  intro hs
  have h9 := h8 t rfl hs
  rw [Rep, RepFs]
  refine ⟨by omega, h4, fun _ => ?_, ?_, h9⟩
  · show _ + 1 ≤ _; omega
  · show Rep _ _ .u8 _ (leNat σ'.mem (leNat σ'.mem r 4) 1)
    rw [h7, hs, Rep]; decide

/-- An object at 500 for calls to contract 0xab with gas limit 1000 and value 5, and a vector at 640. -/
def memX (d : Nat) : Bytes :=
  memW [(500, 504), (504, 520), (508, 560), (512, 568), (516, 576), (548, 0xab * 2 ^ 24), (560, d), (568, 1000),
    (576, 5), (640, 1), (644, 1), (648, 9)]

/-- The state with this object. -/
def storeX (d : Nat) (e : Env) : Store :=
  { store0 with
    mem := memX d
    host := { host0 with env := e } }

theorem storeX_heap (d : Nat) (e : Env) : Heap (storeX d e) := by
  have hm : ∀ x, (x < 500 ∨ 652 ≤ x) → (storeX d e).mem x = 0 := fun x hx => memW_out fun a ha => by
    simp only [List.mem_cons, List.not_mem_nil, or_false] at ha
    rcases ha with rfl | rfl | rfl | rfl | rfl | rfl | rfl | rfl | rfl | rfl | rfl | rfl <;> simp only <;> omega
  exact ⟨⟨by show 65536 ≤ 65536; omega, by show 65536 < _; omega,
      leNat_zero_of fun x (h1 : 256 ≤ x) (h2 : x < 256 + 4) => hm x (by omega)⟩,
    ⟨store0_alloc.sum, store0_alloc.page, store0_alloc.first, store0_alloc.limit, store0_alloc.max, store0_alloc.small⟩,
    by show 468 ≤ 1000; omega, fun x hx => hm x (by have : 1000 ≤ x := hx; omega)⟩

theorem storeX_room {d : Nat} {e : Env} {n : Nat} (h : n ≤ 1000) : Room (storeX d e) n :=
  ⟨by omega, by show 1000 + n + 65536 ≤ 128 * 65536; omega⟩

theorem storeX_obj {d : Nat} (hd : d = 0 ∨ d = 1) : CallObj (memX d) 1000 500 0xab d 1000 5 576 := by
  have h1 : leNat (memX d) 500 4 = 504 := by rcases hd with rfl | rfl <;> decide +kernel
  have h2 : leNat (memX d) 504 4 = 520 := by rcases hd with rfl | rfl <;> decide +kernel
  have h3 : leNat (memX d) 508 4 = 560 := by rcases hd with rfl | rfl <;> decide +kernel
  have h4 : leNat (memX d) 512 4 = 568 := by rcases hd with rfl | rfl <;> decide +kernel
  have h5 : leNat (memX d) 516 4 = 576 := by rcases hd with rfl | rfl <;> decide +kernel
  have h6 : beNat (memX d) 520 32 = 0xab := by rcases hd with rfl | rfl <;> decide +kernel
  have h7 : leNat (memX d) 560 1 = d := by rcases hd with rfl | rfl <;> decide +kernel
  have h8 : leNat (memX d) 568 8 = 1000 := by rcases hd with rfl | rfl <;> decide +kernel
  have h9 : leNat (memX d) 576 32 = 5 := by rcases hd with rfl | rfl <;> decide +kernel
  refine ⟨?_, by omega, by rw [h1, h5], by show 468 ≤ _; omega, by rw [h1, h2]; omega⟩
  simp only [callTy, Rep, RepFs, MTy.isScalar, MTy.size, if_true, Bool.false_eq_true, if_false, h1, h2, h3, h4, h5, h6,
    h7, h8, h9, Nat.reduceAdd]
  simp
  omega

theorem storeX_args {payable : Bool} {d : Nat} (hd : d = 0 ∨ d = 1) (f : Bytes)
    (hf : ∀ x, x < 1000 → (payable = true → x < 576 ∨ 576 + 32 ≤ x) → f x = memX d x) :
    RepArgs f 1000 [.val .u32, .ref (.vec .u8)] [.word 7, .array [.word 9]] [7, 640] := by
  have h1 : leNat f 640 4 = 1 := by
    rw [leNat_congr (g := memX d) fun x _ _ => hf x (by omega) fun _ => by omega]
    rcases hd with rfl | rfl <;> decide +kernel
  have h2 : leNat f 648 1 = 9 := by
    rw [leNat_congr (g := memX d) fun x _ _ => hf x (by omega) fun _ => by omega]
    rcases hd with rfl | rfl <;> decide +kernel
  simp only [RepArgs, RepA, MTy.isScalar, Bool.false_eq_true, if_false, and_true]
  rw [Rep, Rep]
  refine ⟨⟨rfl, by omega⟩, by simp [MTy.size], h1, ?_⟩
  intro i hi
  have : i = 0 := by simp at hi; omega
  subst this
  show Rep _ _ .u8 (.word 9) (leNat f 648 1)
  rw [h2, Rep]; decide

/-- A payable call of a function of a number and a reference to a vector. -/
example : (externalCall E0 false true 0x01020304 [.val .u32, .ref (.vec .u8)] none).Calls [500, 7, 640] (storeX 0 {})
    (fun rs σ' => ∃ r, rs = [r] ∧
      σ'.host = (storeX 0 {}).host.send ⟨.call, 0xab,
        [1, 2, 3, 4] ++ encTuple [.word 7, .array [.word 9]], 5, 1000⟩ ∧
      Rep σ'.mem σ'.nextFree (.struct [.u8]) (.tuple [.word 0]) r ∧
      ∀ x, x < 1000 → (true = true → x < 576 ∨ 576 + 32 ≤ x) → σ'.mem x = (storeX 0 {}).mem x) :=
  C71_call_partial (payable := true) (d := 0) E0_valid (storeX_heap 0 {}) (by decide) (storeX_obj (.inl rfl)) (by simp [MTy.isScalar])
    (storeX_args (.inl rfl)) ⟨rfl, rfl, rfl, rfl, rfl⟩ (storeX_room (by decide +kernel)) (by decide)

/-- The callee returns 42. -/
def env42 : Env := { reply := fun _ st => ⟨0, encTuple [.word 42], st⟩ }

/-- A delegated call that returns a number. -/
example : (externalCall E0 false true 0x01020304 [.val .u32, .ref (.vec .u8)] (some .u64)).Calls [500, 7, 640]
    (storeX 1 env42)
    (fun rs σ' => ∃ r, rs = [r] ∧
      σ'.host = (storeX 1 env42).host.send ⟨.delegate, 0xab,
        [1, 2, 3, 4] ++ encTuple [.word 7, .array [.word 9]], 0, 1000⟩ ∧
      leNat σ'.mem (leNat σ'.mem r 4) 1 = 0 ∧
      ((0 : Nat) = 0 → Rep σ'.mem σ'.nextFree (.struct [.u8, .u64]) (.tuple [.word 0, .word 42]) r) ∧
      ∀ x, x < 1000 → (true = true → x < 576 ∨ 576 + 32 ≤ x) → σ'.mem x = (storeX 1 env42).mem x) :=
  C71_result_partial (payable := true) (d := 1) E0_valid (storeX_heap 1 env42) (by decide) (storeX_obj (.inr rfl))
    (by simp [MTy.isScalar]) (storeX_args (.inr rfl)) ⟨rfl, rfl, rfl, rfl, rfl⟩ (by decide)
    (by rw [HasTy]; decide) (by simp [EnumsOk]) (fun _ => rfl) (storeX_room (by decide +kernel)) (by rw [Fits]; trivial; all_goals simp)

/-- Calling the same function with the same object twice. -/
def callTwice (f : Fn) : Fn := ⟨1, 0, 0, code[Op.lget 0, f.call, Op.drop, Op.lget 0, f.call, Op.drop]⟩

/-- **C71 is false** of the second payable call with an object: the first one reverses the bytes of the value
in the object itself, to hand it to the host, and the second one reverses them again.  Of two calls with an
object of value 5 the first sends 5, the second 5 * 2^248. -/
theorem C71_false_value : (callTwice (externalCall E0 false true 1 [] none)).Calls [500] (storeX 0 {})
    (fun _ σ' => σ'.host.calls.map Msg.value = [5, 5 * 2 ^ 248]) :=
  (calls_of_obs 1000 (fun σ' => σ'.host.calls.map Msg.value) [] [5, 5 * 2 ^ 248] rfl (by decide +kernel)).mono fun _ _ h => h.2

/-- **C71 is false** of references to integers: what is sent is the address of the number.  The argument is a
reference to the number 9, at address 648; the message contains 648. -/
theorem C71_false_reference : RepArgs (storeX 0 {}).mem 1000 [.ref .u32] [.word 9] [648] ∧
    (externalCall E0 false false 1 [.ref .u32] none).Calls [500, 648] (storeX 0 {})
      (fun _ σ' => σ'.host.calls.map Msg.data = [[0, 0, 0, 1] ++ encTuple [.word 648]]) := by
  refine ⟨?_, (calls_of_obs 1000 (fun σ' => σ'.host.calls.map Msg.data) [1072] [[0, 0, 0, 1] ++ encTuple [.word 648]] rfl
    (by decide +kernel)).mono fun _ _ h => h.2⟩
  simp only [RepArgs, RepA, MTy.isScalar, if_true, and_true]
  rw [show leNat (storeX 0 {}).mem 648 (MTy.size .u32) = 9 by decide +kernel, Rep]
  decide

end Props
