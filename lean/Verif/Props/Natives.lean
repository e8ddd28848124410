import Verif.Proof.Natives
import Verif.Props.Storage

/-!
# Constructor, fresh identifiers, transaction and account information: C68 to C70
-/

namespace Props
open Wasm Rt Layout

variable {σ σ' : Store}

theorem _root_.Rt.Heap.withHost (h : Heap σ) {k : Host} : Heap { σ with host := k } :=
  ⟨⟨h.ready.size, h.ready.size_lt, h.ready.noErr⟩,
    ⟨h.alloc.sum, h.alloc.page, h.alloc.first, h.alloc.limit, h.alloc.max, h.alloc.small⟩, h.base, h.fresh⟩

/-! ## C68: initialisation -/

/-- **C68** Once the flag is set, calling the constructor has no effect, whatever the initialisation
function is: it is not even entered (it may be one that traps or does not terminate). -/
theorem C68_skip {h : Nat} {init : Fn} (hσ : Heap σ) (hr : Room σ 64) (hh : h < 2 ^ 256)
    (hf : σ.host.storage h % 2 ^ 256 ≠ 0) :
    (constructor h init).Calls [] σ (fun r σ' => r = [] ∧ Extends σ σ') :=
  constructor_skip hσ hr hh hf

/-- **C68** If the flag is not set, the initialisation function runs, once; the state afterwards is the one it
leaves (a pending abort included) with the flag set, and all storage is committed. -/
theorem C68_first {h : Nat} {init : Fn} {I : Store → Prop} (hσ : Heap σ) (hr : Room σ 68) (hh : h < 2 ^ 256)
    (hf : σ.host.storage h % 2 ^ 256 = 0)
    (hi : ∀ τ, Extends σ τ → init.Calls [σ.nextFree + 64] τ (fun r τ' => r = [] ∧ I τ' ∧ τ.size ≤ τ'.size ∧
      ∀ x, σ.nextFree ≤ x → x < σ.nextFree + 64 → τ'.mem x = τ.mem x)) :
    (constructor h init).Calls [] σ (fun r σ' => r = [] ∧ ∃ τ, I τ ∧
      σ'.host = { τ.host with storage := upd τ.host.storage h (2 ^ 248), committed := upd τ.host.storage h (2 ^ 248) } ∧
      errWord σ' = errWord τ ∧
      ∀ x, x < σ.nextFree + 32 ∨ σ.nextFree + 36 ≤ x → σ'.mem x = τ.mem x) := by
  refine (constructor_first rfl hσ hr hh hf fun τ h1 _ => hi τ h1).mono ?_
  rintro r σ' ⟨rfl, τ, hI, rfl⟩
  refine ⟨rfl, τ, hI, rfl, ?_, fun x hx => putLe_out (by omega)⟩
  have hb := hσ.base
  unfold reserved at hb
  exact leNat_congr fun x (h1 : 256 ≤ x) (h2 : x < 256 + 4) => putLe_out (by omega)

/-- **C68** After a call of the constructor that came back, no later call has an effect, in any state
in which the flag is as the first call left it. -/
theorem C68_once {h : Nat} {init : Fn} (hσ : Heap σ) (hr : Room σ 68) (hh : h < 2 ^ 256)
    (hi : ∀ τ, Extends σ τ → init.Calls [σ.nextFree + 64] τ (fun r τ' => r = [] ∧ τ.size ≤ τ'.size ∧
      ∀ x, σ.nextFree ≤ x → x < σ.nextFree + 64 → τ'.mem x = τ.mem x)) :
    (constructor h init).Calls [] σ (fun _ σ' => ∀ σ2, Heap σ2 → Room σ2 64 → σ2.host.storage h = σ'.host.storage h →
      ∀ init2, (constructor h init2).Calls [] σ2 (fun r σ3 => r = [] ∧ Extends σ2 σ3)) := by
  by_cases hf : σ.host.storage h % 2 ^ 256 = 0
  · refine (C68_first (I := fun _ => True) hσ hr hh hf fun τ hτ => (hi τ hτ).mono fun _ _ a => ⟨a.1, trivial, a.2⟩).mono ?_
    rintro r σ' ⟨-, τ, -, e, -⟩ σ2 h2 r2 hs init2
    refine C68_skip h2 r2 hh ?_
    rw [hs, e]
    simp only [show ∀ (S : Nat → Nat) (v : Nat), upd S h v h = v from fun S v => if_pos rfl]
    decide
  · refine (C68_skip hσ (hr.mono (by omega)) hh hf).mono ?_
    rintro r σ' ⟨-, x⟩ σ2 h2 r2 hs init2
    refine C68_skip h2 r2 hh ?_
    rw [hs, x.host]
    exact hf

/-- An initialisation function that increments the word in slot 7 of storage. -/
def init0 : Fn := ⟨1, 0, 2, code[Op.c32 32, alloc.call, Op.lset 1, Op.c32 32, alloc.call, Op.lset 2,
  Op.lget 1, Op.c32 7, Op.store 1 31, Op.lget 1, Op.lget 2, Op.host .storageLoad,
  Op.lget 2, Op.lget 2, Op.load 1 31, Op.c32 1, Op.bin .w32 .add, Op.store 1 31,
  Op.lget 1, Op.lget 2, Op.host .storageCache]⟩

example : (constructor 5 init0).Calls [] store0 (fun r σ' => r = [] ∧
    (σ'.host.storage 7, σ'.host.committed 7, σ'.host.storage 5) = (1, 1, 2 ^ 248)) :=
  calls_of_obs 1000 (fun σ' => (σ'.host.storage 7, σ'.host.committed 7, σ'.host.storage 5)) [] _ rfl (by decide +kernel)

/-- The function that traps. -/
def init1 : Fn := ⟨1, 0, 0, code[Op.unreachable]⟩

example : (constructor 5 init1).Calls [] { store0 with host := { host0 with storage := fun _ => 1 } }
    (fun r σ' => r = [] ∧ Extends { store0 with host := { host0 with storage := fun _ => 1 } } σ') :=
  C68_skip store0_heap.withHost ⟨by decide, by decide⟩ (by decide) (by decide)

/-- An initialisation function that does nothing meets the hypotheses of the other two. -/
example : (constructor 5 ⟨1, 0, 0, []⟩).Calls [] store0 (fun _ σ' => ∀ σ2, Heap σ2 → Room σ2 64 →
    σ2.host.storage 5 = σ'.host.storage 5 → ∀ init2, (constructor 5 init2).Calls [] σ2 (fun r σ3 => r = [] ∧ Extends σ2 σ3)) :=
  C68_once store0_heap ⟨by decide, by decide⟩ (by decide) fun τ _ =>
    ⟨rfl, by rw [wp_nil]; exact ⟨rfl, Nat.le_refl _, fun _ _ _ => rfl⟩⟩

/-! ## C69: fresh identifiers -/

/-- **C69** A new identifier is the hash of the time, the block number and the counter; the counter in
storage goes up by one (and from the largest 32-bit number to zero); nothing else changes. -/
theorem C69_fresh {h : Nat} (hσ : Heap σ) (hr : Room σ 116) (hh : h < 2 ^ 256) :
    (freshId h).Calls [] σ (fun r σ' => ∃ p, r = [p] ∧ σ.nextFree ≤ p ∧ p + 32 ≤ σ'.nextFree ∧ Minted h σ σ' p) := by
  refine (freshId_spec hσ hr hh).mono ?_
  rintro r σ' ⟨rfl, hm⟩
  exact ⟨_, rfl, by omega, by rw [hm.nextFree]; omega, hm⟩

/-- The hash function does not collide on the inputs used. -/
def Collisionless (K : List UInt8 → Nat) : Prop :=
  ∀ x y : List UInt8, x.length = 20 → y.length = 20 → K x % 2 ^ 256 = K y % 2 ^ 256 → x = y

theorem bytesLe_inj {n a b : Nat} (h : bytesLe n a = bytesLe n b) : a % 256 ^ n = b % 256 ^ n := by
  rw [← leNat_putLe_same (fun _ => 0) 0 n a, ← leNat_putLe_same (fun _ => 0) 0 n b]
  refine leNat_congr fun x h1 h2 => ?_
  rw [putLe_in h1 h2, putLe_in h1 h2]
  have h3 : x < (bytesLe n a).length := by simp [bytesLe]; omega
  have h4 : x < (bytesLe n b).length := by simp [bytesLe]; omega
  have : (bytesLe n a)[x] = (bytesLe n b)[x] := by simp only [h]
  simpa [bytesLe] using this

/-- **C69** Identifiers are unique: of fewer than 2^32 identifiers made one after the other, in any
number of transactions (any code may run in between, at any time and block, as long as it does not write
the slot of the counter), no two are equal. -/
theorem C69_unique {h : Nat} {K : List UInt8 → Nat} (hK : Collisionless K) (hh : h < 2 ^ 256)
    (σ τ : Nat → Store) (p : Nat → Nat)
    (hheap : ∀ i, Heap (σ i)) (hroom : ∀ i, Room (σ i) 116) (hkec : ∀ i, (σ i).host.keccak = K)
    (hrun : ∀ i, (freshId h).Calls [] (σ i) (fun r σ' => r = [p i] ∧ σ' = τ i))
    (hkeep : ∀ i, (σ (i + 1)).host.storage h = (τ i).host.storage h) :
    ∀ i j, i < j → j < i + 2 ^ 32 → beNat (τ i).mem (p i) 32 ≠ beNat (τ j).mem (p j) 32 := by
  have hm : ∀ i, Minted h (σ i) (τ i) (p i) := fun i => by
    obtain ⟨r, σ', ⟨rfl, rfl⟩, h1, h2⟩ := (hrun i).unique (freshId_spec (hheap i) (hroom i) hh)
    simp only [List.cons.injEq, and_true] at h1
    rw [h1]; exact h2
  have hstep : ∀ i, counterOf ((σ (i + 1)).host.storage h % 2 ^ 256) = (counterOf ((σ i).host.storage h % 2 ^ 256) + 1) % 2 ^ 32 := by
    intro i
    obtain ⟨w, w1, w2, -, w4⟩ := (hm i).host
    rw [hkeep, w4]
    simp only [show ∀ (S : Nat → Nat) (v : Nat), upd S h v h = v from fun S v => if_pos rfl]
    rw [Nat.mod_eq_of_lt w1, w2]
  have hlt : ∀ i, counterOf ((σ i).host.storage h % 2 ^ 256) < 2 ^ 32 := fun i => by
    have := bswap_lt 4 ((σ i).host.storage h % 2 ^ 256 / 2 ^ 224)
    norm_num at this ⊢
    exact this
  have hplus : ∀ i k, counterOf ((σ (i + k)).host.storage h % 2 ^ 256) = (counterOf ((σ i).host.storage h % 2 ^ 256) + k) % 2 ^ 32 := by
    intro i k
    induction k with
    | zero => rw [Nat.add_zero, Nat.add_zero, Nat.mod_eq_of_lt (hlt i)]
    | succ k ih => rw [← Nat.add_assoc, hstep, ih]; omega
  intro i j hij hj heq
  rw [(hm i).id, (hm j).id, hkec, hkec] at heq
  have := hK _ _ (by simp [bytesLe]) (by simp [bytesLe]) heq
  have := bytesLe_inj (List.append_inj' this (by simp [bytesLe])).2
  have hj' := hplus i (j - i)
  rw [show i + (j - i) = j by omega] at hj'
  have h1 := hlt i
  rw [hj'] at this
  norm_num at this
  omega

/-- A hash function without collisions. -/
def hash20 (l : List UInt8) : Nat := beNat (wrBytes (fun _ => 0) 0 l) 0 20

theorem hash20_collisionless : Collisionless hash20 := by
  intro x y hx hy h
  have h1 := beNat_lt (wrBytes (fun _ => 0) 0 x) 0 20
  have h2 := beNat_lt (wrBytes (fun _ => 0) 0 y) 0 20
  unfold hash20 at h
  rw [Nat.mod_eq_of_lt (Nat.lt_of_lt_of_le h1 (by decide)), Nat.mod_eq_of_lt (Nat.lt_of_lt_of_le h2 (by decide))] at h
  have e : rdBytes (wrBytes (fun _ => 0) 0 x) 0 20 = rdBytes (wrBytes (fun _ => 0) 0 y) 0 20 := by
    refine rdBytes_congr fun z h1 h2 => ?_
    have a := beNat_digit (wrBytes (fun _ => 0) 0 x) 0 20 (19 - z) (by omega)
    have b := beNat_digit (wrBytes (fun _ => 0) 0 y) 0 20 (19 - z) (by omega)
    rw [h] at a
    have := a.symm.trans b
    rwa [show 0 + (20 - 1 - (19 - z)) = z by omega] at this
  rw [← hx, rdBytes_wr] at e
  rw [e, hx, ← hy, rdBytes_wr]

/-- A history in which one identifier is made in every transaction, the storage being kept. -/
def storeM (S : Nat → Nat) : Store := { store0 with host := { host0 with keccak := hash20, storage := S } }

theorem storeM_heap (S : Nat → Nat) : Heap (storeM S) :=
  store0_heap.withHost

theorem storeM_room (S : Nat → Nat) : Room (storeM S) 116 := ⟨by decide, by show 1000 + 116 + 65536 ≤ 128 * 65536; omega⟩

/-- Such a history exists. -/
example : ∃ (S : Nat → Nat → Nat) (τ : Nat → Store) (p : Nat → Nat),
    (∀ i, (freshId 5).Calls [] (storeM (S i)) (fun r σ' => r = [p i] ∧ σ' = τ i)) ∧
    (∀ i, S (i + 1) 5 = (τ i).host.storage 5) ∧
    ∀ i j, i < j → j < i + 2 ^ 32 → beNat (τ i).mem (p i) 32 ≠ beNat (τ j).mem (p j) 32 := by
  have hex : ∀ S, ∃ r : Nat × Store, (freshId 5).Calls [] (storeM S) (fun x σ' => x = [r.1] ∧ σ' = r.2) := by
    intro S
    have hc := freshId_spec (h := 5) (storeM_heap S) (storeM_room S) (by decide)
    obtain ⟨n, r, σ', h1, h2, -⟩ := (Fn.calls_iff hc.1).mp hc
    exact ⟨(_, σ'), (Fn.calls_iff hc.1).mpr ⟨n, r, σ', h1, h2, rfl⟩⟩
  choose f hf using hex
  let S : Nat → Nat → Nat := fun i => Nat.rec (fun _ => 0) (fun _ s => (f s).2.host.storage) i
  refine ⟨S, fun i => (f (S i)).2, fun i => (f (S i)).1, fun i => hf _, fun i => rfl, ?_⟩
  exact C69_unique (h := 5) hash20_collisionless (by decide) (fun i => storeM (S i)) _ _ (fun i => storeM_heap _)
    (fun i => storeM_room _) (fun _ => rfl) (fun i => hf _) (fun i => rfl)

/-! ## C70: transaction, block and accounts -/

/-- **C70** `sender` returns the address of the caller, as a new address value. -/
theorem C70_sender_partial (hσ : Heap σ) (hr : Room σ 32) (hs : σ.host.sender < 2 ^ 160) :
    nativeSender.Calls [] σ (fun r σ' => ∃ p, r = [p] ∧ Extends σ σ' ∧ σ.nextFree ≤ p ∧ p + 32 ≤ σ'.nextFree ∧
      beNat σ'.mem p 32 = σ.host.sender) := by
  refine (nativeSender_spec hσ hr).mono ?_
  rintro r σ' ⟨rfl, h1, h2, h3⟩
  exact ⟨_, rfl, h1, Nat.le_refl _, by omega, by rw [h3, Nat.mod_eq_of_lt hs]⟩

/-- **C70** `data` returns a new vector of the bytes the transaction was sent with. -/
theorem C70_data_partial (hσ : Heap σ) (hr : Room σ (8 + σ.host.calldata.length)) (hd : CallData σ) :
    nativeData.Calls [] σ (fun r σ' => ∃ p, r = [p] ∧ Extends σ σ' ∧ σ.nextFree ≤ p ∧
      p + (8 + σ.host.calldata.length) ≤ σ'.nextFree ∧ ByteVec σ'.mem p σ.host.calldata) := by
  refine (nativeData_spec hσ hr hd).mono ?_
  rintro r σ' ⟨rfl, h1, h2, h3⟩
  exact ⟨_, rfl, h1, Nat.le_refl _, by omega, h3⟩

/-- **C70** `CallData`, assumed by the previous theorem, is established by the entry point. -/
theorem C70_enter {l : List Nat} (hσ : Heap σ) (hroom : Room σ σ.host.calldata.length) (hl : 4 ≤ l.length)
    (h0 : lget l 0 = σ.host.calldata.length) :
    wp routerEnter [] l σ (fun r => ∃ s l' σ', r = .ok s l' σ' ∧ Heap σ' ∧ CallData σ' ∧ σ'.host = σ.host) :=
  routerEnter_record hσ hroom hl h0

/-- **C70** `account_balance` returns the balance of the account. -/
theorem C70_balance_partial {a : Nat} (hσ : Heap σ) (hr : Room σ 32) (ha : a + 32 ≤ σ.nextFree)
    (hb : σ.host.env.balance (beNat σ.mem (a + 12) 20) < 2 ^ 256) :
    ReturnsInt nativeBalance [a] σ 32 (σ.host.env.balance (beNat σ.mem (a + 12) 20)) := by
  have := nativeBalance_spec hσ hr ha
  rwa [Nat.mod_eq_of_lt hb] at this

/-- **C70** `account_code_size` returns the size of the code of the account. -/
theorem C70_codeSize_partial {a : Nat} (ha : a + 32 ≤ σ.size) (hs : σ.size < 2 ^ 32)
    (hc : σ.host.env.codeSize (beNat σ.mem (a + 12) 20) < 2 ^ 32) :
    Evaluates nativeCodeSize [a] σ (σ.host.env.codeSize (beNat σ.mem (a + 12) 20)) := by
  have := nativeCodeSize_spec ha hs
  rwa [Nat.mod_eq_of_lt hc] at this

/-- The value a native that reads a 256-bit number returns for the number `v`: its bytes in reverse. -/
theorem C70_reversed {f : HostFn} {v : Nat} (hσ : Heap σ) (hr : Room σ 32) (hv : v < 2 ^ 256)
    (hf : f = .msgValue ∧ σ.host.env.value = v ∨ f = .baseFee ∧ σ.host.env.baseFee = v ∨
      f = .gasPrice ∧ σ.host.env.gasPrice = v) :
    ReturnsInt (hostWrapper f) [] σ 32 (bswap 32 v) := by
  refine (hostWrapper_spec (f := f) (v := v) hσ hr ?_).mono ?_
  · intro τ p s h1 h2
    rcases hf with ⟨rfl, h⟩ | ⟨rfl, h⟩ | ⟨rfl, h⟩ <;> simp only [HostFn.eval, if_pos h2, h1, h]
  · rintro r σ' ⟨rfl, h1, h2, h3⟩
    refine ⟨_, rfl, Nat.le_refl _, ⟨by omega, by omega⟩, ?_, h1⟩
    rw [← bswap_beNat, h3, Nat.mod_eq_of_lt hv]

/-- **C70 is false** of `value`, `block_basefee` and `tx_gas_price`: the host writes numbers with the
highest byte first, Move numbers have the lowest byte first, and the bytes are not swapped.  One wei
is read as 2^248. -/
theorem C70_false : ∃ σ : Store, Heap σ ∧ Room σ 32 ∧ σ.host.env.value = 1 ∧
    ReturnsInt nativeValue [] σ 32 (2 ^ 248) ∧ ¬ ReturnsInt nativeValue [] σ 32 1 := by
  let σ : Store := { store0 with host := { host0 with env := { value := 1 } } }
  have hσ : Heap σ := store0_heap.withHost
  have hr : Room σ 32 := ⟨by decide, by decide⟩
  have h1 : ReturnsInt nativeValue [] σ 32 (2 ^ 248) := by
    have := C70_reversed (f := .msgValue) (v := 1) hσ hr (by decide) (.inl ⟨rfl, rfl⟩)
    rwa [show bswap 32 1 = 2 ^ 248 by decide +kernel] at this
  refine ⟨σ, hσ, hr, rfl, h1, fun h2 => ?_⟩
  obtain ⟨r, σ', ⟨q, e, -, -, hq, -⟩, ⟨q', e', -, -, hq', -⟩⟩ := Fn.Calls.unique h1 h2
  rw [e] at e'
  simp only [List.cons.injEq, and_true] at e'
  subst e'
  rw [hq] at hq'
  exact absurd hq' (by decide)

/-- **C70** They are right for numbers that read the same from both ends, zero for example. -/
theorem C70_value_partial {f : HostFn} {v : Nat} (hσ : Heap σ) (hr : Room σ 32) (hv : v < 2 ^ 256) (hs : bswap 32 v = v)
    (hf : f = .msgValue ∧ σ.host.env.value = v ∨ f = .baseFee ∧ σ.host.env.baseFee = v ∨
      f = .gasPrice ∧ σ.host.env.gasPrice = v) :
    ReturnsInt (hostWrapper f) [] σ 32 v := by
  have := C70_reversed hσ hr hv hf
  rwa [hs] at this

/-- A state in the middle of a transaction. -/
def storeN : Store :=
  { store0 with
    mem := memW [(396, 5), (400, 600), (600, 0x04030201), (604, 5), (728, 7 * 2 ^ 24)]
    host := { host0 with calldata := [1, 2, 3, 4, 5], sender := 0xabcdef,
                         env := { balance := fun a => 1000 * a, codeSize := fun a => 10 * a } } }

theorem storeN_heap : Heap storeN := by
  have hm : ∀ x, (x < 396 ∨ 732 ≤ x) → storeN.mem x = 0 := fun x hx => memW_out fun a ha => by
    simp only [List.mem_cons, List.not_mem_nil, or_false] at ha
    rcases ha with rfl | rfl | rfl | rfl | rfl <;> simp only <;> omega
  exact ⟨⟨by show 65536 ≤ 65536; omega, by show 65536 < _; omega, leNat_zero_of fun x (h1 : 256 ≤ x) (h2 : x < 256 + 4) => hm x (by omega)⟩,
    ⟨store0_alloc.sum, store0_alloc.page, store0_alloc.first, store0_alloc.limit, store0_alloc.max, store0_alloc.small⟩,
    by show 468 ≤ 1000; omega, fun x hx => hm x (by have : 1000 ≤ x := hx; omega)⟩

theorem storeN_room {n : Nat} (h : n ≤ 1000) : Room storeN n := ⟨by omega, by show 1000 + n + 65536 ≤ 128 * 65536; omega⟩

example : nativeSender.Calls [] storeN (fun r σ' => ∃ p, r = [p] ∧ Extends storeN σ' ∧ storeN.nextFree ≤ p ∧
    p + 32 ≤ σ'.nextFree ∧ beNat σ'.mem p 32 = 0xabcdef) :=
  C70_sender_partial storeN_heap (storeN_room (by omega)) (by decide)
example : nativeData.Calls [] storeN (fun r σ' => ∃ p, r = [p] ∧ Extends storeN σ' ∧ storeN.nextFree ≤ p ∧
    p + (8 + 5) ≤ σ'.nextFree ∧ ByteVec σ'.mem p [1, 2, 3, 4, 5]) :=
  C70_data_partial storeN_heap (storeN_room (by decide)) ⟨by decide +kernel, by decide +kernel, by decide +kernel⟩
example : ReturnsInt nativeBalance [700] storeN 32 7000 := by
  have h : beNat storeN.mem (700 + 12) 20 = 7 := by decide +kernel
  have := C70_balance_partial (a := 700) storeN_heap (storeN_room (by omega)) (by decide) (by rw [h]; decide)
  rw [h] at this
  exact this
example : Evaluates nativeCodeSize [700] storeN 70 := by
  have h : beNat storeN.mem (700 + 12) 20 = 7 := by decide +kernel
  have := C70_codeSize_partial (σ := storeN) (a := 700) (by decide) (by decide) (by rw [h]; decide)
  rw [h] at this
  exact this

end Props
