import Verif.Proof.Dynamic2
import Verif.Proof.Dynamic4
import Verif.Props.Delete
import Verif.Props.Transfer

/-!
# Dynamic fields: C73, C74, C75

The hash function of the host is arbitrary.
-/

namespace Props
open Wasm Rt Slots Mv Layout

variable {σ σ2 : Store} {E : ErrPtrs} {T : Ty → Nat}

/-! ### C73: the ids of dynamic fields -/

/-- A key in memory: the 32 bytes at `p` are the id of the parent, and `w` is the value `v` of type `t`. -/
structure KeyArgs (σ : Store) (t : Ty) (v : Val) (p w n : Nat) : Prop where
  heap : Heap σ
  rep : Mv.Rep σ.mem (fun x => x < σ.nextFree) t v w
  parent : p + 32 ≤ σ.nextFree
  full : Full t v
  room : Room σ (64 + (keyBytes t v).length + n)

/-- **C73** The id of a field is a function of the id of the parent and the key, and for two keys of the same type the ids are
equal only if the parents and the keys are.  Memory in use is not changed, and the id is in new memory.  The hash is
assumed to have no collision among the strings of `S`.

Missing: empty vectors and strings (`Full`, `C73_false_empty`), types with a vector that is not at the end (`keyDet`,
`C73_false_collision`), keys of different types (`C73_false_types`). -/
theorem C73_partial {t : Ty} {v v2 : Val} {w p w2 p2 : Nat} {name : List UInt8} {S : List UInt8 → Prop} (ht : keyTy t = true) (hd : keyDet t = true)
    (h : KeyArgs σ t v p w name.length) (h2 : KeyArgs σ2 t v2 p2 w2 name.length) (hK : σ2.host.keccak = σ.host.keccak)
    (hS : ∀ x y, S x → S y → σ.host.keccak x % 2 ^ 256 = σ.host.keccak y % 2 ^ 256 → x = y)
    (hx : S (rdBytes σ.mem p 32 ++ keyBytes t v ++ name)) (hy : S (rdBytes σ2.mem p2 32 ++ keyBytes t v2 ++ name)) :
    (hashKey t name).Calls [p, w] σ fun r σ' => (hashKey t name).Calls [p2, w2] σ2 fun r2 σ2' => ∃ q q2, r = [q] ∧ r2 = [q2] ∧
      Extends σ σ' ∧ σ.nextFree ≤ q ∧ q + 32 ≤ σ'.nextFree ∧
      (beNat σ'.mem q 32 = beNat σ2'.mem q2 32 ↔ rdBytes σ.mem p 32 = rdBytes σ2.mem p2 32 ∧ v = v2) := by
  refine (hashKey_spec (name := name) h.heap ht h.rep (fun _ h => h) h.full h.parent h.room).mono ?_
  rintro r σ' ⟨q, rfl, hq⟩
  refine (hashKey_spec (name := name) h2.heap ht h2.rep (fun _ h => h) h2.full h2.parent h2.room).mono ?_
  rintro r σ2' ⟨q2, rfl, hq2⟩
  have e1 := hq.inside
  have e2 := hq.nextFree
  refine ⟨q, q2, rfl, rfl, hq.ext, by omega, by omega, ?_⟩
  rw [hq.id, hq2.id, hK]
  constructor
  · intro e
    have e' := hS _ _ hx hy e
    rw [List.append_assoc, List.append_assoc] at e'
    obtain ⟨e3, e4⟩ := List.append_inj e' (by rw [rdBytes_length, rdBytes_length])
    exact ⟨e3, keyBytes_det t hd (Rep.keyVal t ht h.rep) (Rep.keyVal t ht h2.rep) (List.append_cancel_right e4)⟩
  · rintro ⟨e3, rfl⟩
    rw [e3]

theorem repU8s {f : Bytes} {R : Nat → Prop} {w : Nat} {ns : List Nat} {c : Nat} (h1 : leNat f w 4 = ns.length)
    (h2 : leNat f (w + 4) 4 = c) (h3 : ns.length ≤ c) (h4 : Within R w (8 + c))
    (h5 : ∀ i (h : i < ns.length), leNat f (w + 8 + i) 1 = ns[i] ∧ ns[i] < 256) :
    Mv.Rep f R (.vec .u8) (.vec (ns.map .num)) w := by
  simp only [Mv.Rep]
  refine ⟨_, rfl, by simpa using h1, by rw [h2]; simpa using h3, by rw [h2]; simpa [Ty.size] using h4, fun i hi => ?_⟩
  have hi' : i < ns.length := by simpa using hi
  obtain ⟨h6, h7⟩ := h5 i hi'
  simp only [Ty.size, Nat.mul_one, h6, List.getElem_map]
  exact ⟨trivial, by omega⟩

/-- Two keys, `{5, [7, 9]}` at 700 and `{5, [7]}` at 760, and the id 20 at 940. -/
def wsK : List (Nat × Nat) := [(700, 720), (704, 730), (720, 5), (730, 2), (734, 2), (738, 7 + 9 * 256), (760, 720), (764, 780), (780, 1), (784, 1),
  (788, 7), (968, 20 * 2 ^ 24)]

/-- A struct with the byte 5 and a vector. -/
theorem keyK {ns : List Nat} {w q : Nat} (h0 : q + 8 + ns.length ≤ 1000) (h0' : w + 8 ≤ 1000) (h1 : leNat (memO wsK) w 4 = 720)
    (h2 : leNat (memO wsK) (w + 4) 4 = q) (h3 : leNat (memO wsK) q 4 = ns.length) (h4 : leNat (memO wsK) (q + 4) 4 = ns.length)
    (h5 : ∀ i (h : i < ns.length), leNat (memO wsK) (q + 8 + i) 1 = ns[i] ∧ ns[i] < 256) (h6 : ns ≠ [])
    (h7 : (keyBytes (.struct [.u8, .vec .u8]) (.struct [.num 5, .vec (ns.map .num)])).length ≤ 1000) :
    KeyArgs (storeT wsK 0) (.struct [.u8, .vec .u8]) (.struct [.num 5, .vec (ns.map .num)]) 940 w 1 := by
  refine ⟨storeT_heap _ (by decide), ?_, by show 972 ≤ 1000; omega, ?_, storeT_room (by omega)⟩
  · have e : leNat (memO wsK) 720 1 = 5 := by decide +kernel
    show Mv.Rep (memO wsK) (fun x => x < 1000) _ _ _
    rw [Mv.Rep]
    refine ⟨_, rfl, ?_⟩
    rw [Mv.RepFs]
    refine ⟨_, _, rfl, fun x a b => by omega, fun _ x a b => ?_, ?_, ?_⟩
    · have : Ty.u8.size = 1 := rfl
      omega
    · rw [if_pos (by rfl), h1, show Ty.u8.size = 1 from rfl, e]
      simp [Mv.Rep]
    rw [Mv.RepFs]
    refine ⟨_, _, rfl, fun x a b => by omega, fun h => absurd h (by simp [Ty.scalar]), ?_, rfl⟩
    rw [if_neg (by simp [Ty.scalar]), h2]
    exact repU8s h3 h4 (Nat.le_refl _) (fun x a b => by omega) h5
  · simp [Full, FullFs, h6]

theorem keyK1 : KeyArgs (storeT wsK 0) (.struct [.u8, .vec .u8]) (.struct [.num 5, .vec ([7, 9].map .num)]) 940 700 1 :=
  keyK (q := 730) (by decide) (by decide) (by decide +kernel) (by decide +kernel) (by decide +kernel) (by decide +kernel) (by decide +kernel)
    (by decide) (by decide +kernel)

theorem keyK2 : KeyArgs (storeT wsK 0) (.struct [.u8, .vec .u8]) (.struct [.num 5, .vec ([7].map .num)]) 940 760 1 :=
  keyK (q := 780) (by decide) (by decide) (by decide +kernel) (by decide +kernel) (by decide +kernel) (by decide +kernel) (by decide +kernel)
    (by decide) (by decide +kernel)

example : (hashKey (.struct [.u8, .vec .u8]) [75]).Calls [940, 700] (storeT wsK 0) (fun r σ' =>
    (hashKey (.struct [.u8, .vec .u8]) [75]).Calls [940, 760] (storeT wsK 0) fun r2 σ2' => ∃ q q2, r = [q] ∧ r2 = [q2] ∧
      beNat σ'.mem q 32 ≠ beNat σ2'.mem q2 32) := by
  have e1 : hashT (rdBytes (memO wsK) 940 32 ++ keyBytes (.struct [.u8, .vec .u8]) (.struct [.num 5, .vec ([7, 9].map .num)]) ++ [75]) % 2 ^ 256 = 116036 := by decide +kernel
  have e2 : hashT (rdBytes (memO wsK) 940 32 ++ keyBytes (.struct [.u8, .vec .u8]) (.struct [.num 5, .vec ([7].map .num)]) ++ [75]) % 2 ^ 256 = 107035 := by decide +kernel
  refine (C73_partial (name := [75]) (S := fun x =>
    x = rdBytes (memO wsK) 940 32 ++ keyBytes (.struct [.u8, .vec .u8]) (.struct [.num 5, .vec ([7, 9].map .num)]) ++ [75] ∨
    x = rdBytes (memO wsK) 940 32 ++ keyBytes (.struct [.u8, .vec .u8]) (.struct [.num 5, .vec ([7].map .num)]) ++ [75])
    rfl rfl keyK1 keyK2 rfl ?_ (.inl rfl) (.inr rfl)).mono fun r σ' h => h.mono ?_
  · intro x y hx hy h
    change hashT x % 2 ^ 256 = hashT y % 2 ^ 256 at h
    rcases hx with rfl | rfl <;> rcases hy with rfl | rfl
    · rfl
    · rw [e1, e2] at h; omega
    · rw [e1, e2] at h; omega
    · rfl
  · rintro r2 σ2' ⟨q, q2, h1, h2, -, -, -, h3⟩
    exact ⟨q, q2, h1, h2, fun h => absurd (h3.mp h).2 (by simp)⟩

/-- A call with an empty vector as key traps, in every state. -/
theorem C73_false_empty {t : Ty} {w p : Nat} {name : List UInt8} (ht : keyPrim t = true) (hσ : Heap σ)
    (hp : p + 32 ≤ σ.nextFree) (hr : Mv.Rep σ.mem (fun x => x < σ.nextFree) (.vec t) (.vec []) w) : (hashKey (.vec t) name).Traps [p, w] σ := by
  simp only [Mv.Rep] at hr
  obtain ⟨vs, hv, hl, -, hw, -⟩ := hr
  simp only [Val.vec.injEq] at hv
  subst hv
  refine hashKey_trapsVec ht hσ ?_ hp (by rw [hl]; rfl)
  have := hw (w + 7) (by omega) (by omega)
  omega

example : (hashKey (.vec .u32) [118]).Traps [940, 600] (storeT wsK 0) :=
  C73_false_empty rfl (storeT_heap _ (by decide)) (by show 972 ≤ 1000; omega) (by
    simp only [Mv.Rep]
    exact ⟨[], rfl, show leNat (memO wsK) 600 4 = 0 by decide +kernel, Nat.zero_le _, fun x a b => by
      have : leNat (storeT wsK 0).mem (600 + 4) 4 = 0 := show leNat (memO wsK) 604 4 = 0 by decide +kernel
      rw [this] at b
      show x < 1000
      omega, fun i hi => absurd hi (by simp)⟩)

/-- So does a call with an empty string, which is a struct with an empty vector of bytes as its only field. -/
theorem C73_false_string {w p : Nat} {name : List UInt8} (hσ : Heap σ) (hp : p + 32 ≤ σ.nextFree)
    (hr : Mv.Rep σ.mem (fun x => x < σ.nextFree) (.struct [.vec .u8]) (.struct [.vec []]) w) : (hashKey (.struct [.vec .u8]) name).Traps [p, w] σ := by
  simp only [Mv.Rep, Mv.RepFs, Ty.scalar, Bool.false_eq_true, if_false] at hr
  obtain ⟨vs, hv, x, xs, rfl, h1, -, ⟨ys, rfl, hl, -, hw, -⟩, rfl⟩ := hr
  simp only [Val.struct.injEq, List.cons.injEq, Val.vec.injEq, and_true] at hv
  subst hv
  refine hashKey_trapsStruct rfl hσ ?_ ?_ hp (by rw [hl]; rfl)
  · have := h1 (w + 3) (by omega) (by omega)
    omega
  · have := hw (leNat σ.mem w 4 + 7) (by omega) (by omega)
    omega

/-- For every parent the two keys have the same id, whatever the hash function is. -/
def Collide (t : Ty) (name : List UInt8) (v : Val) (t2 : Ty) (name2 : List UInt8) (v2 : Val) : Prop :=
  ∀ (σ σ2 : Store) (p w p2 w2 : Nat), KeyArgs σ t v p w name.length → KeyArgs σ2 t2 v2 p2 w2 name2.length →
    σ2.host.keccak = σ.host.keccak → rdBytes σ2.mem p2 32 = rdBytes σ.mem p 32 →
    (hashKey t name).Calls [p, w] σ fun r σ' => (hashKey t2 name2).Calls [p2, w2] σ2 fun r2 σ2' => ∃ q q2, r = [q] ∧ r2 = [q2] ∧
      beNat σ'.mem q 32 = beNat σ2'.mem q2 32

theorem collide {t t2 : Ty} {name name2 : List UInt8} {v v2 : Val} (ht : keyTy t = true) (ht2 : keyTy t2 = true)
    (h : keyBytes t v ++ name = keyBytes t2 v2 ++ name2) : Collide t name v t2 name2 v2 := by
  intro σ σ2 p w p2 w2 h1 h2 hK hp
  refine (hashKey_spec (name := name) h1.heap ht h1.rep (fun _ h => h) h1.full h1.parent h1.room).mono ?_
  rintro r σ' ⟨q, rfl, hq⟩
  refine (hashKey_spec (name := name2) h2.heap ht2 h2.rep (fun _ h => h) h2.full h2.parent h2.room).mono ?_
  rintro r σ2' ⟨q2, rfl, hq2⟩
  refine ⟨q, q2, rfl, rfl, ?_⟩
  rw [hq.id, hq2.id, hK, hp, List.append_assoc, List.append_assoc, h]

/-- The lengths of vectors are not hashed: of a struct with two vectors of bytes, the values `{[1], [2, 3]}` and `{[1, 2], [3]}`
have the same id. -/
theorem C73_false_collision (name : List UInt8) : Collide (.struct [.vec .u8, .vec .u8]) name (.struct [.vec [.num 1], .vec [.num 2, .num 3]])
    (.struct [.vec .u8, .vec .u8]) name (.struct [.vec [.num 1, .num 2], .vec [.num 3]]) :=
  collide rfl rfl (by simp [keyBytes, keyBytesFs])

/-- The keys `{[1], [2, 3]}` at 700 and `{[1, 2], [3]}` at 760. -/
def wsVv : List (Nat × Nat) := [(700, 820), (704, 840), (760, 860), (764, 880), (820, 1), (824, 1), (828, 1), (840, 2), (844, 2), (848, 2 + 3 * 256),
  (860, 2), (864, 2), (868, 1 + 2 * 256), (880, 1), (884, 1), (888, 3)]

theorem keyV {ns ms : List Nat} {w q r : Nat} (h0 : q + 8 + ns.length ≤ 1000) (h0' : r + 8 + ms.length ≤ 1000) (h0'' : w + 8 ≤ 1000) (h1 : leNat (memO wsVv) w 4 = q)
    (h2 : leNat (memO wsVv) (w + 4) 4 = r) (h3 : leNat (memO wsVv) q 4 = ns.length) (h4 : leNat (memO wsVv) (q + 4) 4 = ns.length)
    (h5 : ∀ i (h : i < ns.length), leNat (memO wsVv) (q + 8 + i) 1 = ns[i] ∧ ns[i] < 256) (h6 : ns ≠ [])
    (h3' : leNat (memO wsVv) r 4 = ms.length) (h4' : leNat (memO wsVv) (r + 4) 4 = ms.length)
    (h5' : ∀ i (h : i < ms.length), leNat (memO wsVv) (r + 8 + i) 1 = ms[i] ∧ ms[i] < 256) (h6' : ms ≠ [])
    (h7 : (keyBytes (.struct [.vec .u8, .vec .u8]) (.struct [.vec (ns.map .num), .vec (ms.map .num)])).length ≤ 1000) :
    KeyArgs (storeT wsVv 0) (.struct [.vec .u8, .vec .u8]) (.struct [.vec (ns.map .num), .vec (ms.map .num)]) 940 w 1 := by
  refine ⟨storeT_heap _ (by decide), ?_, by show 972 ≤ 1000; omega, ?_, storeT_room (by omega)⟩
  · show Mv.Rep (memO wsVv) (fun x => x < 1000) _ _ _
    rw [Mv.Rep]
    refine ⟨_, rfl, ?_⟩
    rw [Mv.RepFs]
    refine ⟨_, _, rfl, fun x a b => by omega, fun h => absurd h (by simp [Ty.scalar]), ?_, ?_⟩
    · rw [if_neg (by simp [Ty.scalar]), h1]
      exact repU8s h3 h4 (Nat.le_refl _) (fun x a b => by omega) h5
    rw [Mv.RepFs]
    refine ⟨_, _, rfl, fun x a b => by omega, fun h => absurd h (by simp [Ty.scalar]), ?_, rfl⟩
    rw [if_neg (by simp [Ty.scalar]), h2]
    exact repU8s h3' h4' (Nat.le_refl _) (fun x a b => by omega) h5'
  · simp [Full, FullFs, h6, h6']

example : (hashKey (.struct [.vec .u8, .vec .u8]) [75]).Calls [940, 700] (storeT wsVv 0) fun r σ' =>
    (hashKey (.struct [.vec .u8, .vec .u8]) [75]).Calls [940, 760] (storeT wsVv 0) fun r2 σ2' => ∃ q q2, r = [q] ∧ r2 = [q2] ∧
      beNat σ'.mem q 32 = beNat σ2'.mem q2 32 :=
  C73_false_collision [75] _ _ _ _ _ _
    (keyV (ns := [1]) (ms := [2, 3]) (q := 820) (r := 840) (by decide) (by decide) (by decide) (by decide +kernel) (by decide +kernel) (by decide +kernel)
      (by decide +kernel) (by decide +kernel) (by decide) (by decide +kernel) (by decide +kernel) (by decide +kernel) (by decide) (by decide +kernel))
    (keyV (ns := [1, 2]) (ms := [3]) (q := 860) (r := 880) (by decide) (by decide) (by decide) (by decide +kernel) (by decide +kernel) (by decide +kernel)
      (by decide +kernel) (by decide +kernel) (by decide) (by decide +kernel) (by decide +kernel) (by decide +kernel) (by decide) (by decide +kernel))
    rfl rfl

/-- Nothing separates the key from the name of its type: the value `{1, 65}` of a struct `B` with two bytes and the value
`{1}` of a struct `AB` with one have the same id. -/
theorem C73_false_types : Collide (.struct [.u8, .u8]) [66] (.struct [.num 1, .num 65]) (.struct [.u8]) [65, 66] (.struct [.num 1]) :=
  collide rfl rfl (by decide)

/-! ### C74: adding, finding and borrowing dynamic fields -/

/-- Adding a field to the object whose id is at `kp`: afterwards storage holds the field, under this id; no other slot
changes. -/
theorem C74_add_partial {R : Nat → Prop} {fs : List Ty} {uid : Val} {vs : List Val} {w kp ow : Nat} (hσ : Heap σ) (hst : Statics σ)
    (hfs : StorableFs fs) (hv : SmallFs fs vs) (hk : kp + 32 ≤ σ.nextFree) (hsafe : Safe σ R 128)
    (hrep : Mv.Rep σ.mem R (.object (uidTy :: fs)) (.object ow (uid :: vs)) w) (hroom : Room σ (32 + ecostFs fs vs))
    (hsp : Spread σ.host.keccak fs uid vs (objectSlot σ.host.keccak (beNat σ.mem kp 32) (idOf uid)))
    (hgr : HeadsFs Grows σ.host.keccak σ.host.storage (idOf uid) fs vs (objectSlot σ.host.keccak (beNat σ.mem kp 32) (idOf uid), 8)) :
    (addChild E T uidTy fs).Calls [kp, w] σ (fun r σ' => r = [] ∧ Heap σ' ∧
      σ'.host = { σ.host with storage := σ'.host.storage } ∧
      Stored σ.host.keccak (tagOf T) σ'.host.storage fs uid vs (objectSlot σ.host.keccak (beNat σ.mem kp 32) (idOf uid)) ∧
      ∀ x, Off (area σ.host.keccak fs uid vs (objectSlot σ.host.keccak (beNat σ.mem kp 32) (idOf uid))) x → σ'.host.storage x = σ.host.storage x) := by
  refine addChild_run hσ hst hsafe hrep hk hroom fun σ1 a hp hs1 hr1 hroom1 => ?_
  have hb := hσ.base
  unfold reserved at hb
  have hn := hp.new
  have hf := hp.nextFree
  have hsl := hp.slot
  refine (C59_partial (E := E) (T := T) hp.later.heap hp.statics hfs hv (.inr (by omega)) (by omega) hs1 hr1 hroom1
    (by rw [hsl, hp.host]; exact hsp) (by rw [hsl, hp.host]; exact hgr)).mono fun r σ' h => ?_
  rw [hsl, hp.host] at h
  exact ⟨h.1, h.2.1, h.2.2.1, h.2.2.2.1, h.2.2.2.2.1⟩

/-- The arguments of the functions that look for a field: the parent has its id at `kp`, the id of the field is at `c`. -/
structure Asks (σ : Store) (kp c : Nat) : Prop where
  heap : Heap σ
  statics : Statics σ
  parent : kp + 32 ≤ σ.nextFree
  high : 468 ≤ kp
  id : c + 32 ≤ σ.nextFree
  low : 468 ≤ c

/-- Nothing but scratch memory of the runtime changes. -/
def Quiet (σ σ' : Store) : Prop := σ'.host = σ.host ∧ σ'.nextFree = σ.nextFree ∧ ∀ x, 468 ≤ x → σ'.mem x = σ.mem x

theorem Looked.quiet {σ' : Store} {o i : Nat} (h : Looked σ σ' o i) : Quiet σ σ' :=
  ⟨h.touches.host, h.touches.nextFree, fun x hx => h.touches.mem x (by unfold lookupBuf; omega)⟩

theorem stored_pos {fs : List Ty} {uid : Val} {vs : List Val} {slot : Nat} {K : List UInt8 → Nat} {S : Nat → Nat} (hT : Tags T)
    (hs : Stored K (tagOf T) S fs uid vs slot) : S slot % 2 ^ 256 ≠ 0 := by
  intro hz
  have hpos := bswap_pos (n := 8) (hT (.object (uidTy :: fs))).1 (Nat.lt_of_lt_of_eq (hT _).2 (by norm_num))
  have h1 := hs.tag
  rw [← dig_word (x := S slot) (i := 0) (n := 8) (by omega), hz] at h1
  unfold dig at h1
  rw [Nat.zero_div, Nat.zero_mod] at h1
  unfold tagOf at h1
  omega

/-- **C74** A field that storage holds, of whatever type, exists. -/
theorem C74_exists {kp c : Nat} {fs : List Ty} {uid : Val} {vs : List Val} (hT : Tags T) (h : Asks σ kp c)
    (hs : Stored σ.host.keccak (tagOf T) σ.host.storage fs uid vs (objectSlot σ.host.keccak (beNat σ.mem kp 32) (beNat σ.mem c 32))) :
    hasChild.Calls [kp, c] σ (fun r σ' => r = [1] ∧ Quiet σ σ') := by
  refine (hasChild_spec h.heap h.statics h.parent h.id h.low).mono ?_
  rintro r σ' ⟨rfl, hl⟩
  exact ⟨congrArg (fun x => [x]) (b2n_pos (stored_pos hT hs)), Looked.quiet hl⟩

/-- **C74** A field whose slot is empty does not exist. -/
theorem C74_not_exists {kp c : Nat} (h : Asks σ kp c)
    (hs : σ.host.storage (objectSlot σ.host.keccak (beNat σ.mem kp 32) (beNat σ.mem c 32)) = 0) :
    hasChild.Calls [kp, c] σ (fun r σ' => r = [0] ∧ Quiet σ σ') := by
  refine (hasChild_spec h.heap h.statics h.parent h.id h.low).mono ?_
  rintro r σ' ⟨rfl, hl⟩
  refine ⟨congrArg (fun x => [x]) (b2n_neg ?_), Looked.quiet hl⟩
  rw [hs, Nat.zero_mod]
  exact fun h => h rfl

/-- **C74** A field exists with a type if the hash of the type is that of the type of the field. -/
theorem C74_exists_type {kp c : Nat} {fs gs : List Ty} {uid : Val} {vs : List Val} (hT : Tags T) (h : Asks σ kp c)
    (hs : Stored σ.host.keccak (tagOf T) σ.host.storage fs uid vs (objectSlot σ.host.keccak (beNat σ.mem kp 32) (beNat σ.mem c 32))) :
    (hasChildTy (T (.object (uidTy :: gs)))).Calls [kp, c] σ (fun r σ' =>
      r = [if T (.object (uidTy :: fs)) = T (.object (uidTy :: gs)) then 1 else 0] ∧ Quiet σ σ') := by
  refine (hasChildTy_spec h.heap h.statics h.parent h.id h.low (hT _).2).mono ?_
  rintro r σ' ⟨rfl, hl⟩
  refine ⟨?_, Looked.quiet hl⟩
  have h0 := stored_pos hT hs
  have h1 := hs.tag
  rw [h1]
  unfold tagOf
  have hinj : bswap 8 (T (.object (uidTy :: fs))) = bswap 8 (T (.object (uidTy :: gs))) → T (.object (uidTy :: fs)) = T (.object (uidTy :: gs)) := by
    intro he
    have h1 := congrArg (bswap 8) he
    rwa [bswap_bswap, bswap_bswap, Nat.mod_eq_of_lt (Nat.lt_of_lt_of_eq (hT _).2 (by norm_num)),
      Nat.mod_eq_of_lt (Nat.lt_of_lt_of_eq (hT _).2 (by norm_num))] at h1
  by_cases he : T (.object (uidTy :: fs)) = T (.object (uidTy :: gs))
  · rw [if_pos he, b2n_pos ⟨h0, by rw [he]⟩]
  · rw [if_neg he, b2n_neg fun h => he (hinj h.2)]

/-- A reference `p` to the `UID` of the parent, whose id is at `kp`. -/
structure Borrows (σ : Store) (p kp c : Nat) : Prop extends Asks σ kp c where
  ref : p + 4 ≤ σ.nextFree
  inner : leNat σ.mem p 4 + 4 ≤ σ.nextFree
  bytes : leNat σ.mem (leNat σ.mem p 4) 4 = kp

/-- `q` is a reference to the field, a new value in memory whose owner is the id of the parent. -/
def Lent (σ σ' : Store) (q kp c : Nat) (fs : List Ty) (uid : Val) (vs : List Val) : Prop :=
  ∃ vs', Heap σ' ∧ σ'.host = σ.host ∧ (∀ x, 468 ≤ x → x < σ.nextFree → σ'.mem x = σ.mem x) ∧ eraseL vs' = eraseL vs ∧
    σ.nextFree ≤ q ∧ q + 4 ≤ σ'.nextFree ∧
    Mv.Rep σ'.mem (fun x => Between c (c + 32) x ∨ σ.nextFree ≤ x ∧ x < q) (.object (uidTy :: fs)) (.object (beNat σ.mem kp 32) (uid :: vs'))
      (leNat σ'.mem q 4)

/-- **C74** A field that storage holds is borrowed: the call returns a reference to it. -/
theorem C74_borrow_partial {p kp c : Nat} {fs : List Ty} {uid : Val} {vs : List Val} (hT : Tags T) (h : Borrows σ p kp c)
    (hfs : StorableFs fs) (hty : TypedFs fs vs) (huid : uid = .struct [.struct [.num (beNat σ.mem c 32)]])
    (hf : freshFs fs vs (objectSlot σ.host.keccak (beNat σ.mem kp 32) (beNat σ.mem c 32), 8) true ≠ none)
    (hs : Stored σ.host.keccak (tagOf T) σ.host.storage fs uid vs (objectSlot σ.host.keccak (beNat σ.mem kp 32) (beNat σ.mem c 32)))
    (hseg : ∀ g ∈ area σ.host.keccak fs uid vs (objectSlot σ.host.keccak (beNat σ.mem kp 32) (beNat σ.mem c 32)), g.2 < 2 ^ 256)
    (hroom : Room σ (32 + (48 + 4 * fs.length + dcostFs fs vs + 4)))
    (hedge : narrowFs fs = true → σ.nextFree + (32 + (48 + 4 * fs.length + dcostFs fs vs)) + 3 ≤ σ.size) :
    (borrowChild E T uidTy fs).Calls [p, c] σ (fun r σ' => ∃ q, r = [q] ∧ Lent σ σ' q kp c fs uid vs) := by
  have hb := h.heap.base
  unfold reserved at hb
  have hlow := h.low
  have hc := h.id
  have hk := h.parent
  have hsR : Safe σ (Between c (c + 32)) 128 := fun x hx => ⟨by have := hx.1; omega, by have := hx.2; omega, by have := hx.1; omega⟩
  obtain ⟨b', hf⟩ := Option.ne_none_iff_exists'.mp hf
  have hkl := h.high
  have hskp : ∀ a, σ.nextFree ≤ a → ∀ x, kp ≤ x → x < kp + 32 → ¬ scr a x := fun a ha x h1 h2 hs => by unfold scr sizeTable hashBuf at hs; omega
  refine (borrowChild_run (E := E) (T := T) (n := 48 + 4 * fs.length + dcostFs fs vs)
    (P := fun w σ1 => σ1.host = σ.host ∧ σ.nextFree ≤ σ1.nextFree ∧ ∃ vs', eraseL vs' = eraseL vs ∧
      Mv.Rep σ1.mem (fun x => Between c (c + 32) x ∨ σ.nextFree ≤ x ∧ x < σ1.nextFree) (.object (uidTy :: fs))
        (.object (beNat σ.mem kp 32) (uid :: vs')) w) h.heap h.statics h.ref h.inner h.bytes hk hc hlow hroom
    fun σ1 a hp hroom1 => ?_).mono ?_
  · have hn := hp.new
    have hnf := hp.nextFree
    have hh := hp.host
    have hid : beNat σ1.mem c 32 = beNat σ.mem c 32 := beNat_congr fun x h1 h2 => hp.mem hsR ⟨h1, h2⟩
    have hkp : beNat σ1.mem kp 32 = beNat σ.mem kp 32 := hp.later.beNat hk (hskp a (by omega))
    refine (readObject_cost (E := E) (d := narrowFs fs) hT hfs hp.later.heap hp.statics (.inr (by omega)) (by omega) hp.slot (hp.safe hsR) hid (by omega)
      (by rw [hh, ← huid]; exact hs) hty hf ⟨hroom1, fun hd => ?_⟩ (fun h => h) (by rw [hh, ← huid]; exact hseg)).mono ?_
    · have := hedge hd
      have := hp.later.size
      omega
    · rintro r σ' ⟨w, vs', c', rfl, hl, hh', hr, he, hcost⟩
      have hr' : Mv.Rep σ'.mem (fun x => Between c (c + 32) x ∨ σ.nextFree ≤ x ∧ x < σ'.nextFree) (.object (uidTy :: fs))
          (.object (beNat σ.mem kp 32) (uid :: vs')) w := by
        rw [hkp, ← huid] at hr
        refine Rep.change (fun _ _ => rfl) (fun x hx => ?_) _ hr
        rcases hx with hx | hx
        · exact .inl hx
        · exact .inr ⟨by have := hx.1; omega, hx.2.1⟩
      refine ⟨w, rfl, ?_, hl, hcost, hh'.trans hh, by have := hl.nextFree; omega, vs', he, hr'⟩
      simp only [Mv.Rep] at hr'
      obtain ⟨_, h32, -, hwin, -⟩ := hr'
      have := hl.heap.alloc.nextFree_le
      have := hl.heap.alloc.size_lt
      have := hl.nextFree
      rcases hwin (w - 1) (by omega) (by omega) with hx | hx
      · have := hx.2; omega
      · omega
  · rintro r σ' ⟨q, w, σ1, rfl, ⟨hh, hn, vs', he, hr⟩, hx, hq, hq', hw, hl, hh1⟩
    refine ⟨q, rfl, vs', hl.heap, hx.host.trans hh, fun x h1 h2 => hl.mem x h2 ?_, he, ?_, by omega, ?_⟩
    · unfold scr sizeTable hashBuf; omega
    · omega
    · rw [hw]
      refine Rep.change (fun x hx' => hx.mem x ?_) (fun x hx' => ?_) _ hr
      · rcases hx' with h | h
        · have := h.2; omega
        · exact h.2
      · rcases hx' with h | h
        · exact .inl h
        · exact .inr ⟨h.1, by omega⟩

/-- What removing a field returns is the field itself.  The field is deleted from storage by the caller, with its `UID` (`C43_partial`). -/
theorem C74_remove_partial {p kp c : Nat} {fs : List Ty} {uid : Val} {vs : List Val} (hT : Tags T) (h : Borrows σ p kp c)
    (hfs : StorableFs fs) (hty : TypedFs fs vs) (huid : uid = .struct [.struct [.num (beNat σ.mem c 32)]])
    (hf : freshFs fs vs (objectSlot σ.host.keccak (beNat σ.mem kp 32) (beNat σ.mem c 32), 8) true ≠ none)
    (hs : Stored σ.host.keccak (tagOf T) σ.host.storage fs uid vs (objectSlot σ.host.keccak (beNat σ.mem kp 32) (beNat σ.mem c 32)))
    (hseg : ∀ g ∈ area σ.host.keccak fs uid vs (objectSlot σ.host.keccak (beNat σ.mem kp 32) (beNat σ.mem c 32)), g.2 < 2 ^ 256)
    (hroom : Room σ (32 + (48 + 4 * fs.length + dcostFs fs vs + 4)))
    (hedge : narrowFs fs = true → σ.nextFree + (32 + (48 + 4 * fs.length + dcostFs fs vs)) + 3 ≤ σ.size) :
    (removeChild E T uidTy fs).Calls [p, c] σ (fun r σ' => ∃ q w, r = [w] ∧ leNat σ'.mem q 4 = w ∧ Lent σ σ' q kp c fs uid vs) := by
  refine ⟨rfl, ?_⟩
  unfold removeChild
  wstep
  refine wp_call2 (C74_borrow_partial (E := E) hT h hfs hty huid hf hs hseg hroom hedge) ?_
  rintro r σ' ⟨q, rfl, hl⟩
  have hl' := hl
  obtain ⟨vs', hh, -, -, -, h1, h2, -⟩ := hl'
  have g1 := hh.alloc.nextFree_le
  have g2 := hh.alloc.size_lt
  wstep
  exact ⟨q, _, rfl, rfl, hl⟩

theorem wide_err {σ' : Store} {e : RtErr} (hE : E.Valid) {σ1 : Store} (hh : Heap σ1) (h : σ' = errStore σ1 (E e)) (hhost : σ1.host = σ.host) :
    260 ≤ σ'.size ∧ errWord σ' ≠ 0 ∧ Failed E e σ σ' := by
  subst h
  have h3 := failed_err (e := e) hE hhost
  refine ⟨?_, h3.2.1, h3⟩
  have := hh.ready.size
  show 260 ≤ σ1.size
  omega

/-- **C74** Borrowing a field that does not exist fails. -/
theorem C74_borrow_absent {p kp c : Nat} {fs : List Ty} (hE : E.Valid) (hT : Tags T) (h : Borrows σ p kp c) (hroom : Room σ 64)
    (hs : σ.host.storage (objectSlot σ.host.keccak (beNat σ.mem kp 32) (beNat σ.mem c 32)) = 0) :
    (borrowChild E T uidTy fs).Calls [p, c] σ (fun _ σ' => Failed E .objectNotFound σ σ') := by
  have hb := h.heap.base
  unfold reserved at hb
  have hk := h.parent
  refine (borrowChild_err h.heap h.statics h.ref h.inner h.bytes h.parent h.id h.low hroom fun σ1 a hp hroom1 => ?_).mono fun _ _ h => h.2
  have hn := hp.new
  have hnf := hp.nextFree
  refine (readObject_err (E := E) hp.later.heap hp.statics (.inr (by omega)) (by omega) hp.slot (by omega) hroom1 (hT _).2 ?_).mono ?_
  · rw [hp.host, hs]
    have := bswap_pos (n := 8) (hT (.object (uidTy :: fs))).1 (Nat.lt_of_lt_of_eq (hT _).2 (by norm_num))
    unfold dig
    rw [Nat.zero_div, Nat.zero_mod]
    omega
  · rintro r σ' ⟨σ3, x, rfl, hl, hh, rfl⟩
    rw [hp.host, hs, headErr, if_pos (Nat.zero_mod _)]
    exact wide_err hE hl.heap rfl (hh.trans hp.host)

/-- **C74** Borrowing a field with another type than it has fails. -/
theorem C74_borrow_type {p kp c : Nat} {fs gs : List Ty} {uid : Val} {vs : List Val} (hE : E.Valid) (hT : Tags T) (h : Borrows σ p kp c) (hroom : Room σ 64)
    (hs : Stored σ.host.keccak (tagOf T) σ.host.storage fs uid vs (objectSlot σ.host.keccak (beNat σ.mem kp 32) (beNat σ.mem c 32)))
    (hne : T (.object (uidTy :: gs)) ≠ T (.object (uidTy :: fs))) :
    (borrowChild E T uidTy gs).Calls [p, c] σ (fun _ σ' => Failed E .typeMismatch σ σ') := by
  have hb := h.heap.base
  unfold reserved at hb
  have hk := h.parent
  refine (borrowChild_err h.heap h.statics h.ref h.inner h.bytes h.parent h.id h.low hroom fun σ1 a hp hroom1 => ?_).mono fun _ _ h => h.2
  have hn := hp.new
  have hnf := hp.nextFree
  refine (readObject_err (E := E) hp.later.heap hp.statics (.inr (by omega)) (by omega) hp.slot (by omega) hroom1 (hT _).2 ?_).mono ?_
  · rw [hp.host, hs.tag]
    intro he
    unfold tagOf at he
    have h1 := congrArg (bswap 8) he
    rw [bswap_bswap, bswap_bswap, Nat.mod_eq_of_lt (Nat.lt_of_lt_of_eq (hT _).2 (by norm_num)),
      Nat.mod_eq_of_lt (Nat.lt_of_lt_of_eq (hT _).2 (by norm_num))] at h1
    exact hne h1.symm
  · rintro r σ' ⟨σ3, x, rfl, hl, hh, rfl⟩
    rw [hp.host, headErr, if_neg (stored_pos hT hs)]
    exact wide_err hE hl.heap rfl (hh.trans hp.host)

/-- **C74** A field that has been added exists afterwards, with its type, and is borrowed and removed unchanged: in every later state,
of the same or another transaction, in which the slots of the field are as they were left.

Missing: field values with objects in them, which remain where they were as well (`C74_false`); types and values for
which C39 and C59 fail (`SmallFs`, `Grows`, `freshFs`). -/
theorem C74_partial {R : Nat → Prop} {fs : List Ty} {uid : Val} {vs : List Val} {w kp ow : Nat} (hσ : Heap σ) (hst : Statics σ) (hT : Tags T)
    (hfs : StorableFs fs) (hv : SmallFs fs vs) (hk : kp + 32 ≤ σ.nextFree) (hsafe : Safe σ R 128)
    (hrep : Mv.Rep σ.mem R (.object (uidTy :: fs)) (.object ow (uid :: vs)) w) (hroom : Room σ (32 + ecostFs fs vs))
    (hsp : Spread σ.host.keccak fs uid vs (objectSlot σ.host.keccak (beNat σ.mem kp 32) (idOf uid)))
    (hgr : HeadsFs Grows σ.host.keccak σ.host.storage (idOf uid) fs vs (objectSlot σ.host.keccak (beNat σ.mem kp 32) (idOf uid), 8))
    (hfresh : freshFs fs vs (objectSlot σ.host.keccak (beNat σ.mem kp 32) (idOf uid), 8) true ≠ none) :
    (addChild E T uidTy fs).Calls [kp, w] σ (fun r σ1 => r = [] ∧ ∀ (σ2 : Store) (p2 kp2 c2 : Nat), σ2.host.keccak = σ.host.keccak →
      (∀ x, ¬ Off (area σ.host.keccak fs uid vs (objectSlot σ.host.keccak (beNat σ.mem kp 32) (idOf uid))) x → σ2.host.storage x = σ1.host.storage x) →
      Borrows σ2 p2 kp2 c2 → beNat σ2.mem kp2 32 = beNat σ.mem kp 32 → beNat σ2.mem c2 32 = idOf uid →
      Room σ2 (32 + (48 + 4 * fs.length + dcostFs fs vs + 4)) →
      (narrowFs fs = true → σ2.nextFree + (32 + (48 + 4 * fs.length + dcostFs fs vs)) + 3 ≤ σ2.size) →
      hasChild.Calls [kp2, c2] σ2 (fun r σ' => r = [1] ∧ Quiet σ2 σ') ∧
      (hasChildTy (T (.object (uidTy :: fs)))).Calls [kp2, c2] σ2 (fun r σ' => r = [1] ∧ Quiet σ2 σ') ∧
      (borrowChild E T uidTy fs).Calls [p2, c2] σ2 (fun r σ' => ∃ q, r = [q] ∧ Lent σ2 σ' q kp2 c2 fs uid vs) ∧
      (removeChild E T uidTy fs).Calls [p2, c2] σ2 (fun r σ' => ∃ q w, r = [w] ∧ leNat σ'.mem q 4 = w ∧ Lent σ2 σ' q kp2 c2 fs uid vs)) := by
  obtain ⟨⟨n, rfl⟩, hty⟩ := rep_uid hfs hrep
  refine (C74_add_partial (E := E) (T := T) hσ hst hfs hv hk hsafe hrep hroom hsp hgr).mono fun r σ1 h => ⟨h.1, fun σ2 p2 kp2 c2 hK hS hb e1 e2 hroom2 hedge => ?_⟩
  have hs : Stored σ2.host.keccak (tagOf T) σ2.host.storage fs (.struct [.struct [.num n]]) vs
      (objectSlot σ2.host.keccak (beNat σ2.mem kp2 32) (beNat σ2.mem c2 32)) := by
    rw [hK, e1, e2]
    exact h.2.2.2.1.congr hS
  have e3 : Val.struct [.struct [.num n]] = .struct [.struct [.num (beNat σ2.mem c2 32)]] := by rw [e2]; rfl
  have hf : freshFs fs vs (objectSlot σ2.host.keccak (beNat σ2.mem kp2 32) (beNat σ2.mem c2 32), 8) true ≠ none := by
    rw [hK, e1, e2]; exact hfresh
  have hseg : ∀ g ∈ area σ2.host.keccak fs (.struct [.struct [.num n]]) vs (objectSlot σ2.host.keccak (beNat σ2.mem kp2 32) (beNat σ2.mem c2 32)),
      g.2 < 2 ^ 256 := by rw [hK, e1, e2]; exact hsp.lt
  refine ⟨C74_exists hT hb.toAsks hs, ?_, C74_borrow_partial hT hb hfs hty e3 hf hs hseg hroom2 hedge,
    C74_remove_partial hT hb hfs hty e3 hf hs hseg hroom2 hedge⟩
  refine (C74_exists_type (gs := fs) hT hb.toAsks hs).mono fun r σ' h => ?_
  rw [if_pos rfl] at h
  exact h

/-- A reference at 932 to the `UID` at 936 of an object with the id at 960. -/
def wsRef : List (Nat × Nat) := wsO ++ [(932, 936), (936, 960)]

theorem borrowsRef {S : Nat → Nat} : Borrows (storeO wsRef S) 932 960 660 where
  heap := storeO_heap S (by decide)
  statics := storeO_statics S (by decide)
  parent := by show 992 ≤ 1000; omega
  high := by omega
  id := by show 692 ≤ 1000; omega
  low := by omega
  ref := by show 936 ≤ 1000; omega
  inner := by show leNat (memO wsRef) 932 4 + 4 ≤ 1000; decide +kernel
  bytes := by show leNat (memO wsRef) (leNat (memO wsRef) 932 4) 4 = 960; decide +kernel

theorem slotRef : objectSlot hashO 7 (idOf uidO) = 64000 := by decide +kernel

example : (addChild E (fun _ => 5) uidTy fsO).Calls [960, 600] (storeO wsO 0) (fun _ σ1 =>
    hasChild.Calls [960, 660] (storeO wsRef σ1.host.storage) (fun r _ => r = [1]) ∧
    (borrowChild E (fun _ => 5) uidTy fsO).Calls [932, 660] (storeO wsRef σ1.host.storage) (fun r σ' => ∃ q, r = [q] ∧
      Lent (storeO wsRef σ1.host.storage) σ' q 960 660 fsO uidO vsO)) := by
  have hc : beNat (storeO wsO 0).mem 960 32 = 7 := @cellO 0
  have hk : (storeO wsO 0).host.keccak = hashO := rfl
  have e : area hashO fsO uidO vsO 64000 = [(64000, 64002), (32000, 32000)] := by decide +kernel
  refine (C74_partial (E := E) (T := fun _ => 5) (storeO_heap 0 wsO_in) (storeO_statics 0 (by decide)) tags5 storableO smallO
    (by decide) safeD repO (storeO_room (by decide +kernel)) ?_ ?_ ?_).mono fun r σ1 h => ?_
  · rw [hc, hk, slotRef]
    constructor <;> rw [e] <;> simp [Layout.Apart]
  · rw [hc, hk, slotRef]
    refine HeadsFs.mono _ Blank.grows ?_
    simp [fsO, vsO, uidO, idOf, HeadsFs, Heads, HeadsVar, walk, next, place, width, Blank, storeO, hostO]
  · rw [hc, hk, slotRef]; decide +kernel
  · obtain ⟨h1, -, h2, -⟩ := h.2 (storeO wsRef σ1.host.storage) 932 960 660 rfl (fun _ _ => rfl) borrowsRef
      (show beNat (memO wsRef) 960 32 = beNat (memO wsO) 960 32 by decide +kernel) (show beNat (memO wsRef) 660 32 = 9 by decide +kernel) (storeO_room (by decide +kernel))
      (fun _ => by show 1000 + _ + 3 ≤ 65536; decide +kernel)
    exact ⟨h1.mono fun _ _ h => h.1, h2⟩

/-- An object that becomes the value of a field is not taken from the storage of its owner: the object `valC` of 10, added as a field of the object
20, is afterwards stored both in the field and under 10. -/
theorem C74_false : ∃ (σ : Store) (R : Nat → Prop) (kp w : Nat),
    Heap σ ∧ Statics σ ∧ StorableFs fsC ∧ SmallFs fsC (vsC 10) ∧ Safe σ R 128 ∧ kp + 32 ≤ σ.nextFree ∧
    Mv.Tree σ.mem R (.object (uidTy :: fsC)) (.object 0 (uidO :: vsC 10)) w ∧
    Stored σ.host.keccak (tagOf fun _ => 5) σ.host.storage [.u8] uidC [.num 7] (objectSlot σ.host.keccak 10 (idOf uidC)) ∧
    objectSlot σ.host.keccak 10 (idOf uidC) ≠ objectSlot σ.host.keccak (idOf uidO) (idOf uidC) ∧
    (addChild E0 (fun _ => 5) uidTy fsC).Calls [kp, w] σ (fun r σ' => r = [] ∧ errWord σ' = 0 ∧
      Stored σ.host.keccak (tagOf fun _ => 5) σ'.host.storage [.u8] uidC [.num 7] (objectSlot σ.host.keccak (idOf uidO) (idOf uidC)) ∧
      Stored σ.host.keccak (tagOf fun _ => 5) σ'.host.storage [.u8] uidC [.num 7] (objectSlot σ.host.keccak 10 (idOf uidC))) := by
  have hs := slotsC
  simp only [Prod.mk.injEq] at hs
  have hk : (storeT wsT storT).host.keccak = hashT := rfl
  refine ⟨storeT wsT storT, Between 500 910, 940, 600, storeT_heap _ (by decide), storeT_statics _ (by decide), storableC, smallC, safeT,
    by show 972 ≤ 1000; omega, treeC (f := memO wsT) (by decide +kernel) (by decide +kernel) (by decide +kernel),
    by rw [hk, hs.1]; exact storedC (by decide), by rw [hk, hs.1, hs.2]; decide, ?_⟩
  rw [hk, hs.1, hs.2]
  refine (calls_of_obs 1000 (fun σ' => (errWord σ', σ'.host.storage 147064, σ'.host.storage 127064)) []
    (0, 5 * 72057594037927936 + 7 * 18446744073709551616, 5 * 72057594037927936 + 7 * 18446744073709551616) rfl (by decide +kernel)).mono fun r σ' h => ?_
  have h2 := h.2
  simp only [Prod.mk.injEq] at h2
  exact ⟨h.1, h2.1, storedC h2.2.1, storedC h2.2.2⟩

/-! ### C75: fields borrowed mutably -/

/-- **C75** At the end of a function, the field that a call of `borrow_mut` has returned is saved, with the values it then has,
in the slots it came from; no other slot changes.  `ws` are the fields that the call has returned, in this order.

Missing: a call that is executed more than once, where only the last field is saved (`C75_false`); types and values for which C59 fails. -/
theorem C75_partial {R : Nat → Prop} {fs : List Ty} {uid : Val} {vs : List Val} {w ow : Nat} {ws : List Nat} (hσ : Heap σ) (hst : Statics σ)
    (hfs : StorableFs fs) (hv : SmallFs fs vs) (hsafe : Safe σ R 128)
    (hrep : Mv.Rep σ.mem R (.object (uidTy :: fs)) (.object ow (uid :: vs)) w) (h0 : ow ≠ 0) (hroom : Room σ (32 + ecostFs fs vs))
    (hsp : Spread σ.host.keccak fs uid vs (objectSlot σ.host.keccak ow (idOf uid)))
    (hgr : HeadsFs Grows σ.host.keccak σ.host.storage (idOf uid) fs vs (objectSlot σ.host.keccak ow (idOf uid), 8)) :
    (commitField E T uidTy fs).Calls [borrowVar (ws ++ [w])] σ (fun r σ' => r = [] ∧ Heap σ' ∧
      σ'.host = { σ.host with storage := σ'.host.storage } ∧
      Stored σ.host.keccak (tagOf T) σ'.host.storage fs uid vs (objectSlot σ.host.keccak ow (idOf uid)) ∧
      ∀ x, Off (area σ.host.keccak fs uid vs (objectSlot σ.host.keccak ow (idOf uid))) x → σ'.host.storage x = σ.host.storage x) := by
  have hw : borrowVar (ws ++ [w]) = w := by simp [borrowVar]
  rw [hw]
  refine commitField_run hσ hst hsafe hrep h0 hroom fun σ1 a hp hs1 hr1 hroom1 => ?_
  have hb := hσ.base
  unfold reserved at hb
  have hn := hp.new
  have hf := hp.nextFree
  have hsl := hp.slot
  refine (C59_partial (E := E) (T := T) hp.later.heap hp.statics hfs hv (.inr (by omega)) (by omega) hs1 hr1 hroom1
    (by rw [hsl, hp.host]; exact hsp) (by rw [hsl, hp.host]; exact hgr)).mono fun r σ' h => ?_
  rw [hsl, hp.host] at h
  exact ⟨h.1, h.2.1, h.2.2.1, h.2.2.2.1, h.2.2.2.2.1⟩

example : (commitField E (fun _ => 5) uidTy [.u8]).Calls [borrowVar [600]] (storeT wsT' 0) (fun _ σ' =>
    dig (σ'.host.storage 128064) 8 1 = 5 ∧ ∀ x, x ≠ 128064 → σ'.host.storage x = 0) := by
  have hs : objectSlot hashT 10 (idOf uidO) = 128064 := by decide +kernel
  have hk : (storeT wsT' 0).host.keccak = hashT := rfl
  have e : area hashT [.u8] uidO [.num 5] 128064 = [(128064, 128064)] := by decide +kernel
  refine (C75_partial (E := E) (T := fun _ => 5) (ws := []) (R := Between 500 910) (uid := uidO) (vs := [.num 5]) (ow := 10)
    (storeT_heap _ (by decide)) (storeT_statics _ (by decide)) (by simp [StorableFs, Storable]) (by simp [SmallFs, Small, width, atom]) safeT ?_ (by omega)
    (storeT_room (by decide +kernel)) ?_ ?_).mono fun r σ' h => ?_
  · refine (treeObj (e := 910) (f := memO wsT') (by omega) (by decide +kernel) (fun x a b => ⟨by omega, by omega⟩) (by omega) ?_).rep
    exact treeHead (B := fun _ => False) (by decide +kernel) (by decide +kernel) (by decide +kernel) (by decide +kernel) (by decide +kernel)
      (by decide +kernel) (by omega) (by omega) (fun x h => h.elim) rfl
  · rw [hk, hs]
    constructor <;> rw [e] <;> simp
  · rw [hk, hs]
    simp [HeadsFs, Heads, place]
  · rw [hk, hs, e] at h
    refine ⟨by simpa [HoldsFs, Layout.Holds, place, width, atom] using h.2.2.2.1.fields, fun x hx => h.2.2.2.2 x ?_⟩
    intro g hg
    simp only [List.mem_cons, List.not_mem_nil, or_false] at hg
    subst hg
    simp only
    omega

/-- A call that was not executed saves nothing. -/
theorem C75_none {fs : List Ty} : (commitField E T uidTy fs).Calls [borrowVar []] σ (fun r σ' => r = [] ∧ σ' = σ) := commitField_unset

/-- A field that has been deleted since is not saved again. -/
theorem C75_deleted {R : Nat → Prop} {fs : List Ty} {uid : Val} {vs : List Val} {w : Nat} {ws : List Nat} (hσ : Heap σ)
    (hsafe : Safe σ R 128) (hrep : Mv.Rep σ.mem R (.object (uidTy :: fs)) (.object 0 (uid :: vs)) w) :
    (commitField E T uidTy fs).Calls [borrowVar (ws ++ [w])] σ (fun r σ' => r = [] ∧ σ' = σ) := by
  have hw : borrowVar (ws ++ [w]) = w := by simp [borrowVar]
  rw [hw]
  exact commitField_deleted hσ hsafe hrep

/-- Storage with fields `3: u8` of the object 10, with the ids 9 and 8. -/
def storF (x : Nat) : Nat := if x = 128064 ∨ x = 127064 then 5 * 72057594037927936 + 3 * 18446744073709551616 else 0

theorem storedF {S : Nat → Nat} {c v : Nat} {uid : Val} (hv : v < 256) (h : S c = 5 * 72057594037927936 + v * 18446744073709551616) :
    Stored hashT (tagOf fun _ => 5) S [.u8] uid [.num v] c := by
  constructor
  · rw [h]
    have : tagOf (fun _ => 5) (.object (uidTy :: [.u8])) = 5 * 72057594037927936 := by decide +kernel
    rw [this]; unfold dig; omega
  · simp [HoldsFs, Layout.Holds, place, h, width, atom]
    unfold dig; omega

/-- A call of `borrow_mut` that is executed twice, returning first one field, then another.  Both have been changed, from 3 to 5 and to 7;
the second is saved, the first is not. -/
theorem C75_false : ∃ (σ : Store) (R : Nat → Prop) (w1 w2 : Nat),
    Heap σ ∧ Statics σ ∧ Safe σ R 128 ∧
    Mv.Tree σ.mem R (.object (uidTy :: [.u8])) (.object 10 (uidO :: [.num 5])) w1 ∧
    Mv.Tree σ.mem R (.object (uidTy :: [.u8])) (.object 10 (uidC :: [.num 7])) w2 ∧
    Stored σ.host.keccak (tagOf fun _ => 5) σ.host.storage [.u8] uidO [.num 3] (objectSlot σ.host.keccak 10 (idOf uidO)) ∧
    Stored σ.host.keccak (tagOf fun _ => 5) σ.host.storage [.u8] uidC [.num 3] (objectSlot σ.host.keccak 10 (idOf uidC)) ∧
    (commitField E0 (fun _ => 5) uidTy [.u8]).Calls [borrowVar [w1, w2]] σ (fun r σ' => r = [] ∧ errWord σ' = 0 ∧
      Stored σ.host.keccak (tagOf fun _ => 5) σ'.host.storage [.u8] uidC [.num 7] (objectSlot σ.host.keccak 10 (idOf uidC)) ∧
      Stored σ.host.keccak (tagOf fun _ => 5) σ'.host.storage [.u8] uidO [.num 3] (objectSlot σ.host.keccak 10 (idOf uidO)) ∧
      ¬ Stored σ.host.keccak (tagOf fun _ => 5) σ'.host.storage [.u8] uidO [.num 5] (objectSlot σ.host.keccak 10 (idOf uidO))) := by
  have hs : (objectSlot hashT 10 (idOf uidO), objectSlot hashT 10 (idOf uidC)) = (128064, 127064) := by decide +kernel
  simp only [Prod.mk.injEq] at hs
  have hk : (storeT wsT' storF).host.keccak = hashT := rfl
  refine ⟨storeT wsT' storF, Between 500 910, 600, 800, storeT_heap _ (by decide), storeT_statics _ (by decide), safeT, ?_,
    treeC8 (f := memO wsT') (fun x a b => ⟨by omega, by omega⟩) (by decide +kernel),
    by rw [hk, hs.1]; exact storedF (by omega) (by decide), by rw [hk, hs.2]; exact storedF (by omega) (by decide), ?_⟩
  · refine treeObj (e := 910) (f := memO wsT') (by omega) (by decide +kernel) (fun x a b => ⟨by omega, by omega⟩) (by omega) ?_
    exact treeHead (B := fun _ => False) (by decide +kernel) (by decide +kernel) (by decide +kernel) (by decide +kernel) (by decide +kernel)
      (by decide +kernel) (by omega) (by omega) (fun x h => h.elim) rfl
  · rw [hk, hs.1, hs.2]
    refine (calls_of_obs 1000 (fun σ' => (errWord σ', σ'.host.storage 127064, σ'.host.storage 128064)) []
      (0, 5 * 72057594037927936 + 7 * 18446744073709551616, 5 * 72057594037927936 + 3 * 18446744073709551616) rfl (by decide +kernel)).mono fun r σ' h => ?_
    have h2 := h.2
    simp only [Prod.mk.injEq] at h2
    refine ⟨h.1, h2.1, storedF (by omega) h2.2.1, storedF (by omega) h2.2.2, fun hc => ?_⟩
    have := hc.fields
    simp [HoldsFs, Layout.Holds, place, h2.2.2, width, atom] at this
    unfold dig at this
    omega

end Props
