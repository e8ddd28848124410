import Verif.Proof.Event3
import Verif.Props.Transfer

/-!
# Events: C72

The hash function of the host is arbitrary.
-/

namespace Props
open Wasm Rt Abi

variable {σ : Store} {E : ErrPtrs}

theorem topics_eq (K : List UInt8 → Nat) : ∀ {ts : List ETy} {vs : List Val}, vs.length = ts.length →
    topics K ts vs = ((List.zipWith ETy.abi ts vs).map (topic K)).flatten
  | [], [], _ => rfl
  | [], _ :: _, h => by simp at h
  | _ :: _, [], h => by simp at h
  | t :: ts, v :: vs, h => by
    rw [topics, topics_eq K (by simpa using h), List.zipWith_cons_cons, List.map_cons, List.flatten_cons]

theorem log_eq (K : List UInt8 → Nat) (sig : Option Nat) {ts : List ETy} {vs : List Val} (us : List Val) (h : vs.length = ts.length) :
    log K sig (List.zipWith ETy.abi ts vs) us = (nTopics sig ts, sigTopic sig ++ topics K ts vs ++ encTuple us) := by
  rw [topics_eq K h]
  cases sig <;> simp [log, nTopics, sigTopic, h]

/-- An event in memory at `p`: the indexed fields have types `ts` and values `vs`, the other fields types `ds` and values `us`. -/
structure EventAt (σ : Store) (ts : List ETy) (ds : List MTy) (vs us : List Val) (p : Nat) : Prop where
  heap : Heap σ
  indexed : vs.length = ts.length
  rep : Rt.Rep σ.mem σ.nextFree (.struct (ts.map ETy.mty ++ ds)) (.tuple (vs ++ us)) p
  room : Room σ (evCost ts vs us)

/-- **C72** Emitting an event adds exactly one log: its topics are the hash of the signature and the topics of the indexed
fields, its data is the encoding of the other fields.  Nothing else of the host and no memory in use changes.

Missing: empty vectors and strings and nested structs in indexed fields (`IxOks`, `C72_false_empty`, `C72_false_string`,
`C72_false_nested`); if there is a dynamic field that is not indexed or an indexed string of one or two bytes, memory must not end close
after the free memory used (`hov`, `C72_false_trap`). -/
theorem C72_partial {sig : Option Nat} {ts : List ETy} {ds : List MTy} {vs us : List Val} {p : Nat} (h : EventAt σ ts ds vs us p)
    (h4 : ts.length ≤ 4) (hf : IxOks ts vs)
    (hov : (MTy.dynFs ds = false ∧ ixShorts ts vs = false) ∨ σ.nextFree + evCost ts vs us + 32 * nTopics sig ts ≤ σ.size) :
    (emitEvent E sig ts ds).Calls [p] σ (fun r σ' => r = [] ∧
      σ'.host = { σ.host with logs := σ.host.logs ++ [log σ.host.keccak sig (List.zipWith ETy.abi ts vs) us] } ∧
      (∀ x, x < σ.nextFree → σ'.mem x = σ.mem x) ∧ Heap σ' ∧ σ.nextFree ≤ σ'.nextFree ∧
      σ'.nextFree ≤ σ.nextFree + evCost ts vs us) := by
  have hr := h.rep
  rw [Rt.Rep] at hr
  refine (emitEvent_spec (sig := sig) h.heap h.indexed hr.2 (Nat.le_refl _) h4 hf h.room hov).mono ?_
  rintro r σ' ⟨rfl, σ1, h1, h2, rfl⟩
  have hh := h1.heap h.heap
  refine ⟨rfl, ?_, h1.mem, ⟨⟨hh.ready.size, hh.ready.size_lt, hh.ready.noErr⟩,
    ⟨hh.alloc.sum, hh.alloc.page, hh.alloc.first, hh.alloc.limit, hh.alloc.max, hh.alloc.small⟩, hh.base, hh.fresh⟩, h1.nextFree, h2⟩
  rw [log_eq _ _ _ h.indexed]
  rfl

/-- An event with an indexed id, an indexed vector of strings, an indexed enum, and as data a number and a string:
id 2^24, ["ab", "c"], variant 1, 7 and "xyz". -/
def wsEv : List (Nat × Nat) := [(600, 700), (604, 720), (608, 740), (612, 880), (616, 748),
  (700, 760), (760, 1), (720, 2), (724, 2), (728, 800), (732, 804), (800, 810), (804, 830), (810, 2), (814, 2), (818, 97 + 98 * 256),
  (830, 1), (834, 1), (838, 99), (740, 1), (880, 7), (748, 850), (850, 3), (854, 3), (858, 120 + 121 * 256 + 122 * 65536)]

theorem eventE : EventAt (storeT wsEv 0) [.id, .val (.vec .string), .val (.enum 3)] [.u64, .string]
    [.tuple [.word (2 ^ 248)], .array [.bytes [97, 98], .bytes [99]], .word 1] [.word 7, .bytes [120, 121, 122]] 600 := by
  refine ⟨storeT_heap _ (by decide), rfl, ?_, storeT_room (by decide +kernel)⟩
  show Rt.Rep (memO wsEv) 1000 _ _ _
  simp only [List.map_cons, List.map_nil, List.cons_append, List.nil_append, ETy.mty, Rt.Rep, Rt.RepFs, MTy.isScalar, MTy.size, Bool.false_eq_true, if_false, if_true]
  have h : ∀ i, i < 2 → i = 0 ∨ i = 1 := by omega
  refine ⟨by omega, by omega, by simp, ⟨by decide +kernel, by decide +kernel, by simp, by decide +kernel, trivial⟩,
    by decide +kernel, by simp, ⟨by decide +kernel, by decide +kernel, ?_⟩, by decide +kernel, by simp, by decide +kernel,
    by decide +kernel, fun _ => by decide +kernel, by decide +kernel, by decide +kernel, by simp, by decide +kernel, trivial⟩
  intro i hi
  rcases h i hi with rfl | rfl <;> (simp only [List.getElem_cons_zero, List.getElem_cons_succ]; rw [Rt.Rep]; clear h hi; decide +kernel)

example : (emitEvent E (some 77) [.id, .val (.vec .string), .val (.enum 3)] [.u64, .string]).Calls [600] (storeT wsEv 0) (fun _ σ' =>
    σ'.host.logs = [log hashT (some 77) [.word (2 ^ 248), .array [.bytes [97, 98], .bytes [99]], .word 1] [.word 7, .bytes [120, 121, 122]]]) :=
  (C72_partial eventE (by decide) (by simp [IxOks, IxOk, IxFull]) (.inr (by decide +kernel))).mono fun r σ' h => by
    rw [h.2.1]; rfl

/-- **C72 is false** of empty indexed vectors: one element that does not exist is hashed. -/
theorem C72_false_empty : EventAt (storeT [(600, 700)] 0) [.val (.vec .u32)] [] [.array []] [] 600 ∧
    (emitEvent E0 none [.val (.vec .u32)] []).Calls [600] (storeT [(600, 700)] 0) (fun _ σ' =>
      σ'.host.logs = [(1, word (hashT (word 0)))] ∧ log hashT none [.array []] [] = (1, word (hashT [])) ∧ word (hashT (word 0)) ≠ word (hashT [])) := by
  refine ⟨⟨storeT_heap _ (by decide), rfl, ?_, storeT_room (by decide +kernel)⟩, (calls_of_obs 1000 (fun σ' => σ'.host.logs) [] [(1, word (hashT (word 0)))] rfl
    (by decide +kernel)).mono fun _ _ h => ⟨h.2, by decide +kernel, by decide +kernel⟩⟩
  show Rt.Rep (memO [(600, 700)]) 1000 _ _ _
  simp only [List.map_cons, List.map_nil, List.cons_append, List.nil_append, ETy.mty, Rt.Rep, Rt.RepFs, MTy.isScalar, MTy.size, Bool.false_eq_true, if_false]
  exact ⟨by omega, by omega, by simp, ⟨by decide +kernel, by decide +kernel, fun i hi => by simp at hi⟩, trivial⟩

/-- The string "" and the vector [7]; the byte after the string is 9. -/
def wsEs : List (Nat × Nat) := [(600, 700), (604, 720), (700, 740), (748, 9), (720, 1), (724, 1), (728, 7)]

/-- **C72 is false** of empty indexed strings: one byte is written to memory that is not allocated, and the topic of the next indexed
field is the hash of its encoding with this byte in it. -/
theorem C72_false_string : EventAt (storeT wsEs 0) [.val .string, .val (.vec .u8)] [] [.bytes [], .array [.word 7]] [] 600 ∧
    (emitEvent E0 none [.val .string, .val (.vec .u8)] []).Calls [600] (storeT wsEs 0) (fun _ σ' =>
      σ'.host.logs = [(2, word (hashT []) ++ word (hashT (9 :: (word 7).tail)))] ∧
      log hashT none [.bytes [], .array [.word 7]] [] = (2, word (hashT []) ++ word (hashT (word 7))) ∧
      word (hashT (9 :: (word 7).tail)) ≠ word (hashT (word 7))) := by
  refine ⟨⟨storeT_heap _ (by decide), rfl, ?_, storeT_room (by decide +kernel)⟩, (calls_of_obs 1000 (fun σ' => σ'.host.logs) []
    [(2, word (hashT []) ++ word (hashT (9 :: (word 7).tail)))] rfl
    (by decide +kernel)).mono fun _ _ h => ⟨h.2, by decide +kernel, by decide +kernel⟩⟩
  show Rt.Rep (memO wsEs) 1000 _ _ _
  simp only [List.map_cons, List.map_nil, List.cons_append, List.nil_append, ETy.mty, Rt.Rep, Rt.RepFs, MTy.isScalar, MTy.size, Bool.false_eq_true, if_false]
  refine ⟨by omega, by omega, by simp, by decide +kernel, by omega, by simp, ⟨by decide +kernel, by decide +kernel, fun i hi => ?_⟩, trivial⟩
  have h0 : i = 0 := by simpa using hi
  subst h0
  simp only [List.getElem_cons_zero]
  rw [Rt.Rep]; clear hi; decide +kernel

/-- The struct {{5}}; the bytes at address 5 are zero. -/
def wsEnest : List (Nat × Nat) := [(600, 700), (700, 720), (720, 740), (740, 5)]

/-- **C72 is false** of indexed structs with structs in them: the inner struct is looked for at the address of its first field.
Here its field is 5, but what is hashed is the byte at address 5. -/
theorem C72_false_nested : EventAt (storeT wsEnest 0) [.val (.struct [.struct [.u8]])] [] [.tuple [.tuple [.word 5]]] [] 600 ∧
    (emitEvent E0 none [.val (.struct [.struct [.u8]])] []).Calls [600] (storeT wsEnest 0) (fun _ σ' =>
      σ'.host.logs = [(1, word (hashT (word 0)))] ∧
      log hashT none [.tuple [.tuple [.word 5]]] [] = (1, word (hashT (word 5))) ∧
      word (hashT (word 0)) ≠ word (hashT (word 5))) := by
  refine ⟨⟨storeT_heap _ (by decide), rfl, ?_, storeT_room (by decide +kernel)⟩, (calls_of_obs 1000 (fun σ' => σ'.host.logs) []
    [(1, word (hashT (word 0)))] rfl
    (by decide +kernel)).mono fun _ _ h => ⟨h.2, by decide +kernel, by decide +kernel⟩⟩
  show Rt.Rep (memO wsEnest) 1000 _ _ _
  simp only [List.map_cons, List.map_nil, List.cons_append, List.nil_append, ETy.mty, Rt.Rep, Rt.RepFs, MTy.isScalar, MTy.size, Bool.false_eq_true, if_false, if_true]
  exact ⟨by omega, by omega, by simp, ⟨by decide +kernel, by decide +kernel, by simp,
    ⟨by decide +kernel, by decide +kernel, fun _ => by decide +kernel, by decide +kernel, trivial⟩, trivial⟩, trivial⟩

/-- An event with an indexed number and a string. -/
def wsEt : List (Nat × Nat) := [(600, 700), (604, 720), (700, 5), (720, 740), (740, 3), (744, 3), (748, 120 + 121 * 256 + 122 * 65536)]

def storeEt : Store := { storeT wsEt 0 with nextFree := 65344, avail := 192 }

/-- **C72 is false** of events with dynamic data: moving the data reads beyond what has been written, as many bytes as there are topics, and
traps if the memory ends there.  Here 192 of the bytes of the memory are free and the event takes 192. -/
theorem C72_false_trap : EventAt storeEt [.val .u8] [.string] [.word 5] [.bytes [120, 121, 122]] 600 ∧
    IxOks [.val .u8] [.word 5] ∧ (emitEvent E0 (some 77) [.val .u8] [.string]).Traps [600] storeEt := by
  have h0 := storeT_heap (ws := wsEt) 0 (by decide)
  refine ⟨⟨⟨⟨h0.ready.size, h0.ready.size_lt, h0.ready.noErr⟩, ⟨rfl, ?_, h0.alloc.first, h0.alloc.limit, h0.alloc.max, ?_⟩, ?_, fun x hx => h0.fresh x ?_⟩, rfl, ?_, ?_⟩,
    ⟨by simp [IxOk, IxFull], trivial⟩, traps_of_run 1000 rfl (by decide +kernel)⟩
  · exact h0.alloc.page
  · show 192 ≤ 65536; omega
  · show 468 ≤ 65344; omega
  · have : 65344 ≤ x := hx
    show 1000 ≤ x; omega
  · show Rt.Rep (memO wsEt) 65344 _ _ _
    simp only [List.map_cons, List.map_nil, List.cons_append, List.nil_append, ETy.mty, Rt.Rep, Rt.RepFs, MTy.isScalar, MTy.size, Bool.false_eq_true, if_false, if_true]
    exact ⟨by omega, by omega, fun _ => by decide +kernel, by decide +kernel, by omega, by simp, by decide +kernel, trivial⟩
  · unfold Room; decide +kernel

end Props
