import Verif.Rt.Dynamic
import Verif.Proof.Natives
import Verif.Proof.Copy2
import Verif.Proof.VecOps
import Verif.Proof.Delete

/-! The keys of dynamic fields. -/

namespace Rt
open Wasm Slots Mv
open Abi (word)

variable {σ σ' σ'' : Store} {E : ErrPtrs}

mutual
/-- The bytes that represent a key: integers least significant byte first in their width, addresses most significant
byte first, the parts of structs and vectors one after the other. -/
def keyBytes : Ty → Val → List UInt8
  | .bool, .num n => bytesLe 1 n
  | .u8, .num n => bytesLe 1 n
  | .u16, .num n => bytesLe 2 n
  | .u32, .num n => bytesLe 4 n
  | .u64, .num n => bytesLe 8 n
  | .u128, .num n => bytesLe 16 n
  | .u256, .num n => bytesLe 32 n
  | .address, .num n => word n
  | .vec t, .vec vs => vs.flatMap fun v => keyBytes t v
  | .struct fs, .struct vs => keyBytesFs fs vs
  | _, _ => []
def keyBytesFs : List Ty → List Val → List UInt8
  | t :: ts, v :: vs => keyBytes t v ++ keyBytesFs ts vs
  | _, _ => []
end

mutual
/-- No vector in the value is empty. -/
def Full : Ty → Val → Prop
  | .vec t, .vec vs => vs ≠ [] ∧ ∀ v ∈ vs, Full t v
  | .struct fs, .struct vs => FullFs fs vs
  | _, _ => True
def FullFs : List Ty → List Val → Prop
  | t :: ts, v :: vs => Full t v ∧ FullFs ts vs
  | _, _ => True
end

mutual
/-- The types the compiler accepts for keys (native_functions/dynamic_field.rs 510-665). -/
def keyTy : Ty → Bool
  | .vec t => keyTy t
  | .struct fs => keyTyFs fs
  | .object _ => false
  | .enum _ => false
  | _ => true
def keyTyFs : List Ty → Bool
  | [] => true
  | t :: ts => keyTy t && keyTyFs ts
end

/-- The bytes have been written behind the memory in use. -/
structure Keyed (bs : List UInt8) (σ σ' : Store) : Prop where
  ext : Extends σ σ'
  nextFree : σ'.nextFree = σ.nextFree + bs.length
  bytes : rdBytes σ'.mem σ.nextFree bs.length = bs

theorem Heap.keyed_nil (hσ : Heap σ) : Keyed [] σ σ := ⟨hσ.refl, rfl, rfl⟩

theorem Keyed.trans {a b : List UInt8} (h : Keyed a σ σ') (h' : Keyed b σ' σ'') : Keyed (a ++ b) σ σ'' := by
  have e1 := h.nextFree
  have e2 := h'.nextFree
  refine ⟨h.ext.trans h'.ext, by rw [List.length_append]; omega, ?_⟩
  rw [List.length_append, rdBytes_append, ← e1, h'.bytes]
  congr 1
  rw [← h.bytes, rdBytes_length, h.bytes]
  refine Eq.trans (rdBytes_congr fun x h1 h2 => h'.ext.mem x (by omega)) h.bytes

theorem rdBytes_le (f : Bytes) (w n : Nat) : rdBytes f w n = bytesLe n (leNat f w n) := by
  have h : putLe f w n (leNat f w n) = f := by
    funext x
    rw [putLe_leNat_eq]
    split
    · congr 1; omega
    · rfl
  rw [← rdBytes_putLe f w n (leNat f w n), h]

theorem bytesLe_length (n v : Nat) : (bytesLe n v).length = n := by simp [bytesLe]

/-- A number is written. -/
theorem wp_keyNum {n d w : Nat} {is s l Q} (hσ : Heap σ) (hn : n = 1 ∨ n = 2 ∨ n = 4 ∨ n = 8) (hroom : Room σ n) (hd : lget l d = w)
    (hk : ∀ σ', Keyed (bytesLe n w) σ σ' → wp is s l σ' Q) :
    wp (code[Op.c32 n, alloc.call, Op.lget d, Op.store n 0] ++ is) s l σ Q := by
  have f3 := hσ.alloc.size_lt
  obtain ⟨I, hI⟩ : ∃ I, I = is := ⟨_, rfl⟩
  rw [← hI]
  simp only [List.cons_append, List.nil_append]
  rw [wp_c32]
  have e : n % 4294967296 = n := by omega
  refine wp_allocR hσ hroom (by omega) fun σ1 a1 => ?_
  rw [e] at a1
  have g1 := a1.inside
  have g2 := a1.nextFree
  have g3 := a1.heap.alloc.size_lt
  wstep
  rw [hd]
  refine hI ▸ hk _ ⟨a1.extends.putLe (Nat.le_refl _) (by omega), by rw [setMem_nextFree, bytesLe_length]; exact g2, ?_⟩
  rw [bytesLe_length, setMem_mem, rdBytes_putLe]

/-- A block of memory is copied. -/
theorem wp_keyCopy {n d w : Nat} {bs : List UInt8} {is s l Q} (hσ : Heap σ) (hn : n = 16 ∨ n = 32) (hroom : Room σ n) (hd : lget l d = w)
    (hw : w + n ≤ σ.nextFree) (hb : rdBytes σ.mem w n = bs) (hk : ∀ σ', Keyed bs σ σ' → wp is s l σ' Q) :
    wp (code[Op.c32 n, alloc.call, Op.lget d, Op.c32 n, Op.memCopy] ++ is) s l σ Q := by
  have f3 := hσ.alloc.size_lt
  simp only [List.cons_append, List.nil_append]
  have e : n % 4294967296 = n := by omega
  refine wp_c32.mpr (wp_allocR hσ hroom (by omega) fun σ1 a1 => ?_)
  rw [e] at a1
  have g1 := a1.inside
  have g2 := a1.nextFree
  have g3 := a1.heap.alloc.size_lt
  wstep
  have hl : bs.length = n := by rw [← hb, rdBytes_length]
  refine hk _ ⟨a1.extends.write (fun x hx => copyBytes_out (by omega)) (fun x hx => copyBytes_out (by omega)),
    by rw [setMem_nextFree, hl]; exact g2, ?_⟩
  rw [setMem_mem, hl, a1.mem, ← hb]
  refine List.ext_getElem (by rw [rdBytes_length, rdBytes_length]) fun i h1 h2 => ?_
  rw [rdBytes_length] at h1
  rw [rdBytes_getElem, rdBytes_getElem, copyBytes_in (by omega) (by omega)]
  congr 1; omega

/-- What `copyKey` does with a key of type `t`. -/
def KeyOk (t : Ty) : Prop := ∀ (σ : Store) (R : Nat → Prop) (v : Val) (w d k : Nat) (s l : List Nat) (is : List Instr) (Q : Res → Prop),
  Heap σ → Mv.Rep σ.mem R t v w → (∀ x, R x → x < σ.nextFree) → Full t v → Room σ (keyBytes t v).length →
  lget l d = w → d < k → k + nlKey t ≤ l.length →
  (∀ σ' l', Keyed (keyBytes t v) σ σ' → l'.length = l.length → (∀ j, j < k → j ≠ d → lget l' j = lget l j) → wp is s l' σ' Q) →
  wp (copyKey d t k ++ is) s l σ Q

theorem keyNum_ok {t : Ty} (ht : t.scalar = true) : KeyOk t := by
  intro σ R v w d k s l is Q hσ hr hR hf hroom hd hdk hlen hk
  cases t <;> simp [Ty.scalar] at ht <;> simp only [Mv.Rep] at hr <;> obtain ⟨rfl, hw⟩ := hr <;>
    simp only [keyBytes, bytesLe_length] at hroom hk <;> simp only [copyKey] <;>
    exact wp_keyNum hσ (by omega) hroom hd fun σ' h => hk σ' l h rfl fun _ _ _ => rfl

theorem keyHeap_ok {t : Ty} (ht : t = .u128 ∨ t = .u256 ∨ t = .address) : KeyOk t := by
  intro σ R v w d k s l is Q hσ hr hR hf hroom hd hdk hlen hk
  rcases ht with rfl | rfl | rfl <;> simp only [Mv.Rep] at hr <;> obtain ⟨rfl, hw⟩ := hr <;>
    have hb := hw.lt hR (by omega) <;> simp only [copyKey]
  · simp only [keyBytes, bytesLe_length] at hroom hk
    exact wp_keyCopy hσ (by omega) hroom hd (by omega) (rdBytes_le _ _ _) fun σ' h => hk σ' l h rfl fun _ _ _ => rfl
  · simp only [keyBytes, bytesLe_length] at hroom hk
    exact wp_keyCopy hσ (by omega) hroom hd (by omega) (rdBytes_le _ _ _) fun σ' h => hk σ' l h rfl fun _ _ _ => rfl
  · simp only [keyBytes, word_length] at hroom hk
    exact wp_keyCopy hσ (by omega) hroom hd (by omega) (rdBytes_word rfl) fun σ' h => hk σ' l h rfl fun _ _ _ => rfl

theorem wp_keyField {t : Ty} {ts : List Ty} (ht : KeyOk t) {R : Nat → Prop} {v : Val} {p : Nat} {d f k off w : Nat} {s l : List Nat} {is : List Instr}
    {Q : Res → Prop} (hσ : Heap σ) (hR : ∀ x, R x → x < σ.nextFree) (hp : p = w + off) (hw4 : Within R p 4)
    (hws : t.scalar = true → Within R (leNat σ.mem p 4) t.size)
    (hr : Mv.Rep σ.mem R t v (if t.scalar then leNat σ.mem (leNat σ.mem p 4) t.size else leNat σ.mem p 4))
    (hf : Full t v) (hroom : Room σ (keyBytes t v).length) (hd : lget l d = w) (hdf : d < f) (hfk : f + 1 < k) (hlen : k + nlKey t ≤ l.length)
    (hk : ∀ σ' l', Keyed (keyBytes t v) σ σ' → l'.length = l.length → (∀ j, j < k → j ≠ f → j ≠ f + 1 → lget l' j = lget l j) → wp is s l' σ' Q) :
    wp (code[Op.lget d, Op.load 4 off] ++ (if t.scalar then code[Op.load t.size 0] else []) ++
      code[Op.lset (if t.size = 8 then f + 1 else f)] ++ copyKey (if t.size = 8 then f + 1 else f) t k ++ is) s l σ Q := by
  have f1 := hσ.alloc.nextFree_le
  have f3 := hσ.alloc.size_lt
  have b1 := hw4.lt hR (by omega)
  obtain ⟨q, hq⟩ : ∃ q, q = if t.size = 8 then f + 1 else f := ⟨_, rfl⟩
  have hq' : q = f ∨ q = f + 1 := by rw [hq]; split <;> simp
  rw [← hq]
  simp only [List.append_assoc]
  have key : ∀ x, Mv.Rep σ.mem R t v x → wp (copyKey q t k ++ is) s (lset l q x) σ Q := by
    intro x hx
    refine ht σ R v x q k s _ is Q hσ hx hR hf hroom (lget_lset_same (by omega)) (by omega) (by rw [lset_length]; omega) fun σ' l' h1 h2 h3 => ?_
    refine hk σ' l' h1 (by rw [h2, lset_length]) fun j hj j1 j2 => ?_
    rw [h3 j hj (by omega), lget_lset_ne (by omega)]
  obtain ⟨X, hX⟩ : ∃ X, X = copyKey q t k ++ is := ⟨_, rfl⟩
  rw [← hX] at key ⊢
  wstep
  rw [hd, ← hp]
  split at hr
  · next hs =>
    have b2 := (hws hs).lt hR t.size_pos
    have hsz := t.size_le
    rw [if_pos hs]
    wstep
    exact key _ hr
  · next hs =>
    rw [if_neg hs]
    wstep
    exact key _ hr

theorem keyFs_ok {ts : List Ty} (hts : ∀ t ∈ ts, KeyOk t) : ∀ (σ : Store) (R : Nat → Prop) (vs : List Val) (w d f k off : Nat) (s l : List Nat)
    (is : List Instr) (Q : Res → Prop), Heap σ → Mv.RepFs σ.mem R ts vs (w + off) → (∀ x, R x → x < σ.nextFree) → FullFs ts vs →
    Room σ (keyBytesFs ts vs).length → lget l d = w → d < f → f + 1 < k → k + nlKeyFs ts ≤ l.length →
    (∀ σ' l', Keyed (keyBytesFs ts vs) σ σ' → l'.length = l.length → (∀ j, j < k → j ≠ f → j ≠ f + 1 → lget l' j = lget l j) → wp is s l' σ' Q) →
    wp (copyKeyFs d f ts k off ++ is) s l σ Q := by
  induction ts with
  | nil =>
    intro σ R vs w d f k off s l is Q hσ hr hR hf hroom hd hdf hfk hlen hk
    simp only [Mv.RepFs] at hr
    subst hr
    exact hk σ l hσ.keyed_nil rfl fun _ _ _ _ => rfl
  | cons t ts ih =>
    intro σ R vs w d f k off s l is Q hσ hr hR hf hroom hd hdf hfk hlen hk
    simp only [Mv.RepFs] at hr
    obtain ⟨v, vs, rfl, hw4, hws, hr, hrs⟩ := hr
    simp only [FullFs] at hf
    simp only [keyBytesFs, List.length_append] at hroom hk
    simp only [nlKeyFs] at hlen
    have e := wp_keyField (ts := ts) (hts t List.mem_cons_self) (s := s) (is := copyKeyFs d f ts (k + nlKey t) (off + 4) ++ is) (Q := Q) hσ hR rfl hw4 hws hr hf.1
      (hroom.mono (by omega)) hd hdf hfk (by omega) fun σ1 l1 h1 h2 h3 => ?_
    · simpa only [copyKeyFs, List.append_assoc] using e
    refine ih (fun t ht => hts t (List.mem_cons_of_mem _ ht)) σ1 R vs w d f _ (off + 4) s l1 is Q (h1.ext.heap hσ) ?_ (fun x hx => ?_) hf.2
      (hroom.after (k := (keyBytes t v).length) (by rw [h1.nextFree]) h1.ext.maxPages) (by rw [h3 d (by omega) (by omega) (by omega), hd]) hdf (by omega) (by omega) fun σ2 l2 k1 k2 k3 => ?_
    · exact RepFs.change (fun x hx => h1.ext.mem x (hR x hx)) (fun _ h => h) ts hrs
    · have := hR x hx; have := h1.nextFree; omega
    · refine hk σ2 l2 (h1.trans k1) (by omega) fun j hj j1 j2 => ?_
      rw [k3 j (by omega) j1 j2, h3 j hj j1 j2]

theorem keyStruct_ok {ts : List Ty} (hts : ∀ t ∈ ts, KeyOk t) : KeyOk (.struct ts) := by
  intro σ R v w d k s l is Q hσ hr hR hf hroom hd hdk hlen hk
  simp only [Mv.Rep] at hr
  obtain ⟨vs, rfl, hr⟩ := hr
  simp only [Full] at hf
  simp only [keyBytes] at hroom hk
  simp only [nlKey] at hlen
  simp only [copyKey]
  refine keyFs_ok hts σ R vs w d k (k + 2) 0 s l is Q hσ hr hR hf hroom hd hdk (by omega) (by omega) fun σ' l' h1 h2 h3 => ?_
  exact hk σ' l' h1 h2 fun j hj _ => h3 j (by omega) (by omega) (by omega)

theorem flatMap_take {α β : Type} (f : α → List β) (vs : List α) {i : Nat} (h : i < vs.length) :
    (vs.take (i + 1)).flatMap f = (vs.take i).flatMap f ++ f vs[i] := by
  rw [List.take_succ_eq_append_getElem h, List.flatMap_append]
  simp

theorem keyVec_ok {t : Ty} (ht : KeyOk t) : KeyOk (.vec t) := by
  intro σ R v w d k s l is Q hσ hr hR hf hroom hd hdk hlen hk
  have f1 := hσ.alloc.nextFree_le
  have f3 := hσ.alloc.size_lt
  simp only [Mv.Rep] at hr
  obtain ⟨vs, rfl, hn, hcap, hwi, hr⟩ := hr
  simp only [Full] at hf
  simp only [keyBytes] at hroom hk
  simp only [nlKey] at hlen
  obtain ⟨n, hn'⟩ : ∃ n, n = vs.length := ⟨_, rfl⟩
  have hpos : 0 < n := by rw [hn']; exact List.length_pos_of_ne_nil hf.1
  have b1 := hwi.lt hR (by omega)
  have hsz := t.size_pos
  have hsz' := t.size_le
  rw [← hn'] at hn hcap
  have hel : ∀ i, i < n → w + 8 + i * t.size + t.size ≤ σ.nextFree := fun i hi => by
    have := slot_le (t := t) (cap := leNat σ.mem (w + 4) 4) (i := i) (by omega)
    omega
  have hn32 : n < 2 ^ 32 := by rw [← hn]; exact leNat_lt σ.mem w 4
  simp only [copyKey, skipVecHeader, List.append_assoc]
  wstep
  rw [hd, hn]
  obtain ⟨L, hL⟩ : ∃ L, L = lset (lset (lset l k n) (k + 1) 0) d (w + 8) := ⟨_, rfl⟩
  have eq : ∀ j, j < k → j ≠ d → lget L j = lget l j := fun j hj hjd => by subst hL; lsimp
  have eL : L.length = l.length := by subst hL; lsimp
  have d0 : lget L k = n := by subst hL; lsimp
  have d1 : lget L (k + 1) = 0 := by subst hL; lsimp
  have d2 : lget L d = w + 8 := by subst hL; lsimp
  rw [← hL]
  refine wp_loop (fun m l' σ' => ∃ i, m + i = n ∧ i < n ∧ l'.length = l.length ∧
    (∀ j, j < k + 1 → lget l' j = lget L j) ∧ lget l' (k + 1) = i ∧ Keyed ((vs.take i).flatMap fun v => keyBytes t v) σ σ') n
    ⟨0, by omega, hpos, eL, fun _ _ => rfl, d1, by simpa using hσ.keyed_nil⟩ ?_
  rintro m l1 σ1 ⟨i, hm, hi, hl1, hpres, hi1, hkd⟩
  have g1 := hkd.ext.alloc.nextFree_le
  have g2 := hkd.ext.alloc.size_lt
  have g3 := hkd.ext.nextFree
  have hei := hel i hi
  have p0 : lget l1 k = n := by rw [hpres k (by omega), d0]
  have p1 : lget l1 d = w + 8 := by rw [hpres d (by omega), d2]
  have hri := Rep.change (fun x hx => hkd.ext.mem x (hR x hx)) (fun _ h => h) t (hr i (by omega))
  have hv : leNat σ.mem (w + 8 + i * t.size) t.size = leNat σ1.mem (w + 8 + i * t.size) t.size :=
    (hkd.ext.leNat (by omega)).symm
  rw [hv] at hri
  obtain ⟨X, hX⟩ : ∃ X, X = code[Op.lget (k + 1), Op.lget k, Op.c32 1, Op.bin .w32 .sub, Op.bin .w32 .eq, .brIf 1,
           Op.lget (k + 1), Op.c32 1, Op.bin .w32 .add, Op.lset (k + 1), .br 0] := ⟨_, rfl⟩
  rw [← hX]
  obtain ⟨Y, hY⟩ : ∃ Y, Y = copyKey (k + 2) t (k + 3) ++ X := ⟨_, rfl⟩
  rw [← hY]
  wstep
  have e1 : (w + 8 + t.size * i % 4294967296) % 4294967296 = w + 8 + i * t.size := by
    rw [Nat.mul_comm, Nat.mod_eq_of_lt (by omega), Nat.mod_eq_of_lt (by omega)]
  rw [hi1, p1, e1]
  wstep
  have hrm : Room σ1 (keyBytes t vs[i]).length := by
    have h1 := flatMap_take (fun v => keyBytes t v) vs (i := i) (by omega)
    have h2 : ((vs.take (i + 1)).flatMap fun v => keyBytes t v).length ≤ (vs.flatMap fun v => keyBytes t v).length := by
      conv => rhs; rw [← List.take_append_drop (i + 1) vs, List.flatMap_append, List.length_append]
      omega
    rw [h1, List.length_append] at h2
    exact Room.after (k := ((vs.take i).flatMap fun v => keyBytes t v).length) (hroom.mono h2) (by rw [hkd.nextFree]) hkd.ext.maxPages
  rw [hY]
  refine ht σ1 R vs[i] _ (k + 2) (k + 3) _ _ X _ (hkd.ext.heap hσ) hri (fun x hx => by have := hR x hx; omega) (hf.2 _ (List.getElem_mem _)) hrm
    (lget_lset_same (by omega)) (by omega) (by rw [lset_length]; omega) fun σ2 l2 h1 h2 h3 => ?_
  rw [lset_length] at h2
  have hks := hkd.trans h1
  have ef := flatMap_take (fun v => keyBytes t v) vs (i := i) (by omega)
  rw [← ef] at hks
  have p0 : lget l2 k = n := by rw [h3 k (by omega) (by omega), lget_lset_ne (by omega), p0]
  have p2 : lget l2 (k + 1) = i := by rw [h3 (k + 1) (by omega) (by omega), lget_lset_ne (by omega), hi1]
  have hsub : W.w32.sub n 1 = n - 1 := by simp only [W.sub, W.mod]; omega
  rw [hX]
  wstep
  rw [p0, p2]
  refine .intro (fun hlast => ?_) (fun hlast => ?_)
  · have hin : i + 1 = n := by omega
    rw [hin, hn', List.take_length] at hks
    refine hk σ2 l2 hks (by omega) fun j hj hjd => ?_
    rw [h3 j (by omega) (by omega), lget_lset_ne (by omega), hpres j (by omega), eq j hj hjd]
  · refine ⟨m - 1, by omega, i + 1, by omega, by omega, by rw [lset_length]; omega, fun j hj => ?_, ?_, hks⟩
    · rw [lget_lset_ne (by omega), h3 j (by omega) (by omega), lget_lset_ne (by omega), hpres j hj]
    · rfl

mutual
theorem key_ok : (t : Ty) → keyTy t = true → KeyOk t
  | .bool, _ => keyNum_ok rfl
  | .u8, _ => keyNum_ok rfl
  | .u16, _ => keyNum_ok rfl
  | .u32, _ => keyNum_ok rfl
  | .u64, _ => keyNum_ok rfl
  | .u128, _ => keyHeap_ok (by simp)
  | .u256, _ => keyHeap_ok (by simp)
  | .address, _ => keyHeap_ok (by simp)
  | .vec t, h => keyVec_ok (key_ok t (by simpa only [keyTy] using h))
  | .struct fs, h => keyStruct_ok (keyFs_all fs (by simpa only [keyTy] using h))
  | .object _, h => by simp [keyTy] at h
  | .enum _, h => by simp [keyTy] at h
theorem keyFs_all : (ts : List Ty) → keyTyFs ts = true → ∀ t ∈ ts, KeyOk t
  | [], _ => by simp
  | t :: ts, h => by
    simp only [keyTyFs, Bool.and_eq_true] at h
    intro u hu
    rcases List.mem_cons.mp hu with hu | hu
    · rw [hu]; exact key_ok t h.1
    · exact keyFs_all ts h.2 u hu
end

theorem wp_copyName {is s l Q} : ∀ (name : List UInt8) {σ : Store}, Heap σ → Room σ name.length →
    (∀ σ', Keyed name σ σ' → wp is s l σ' Q) → wp (copyName name ++ is) s l σ Q
  | [], σ, hσ, _, hk => hk σ hσ.keyed_nil
  | b :: bs, σ, hσ, hroom, hk => by
    simp only [List.length_cons] at hroom
    have hb : b.toNat < 256 := b.toNat_lt
    obtain ⟨X, hX⟩ : ∃ X, X = copyName bs ++ is := ⟨_, rfl⟩
    simp only [copyName, List.append_assoc]
    rw [← hX]
    simp only [List.cons_append, List.nil_append]
    refine wp_c32.mpr (wp_allocR hσ hroom (by omega) fun σ1 a1 => ?_)
    have g1 := a1.inside
    have g2 := a1.nextFree
    have g3 := a1.heap.alloc.size_lt
    wstep
    rw [hX]
    obtain ⟨σ2, h2⟩ : ∃ σ2, σ2 = σ1.setMem (putLe σ1.mem σ.nextFree 1 b.toNat) := ⟨_, rfl⟩
    have hK : Keyed [b] σ σ2 := by
      subst h2
      refine ⟨a1.extends.putLe (Nat.le_refl _) (by omega), g2, ?_⟩
      rw [setMem_mem, show [b].length = 1 from rfl, rdBytes_putLe]
      simp [bytesLe]
    rw [← h2]
    exact wp_copyName bs (hK.ext.heap hσ) (Room.after (k := 1) (by rw [Nat.add_comm]; exact hroom) (by rw [hK.nextFree]; rfl) hK.ext.maxPages) fun σ' h => hk σ' (hK.trans h)

/-- The identifier of a field: the hash of the identifier of its owner, its key and the name of the type of the key. -/
structure Hashed (bs : List UInt8) (σ σ' : Store) (p : Nat) : Prop where
  ext : Extends σ σ'
  nextFree : σ'.nextFree = σ.nextFree + bs.length + 32
  inside : p = σ.nextFree + bs.length
  id : beNat σ'.mem p 32 = σ.host.keccak bs % 2 ^ 256

theorem hashKey_spec {R : Nat → Prop} {t : Ty} {v : Val} {w p : Nat} {name : List UInt8} (hσ : Heap σ) (ht : keyTy t = true)
    (hr : Mv.Rep σ.mem R t v w) (hR : ∀ x, R x → x < σ.nextFree) (hf : Full t v) (hp : p + 32 ≤ σ.nextFree)
    (hroom : Room σ (64 + (keyBytes t v).length + name.length)) :
    (hashKey t name).Calls [p, w] σ fun r σ' => ∃ q, r = [q] ∧ Hashed (rdBytes σ.mem p 32 ++ keyBytes t v ++ name) σ σ' q := by
  have f3 := hσ.alloc.size_lt
  refine ⟨rfl, ?_⟩
  obtain ⟨X, hX⟩ : ∃ X, X = code[Op.lget 2, Op.c32 0, alloc.call, Op.lget 2, Op.bin .w32 .sub,
   Op.c32 32, alloc.call, Op.ltee 3, Op.host .keccak, Op.lget 3] := ⟨_, rfl⟩
  obtain ⟨Y, hY⟩ : ∃ Y, Y = copyKey 1 t 4 ++ (copyName name ++ X) := ⟨_, rfl⟩
  unfold hashKey
  simp only [List.append_assoc]
  rw [← hX, ← hY]
  obtain ⟨L, hL⟩ : ∃ L, L = [p, w] ++ List.replicate (2 + nlKey t) 0 := ⟨_, rfl⟩
  have L0 : lget L 0 = p := by rw [hL]; rfl
  have L1 : lget L 1 = w := by rw [hL]; rfl
  have L2 : L.length = 4 + nlKey t := by rw [hL]; simp; omega
  simp only [List.cons_append, List.nil_append]
  simp only [List.cons_append, List.nil_append] at hL
  rw [← hL]
  refine wp_c32.mpr (wp_allocR hσ hroom (by omega) fun σ1 a1 => ?_)
  have n1 : σ1.nextFree = σ.nextFree + 32 := a1.nextFree
  have g1 := a1.inside
  have g3 := a1.heap.alloc.size_lt
  wstep
  rw [L0]
  obtain ⟨σ2, h2⟩ : ∃ σ2, σ2 = σ1.setMem (copyBytes σ1.mem σ.nextFree p 32) := ⟨_, rfl⟩
  have hK : Keyed (rdBytes σ.mem p 32) σ σ2 := by
    subst h2
    refine ⟨a1.extends.write (fun x hx => copyBytes_out (by omega)) (fun x hx => copyBytes_out (by omega)),
      by rw [rdBytes_length]; exact n1, ?_⟩
    rw [rdBytes_length, setMem_mem, a1.mem]
    refine List.ext_getElem (by rw [rdBytes_length, rdBytes_length]) fun i h1 h2 => ?_
    rw [rdBytes_length] at h1
    rw [rdBytes_getElem, rdBytes_getElem, copyBytes_in (by omega) (by omega)]
    congr 1; omega
  rw [← h2, hY]
  have e2 := hK.nextFree
  rw [rdBytes_length] at e2
  refine key_ok t ht σ2 R v w 1 4 [] _ _ _ (hK.ext.heap hσ) (Rep.change (fun x hx => hK.ext.mem x (hR x hx)) (fun _ h => h) t hr)
    (fun x hx => by have := hR x hx; omega) hf (Room.after (k := 32) (hroom.mono (by omega)) (by omega) hK.ext.maxPages)
    (by rw [lget_lset_ne (by omega), L1]) (by omega) (by rw [lset_length]; omega) fun σ3 l3 k3 m3 q3 => ?_
  have K3 := hK.trans k3
  have e3 := K3.nextFree
  rw [List.length_append, rdBytes_length] at e3
  refine wp_copyName name (K3.ext.heap hσ) (Room.after (k := 32 + (keyBytes t v).length) (hroom.mono (by omega)) (by omega) K3.ext.maxPages) fun σ4 k4 => ?_
  have K4 := K3.trans k4
  have e4 := K4.nextFree
  simp only [List.length_append, rdBytes_length] at e4
  have g4 := (K4.ext.heap hσ).alloc.nextFree_le
  have i4 := (K4.ext.heap hσ).alloc.size_lt
  have d2 : lget l3 2 = σ.nextFree := by rw [q3 2 (by omega) (by omega), lget_lset_same (by omega)]
  rw [lset_length, L2] at m3
  rw [hX]
  wstep
  rw [d2]
  refine wp_allocR (K4.ext.heap hσ) (Room.after (k := 32 + (keyBytes t v).length + name.length) (n := 32) (hroom.mono (by omega)) (by omega) K4.ext.maxPages)
    (by omega) fun σ5 a5 => ?_
  have n5 := a5.nextFree
  have x5 := K4.ext.trans a5.extends
  wstep
  rw [d2]
  refine wp_allocR a5.heap (Room.after (k := 32 + (keyBytes t v).length + name.length) (n := 32) (hroom.mono (by omega)) (by omega) x5.maxPages)
    (by omega) fun σ6 a6 => ?_
  have n6 := a6.nextFree
  have g6 := a6.inside
  have i6 := a6.heap.alloc.size_lt
  have x6 := x5.trans a6.extends
  wstep
  rw [wp_keccak (by omega) (by omega)]
  have el : (rdBytes σ.mem p 32 ++ keyBytes t v ++ name).length = σ4.nextFree - σ.nextFree := by
    simp only [List.length_append, rdBytes_length]; omega
  have hb := K4.bytes
  rw [el] at hb
  rw [a6.mem, a5.mem, hb, List.append_assoc]
  wstep
  rw [List.append_assoc] at el
  refine ⟨_, rfl, ?_, ?_, ?_, ?_⟩
  · exact x6.write (fun x hx => by rw [putBe_out (by omega), a6.mem, a5.mem]) (fun x hx => by rw [putBe_out (by omega), a6.mem, a5.mem])
  · rw [setMem_nextFree, el]; omega
  · rw [el]; omega
  · rw [setMem_mem, beNat_putBe_same, x6.host]; rfl

end Rt
