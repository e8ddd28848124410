import Verif.Proof.MoveOps
import Verif.Proof.Natives

/-! Calls of native functions that tell about the transaction, the block and accounts. -/

namespace Move
open Wasm Rt

variable {σ σ' : Store} {E : ErrPtrs} {ty : RetTy} {is : List Instr} {s loc : List Nat} {l : Nat} {Q : Res → Prop} {P : Prog}

theorem wp_gasLimit : wp (.op (.host .gasLimit) :: is) s loc σ Q ↔ wp is (σ.host.env.gasLimit % 2 ^ 64 :: s) loc σ Q := by
  rw [wp_op]; rfl
theorem wp_chainId : wp (.op (.host .chainId) :: is) s loc σ Q ↔ wp is (σ.host.env.chainId % 2 ^ 64 :: s) loc σ Q := by
  rw [wp_op]; rfl

/-- The last twenty bytes of an address. -/
theorem beNat_account (f : Bytes) (a : Nat) : beNat f (a + 12) 20 = beNat f a 32 % 2 ^ 160 := by
  rw [show (2 : Nat) ^ 160 = 256 ^ 20 by decide, show (32 : Nat) = 12 + 20 from rfl, beNat_add, Nat.mul_comm, Nat.mul_add_mod,
    Nat.mod_eq_of_lt (beNat_lt _ _ _)]

/-- A wrapper of a host function that writes a number of 256 bits. -/
theorem wp_wrapper {f : HostFn} {n : Nat} (hσ : Heap σ) (hr : Room σ 64) (hn : n < 2 ^ 256) (hb : bswap 32 n = n)
    (hf : ∀ (τ : Store) p s, τ.host = σ.host → p + 32 ≤ τ.size →
      f.eval τ (p :: s) = some (s, τ.setMem (putBe τ.mem p 32 n)))
    (hk : EvK E ty is s loc l σ Q (.val ⟨.int .u256, n⟩)) : wp ((hostWrapper f).call :: is) s loc σ Q := by
  refine wp_call0 (hostWrapper_spec hσ (hr.mono (by omega)) hf) ?_
  rintro r σ' ⟨rfl, h1, h2, h3⟩
  refine hk _ loc σ' ⟨hn, by omega, ?_⟩ (fun _ => Nat.le_refl _) h1 (by omega) SameLocs.refl
  rw [← bswap_beNat, h3, Nat.mod_eq_of_lt hn, hb]

theorem wp_query {q : Query} {a n w : Nat} (hσ : Heap σ) (hr : Room σ 64) (ht : Truthful P σ.host) (ha : P.answer q a = some n)
    (hw : q.account = true → RepV σ ⟨.addr, a⟩ w) (hk : EvK E ty is s loc l σ Q (.val ⟨q.res, n⟩)) :
    wp (queryCode q ++ is) (if q.account then w :: s else s) loc σ Q := by
  obtain ⟨h1, h2, h3, h4⟩ := ht q a n ha
  cases q with
  | sender =>
    refine wp_call0 (nativeSender_spec hσ (hr.mono (by omega))) ?_
    rintro r σ' ⟨rfl, g1, g2, g3⟩
    refine hk _ loc σ' ⟨h2, by omega, ?_⟩ (fun _ => Nat.le_refl _) g1 (by omega) SameLocs.refl
    have e : n = σ.host.sender := h1
    rw [g3, ← e, Nat.mod_eq_of_lt (h3 rfl)]
  | value =>
    have e : n = σ.host.env.value := h1
    exact wp_wrapper hσ hr h2 (h4 (by simp)) (fun τ p s g1 g2 => by simp only [HostFn.eval, if_pos g2, g1, e]) hk
  | baseFee =>
    have e : n = σ.host.env.baseFee := h1
    exact wp_wrapper hσ hr h2 (h4 (by simp)) (fun τ p s g1 g2 => by simp only [HostFn.eval, if_pos g2, g1, e]) hk
  | gasPrice =>
    have e : n = σ.host.env.gasPrice := h1
    exact wp_wrapper hσ hr h2 (h4 (by simp)) (fun τ p s g1 g2 => by simp only [HostFn.eval, if_pos g2, g1, e]) hk
  | number =>
    have e : n = σ.host.env.number := h1
    have h2' : n < 2 ^ 64 := h2
    show wp (.op (.host .blockNumber) :: is) s loc σ Q
    rw [wp_blockNumber, ← e, Nat.mod_eq_of_lt h2']
    exact hk.same hσ ⟨h2, rfl⟩
  | timestamp =>
    have e : n = σ.host.env.timestamp := h1
    have h2' : n < 2 ^ 64 := h2
    show wp (.op (.host .timestamp) :: is) s loc σ Q
    rw [wp_timestamp, ← e, Nat.mod_eq_of_lt h2']
    exact hk.same hσ ⟨h2, rfl⟩
  | gasLimit =>
    have e : n = σ.host.env.gasLimit := h1
    have h2' : n < 2 ^ 64 := h2
    show wp (.op (.host .gasLimit) :: is) s loc σ Q
    rw [wp_gasLimit, ← e, Nat.mod_eq_of_lt h2']
    exact hk.same hσ ⟨h2, rfl⟩
  | chainId =>
    have e : n = σ.host.env.chainId := h1
    have h2' : n < 2 ^ 64 := h2
    show wp (.op (.host .chainId) :: is) s loc σ Q
    rw [wp_chainId, ← e, Nat.mod_eq_of_lt h2']
    exact hk.same hσ ⟨h2, rfl⟩
  | balance =>
    obtain ⟨-, g1, g2⟩ := hw rfl
    dsimp only at g2
    have e : n = σ.host.env.balance (a % 2 ^ 160) := h1
    have h2' : n < 2 ^ 256 := h2
    have := nativeBalance_spec (a := w) hσ (hr.mono (by omega)) g1
    rw [beNat_account, g2, ← e, Nat.mod_eq_of_lt h2'] at this
    refine wp_call1 this ?_
    rintro r σ' ⟨p, rfl, k1, ⟨k2, k3⟩, k4, k5⟩
    exact hk p loc σ' ⟨h2, k2, k4⟩ (fun _ => k1) k5 (by omega) SameLocs.refl
  | codeSize =>
    obtain ⟨-, g1, g2⟩ := hw rfl
    dsimp only at g2
    have e : n = σ.host.env.codeSize (a % 2 ^ 160) := h1
    have h2' : n < 2 ^ 32 := h2
    have hsz := hσ.alloc.nextFree_le
    have := nativeCodeSize_spec (σ := σ) (a := w) (by omega) hσ.alloc.size_lt
    rw [beNat_account, g2, ← e, Nat.mod_eq_of_lt h2'] at this
    refine wp_call1 this ?_
    rintro r σ' ⟨rfl, rfl⟩
    exact hk.same hσ ⟨h2, rfl⟩

end Move
