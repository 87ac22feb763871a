import Verif.InvTake
import Verif.Frame

/-
Every instruction preserves the invariant; so do purging a closed account and token movements outside
the market.
-/

namespace Serum

/-- No signer of the transaction is the market's vault signer. -/
def NotVault (P : Params) (m : Market) (accts : List AccMeta) : Prop :=
  ∀ a ∈ accts, a.signer = true → P.vaultSigner m.ownAddress m.vaultSignerNonce ≠ some a.key

theorem NotVault.keeps {I : Impl} {P : Params} {s s' : State I} {accts : List AccMeta}
    (h : NotVault P s.mkt accts) (hk : Keeps s s') : NotVault P s'.mkt accts := by
  unfold NotVault
  rw [hk.own.1, hk.own.2]
  exact h

theorem newOrders_inv {P : Params} {env : Env} {accts : List AccMeta} {ixs : List NewOrderIx} :
    ∀ {s s' : State lst}, newOrders lst P env s accts ixs = .ok s' → (∀ ix ∈ ixs, Props.OrderValid ix) →
    NotVault P s.mkt accts → s'.seq ≤ W64 → SInv P s → SInv P s' := by
  induction ixs with
  | nil => intro s s' h _ _ _ hi; cases h; exact hi
  | cons ix ixs ih =>
    intro s s' h hv hn hq hi
    unfold newOrders at h
    obtain ⟨s1, h1, h⟩ := bind_ok h
    obtain ⟨k1, k2, k3⟩ := newOrderV3_keeps h1
    obtain ⟨j1, j2, j3⟩ := newOrders_keeps h
    refine ih h (fun x hx => hv x (by simp [hx])) (hn.keeps k1) hq ?_
    exact newOrderV3_inv h1 (hv ix (by simp)) hn (by omega) hi

theorem replaceOrders_inv {P : Params} {env : Env} {s s' : State lst} {accts : List AccMeta}
    {ixs : List NewOrderIx} (h : replaceOrders lst P env s accts ixs = .ok s')
    (hv : ∀ ix ∈ ixs, Props.OrderValid ix) (hn : NotVault P s.mkt accts) (hq : s'.seq ≤ W64)
    (hi : SInv P s) : SInv P s' := by
  unfold replaceOrders at h
  obtain ⟨_, _, h⟩ := bind_ok h
  obtain ⟨s1, h1, h⟩ := bind_ok h
  obtain ⟨k1, k2, k3, _⟩ := cancelByClientIds_keeps h1
  exact newOrders_inv h hv (hn.keeps k1) hq (cancelByClientIds_inv h1 hi)

/-- Every instruction preserves the invariant. -/
theorem process_inv {P : Params} {env : Env} {s s' : State lst} {accts : List AccMeta} {ix : Instruction}
    (h : process lst P env s accts ix = .ok s') (hv : Props.IxValid ix) (hn : NotVault P s.mkt accts)
    (hq : s'.seq ≤ W64) (hi : SInv P s) : SInv P s' := by
  unfold process at h
  split at h
  · cases h
  · cases h
  · cases h; exact hi
  · exact consumeEvents_inv h hi
  · cases h
  · exact settleFunds_inv h hi
  · cases h
  · exact disable_inv h hi
  · exact sweep_inv h hi
  · cases h
  · have := (newOrderV3_keeps h).2.1
    exact newOrderV3_inv h hv hn (by omega) hi
  · exact cancelV2_inv h hi
  · exact cancelByClientIdV2_inv h hi
  · have := (sendTake_keeps h).2.1
    exact sendTake_inv h hv hn (by omega) hi
  · exact close_inv h hi
  · exact initOpen_inv h hi
  · exact prune_inv h hi
  · exact consumePermissioned_inv h hi
  · exact cancelByClientIds_inv h hi
  · exact replaceOrders_inv h (by intro x hx; simp at hx; subst hx; exact hv) hn hq hi
  · exact replaceOrders_inv h hv.2 hn hq hi

/-! ### Token movements outside the market -/

/-- What the rest of the world may do to the token ledger as far as the owner of a key `vs`, who never
signs, is concerned: accounts controlled by `vs` keep their control and do not lose tokens. -/
structure Outside (vs : Nat) (l l' : Ledger) : Prop where
  amounts : (∀ a t, l a = some t → t.amount < W64) → ∀ a t, l' a = some t → t.amount < W64
  held : ∀ a, Held vs l a → Held vs l' a ∧ bal l a ≤ bal l' a

theorem Funds.outside {vs m l l'} (h : Funds vs m l) (ho : Outside vs l l') : Funds vs m l' := by
  refine ⟨ho.amounts h.amounts, (ho.held _ h.coin).1, (ho.held _ h.pc).1, ?_⟩
  intro a
  have h1 := h.solvent a
  by_cases ha : a = m.coinVault
  · subst ha
    exact Nat.le_trans h1 (ho.held _ h.coin).2
  · by_cases hb : a = m.pcVault
    · subst hb
      exact Nat.le_trans h1 (ho.held _ h.pc).2
    · unfold owed
      rw [if_neg ha, if_neg hb]
      exact Nat.zero_le _

end Serum
