import Verif.Tags
import Verif.History

/-
New orders and send-takes of a reachable market, opened up: what was checked and what was run.
-/

namespace Serum

/-- What was checked before an order ran. -/
structure OrderArgs (P : Params) (env : Env) (c : Core) (accts : List AccMeta) (a : NewOrderAccts) (side : Side)
    (tier : FeeTier) (oo : OpenOrders) : Prop where
  parse : parseNewOrder accts = .ok a
  market : loadMarket c a.market false = .ok ()
  signed : a.owner.signer = true
  tier : ∃ disc, discountAcct c a.discount = .ok disc ∧ loadFeeTier P c a.owner.key disc = .ok tier
  payer : checkPayer c a.payer side = .ok ()
  enabled : checkEnabled c.mkt = .ok ()
  books : c.mkt.bids ≠ c.mkt.asks
  load : loadOrders c env a.oo.key (some a.owner.key) true none = .ok oo

theorem newOrderArgs_inv {P : Params} {env : Env} {c : Core} {accts : List AccMeta} {a : NewOrderAccts}
    {side : Side} {tier : FeeTier} {oo : OpenOrders} (hp : parseNewOrder accts = .ok a)
    (h : newOrderArgs P env c a side = .ok (tier, oo)) : OrderArgs P env c accts a side tier oo := by
  unfold newOrderArgs at h
  obtain ⟨disc, hdisc, h⟩ := bind_ok h
  obtain ⟨_, hm, h⟩ := bind_ok h
  obtain ⟨_, hs, h⟩ := bind_ok h
  obtain ⟨tier', ht, h⟩ := bind_ok h
  obtain ⟨_, _, h⟩ := bind_ok h
  obtain ⟨_, _, h⟩ := bind_ok h
  obtain ⟨_, _, h⟩ := bind_ok h
  obtain ⟨_, hpay, h⟩ := bind_ok h
  obtain ⟨_, _, h⟩ := bind_ok h
  obtain ⟨_, _, h⟩ := bind_ok h
  obtain ⟨_, he, h⟩ := bind_ok h
  obtain ⟨_, _, h⟩ := bind_ok h
  obtain ⟨_, hb, h⟩ := bind_ok h
  obtain ⟨_, _, h⟩ := bind_ok h
  obtain ⟨oo', hl, h⟩ := bind_ok h
  simp only [pure, Except.pure, Except.ok.injEq, Prod.mk.injEq] at h
  obtain ⟨rfl, rfl⟩ := h
  refine ⟨hp, hm, checkAssert_ok.1 hs, ⟨disc, hdisc, ht⟩, hpay, he, ?_, hl⟩
  unfold orAssert loadBids at hb
  split at hb
  · rename_i x hx
    split at hx
    · cases hx
    · simpa using checkAssert_ok.1 hx
  · cases hb

theorem parseNewOrder_mem {accts : List AccMeta} {a : NewOrderAccts} (h : parseNewOrder accts = .ok a) :
    a.owner ∈ accts := by
  unfold parseNewOrder at h
  split at h
  · split at h
    · cases h; simp
    · cases h
  · cases h

theorem newOrderV3_run {P : Params} {env : Env} {s s' : State lst} {accts : List AccMeta} {ix : NewOrderIx}
    (h : newOrderV3 lst P env s accts ix = .ok s') (hv : Props.OrderValid ix) (hn : NotVault P s.mkt accts)
    (hseq : s.seq < W64) {vs : Nat} {evs : List EventView}
    (hvs : P.vaultSigner s.mkt.ownAddress s.mkt.vaultSignerNonce = some vs)
    (hq : s.q.items = evs.map Event.new)
    (hi : Inv vs s.mkt s.seq s.oos s.toks s.bids.items s.asks.items evs) :
    ∃ a tier oo, OrderArgs P env s.toCore accts a ix.side tier oo ∧
      ∃ m1 o1 d slot ob' ts f evs' given post tail o' l',
        OrderRun P env s s' a ix tier oo vs evs m1 o1 d slot ob' ts f evs' given post tail o' l' := by
  unfold newOrderV3 at h
  obtain ⟨a, ha, h⟩ := bind_ok h
  obtain ⟨⟨tier, oo⟩, hargs, h⟩ := bind_ok h
  have hA := newOrderArgs_inv ha hargs
  exact ⟨a, tier, oo, hA,
    newOrderExec_run h hv hA.load (hn _ (parseNewOrder_mem ha) hA.signed) hseq hvs hq hi⟩

/-- What was checked before a send-take ran. -/
structure TakeArgs (P : Params) (c : Core) (accts : List AccMeta) (a : SendTakeAccts) (tier : FeeTier) : Prop where
  parse : parseSendTake accts = .ok a
  market : loadMarket c a.market false = .ok ()
  signed : a.signer.signer = true
  tier : ∃ disc, discountAcct c a.discount = .ok disc ∧ loadFeeTier P c a.signer.key disc = .ok tier
  coin : Serum.coinWallet c a.coinWallet = .ok ()
  pc : Serum.pcWallet c a.pcWallet = .ok ()
  books : c.mkt.bids ≠ c.mkt.asks

theorem sendTakeArgs_inv {P : Params} {c : Core} {accts : List AccMeta} {a : SendTakeAccts}
    {tier : FeeTier} (hp : parseSendTake accts = .ok a)
    (h : sendTakeArgs P c a = .ok tier) : TakeArgs P c accts a tier := by
  unfold sendTakeArgs at h
  obtain ⟨disc, hdisc, h⟩ := bind_ok h
  obtain ⟨_, hm, h⟩ := bind_ok h
  obtain ⟨_, hs, h⟩ := bind_ok h
  obtain ⟨tier', ht, h⟩ := bind_ok h
  obtain ⟨_, _, h⟩ := bind_ok h
  obtain ⟨_, _, h⟩ := bind_ok h
  obtain ⟨_, hc, h⟩ := bind_ok h
  obtain ⟨_, hpw, h⟩ := bind_ok h
  obtain ⟨_, _, h⟩ := bind_ok h
  obtain ⟨_, _, h⟩ := bind_ok h
  obtain ⟨_, _, h⟩ := bind_ok h
  obtain ⟨_, _, h⟩ := bind_ok h
  obtain ⟨_, hb, h⟩ := bind_ok h
  obtain ⟨_, _, h⟩ := bind_ok h
  simp only [pure, Except.pure, Except.ok.injEq] at h
  subst h
  refine ⟨hp, hm, checkAssert_ok.1 hs, ⟨disc, hdisc, ?_⟩, hc, hpw, ?_⟩
  · unfold orAssert at ht
    split at ht
    · rename_i x hx; cases ht; exact hx
    · cases ht
  · unfold orAssert loadBids at hb
    split at hb
    · rename_i x hx
      split at hx
      · cases hx
      · simpa using checkAssert_ok.1 hx
    · cases hb

theorem parseSendTake_mem {accts : List AccMeta} {a : SendTakeAccts} (h : parseSendTake accts = .ok a) :
    a.signer ∈ accts := by
  unfold parseSendTake at h
  split at h
  · split at h
    · cases h; simp
    · cases h
  · cases h

theorem sendTake_run {P : Params} {s s' : State lst} {accts : List AccMeta} {ix : SendTakeIx}
    (h : sendTake lst P s accts ix = .ok s') (hv : TakeValid ix) (hn : NotVault P s.mkt accts)
    (hseq : s.seq < W64) {vs : Nat} {evs : List EventView}
    (hvs : P.vaultSigner s.mkt.ownAddress s.mkt.vaultSignerNonce = some vs)
    (hq : s.q.items = evs.map Event.new)
    (hi : Inv vs s.mkt s.seq s.oos s.toks s.bids.items s.asks.items evs) :
    ∃ a tier, TakeArgs P s.toCore accts a tier ∧ ∃ ob' ts f evs' given post tail m' D w l',
      TakeRun P s s' a ix tier vs evs ob' ts f evs' given post tail m' D w l' := by
  unfold sendTake at h
  obtain ⟨a, ha, h⟩ := bind_ok h
  obtain ⟨tier, hargs, h⟩ := bind_ok h
  have hA := sendTakeArgs_inv ha hargs
  exact ⟨a, tier, hA,
    sendTakeExec_run h hv (hn _ (parseSendTake_mem ha) hA.signed) hseq hvs hq hi⟩

end Serum
