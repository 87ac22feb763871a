import Verif.PropsJournal
import Verif.PropsTextbook

/-!
C81: every trade is charged the rate due to its taker for tokens of their own, and no other.
-/

namespace Serum.Props

/-- Trades were charged `rate`, in 1/100000 of their value, to less than a unit each; `fees` is the total. -/
structure ChargedAt (m : Market) (rate fees : Nat) (trades : List Trade) : Prop where
  fee : ∃ f : Trade → Nat, fees = total f trades ∧ ∀ t ∈ trades,
    f t * 100000 < rate * t.value m + 100000 ∧ rate * t.value m < f t * 100000 + 100000 ∧ 0 < f t

theorem charged_at {m : Market} {tier : FeeTier} {sd : Side} {ts : List Touch}
    (hv : ∀ t ∈ tradesOf sd ts, 0 < t.value m ∧ t.value m < W64) :
    ChargedAt m (advertised tier) (takerFees m tier ts) (tradesOf sd ts) := by
  refine ⟨fun t => tier.takerFee (t.value m), (tradesOf_fees m tier sd ts).symm, fun t ht => ?_⟩
  obtain ⟨h1, h2⟩ := hv t ht
  obtain ⟨_, a, b, c⟩ := taker_fee_is_rate_rounded_up tier (t.value m) h2
  exact ⟨a, b, c h1⟩

theorem trade_value {P : Params} {s s' : State conc} (h : Reach P s) (hq : s.seq ≤ W64) {o : OrderParams} {limit : Nat}
    {ts : List Touch} {f : Option Posting} {evs : List EventView} (hm : Matched s s' o limit ts f evs)
    (hb : o.side = .bid → tradedQuote s.mkt ts < W64) {t : Trade} (ht : t ∈ tradesOf o.side.other ts) :
    0 < t.value s.mkt ∧ t.value s.mkt < W64 := by
  obtain ⟨h1, ⟨l, hl, _, _, hp, hpos, hle⟩, _⟩ := hm.trades ht
  obtain ⟨vs, hvs, hqi, hi⟩ := h.view hq
  have hk := hi.shape.mkt.pcLot
  have hl' : 0 < l.price := ((bestFirst_ok h hq _).2 l (mem_bestFirst.2 hl)).2
  rw [hp] at hl'
  refine ⟨Nat.mul_pos (Nat.mul_pos hpos hl') hk, ?_⟩
  cases hs : o.side with
  | bid =>
    have e := sumBy_le_mem (Trade.value s.mkt) ht
    have : sumBy (Trade.value s.mkt) (tradesOf o.side.other ts) = tradedQuote s.mkt ts :=
      tradesOf_value s.mkt o.side.other ts
    have := hb hs
    omega
  | ask =>
    rw [h1, hs] at hl
    have := hi.shape.book.bidVal l hl
    unfold Trade.value
    rw [← hp]
    exact Nat.lt_of_le_of_lt (Nat.mul_le_mul_right _ (Nat.mul_le_mul_right _ hle)) this

/-- C81, new orders. The rate of every trade is the schedule's for the tokens in the account passed in thirteenth place,
which must be the signer's own; without it, the schedule's for holding nothing. -/
theorem order_pays_due_rate {P : Params} {s s' : State conc} (h : Reach P s) (hq : s.seq < W64) {env : Env}
    {accts : List AccMeta} {ix : NewOrderIx} (hv : OrderValid ix) (hn : NotVault P s.mkt accts)
    (hx : newOrderV3 conc P env s accts ix = .ok s') :
    ∃ a tier o o' slot d ts f evs rate, PlaceEffect P env s s' accts ix a tier o o' slot d ts f evs ∧
      accts[7]? = some a.owner ∧ a.owner.signer = true ∧
      Rated P s.toCore a.owner.key (accts.drop 12) rate ∧
      ChargedAt s.mkt rate (takerFees s.mkt tier ts) (tradesOf ix.side.other ts) := by
  obtain ⟨a, tier, o, o', slot, d, ts, f, evs, he⟩ := place_effect h hq hv hn hx
  have hp := parse_order_extra he.args.parse
  have hr := rated he.args.tier
  rw [hp.1] at hr
  refine ⟨a, tier, o, o', slot, d, ts, f, evs, _, he, hp.2, he.args.signed, hr, charged_at fun t ht => ?_⟩
  refine trade_value h (Nat.le_of_lt hq) he.matched (fun hs => ?_) ht
  have := (he.bid hs).budget
  have := hv.2.2.1.2
  unfold W64
  omega

/-- C81, send-takes. -/
theorem take_pays_due_rate {P : Params} {s s' : State conc} (h : Reach P s) (hq : s.seq < W64)
    {accts : List AccMeta} {ix : SendTakeIx} (hv : TakeValid ix) (hn : NotVault P s.mkt accts)
    (hx : sendTake conc P s accts ix = .ok s') :
    ∃ a tier ts evs rate, TakeEffect P s s' accts ix a tier ts evs ∧
      accts[7]? = some a.signer ∧ a.signer.signer = true ∧
      Rated P s.toCore a.signer.key (accts.drop 12) rate ∧
      ChargedAt s.mkt rate (takerFees s.mkt tier ts) (tradesOf ix.side.other ts) := by
  obtain ⟨a, tier, ts, evs, he⟩ := take_effect h hq hv hn hx
  have hp := parse_take_extra he.args.parse
  have hr := rated he.args.tier
  rw [hp.1] at hr
  refine ⟨a, tier, ts, evs, _, he, hp.2, he.args.signed, hr, charged_at fun t ht => ?_⟩
  refine trade_value h (Nat.le_of_lt hq) he.matched (fun hs => ?_) ht
  have := (he.bid hs).budget
  have := hv.2.2.1.2
  unfold W64
  omega

/-- C81. A rate below the base rate, on a market that is not a stable one, means that the signer passed a token account of
their own with at least 100 SRM or one MSRM in it: nobody gets a discount for the tokens of others. The base rate is the
highest there is. -/
theorem discount_needs_own_tokens {P : Params} {c : Core} {signer : Nat} {extra : List AccMeta} {rate : Nat}
    (h : Rated P c signer extra rate) : rate ≤ 40 ∧ 10 ≤ rate ∧
    (rate ≠ 40 → P.isStable c.mkt.ownAddress = true ∨
      ∃ a ∈ extra, ∃ t, c.toks a.key = some t ∧ t.owner = signer ∧
        ((t.mint = P.srmMint ∧ 10 ^ 8 ≤ t.amount) ∨ (t.mint = P.msrmMint ∧ 1 ≤ t.amount))) := by
  have hb : ∀ st x y, schedule st x y ≤ 40 ∧ 10 ≤ schedule st x y := by
    intro st x y
    unfold schedule
    repeat' split
    all_goals omega
  refine ⟨?_, ?_, h.due.holder⟩
  · cases h.due <;> exact (hb _ _ _).1
  · cases h.due <;> exact (hb _ _ _).2

namespace Demo

/-- Wallet 25 of 12 holds 20000 SRM, wallet 26 of 11 one MSRM. -/
def richToks : Ledger := fun a =>
  if a = 25 then some (Serum.Demo.tok 74 12 20000000000)
  else if a = 26 then some (Serum.Demo.tok 75 11 1)
  else Serum.Demo.s1.toks a
def rich : State conc := { Serum.Demo.s1 with toks := richToks }

end Demo

/-- 12 pays 0.036% with their own SRM, the base rate without it, and cannot use the MSRM of 11. -/
example : Rated Demo.P Demo.rich.toCore 12 [Demo.acc 25] 36 ∧ Rated Demo.P Demo.rich.toCore 12 [] 40 ∧
    Rated Demo.P Demo.rich.toCore 11 [Demo.acc 26] 30 ∧
    (sendTake conc Demo.P Demo.rich (Demo.takeAccts ++ [Demo.acc 25]) Demo.takeIx).isOk = true ∧
    (sendTake conc Demo.P Demo.rich (Demo.takeAccts ++ [Demo.acc 26]) Demo.takeIx).isOk = false :=
  ⟨⟨by decide, (fun h => by cases h), fun a h => by
      cases h; exact ⟨Serum.Demo.tok 74 12 20000000000, by decide +kernel, by decide, by decide, by decide +kernel⟩⟩,
    ⟨by decide, fun _ => by decide +kernel, (fun a h => by cases h)⟩,
    ⟨by decide, (fun h => by cases h), fun a h => by
      cases h; exact ⟨Serum.Demo.tok 75 11 1, by decide +kernel, by decide, by decide, by decide +kernel⟩⟩,
    by decide +kernel, by decide +kernel⟩

end Serum.Props
