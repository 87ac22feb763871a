import Verif.PropsTrade

/-!
C23 (an order never uses more than it states), the fee half of C27 (every fee charged is accounted), at the
level of instructions.
-/

namespace Serum.Props

/-! ### C23 -/

/-- `rested` lots of a new order of account `a` are on the book in `s'`, and no other order was added. -/
def Rests (s s' : State conc) (sd : Side) (a price rested : Nat) : Prop :=
  (rested = 0 ∧ resting s' sd = resting s sd) ∨
  (0 < rested ∧ ∃ l ∈ resting s' sd, l ∉ resting s sd ∧ l.owner = a ∧ l.price = price ∧ l.quantity = rested ∧
    ∀ x ∈ resting s' sd, x = l ∨ x ∈ resting s sd)

/-- Free balances `(base, quote)` of an account; none if it does not exist. -/
def freeOf (s : State conc) (a : Nat) : Nat × Nat :=
  match ooAt s.oos a with
  | some o => (o.coinFree, o.pcFree)
  | none => (0, 0)

/-- What the owner of a new order pays and has free afterwards, if it traded `lots` for `quote` with fee `fee`
and rested `rested` lots. -/
def OrderPays (s s' : State conc) (ix : NewOrderIx) (a payer lots quote fee rested : Nat) : Prop :=
  match ix.side with
  | .bid =>
    let used := quote + fee + rested * ix.limitPrice * s.mkt.pcLot
    let paidIn := ix.maxPcQty - (freeOf s a).2
    used ≤ ix.maxPcQty ∧ PaidIn s.toks s'.toks payer s.mkt.pcVault paidIn ∧
      (freeOf s' a).2 + used = (freeOf s a).2 + paidIn ∧
      (freeOf s' a).1 = (freeOf s a).1 + lots * s.mkt.coinLot
  | .ask =>
    let used := (lots + rested) * s.mkt.coinLot
    let paidIn := ix.maxCoinQty * s.mkt.coinLot - (freeOf s a).1
    PaidIn s.toks s'.toks payer s.mkt.coinVault paidIn ∧
      (freeOf s' a).1 + used = (freeOf s a).1 + paidIn ∧
      fee ≤ quote ∧ (freeOf s' a).2 = (freeOf s a).2 + (quote - fee)

theorem mem_insKey_self {l : Leaf} {xs : List Leaf} : l ∈ insKey l xs := by
  induction xs with
  | nil => simp [insKey]
  | cons y ys ih =>
    unfold insKey
    split
    · simp
    · split
      · simp
      · simp [ih]

theorem Matched.rests {P : Params} {s s' : State conc} (h : Reach P s) (hq : s.seq < W64) {o : OrderParams}
    {limit p : Nat} (hid : o.orderId = genOrderId s.seq p o.side) (hp : p < W64) {ts : List Touch} {f : Option Posting}
    {evs : List EventView} (hm : Matched s s' o limit ts f evs) : Rests s s' o.side o.owner p (postedLots f) := by
  obtain ⟨vs, _, _, hi⟩ := h.view (Nat.le_of_lt hq)
  have hfr := hi.shape.fresh (sd := o.side) (p := p) hq
  cases f with
  | none => exact .inl ⟨rfl, hm.own⟩
  | some f =>
    obtain ⟨cap, ho⟩ := hm.own
    refine .inr ⟨ho.pos, o.leaf f.lots, ?_, ?_, rfl, ?_, rfl, ?_⟩
    · rcases ho.book with ⟨_, _, e⟩ | ⟨_, _, _, _, e, _⟩ <;> rw [e] <;> exact mem_insKey_self
    · intro hc
      refine hfr ?_
      rw [← hid]
      exact List.mem_map.2 ⟨_, (by revert hc; cases o.side <;> exact id : o.leaf f.lots ∈ sideOf o.side s.bids.contents s.asks.contents), rfl⟩
    · show extractPrice o.orderId = p
      rw [hid]; exact extractPrice_genOrderId hq hp
    · intro x hx
      rcases ho.book with ⟨_, _, e⟩ | ⟨l, R, _, _, e, e2⟩
      · rw [e] at hx
        exact insKey_mem hx
      · rw [e] at hx
        rcases insKey_mem hx with hx | hx
        · exact .inl hx
        · right
          cases hs : o.side with
          | bid => rw [hs] at e2; simp only at e2; rw [e2]; simp [hx]
          | ask => rw [hs] at e2; simp only at e2; rw [e2]; simp [hx]

/-- C23. A new order trades with resting orders of the other side within its limit price; what it trades plus
what it rests is at most its maximum base quantity; a bid's trades, fees and resting commitment are at most its
maximum quote quantity. What it locks is its stated maximum: first from the free balance, the rest paid in.
Afterwards everything not used is free: the free balance is the one before plus what was paid in minus exactly
what was used (plus what was bought or earned). -/
theorem order_uses_at_most {P : Params} {s s' : State conc} (h : Reach P s) (hq : s.seq < W64) {env : Env}
    {accts : List AccMeta} {ix : NewOrderIx} (hv : OrderValid ix) (hn : NotVault P s.mkt accts)
    (hx : newOrderV3 conc P env s accts ix = .ok s') :
    ∃ (a payer : AccMeta) (tier : FeeTier) (trades : List Trade) (rested : Nat),
      accts[1]? = some a ∧ accts[6]? = some payer ∧
      (∀ t ∈ trades, t.side = otherSide ix.side ∧ t.With s ∧ withinLimit ix.side ix.limitPrice t.price) ∧
      Rests s s' ix.side a.key ix.limitPrice rested ∧
      total (·.lots) trades + rested ≤ ix.maxCoinQty ∧
      OrderPays s s' ix a.key payer.key (total (·.lots) trades) (total (Trade.value s.mkt) trades)
        (total (fun t => tier.takerFee (t.value s.mkt)) trades) rested := by
  obtain ⟨a, tier, o, o', slot, d, ts, f, evs, e⟩ := place_effect h hq hv hn hx
  have hp := e.args.parse
  unfold parseNewOrder at hp
  split at hp
  case h_2 => cases hp
  split at hp
  case isFalse => cases hp
  cases hp
  rename_i m oo rq eq b k payer ow cv pv tp rt rest _
  have hf0 : freeOf s oo.key = (o.coinFree, o.pcFree) := by
    unfold freeOf
    rcases loadOrders_inv e.args.load with ⟨g, _⟩ | ⟨g, _, _, _, _, w, _, g2⟩
    · have g' : ooAt s.oos _ = some o := g
      rw [g']
    · have g' : ooAt s.oos _ = none := g
      rw [g', g2]; rfl
  have hf1 : freeOf s' oo.key = (o'.coinFree, o'.pcFree) := by
    unfold freeOf
    rw [e.account]
  have hpaid := e.paid
  refine ⟨_, _, tier, tradesOf ix.side.other ts, postedLots f, rfl, rfl, ?_, e.matched.rests h hq rfl hv.1.2, ?_, ?_⟩
  · intro t ht
    obtain ⟨h1, h2, h3, _⟩ := e.matched.trades ht
    refine ⟨by rw [h1]; show ix.side.other = _; cases ix.side <;> rfl, h2, ?_⟩
    have hp : extractPrice (genOrderId s.seq ix.limitPrice ix.side) = ix.limitPrice :=
      extractPrice_genOrderId hq hv.1.2
    unfold priceOk at h3
    simp only [newOrderReq, hp] at h3
    exact h3
  · rw [tradesOf_lots]
    cases hs : ix.side with
    | bid => exact (e.bid hs).size
    | ask => exact (e.ask hs).size
  · rw [tradesOf_lots, tradesOf_value, tradesOf_fees]
    unfold OrderPays
    rw [hf0, hf1]
    cases hs : ix.side with
    | bid =>
      have b := e.bid hs
      rw [hs, b.deposit] at hpaid
      exact ⟨b.budget, hpaid, by rw [b.quote, b.deposit], b.base⟩
    | ask =>
      have b := e.ask hs
      rw [hs, b.deposit] at hpaid
      exact ⟨hpaid, by rw [b.base, b.deposit], b.fees, b.quote⟩

-- the bid of 12 trades 2 lots with the resting ask at 1000: 20000 quote and 8 fee of the 30000 locked
example : Reach Demo.P Demo.s1 ∧
    newOrderV3 conc Demo.P Demo.env Demo.s1 Demo.a2 (Demo.order .bid 1100 2 30000 8) = .ok Demo.s2 ∧
    (freeOf Demo.s1 42, freeOf Demo.s2 42) = ((0, 0), (200, 9992)) :=
  ⟨Demo.r1, Demo.run_eq (ix := Demo.i2) (by decide +kernel), by decide +kernel⟩

/-! ### C27: fees -/

/-- Fees the market has taken and still holds: accrued fees plus accrued referrer rebates. -/
def feesHeld (s : State conc) : Nat := s.mkt.pcFees + s.mkt.referrerRebates

/-- How the fees held change. -/
inductive FeeFlow (P : Params) (accts : List AccMeta) (s s' : State conc) : Prop where
  /-- Trades with resting orders were charged the tier's fee. -/
  | charged (tier : FeeTier) (trades : List Trade) (with_ : ∀ t ∈ trades, t.With s)
      (held : feesHeld s' = feesHeld s + total (fun t => tier.takerFee (t.value s.mkt)) trades)
  /-- The sweep authority was paid the accrued fees. -/
  | swept (auth : AccMeta) (dst : Nat) (mem : auth ∈ accts) (signed : auth.signer = true) (key : auth.key = P.feeSweeper)
      (paid : Paid s.toks s'.toks s.mkt.pcVault dst s.mkt.pcFees)
      (held : feesHeld s' + s.mkt.pcFees = feesHeld s)
  /-- A settlement paid an account's recorded rebates to a referrer. -/
  | referred (a : Nat) (o : OpenOrders) (l : Ledger) (dst : Nat) (acct : ooAt s.oos a = some o)
      (paid : Paid l s'.toks s.mkt.pcVault dst o.rebates) (held : feesHeld s' + o.rebates = feesHeld s)
  | same (held : feesHeld s' = feesHeld s)

/-- Several in a row. -/
inductive FeeFlows (P : Params) (accts : List AccMeta) : State conc → State conc → Prop where
  | nil {s : State conc} : FeeFlows P accts s s
  | cons {s s1 s2 : State conc} (h : FeeFlow P accts s s1) (t : FeeFlows P accts s1 s2) : FeeFlows P accts s s2

theorem FeeFlows.trans {P : Params} {accts : List AccMeta} {a b c : State conc} (h : FeeFlows P accts a b)
    (k : FeeFlows P accts b c) : FeeFlows P accts a c := by
  induction h with
  | nil => exact k
  | cons h t ih => exact .cons h (ih k)

theorem Moved.fees {m m' : Market} {a b c d fee ref : Nat} (h : Moved m m' a b c d fee ref) :
    m'.pcFees + m'.referrerRebates = m.pcFees + m.referrerRebates + fee := by
  have := h.ref
  rw [h.mkt]
  show m.pcFees + (fee - ref) + (m.referrerRebates + ref) = _
  omega

theorem act_fees {P : Params} {env : Env} {accts : List AccMeta} {s s' : State conc} (h : Reach P s)
    (hn : NotVault P s.mkt accts) (hq : s'.seq ≤ W64) (ha : Act P env accts s s') : FeeFlow P accts s s' := by
  have hs : s.seq ≤ W64 := Nat.le_trans ha.seq hq
  have wd : ∀ {a ls}, Withdrawn s s' a ls → FeeFlow P accts s s' := fun w => .same (by unfold feesHeld; rw [w.mkt])
  cases ha with
  | idle e => exact .same (by rw [e])
  | place hl hv hx =>
    have hlt : s.seq < W64 := by have := (newOrderV3_keeps hx).2.1; omega
    obtain ⟨a, tier, o, o', slot, d, ts, f, evs, e⟩ := place_effect h hlt hv (hn.subset hl) hx
    rename_i ix
    refine .charged tier (tradesOf ix.side.other ts) (fun t ht => (e.matched.trades ht).2.1) ?_
    rw [tradesOf_fees]
    cases hs : ix.side with
    | bid => exact (e.bid hs).mkt.fees
    | ask => exact (e.ask hs).mkt.fees
  | take hl hv hx =>
    have hlt : s.seq < W64 := by have := (sendTake_keeps hx).2.1; omega
    obtain ⟨a, tier, ts, evs, e⟩ := take_effect h hlt hv (hn.subset hl) hx
    rename_i ix
    refine .charged tier (tradesOf ix.side.other ts) (fun t ht => (e.matched.trades ht).2.1) ?_
    rw [tradesOf_fees]
    cases hs : ix.side with
    | bid => exact (e.bid hs).mkt.fees
    | ask => exact (e.ask hs).mkt.fees
  | cancel hl hx => obtain ⟨_, _, _, _, _, _, _, _, _, w⟩ := cancel_withdrawn h hs (.inl ⟨_, _, hx⟩); exact wd w
  | cancelBy hl hx => obtain ⟨_, _, _, _, _, _, _, _, _, w⟩ := cancel_withdrawn h hs (.inr (.inl ⟨_, hx⟩)); exact wd w
  | batch hl hx => obtain ⟨_, _, _, _, _, _, _, _, _, w⟩ := cancel_withdrawn h hs (.inr (.inr ⟨_, hx⟩)); exact wd w
  | prune hl hx => obtain ⟨_, _, _, _, _, _, _, _, _, _, _, _, _, _, _, w, _⟩ := prune_effect h hs hx; exact wd w
  | crank hl hx =>
    obtain ⟨_, _, _, _, _, _, _, e, _⟩ := crank_delivers h hs hx
    exact .same (by unfold feesHeld; rw [e])
  | settle hl hx =>
    obtain ⟨m, oo, owner, cv, pv, cw, pw, vsA, tp, refer, o, rfl, _, _, _, st⟩ := settle_effect h hs hx
    generalize (if 0 < o.rebates then (refer.map (·.key)).head? else none) = r at st
    have he := st.enough.2.2.2.2
    cases r with
    | none =>
      refine .same ?_
      unfold feesHeld
      rw [st.mkt]
      show s.mkt.pcFees + o.rebates + (s.mkt.referrerRebates - o.rebates) = _
      omega
    | some r =>
      obtain ⟨l1, l2, _, _, hp⟩ := st.paid
      refine .referred oo.key o l2 r st.account hp ?_
      unfold feesHeld
      rw [st.mkt]
      show s.mkt.pcFees + 0 + (s.mkt.referrerRebates - o.rebates) + o.rebates = _
      omega
  | disable hl hx =>
    obtain ⟨_, _, _, _, _, _, e⟩ := disable_inv hx
    exact .same (by rw [e]; rfl)
  | sweep hl hx =>
    obtain ⟨m, pv, auth, w, vsA, tp, l, rfl, h1, h2, h3, e⟩ := sweep_effect h hs hx
    refine .swept auth w.key (hl (by simp)) h1 h2 (by rw [e]; exact h3) ?_
    rw [e]
    show 0 + s.mkt.referrerRebates + s.mkt.pcFees = s.mkt.pcFees + s.mkt.referrerRebates
    omega
  | close hl hx => exact .same (by unfold feesHeld; rw [(close_keeps hx).1])
  | init hl hx => exact .same (by unfold feesHeld; rw [(initOpen_keeps hx).1])

/-- C27 (fees). Across any successful instruction the fees held (accrued fees plus accrued referrer rebates)
grow by exactly the tier's fee on each trade made with a resting order, and shrink only by what a sweep by the
sweep authority or a settlement to a referrer pays out of the quote vault. -/
theorem fees_are_exact {P : Params} {env : Env} {accts : List AccMeta} {ix : Instruction} {s s' : State conc}
    (h : Reach P s) (hn : NotVault P s.mkt accts) (hv : IxValid ix) (hx : process conc P env s accts ix = .ok s')
    (hq : s'.seq ≤ W64) : FeeFlows P accts s s' :=
  (process_acts h hn hv hx).induct (Q := FeeFlows P accts) (fun _ _ => .nil) (fun _ _ _ => .trans)
    (fun _ _ hr hn hq ha => .cons (act_fees hr hn hq ha) .nil) hq

example : Reach Demo.P Demo.s1 ∧ process conc Demo.P Demo.env Demo.s1 Demo.a2 Demo.i2 = .ok Demo.s2 ∧
    (feesHeld Demo.s1, feesHeld Demo.s2) = (0, 8) :=
  ⟨Demo.r1, Demo.run_eq (by decide +kernel), by decide +kernel⟩

end Serum.Props
