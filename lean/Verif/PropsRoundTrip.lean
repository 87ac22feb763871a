import Verif.PropsSame
import Verif.PropsAhead

/-!
C109: a limit order that is cancelled at once is an immediate-or-cancel order; if it did not trade, the change of mind was
free.
-/

namespace Serum.Props

/-- The same order, immediate-or-cancel. -/
def atOnce (ix : NewOrderIx) : NewOrderIx := { ix with orderType := .ioc }

/-- `evs` ends with the only final out event of the order `id` of account `a`; every other report in it is of that order and
says that something of it is left. -/
def EndsReport (a id : Nat) (evs : List EventView) : Prop :=
  ∃ es sd u slot cid, evs = es ++ [.out sd false u 0 id a slot cid] ∧
    ∀ v ∈ es, v.isReport = true → ∃ u' n, v = .out sd false u' n id a slot cid ∧ n ≠ 0

/-- Two markets that came from `s` in two ways, with the order `id` of account `a`, have the same outcome. -/
structure Alternatives (s s' t : State conc) (a id : Nat) : Prop where
  books : ∀ sd, resting s' sd = resting t sd
  mkt : s'.mkt = t.mkt
  seq : s'.seq = t.seq
  tokens : s'.toks = t.toks
  /-- All accounts, with all that is written in them. -/
  accounts : ∀ b, ooAt s'.oos b = ooAt t.oos b
  /-- The same fills and the same releases are queued in the same order; all else that is queued are reports on the order,
  the last of which is final. -/
  queue : ∃ evs evs', pending s' = pending s ++ evs ∧ pending t = pending s ++ evs' ∧
    evs.filter EventView.isMakerFill = evs'.filter EventView.isMakerFill ∧
    evs.filter EventView.isTakerFill = evs'.filter EventView.isTakerFill ∧
    evs.filter EventView.isRelease = evs'.filter EventView.isRelease ∧
    EndsReport a id evs ∧ EndsReport a id evs'

/-- Applying proceeds changes only the four balances. -/
theorem applyProceeds_fields {oo o' : OpenOrders} {c : Nat} {pr : Proceeds} (h : applyProceeds oo c pr = .ok o') :
    o' = { oo with coinFree := o'.coinFree, pcFree := o'.pcFree, coinTotal := o'.coinTotal, pcTotal := o'.pcTotal } := by
  have e1 : ∀ {x y : OpenOrders} {n}, x.creditLockedCoin n = .ok y → y = { x with coinTotal := y.coinTotal } := by
    intro x y n h
    unfold OpenOrders.creditLockedCoin at h
    obtain ⟨_, _, h⟩ := bind_ok h
    cases h; rfl
  have e2 : ∀ {x y : OpenOrders} {n}, x.creditLockedPc n = .ok y → y = { x with pcTotal := y.pcTotal } := by
    intro x y n h
    unfold OpenOrders.creditLockedPc at h
    obtain ⟨_, _, h⟩ := bind_ok h
    cases h; rfl
  have e3 : ∀ {x y : OpenOrders} {n}, x.unlockCoin n = .ok y → y = { x with coinFree := y.coinFree } := by
    intro x y n h
    unfold OpenOrders.unlockCoin at h
    obtain ⟨_, _, h⟩ := bind_ok h
    obtain ⟨_, _, h⟩ := bind_ok h
    cases h; rfl
  have e4 : ∀ {x y : OpenOrders} {n}, x.unlockPc n = .ok y → y = { x with pcFree := y.pcFree } := by
    intro x y n h
    unfold OpenOrders.unlockPc at h
    obtain ⟨_, _, h⟩ := bind_ok h
    obtain ⟨_, _, h⟩ := bind_ok h
    cases h; rfl
  unfold applyProceeds at h
  obtain ⟨_, _, h⟩ := bind_ok h
  obtain ⟨_, _, h⟩ := bind_ok h
  obtain ⟨_, _, h⟩ := bind_ok h
  obtain ⟨x1, h1, h⟩ := bind_ok h
  obtain ⟨x2, h2, h⟩ := bind_ok h
  obtain ⟨x3, h3, h⟩ := bind_ok h
  obtain ⟨x4, h4, h⟩ := bind_ok h
  obtain ⟨x5, h5, h⟩ := bind_ok h
  obtain ⟨x6, h6, h⟩ := bind_ok h
  obtain ⟨_, _, h⟩ := bind_ok h
  obtain ⟨_, _, h⟩ := bind_ok h
  obtain ⟨_, _, h⟩ := bind_ok h
  obtain ⟨_, _, h⟩ := bind_ok h
  cases h
  rw [e4 h6, e4 h5, e2 h4, e3 h3, e3 h2, e1 h1]

/-- Two orders that differ only in kind leave accounts that differ at most in the balances. -/
theorem order_records {P : Params} {env : Env} {s s1 t : State conc} {accts : List AccMeta} {ix : NewOrderIx}
    (h1 : newOrderV3 conc P env s accts ix = .ok s1) (h2 : newOrderV3 conc P env s accts (atOnce ix) = .ok t) :
    ∃ a o1 o2, parseNewOrder accts = .ok a ∧ ooAt s1.oos a.oo.key = some o1 ∧ ooAt t.oos a.oo.key = some o2 ∧
      o2 = { o1 with coinFree := o2.coinFree, pcFree := o2.pcFree, coinTotal := o2.coinTotal, pcTotal := o2.pcTotal } := by
  unfold newOrderV3 at h1 h2
  obtain ⟨a, hp, h1⟩ := bind_ok h1
  obtain ⟨a', hp', h2⟩ := bind_ok h2
  rw [hp] at hp'; cases hp'
  obtain ⟨⟨tier, o⟩, ha, h1⟩ := bind_ok h1
  obtain ⟨⟨tier', o'⟩, ha', h2⟩ := bind_ok h2
  rw [show (atOnce ix).side = ix.side from rfl, ha] at ha'; cases ha'
  unfold newOrderExec at h1 h2
  obtain ⟨_, _, h1⟩ := bind_ok h1
  obtain ⟨_, _, h2⟩ := bind_ok h2
  obtain ⟨_, _, h1⟩ := bind_ok h1
  obtain ⟨_, _, h2⟩ := bind_ok h2
  obtain ⟨⟨m, x, d⟩, hl, h1⟩ := bind_ok h1
  obtain ⟨⟨m', x', d'⟩, hl', h2⟩ := bind_ok h2
  rw [show lockFunds s.mkt o (atOnce ix) _ = lockFunds s.mkt o ix _ from rfl, hl] at hl'; cases hl'
  obtain ⟨⟨slot, y⟩, hs, h1⟩ := bind_ok h1
  obtain ⟨⟨slot', y'⟩, hs', h2⟩ := bind_ok h2
  rw [show x.addOrder (genOrderId (s.seq % W64) (atOnce ix).limitPrice (atOnce ix).side) (atOnce ix).side =
    x.addOrder (genOrderId (s.seq % W64) ix.limitPrice ix.side) ix.side from rfl, hs] at hs'; cases hs'
  obtain ⟨⟨ob, _, _⟩, _, h1⟩ := bind_ok h1
  obtain ⟨⟨ob', _, _⟩, _, h2⟩ := bind_ok h2
  obtain ⟨_, _, h1⟩ := bind_ok h1
  obtain ⟨_, _, h2⟩ := bind_ok h2
  obtain ⟨z, hz, h1⟩ := bind_ok h1
  obtain ⟨z', hz', h2⟩ := bind_ok h2
  obtain ⟨_, _, h1⟩ := bind_ok h1
  obtain ⟨_, _, h2⟩ := bind_ok h2
  have h1 := Except.ok.inj h1
  have h2 := Except.ok.inj h2
  refine ⟨a, z, z', hp, ?_, ?_, ?_⟩
  · rw [← h1]; show ooAt (setOo s.oos a.oo.key z) a.oo.key = _; rw [ooAt_setOo, if_pos rfl]
  · rw [← h2]; show ooAt (setOo s.oos a.oo.key z') a.oo.key = _; rw [ooAt_setOo, if_pos rfl]
  · have k1 := applyProceeds_fields hz
    have k2 := applyProceeds_fields hz'
    rw [k1]
    exact k2

theorem takes_kind {w : Want} {q : OrderType} (h1 : w.kind ≠ .postOnly) (h2 : q ≠ .postOnly) (k : Nat) :
    ∀ (L : List Leaf) (coin pc : Nat), ({ w with kind := q } : Want).takes k L coin pc = w.takes k L coin pc := by
  induction k with
  | zero => intro L coin pc; rfl
  | succ k ih =>
    intro L coin pc
    cases L with
    | nil => rfl
    | cons l L =>
      have e1 : ∀ c p, ({ w with kind := q } : Want).meet l c p = w.meet l c p := fun _ _ => rfl
      rw [Want.takes, Want.takes, ih, e1]
      have : (q ≠ .postOnly ∧ w.accepts l.price = true ∧ w.lots l coin pc ≠ 0) ↔
          (w.kind ≠ .postOnly ∧ w.accepts l.price = true ∧ w.lots l coin pc ≠ 0) := by simp [h1, h2]
      by_cases hc : w.kind ≠ .postOnly ∧ w.accepts l.price = true ∧ w.lots l coin pc ≠ 0
      · rw [if_pos hc]; exact if_pos (this.2 hc)
      · rw [if_neg hc]; exact if_neg (fun h => hc (this.1 h))

/-- What an order leaves in the queue: its reports. -/
theorem ends_report {o : OrderParams} {evs : List EventView} (h : OutReport o none none evs) (hz : o.owner ≠ 0) :
    EndsReport o.owner o.orderId evs := by
  cases h with
  | «open» _ h1 => simp at h1
  | closed es v _ _ _ h1 h2 =>
    obtain ⟨u, n, rfl, hn⟩ := h2
    have hn := hn.1 rfl
    subst hn
    refine ⟨es, _, u, _, _, rfl, ?_⟩
    intro v hv k
    obtain ⟨u', n, rfl, hn⟩ := h1 v hv k
    exact ⟨u', n, rfl, fun e => by have := hn.2 e; cases this⟩
  | take _ _ _ h0 => exact absurd h0 hz

/-- The two orders of one kind and the other, side by side. -/
theorem two_kinds {P : Params} {s s1 t : State conc} (h : Reach P s) (hq : s.seq < W64) {env : Env}
    {accts : List AccMeta} {ix : NewOrderIx} (hv : OrderValid ix) (hn : NotVault P s.mkt accts)
    (hk : ix.orderType = .limit) (h1 : newOrderV3 conc P env s accts ix = .ok s1)
    (h2 : newOrderV3 conc P env s accts (atOnce ix) = .ok t) :
    ∃ a tier o o1 o2 slot d ts f evs evs', PlaceEffect P env s s1 accts ix a tier o o1 slot d ts f evs ∧
      PlaceEffect P env s t accts (atOnce ix) a tier o o2 slot d ts none evs' ∧
      resting s1 ix.side.other = resting t ix.side.other ∧ resting t ix.side = resting s ix.side ∧ s1.mkt = t.mkt ∧
      s1.toks = t.toks ∧ s1.seq = t.seq ∧
      o2 = { o1 with
        coinFree := o1.coinFree + (if ix.side = .ask then postedLots f * s.mkt.coinLot else 0)
        pcFree := o1.pcFree + (if ix.side = .bid then postedLots f * ix.limitPrice * s.mkt.pcLot else 0) } := by
  have hv' : OrderValid (atOnce ix) := hv
  obtain ⟨a, tier, o, o1, slot, d, ts, f, evs, he, hb⟩ := order_by_the_book h hq hv hn h1
  obtain ⟨a', tier', o', o2, slot', d', ts', f', evs', he', hb'⟩ := order_by_the_book h hq hv' hn h2
  have ea : a' = a := by
    have := he'.args.parse; rw [he.args.parse] at this; exact (Except.ok.inj this).symm
  subst ea
  have et : tier' = tier := by
    obtain ⟨x, x1, x2⟩ := he.args.tier
    obtain ⟨y, y1, y2⟩ := he'.args.tier
    rw [x1] at y1; cases y1
    rw [x2] at y2; exact (Except.ok.inj y2).symm
  subst et
  have eo : o' = o := by
    have := he'.args.load; rw [he.args.load] at this; exact (Except.ok.inj this).symm
  subst eo
  have ets : ts' = ts := by
    rw [hb.trades, hb'.trades]
    exact takes_kind (w := wantOrder s.mkt ix a'.oo.key tier') (q := .ioc) (by show ix.orderType ≠ _; rw [hk]; decide)
      (by decide) _ _ _ _
  subst ets
  have ef : f' = none := by
    have hown := he'.matched.own
    cases f' with
    | none => rfl
    | some f =>
      obtain ⟨_, hp⟩ := hown
      exact absurd rfl hp.notIoc
  subst ef
  have hopp : resting s1 ix.side.other = resting t ix.side.other := by
    refine bestFirst_inj ?_
    have e1 : takeFront (bestFirst s ix.side.other) ts' = some (bestFirst s1 ix.side.other) := hb.after
    have e2 : takeFront (bestFirst s ix.side.other) ts' = some (bestFirst t ix.side.other) := hb'.after
    rw [e1] at e2
    exact Option.some.inj e2
  obtain ⟨b, p1, p2, r1, r2, r3, r4⟩ := order_records h1 h2
  have eb : b = a' := by
    rw [he.args.parse] at r1; exact (Except.ok.inj r1).symm
  subst eb
  rw [he.account] at r2
  obtain rfl := Option.some.inj r2
  rw [he'.account] at r3
  obtain rfl := Option.some.inj r3
  -- the slot
  have es : slot' = slot := by
    have h1 := he'.slots slot
    have h2 := he.slots slot
    rw [if_pos rfl] at h2
    have : o2.slot slot = o1.slot slot := by rw [r4]; rfl
    rw [this, h2] at h1
    by_cases e : slot = slot'
    · exact e.symm
    · rw [if_neg e, he.slotFree] at h1; cases h1
  subst es
  have ed : d' = d ∧ s1.mkt = t.mkt ∧ o2.coinFree = o1.coinFree + (if ix.side = .ask then postedLots f * s.mkt.coinLot else 0) ∧
      o2.pcFree = o1.pcFree + (if ix.side = .bid then postedLots f * ix.limitPrice * s.mkt.pcLot else 0) ∧
      o2.coinTotal = o1.coinTotal ∧ o2.pcTotal = o1.pcTotal := by
    cases hs : ix.side with
    | bid =>
      have m1 := he.bid hs
      have m2 := he'.bid hs
      have k1 := m1.deposit
      have k2 := m2.deposit
      have k2 : d' = ix.maxPcQty - o'.pcFree := k2
      have : d' = d := by omega
      subst this
      have q1 := m1.quote
      have q2 := m2.quote
      have q3 := m1.quoteTotal
      have q4 := m2.quoteTotal
      simp only [postedLots, Nat.zero_mul, Nat.add_zero] at q2
      refine ⟨rfl, m1.mkt.mkt.trans m2.mkt.mkt.symm, ?_, ?_, ?_, ?_⟩
      · rw [m1.base, m2.base]; simp
      · rw [if_pos rfl]; simp only [postedLots] at q1 ⊢; omega
      · rw [m1.baseTotal, m2.baseTotal]
      · omega
    | ask =>
      have m1 := he.ask hs
      have m2 := he'.ask hs
      have k1 := m1.deposit
      have k2 := m2.deposit
      have k2 : d' = ix.maxCoinQty * s.mkt.coinLot - o'.coinFree := k2
      have : d' = d := by omega
      subst this
      have q1 := m1.base
      have q2 := m2.base
      have q3 := m1.baseTotal
      have q4 := m2.baseTotal
      simp only [postedLots, Nat.add_zero] at q2
      rw [Nat.add_mul] at q1
      refine ⟨rfl, m1.mkt.mkt.trans m2.mkt.mkt.symm, ?_, ?_, ?_, ?_⟩
      · rw [if_pos rfl]; simp only [postedLots] at q1 ⊢; omega
      · rw [m1.quote, m2.quote]; simp
      · omega
      · rw [m1.quoteTotal, m2.quoteTotal]
  obtain ⟨rfl, em, e1, e2, e3, e4⟩ := ed
  refine ⟨b, tier', o', o1, o2, slot', d', ts', f, evs, evs', he, he', hopp, he'.matched.own, em, ?_, ?_, ?_⟩
  · have k1 := he.signedPay
    have k2 := he'.signedPay
    have k2 : depositIn s.toks b.payer.key (s.mkt.depositVault ix.side) b.owner.key d' = .ok t.toks := k2
    rw [k1] at k2
    exact Except.ok.inj k2
  · rw [he.seq, he'.seq]
  · rw [← e1, ← e2, r4]
    rw [r4] at e3 e4
    simp only at e3 e4 ⊢
    congr

theorem takeFront_uses {ts : List Touch} : ∀ {L L' : List Leaf}, takeFront L ts = some L' →
    total (·.quantity) L' + ts.length ≤ total (·.quantity) L := by
  induction ts with
  | nil => intro L L' h; cases h; simp
  | cons t ts ih =>
    intro L L' h
    cases L with
    | nil => cases h
    | cons l L =>
      unfold takeFront at h
      split at h
      · rename_i hc
        have := ih h
        have e : total (·.quantity) (if t.lots = l.quantity then L else { l with quantity := l.quantity - t.lots } :: L) + 1 ≤
            total (·.quantity) (l :: L) := by
          have h1 : total (fun x : Leaf => x.quantity) (l :: L) = l.quantity + total (fun x : Leaf => x.quantity) L := by simp [total]
          split
          · rw [h1]; omega
          · have h2 : total (fun x : Leaf => x.quantity) ({ l with quantity := l.quantity - t.lots } :: L) =
                l.quantity - t.lots + total (fun x : Leaf => x.quantity) L := by simp [total]
            rw [h1, h2]; omega
        simp only [List.length_cons]
        omega
      · cases h

/-- An order that rests, and is cancelled before anything else happens. -/
theorem cancelled_at_once {P : Params} {s s1 s2 : State conc} (h : Reach P s) (hq : s.seq < W64) {env env' : Env}
    {accts accts' : List AccMeta} {ix : NewOrderIx} (hv : OrderValid ix)
    (hstay : ∀ l ∈ resting s ix.side, l ∈ resting s1 ix.side)
    {a : NewOrderAccts} {tier : FeeTier} {o o1 : OpenOrders} {slot d : Nat} {ts : List Touch} {f : Option Posting}
    {evs : List EventView} (he : PlaceEffect P env s s1 accts ix a tier o o1 slot d ts f evs)
    (hr1 : Reach P s1)
    (hc : cancelV2 conc env' s1 accts' ix.side (genOrderId s.seq ix.limitPrice ix.side) = .ok s2) :
    ∃ f0 l, f = some f0 ∧ f0.evicted = none ∧ l.quantity = f0.lots ∧ l.price = ix.limitPrice ∧
      l = (newOrderReq ix (genOrderId s.seq ix.limitPrice ix.side) a.oo.key slot tier).leaf f0.lots ∧
      resting s2 ix.side = resting s ix.side ∧ resting s2 ix.side.other = resting s1 ix.side.other ∧
      Withdrawn s1 s2 a.oo.key [(ix.side, l)] := by
  have hq1 : s1.seq ≤ W64 := by rw [he.seq]; omega
  obtain ⟨m, b, k, oo, signer, eq, rest, l, p, rfl, _, _, _, hlk, hw⟩ := cancel_effect hr1 hq1 hc
  have hl := (hw.theirs ix.side l (by simp))
  have hfresh := resting_fresh h hq ix.side ix.limitPrice
  have own := he.matched.own
  cases f with
  | none =>
    rw [show resting s1 ix.side = resting s ix.side from own] at hl
    exact absurd hlk (hfresh l hl.1)
  | some f0 =>
    obtain ⟨cap, hb⟩ := own
    rcases hb.book with ⟨he0, _, e1⟩ | ⟨x, R, _, _, e1, e2⟩
    · have e1 : resting s1 ix.side = insKey
        ((newOrderReq ix (genOrderId s.seq ix.limitPrice ix.side) a.oo.key slot tier).leaf f0.lots) (resting s ix.side) := e1
      have el : l = (newOrderReq ix (genOrderId s.seq ix.limitPrice ix.side) a.oo.key slot tier).leaf f0.lots := by
        have := hl.1
        rw [e1] at this
        rcases insKey_mem this with e | e
        · exact e
        · exact absurd hlk (hfresh l e)
      have eo : oo.key = a.oo.key := by rw [← hl.2, el]; rfl
      rw [eo] at hw
      refine ⟨f0, l, rfl, he0, by rw [el]; rfl, ?_, el, ?_, ?_, hw⟩
      · rw [el]; exact extractPrice_genOrderId hq hv.1.2
      · rw [hw.books ix.side, e1]
        unfold without
        rw [filter_insKey (by rw [el]; simp) hfresh]
        rw [List.filter_eq_self]
        intro x hx
        have : x ≠ l := fun e => hfresh x hx (by rw [e, hlk])
        simp [this]
      · rw [hw.books ix.side.other, without_other (by cases ix.side <;> decide)]
    · exfalso
      have hnd := resting_nodup h (Nat.le_of_lt hq) ix.side
      have hx : x ∈ resting s ix.side ∧ x ∉ R := by
        have e2' : match ix.side with
          | .bid => resting s ix.side = x :: R
          | .ask => resting s ix.side = R ++ [x] := e2
        cases hs : ix.side with
        | bid =>
          simp only [hs] at e2' hnd
          rw [e2'] at hnd ⊢
          rw [List.nodup_cons] at hnd
          exact ⟨List.mem_cons_self, hnd.1⟩
        | ask =>
          simp only [hs] at e2' hnd
          rw [e2'] at hnd ⊢
          rw [List.nodup_append] at hnd
          exact ⟨by simp, fun hm => hnd.2.2 x hm x (by simp) rfl⟩
      have := hstay x hx.1
      rw [show resting s1 ix.side = _ from e1] at this
      rcases insKey_mem this with e | e
      · exact hfresh x hx.1 (by rw [e]; rfl)
      · exact hx.2 e

/-- C109. A limit order, placed on a book with room for it and cancelled before anything else happens, is an
immediate-or-cancel order: the same books, market record, token balances, accounts with all that is written in them, fills
and releases. -/
theorem cancelled_is_ioc {P : Params} {s s1 s2 t : State conc} (h : Reach P s) (hq : s.seq < W64) {env env' : Env}
    {accts accts' : List AccMeta} {ix : NewOrderIx} (hv : OrderValid ix) (hn : NotVault P s.mkt accts)
    (hk : ix.orderType = .limit) (h1 : newOrderV3 conc P env s accts ix = .ok s1)
    (hstay : ∀ l ∈ resting s ix.side, l ∈ resting s1 ix.side)
    (hc : cancelV2 conc env' s1 accts' ix.side (genOrderId s.seq ix.limitPrice ix.side) = .ok s2)
    (h2 : newOrderV3 conc P env s accts (atOnce ix) = .ok t) :
    Alternatives s s2 t (given accts 1) (genOrderId s.seq ix.limitPrice ix.side) := by
  obtain ⟨a, tier, o, o1, o2, slot, d, ts, f, evs, evs', he, he', k1, k2, k3, k4, k5, k6⟩ := two_kinds h hq hv hn hk h1 h2
  have hr1 : Reach P s1 := h.act (ix := .newOrderV3 ix) hv hn h1
  obtain ⟨f0, l, rfl, hev, l1, l2, l3, b1, b2, hw⟩ := cancelled_at_once h hq hv hstay he hr1 hc
  obtain ⟨i1, _⟩ := parseNewOrder_inv he.args.parse
  have i1 : given accts 1 = a.oo.key := i1
  rw [i1]
  have hmk : s1.mkt.coinLot = s.mkt.coinLot ∧ s1.mkt.pcLot = s.mkt.pcLot := he.matched.lots
  refine ⟨?_, by rw [hw.mkt, k3], by rw [hw.seq, k5], by rw [hw.toks, k4], ?_, ?_⟩
  · intro sd
    by_cases e : sd = ix.side
    · rw [e, b1, k2]
    · have : sd = ix.side.other := by
        revert e; cases sd <;> cases ix.side <;> simp [Side.other]
      rw [this, b2, k1]
  · intro b
    by_cases e : b = a.oo.key
    · subst e
      obtain ⟨p, p1, p2⟩ := hw.account
      rw [he.account] at p1
      obtain rfl := Option.some.inj p1
      rw [p2, he'.account, k6]
      congr 1
      unfold released
      have w1 : total (baseWorth s1.mkt) [(ix.side, l)] = if ix.side = .ask then postedLots (some f0) * s.mkt.coinLot else 0 := by
        cases hs : ix.side with
        | bid => rfl
        | ask => simp [total, baseWorth, askValue, hmk.1, l1, postedLots]
      have w2 : total (quoteWorth s1.mkt) [(ix.side, l)] =
          if ix.side = .bid then postedLots (some f0) * ix.limitPrice * s.mkt.pcLot else 0 := by
        cases hs : ix.side with
        | ask => rfl
        | bid => simp [total, quoteWorth, bidValue, hmk.2, l1, l2, postedLots]
      rw [w1, w2]
    · rw [hw.others b e, he.others b e, he'.others b e]
  · have q := hw.events
    rw [he.matched.queue, List.append_assoc] at q
    have ho : outEvent s1.mkt (ix.side, l) = .out ix.side false
        (match ix.side with | .bid => bidValue s1.mkt l | .ask => askValue s1.mkt l) 0
        (genOrderId s.seq ix.limitPrice ix.side) a.oo.key slot ix.clientId := by
      unfold outEvent
      rw [l3]
      cases ix.side <;> rfl
    refine ⟨_, _, q, he'.matched.queue, ?_, ?_, ?_, ?_, ends_report he'.matched.outs he'.nonzero⟩
    · rw [List.filter_append, he.matched.events.makers, he'.matched.events.makers]
      rw [List.map_singleton, ho]
      simp [EventView.isMakerFill]
      exact fun _ _ _ => rfl
    · rw [List.filter_append, he.matched.events.takers, he'.matched.events.takers]
      rw [List.map_singleton, ho]
      simp [EventView.isTakerFill]
      rfl
    · rw [List.filter_append, he.matched.events.releases, he'.matched.events.releases]
      rw [List.map_singleton, ho]
      have : evictRelease ix.side s.mkt (some f0) = [] := by
        cases f0 with
        | mk lots ev => cases hev; rfl
      simp [EventView.isRelease]
      show _ ++ evictRelease ix.side s.mkt (some f0) = _ ++ []
      rw [this]; rfl
    · rw [List.map_singleton, ho]
      refine ⟨evs, _, _, _, _, rfl, ?_⟩
      intro v hv' kv
      have := he.matched.outs
      cases this with
      | «open» _ _ h1 =>
        obtain ⟨u', n, rfl, hn⟩ := h1 v hv' kv
        exact ⟨u', n, rfl, fun e => by have := hn.2 e; cases this⟩
      | closed _ _ _ h0 => cases h0
      | take _ _ h0 => cases h0

/-- C109. A limit order of which nothing rests is an immediate-or-cancel order. -/
theorem used_up_is_ioc {P : Params} {s s1 t : State conc} (h : Reach P s) (hq : s.seq < W64) {env : Env}
    {accts : List AccMeta} {ix : NewOrderIx} (hv : OrderValid ix) (hn : NotVault P s.mkt accts)
    (hk : ix.orderType = .limit) (h1 : newOrderV3 conc P env s accts ix = .ok s1)
    (hgone : ∀ l ∈ resting s1 ix.side, l.key ≠ genOrderId s.seq ix.limitPrice ix.side)
    (h2 : newOrderV3 conc P env s accts (atOnce ix) = .ok t) :
    Alternatives s s1 t (given accts 1) (genOrderId s.seq ix.limitPrice ix.side) := by
  obtain ⟨a, tier, o, o1, o2, slot, d, ts, f, evs, evs', he, he', k1, k2, k3, k4, k5, k6⟩ := two_kinds h hq hv hn hk h1 h2
  obtain ⟨i1, _⟩ := parseNewOrder_inv he.args.parse
  have i1 : given accts 1 = a.oo.key := i1
  rw [i1]
  have own := he.matched.own
  cases f with
  | some f0 =>
    exfalso
    obtain ⟨cap, hb⟩ := own
    have : (newOrderReq ix (genOrderId s.seq ix.limitPrice ix.side) a.oo.key slot tier).leaf f0.lots ∈ resting s1 ix.side := by
      rcases hb.book with ⟨_, _, e1⟩ | ⟨x, R, _, _, e1, _⟩
      · rw [show resting s1 ix.side = _ from e1]; exact mem_insKey_self
      · rw [show resting s1 ix.side = _ from e1]; exact mem_insKey_self
    exact hgone _ this rfl
  | none =>
    have own : resting s1 ix.side = resting s ix.side := own
    refine ⟨?_, k3, k5, k4, ?_, ?_⟩
    · intro sd
      by_cases e : sd = ix.side
      · rw [e, own, k2]
      · have : sd = ix.side.other := by
          revert e; cases sd <;> cases ix.side <;> simp [Side.other]
        rw [this, k1]
    · intro b
      by_cases e : b = a.oo.key
      · subst e
        rw [he.account, he'.account, k6]
        simp [postedLots]
      · rw [he.others b e, he'.others b e]
    · refine ⟨_, _, he.matched.queue, he'.matched.queue, ?_, ?_, ?_, ends_report he.matched.outs he.nonzero,
        ends_report he'.matched.outs he'.nonzero⟩
      · rw [he.matched.events.makers, he'.matched.events.makers]; rfl
      · rw [he.matched.events.takers, he'.matched.events.takers]; rfl
      · rw [he.matched.events.releases, he'.matched.events.releases]; rfl

/-- Between `s` and `s'` nothing happened but that `d` units were moved from the wallet `payer` into the free balance of
account `a` (a new one is `o`, empty), and that the order `id` was numbered and reported as gone. -/
structure OnlyPaidIn (s s' : State conc) (side : Side) (payer a id d : Nat) (o : OpenOrders) : Prop where
  books : ∀ sd, resting s' sd = resting s sd
  seq : s'.seq = s.seq + 1
  mkt : s'.mkt = { s.mkt with
    coinDeposits := s.mkt.coinDeposits + (if side = .ask then d else 0)
    pcDeposits := s.mkt.pcDeposits + (if side = .bid then d else 0) }
  tokens : PaidIn s.toks s'.toks payer (s.mkt.depositVault side) d
  was : ooAt s.oos a = some o ∨ ooAt s.oos a = none ∧ o.coinFree = 0 ∧ o.pcFree = 0 ∧ o.coinTotal = 0 ∧ o.pcTotal = 0 ∧ o.rebates = 0
  account : ∃ o', ooAt s'.oos a = some o' ∧ o'.owner = o.owner ∧ o'.rebates = o.rebates ∧
    o'.coinFree = o.coinFree + (if side = .ask then d else 0) ∧ o'.coinTotal = o.coinTotal + (if side = .ask then d else 0) ∧
    o'.pcFree = o.pcFree + (if side = .bid then d else 0) ∧ o'.pcTotal = o.pcTotal + (if side = .bid then d else 0)
  others : ∀ b, b ≠ a → ooAt s'.oos b = ooAt s.oos b
  queue : ∃ evs, pending s' = pending s ++ evs ∧ (∀ v ∈ evs, v.isReport = true) ∧ EndsReport a id evs

/-- C109. An order that met nobody and pushed nobody off, cancelled before anything else happens, cost nothing: what was
paid in for it is all in the free balance, and every other balance, the fees and the books are as they were. -/
theorem change_of_mind {P : Params} {s s1 s2 : State conc} (h : Reach P s) (hq : s.seq < W64) {env env' : Env}
    {accts accts' : List AccMeta} {ix : NewOrderIx} (hv : OrderValid ix) (hn : NotVault P s.mkt accts)
    (h1 : newOrderV3 conc P env s accts ix = .ok s1)
    (hstay : ∀ l ∈ resting s ix.side, l ∈ resting s1 ix.side)
    (hopp : resting s1 ix.side.other = resting s ix.side.other)
    (hc : cancelV2 conc env' s1 accts' ix.side (genOrderId s.seq ix.limitPrice ix.side) = .ok s2) :
    ∃ d o, OnlyPaidIn s s2 ix.side (given accts 6) (given accts 1) (genOrderId s.seq ix.limitPrice ix.side) d o ∧
      d = (match ix.side with | .bid => ix.maxPcQty - o.pcFree | .ask => ix.maxCoinQty * s.mkt.coinLot - o.coinFree) := by
  obtain ⟨a, tier, o, o1, slot, d, ts, f, evs, he⟩ := place_effect h hq hv hn h1
  have hr1 : Reach P s1 := h.act (ix := .newOrderV3 ix) hv hn h1
  obtain ⟨f0, l, rfl, hev, l1, l2, l3, b1, b2, hw⟩ := cancelled_at_once h hq hv hstay he hr1 hc
  obtain ⟨i1, i2, _⟩ := parseNewOrder_inv he.args.parse
  have i1 : given accts 1 = a.oo.key := i1
  have i2 : given accts 6 = a.payer.key := i2
  rw [i1, i2]
  have hts : ts = [] := by
    have e := he.matched.opp
    have : bestFirst s1 ix.side.other = bestFirst s ix.side.other := by
      unfold bestFirst
      cases hs : ix.side.other <;> rw [hs] at hopp <;> simp only [hopp]
    have := this ▸ takeFront_uses e
    cases ts with
    | nil => rfl
    | cons t ts =>
      have this : total (·.quantity) (bestFirst s ix.side.other) + _ ≤ total (·.quantity) (bestFirst s ix.side.other) := this
      simp only [List.length_cons] at this
      omega
  subst hts
  have z1 : tradedLots [] = 0 := rfl
  have z2 : ∀ m, tradedQuote m [] = 0 := fun _ => rfl
  have z3 : ∀ m t, takerFees m t [] = 0 := fun _ _ => rfl
  have z4 : ∀ m t, referrerPart m t [] = 0 := fun _ _ => rfl
  have hmk : s1.mkt.coinLot = s.mkt.coinLot ∧ s1.mkt.pcLot = s.mkt.pcLot := he.matched.lots
  obtain ⟨p, p1, p2⟩ := hw.account
  rw [he.account] at p1
  obtain rfl := Option.some.inj p1
  refine ⟨d, o, ⟨?_, by rw [hw.seq, he.seq], ?_, by rw [hw.toks]; exact he.paid, ?_, ⟨_, p2, ?_⟩, ?_, ?_⟩, ?_⟩
  · intro sd
    by_cases e : sd = ix.side
    · rw [e, b1]
    · have : sd = ix.side.other := by
        revert e; cases sd <;> cases ix.side <;> simp [Side.other]
      rw [this, b2, hopp]
  · rw [hw.mkt]
    cases hs : ix.side with
    | bid =>
      have := (he.bid hs).mkt.mkt
      rw [z3, z4] at this
      rw [this]; simp
    | ask =>
      have := (he.ask hs).mkt.mkt
      rw [z3, z4] at this
      rw [this]; simp
  · have := he.args.load
    unfold loadOrders at this
    split at this
    · rename_i x hx
      split at this
      · cases this
      split at this
      · cases this
      cases this
      exact .inl hx
    · rename_i hx
      refine .inr ⟨hx, ?_⟩
      split at this
      · cases this
      split at this
      · cases this
      unfold initOrders at this
      split at this
      · cases this
      split at this
      · cases this
      split at this
      · cases this
      split at this
      · cases this
      cases this
      exact ⟨rfl, rfl, rfl, rfl, rfl⟩
  · refine ⟨he.owner.1, he.rebates, ?_⟩
    unfold released
    cases hs : ix.side with
    | bid =>
      have m1 := he.bid hs
      have q1 := m1.quote; have q2 := m1.base; have q3 := m1.quoteTotal; have q4 := m1.baseTotal
      rw [z2, z3] at q1 q3; rw [z1] at q2 q4
      simp [total, baseWorth, quoteWorth, bidValue, hmk.2, l1, l2]
      simp only [postedLots] at q1
      refine ⟨?_, ?_, ?_, ?_⟩ <;> omega
    | ask =>
      have m1 := he.ask hs
      have q1 := m1.base; have q2 := m1.quote; have q3 := m1.baseTotal; have q4 := m1.quoteTotal
      rw [z1] at q1 q3; rw [z2, z3] at q2 q4
      simp [total, baseWorth, quoteWorth, askValue, hmk.1, l1]
      simp only [postedLots, Nat.zero_add] at q1
      refine ⟨?_, ?_, ?_, ?_⟩ <;> omega
  · intro b hb
    rw [hw.others b hb, he.others b hb]
  · have q := hw.events
    rw [he.matched.queue, List.append_assoc] at q
    have ho : outEvent s1.mkt (ix.side, l) = .out ix.side false
        (match ix.side with | .bid => bidValue s1.mkt l | .ask => askValue s1.mkt l) 0
        (genOrderId s.seq ix.limitPrice ix.side) a.oo.key slot ix.clientId := by
      unfold outEvent
      rw [l3]
      cases ix.side <;> rfl
    have hev' : evictRelease ix.side s.mkt (some f0) = [] := by
      cases f0 with
      | mk lots ev => cases hev; rfl
    have hrep : ∀ v ∈ evs, v.isReport = true := by
      intro v hv'
      rcases kinds v with k | k | k | k
      · have : v ∈ evs.filter EventView.isMakerFill := List.mem_filter.2 ⟨hv', k⟩
        rw [he.matched.events.makers] at this; cases this
      · have : v ∈ evs.filter EventView.isRelease := List.mem_filter.2 ⟨hv', k⟩
        rw [he.matched.events.releases] at this
        have this : v ∈ [] ++ evictRelease ix.side s.mkt (some f0) := this
        rw [hev'] at this; cases this
      · have : v ∈ evs.filter EventView.isTakerFill := List.mem_filter.2 ⟨hv', k⟩
        rw [he.matched.events.takers] at this
        split at this <;> cases this
      · exact k
    rw [List.map_singleton, ho] at q
    refine ⟨_, q, ?_, evs, _, _, _, _, rfl, ?_⟩
    · intro v hv'
      rcases List.mem_append.1 hv' with hv' | hv'
      · exact hrep v hv'
      · rw [List.mem_singleton.1 hv']; rfl
    · intro v hv' kv
      have := he.matched.outs
      cases this with
      | «open» _ _ h1 =>
        obtain ⟨u', n, rfl, hn⟩ := h1 v hv' kv
        exact ⟨u', n, rfl, fun e => by have := hn.2 e; cases this⟩
      | closed _ _ _ h0 => cases h0
      | take _ _ h0 => cases h0
  · cases hs : ix.side with
    | bid => exact (he.bid hs).deposit
    | ask => exact (he.ask hs).deposit

end Serum.Props

namespace Serum.Demo

open Serum.Props

/-- 12 bids for 7 lots at 1100 where 5 are offered at 1000; the rest of the bid is cancelled at once. Or they make it
immediate-or-cancel. -/
def bidIx : NewOrderIx := order .bid 1100 7 100000 8
def cancelAccts12 : List AccMeta := [acc 50, acc 55, acc 56, acc 42, sig 12, acc 54]
def lim1 : State conc := run s1 a2 (.newOrderV3 bidIx)
def lim2 : State conc := run lim1 cancelAccts12 (.cancelOrderV2 .bid (genOrderId s1.seq 1100 .bid))
def now1 : State conc := run s1 a2 (.newOrderV3 (atOnce bidIx))

theorem cancelled_or_ioc : Alternatives s1 lim2 now1 42 (genOrderId s1.seq 1100 .bid) ∧
    (resting lim1 .bid).length = 1 ∧ bal now1.toks 32 + 100000 = bal s1.toks 32 ∧ (pending lim2).length = 5 := by
  refine ⟨?_, by decide +kernel⟩
  have h1 : process conc P env s1 a2 (.newOrderV3 bidIx) = .ok lim1 := run_eq (by decide +kernel)
  have h2 : process conc P env lim1 cancelAccts12 (.cancelOrderV2 .bid (genOrderId s1.seq 1100 .bid)) = .ok lim2 :=
    run_eq (by decide +kernel)
  have h3 : process conc P env s1 a2 (.newOrderV3 (atOnce bidIx)) = .ok now1 := run_eq (by decide +kernel)
  exact cancelled_is_ioc (ix := bidIx) (accts := a2) (accts' := cancelAccts12) r1 (by decide +kernel) (valid (by decide))
    (notVault _ (by decide)) rfl h1 (by decide +kernel) h2 h3

/-- 12 bids for 3 lots at 900, and changes their mind. -/
def mind1 : State conc := run s1 a2 i3
def mind2 : State conc := run mind1 cancelAccts12 (.cancelOrderV2 .bid (genOrderId s1.seq 900 .bid))

theorem mind_demo : (∃ d o, OnlyPaidIn s1 mind2 .bid 32 42 (genOrderId s1.seq 900 .bid) d o ∧ d = 40000 - o.pcFree) ∧
    (resting mind1 .bid).length = 1 := by
  refine ⟨?_, by decide +kernel⟩
  have h1 : process conc P env s1 a2 i3 = .ok mind1 := run_eq (by decide +kernel)
  have h2 : process conc P env mind1 cancelAccts12 (.cancelOrderV2 .bid (genOrderId s1.seq 900 .bid)) = .ok mind2 :=
    run_eq (by decide +kernel)
  exact change_of_mind (ix := order .bid 900 3 40000 9) (accts := a2) (accts' := cancelAccts12) r1 (by decide +kernel)
    (valid (by decide)) (notVault _ (by decide)) h1 (by decide +kernel) (by decide +kernel) h2

/-- 12 bids for 2 lots at 1100 and gets them: nothing rests, so the order might have been immediate-or-cancel. -/
def now2 : State conc := run s1 a2 (.newOrderV3 (atOnce (order .bid 1100 2 30000 8)))

theorem used_up_demo : Alternatives s1 s2 now2 42 (genOrderId s1.seq 1100 .bid) := by
  have h1 : process conc P env s1 a2 i2 = .ok s2 := run_eq (by decide +kernel)
  have h3 : process conc P env s1 a2 (.newOrderV3 (atOnce (order .bid 1100 2 30000 8))) = .ok now2 := run_eq (by decide +kernel)
  exact used_up_is_ioc (ix := order .bid 1100 2 30000 8) (accts := a2) r1 (by decide +kernel) (valid (by decide))
    (notVault _ (by decide)) rfl h1 (by decide +kernel) h3

end Serum.Demo
