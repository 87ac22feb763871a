import Verif.Meet

/-
When a new order goes through: the lists model, given the invariant and amounts that fit.
-/

namespace Serum

/-- What a new order must still deposit, given what its account has free. -/
def orderDue (m : Market) (oo : OpenOrders) (ix : NewOrderIx) : Nat :=
  match ix.side with
  | .bid => ix.maxPcQty - oo.pcFree
  | .ask => ix.maxCoinQty * m.coinLot - oo.coinFree

theorem lockFunds_go {m : Market} {oo : OpenOrders} {ix : NewOrderIx} {b : Nat}
    (hb : orderDue m oo ix ≤ b)
    (hfit : match ix.side with
      | .bid => oo.pcTotal + orderDue m oo ix < W64 ∧ m.pcDeposits + orderDue m oo ix < W64
      | .ask => oo.coinTotal + orderDue m oo ix < W64 ∧ m.coinDeposits + orderDue m oo ix < W64 ∧
          ix.maxCoinQty * m.coinLot < W64) :
    ∃ m1 o1, lockFunds m oo ix b = .ok (m1, o1, orderDue m oo ix) := by
  unfold orderDue at *
  unfold lockFunds
  cases hs : ix.side with
  | bid =>
    simp only [hs] at hb hfit ⊢
    have e : ix.maxPcQty - min ix.maxPcQty oo.pcFree = ix.maxPcQty - oo.pcFree := by omega
    rw [if_neg (by omega)]
    unfold OpenOrders.lockFreePc OpenOrders.creditLockedPc checkedSub checkedAdd
    rw [if_pos (by omega)]
    simp only [unwrap, bind, Except.bind, pure, Except.pure]
    rw [e, if_pos hfit.1, if_pos hfit.2]
    exact ⟨_, _, rfl⟩
  | ask =>
    simp only [hs] at hb hfit ⊢
    have hm : checkedMul ix.maxCoinQty m.coinLot = some (ix.maxCoinQty * m.coinLot) :=
      checkedMul_some.2 ⟨hfit.2.2, rfl⟩
    rw [hm]
    simp only
    have e : ix.maxCoinQty * m.coinLot - min (ix.maxCoinQty * m.coinLot) oo.coinFree =
      ix.maxCoinQty * m.coinLot - oo.coinFree := by omega
    rw [if_neg (by omega)]
    unfold OpenOrders.lockFreeCoin OpenOrders.creditLockedCoin checkedSub checkedAdd
    rw [if_pos (by omega)]
    simp only [unwrap, bind, Except.bind, pure, Except.pure]
    rw [e, if_pos hfit.1, if_pos hfit.2.1]
    exact ⟨_, _, rfl⟩

theorem ooCreditCoin_go {o : OpenOrders} {n : Nat} (h : o.coinTotal + n < W64) :
    o.creditLockedCoin n = .ok { o with coinTotal := o.coinTotal + n } := by
  unfold OpenOrders.creditLockedCoin
  rw [checkedAdd_some.2 ⟨h, rfl⟩]
  rfl

theorem ooCreditPc_go {o : OpenOrders} {n : Nat} (h : o.pcTotal + n < W64) :
    o.creditLockedPc n = .ok { o with pcTotal := o.pcTotal + n } := by
  unfold OpenOrders.creditLockedPc
  rw [checkedAdd_some.2 ⟨h, rfl⟩]
  rfl

theorem ooUnlockCoin_go {o : OpenOrders} {n : Nat} (h : o.coinFree + n ≤ o.coinTotal) (hl : o.coinTotal < W64) :
    o.unlockCoin n = .ok { o with coinFree := o.coinFree + n } := by
  unfold OpenOrders.unlockCoin
  rw [checkedAdd_some.2 ⟨by omega, rfl⟩]
  simp only [unwrap, bind, Except.bind, pure, Except.pure]
  rw [(rustAssert_ok (u := ())).2 (by simpa using h)]

theorem ooUnlockPc_go {o : OpenOrders} {n : Nat} (h : o.pcFree + n ≤ o.pcTotal) (hl : o.pcTotal < W64) :
    o.unlockPc n = .ok { o with pcFree := o.pcFree + n } := by
  unfold OpenOrders.unlockPc
  rw [checkedAdd_some.2 ⟨by omega, rfl⟩]
  simp only [unwrap, bind, Except.bind, pure, Except.pure]
  rw [(rustAssert_ok (u := ())).2 (by simpa using h)]

theorem applyProceeds_runs {o : OpenOrders} {cl : Nat} {pr : Proceeds}
    (h1 : pr.coinDebit * cl + o.coinFree + pr.coinUnlocked * cl ≤ o.coinTotal)
    (h2 : pr.pcDebit + o.pcFree + pr.pcUnlocked ≤ o.pcTotal)
    (h3 : o.coinTotal + pr.coinCredit * cl < W64) (h4 : o.pcTotal + pr.pcCredit < W64) :
    Runs (applyProceeds o cl pr) := by
  unfold applyProceeds
  rw [checkedMul_some.2 ⟨show pr.coinUnlocked * cl < W64 by omega, rfl⟩,
    checkedMul_some.2 ⟨show pr.coinCredit * cl < W64 by omega, rfl⟩,
    checkedMul_some.2 ⟨show pr.coinDebit * cl < W64 by omega, rfl⟩]
  simp only [unwrap, bind, Except.bind, pure, Except.pure]
  rw [ooCreditCoin_go h3]
  simp only
  rw [ooUnlockCoin_go (by simp only; omega) h3]
  simp only
  rw [ooUnlockCoin_go (by simp only; omega) h3]
  simp only
  rw [ooCreditPc_go (by exact h4)]
  simp only
  rw [ooUnlockPc_go (by simp only; omega) (by exact h4)]
  simp only
  rw [ooUnlockPc_go (by simp only; omega) (by exact h4)]
  simp only
  rw [checkedSub_some.2 ⟨show pr.coinDebit * cl ≤ o.coinTotal + pr.coinCredit * cl by omega, rfl⟩,
    checkedSub_some.2 ⟨show pr.pcDebit ≤ o.pcTotal + pr.pcCredit by omega, rfl⟩]
  simp only
  rw [(checkAssert_ok (u := ())).2 (by simp; omega)]
  simp only
  rw [(checkAssert_ok (u := ())).2 (by simp; omega)]
  exact ⟨_, rfl⟩

/-- The orders a new order meets. -/
def orderMeets (s : State lst) (a : NewOrderAccts) (ix : NewOrderIx) (tier : FeeTier) : List Touch :=
  ({ side := ix.side, price := ix.limitPrice, owner := a.oo.key, stb := ix.stb, kind := ix.orderType, tier,
     pcLot := s.mkt.pcLot } : Want).takes ix.limit (opposite ix.side s.bids.items s.asks.items) ix.maxCoinQty
    (match ix.side with | .bid => ix.maxPcQty | .ask => 0)

/-- What a new order needs, beyond its accounts being the right ones, in order to go through. -/
structure OrderFit (s : State lst) (env : Env) (a : NewOrderAccts) (ix : NewOrderIx) (tier : FeeTier) (oo : OpenOrders)
    (evs : List EventView) : Prop where
  deadline : checkDeadline env.now ix.maxTs = .ok ()
  slot : oo.freeBits ≠ 0
  room : s.q.items.length + (3 * (orderMeets s a ix tier).length + 2) ≤ s.q.cap
  own : Roomy (match ix.side with | .bid => s.bids | .ask => s.asks)
  abort : ix.stb = .abortTransaction → ∀ t ∈ orderMeets s a ix tier, t.maker.owner ≠ a.oo.key
  paid : orderDue s.mkt oo ix ≤ bal s.toks a.payer.key
  moved : Runs (depositIn s.toks a.payer.key (s.mkt.depositVault ix.side) a.owner.key (orderDue s.mkt oo ix))
  fit : match ix.side with
    | .bid => s.mkt.pcDeposits + orderDue s.mkt oo ix < W64 ∧
        oo.pcFree + bookLock .bid s.mkt (only a.oo.key) s.bids.items +
          evSum (EventView.lock .bid) (only a.oo.key) evs + orderDue s.mkt oo ix < W64 ∧
        oo.coinFree + bookLock .ask s.mkt (only a.oo.key) s.asks.items +
          evSum (EventView.lock .ask) (only a.oo.key) evs + s.mkt.coinDeposits < W64
    | .ask => s.mkt.coinDeposits + orderDue s.mkt oo ix < W64 ∧
        oo.coinFree + bookLock .ask s.mkt (only a.oo.key) s.asks.items +
          evSum (EventView.lock .ask) (only a.oo.key) evs + orderDue s.mkt oo ix < W64 ∧
        oo.pcFree + bookLock .bid s.mkt (only a.oo.key) s.bids.items +
          evSum (EventView.lock .bid) (only a.oo.key) evs + s.mkt.pcDeposits < W64 ∧
        ix.maxCoinQty * s.mkt.coinLot < W64

theorem newOrderExec_runs {env : Env} {s : State lst} {a : NewOrderAccts} {ix : NewOrderIx}
    {tier : FeeTier} {oo : OpenOrders} {owner auth : Option Nat} {rent : Bool} (hv : Props.OrderValid ix)
    (hl : loadOrders s.toCore env a.oo.key owner rent auth = .ok oo)
    (hseq : s.seq < W64) (hreq : s.reqCount = 0) {vs : Nat} {evs : List EventView}
    (hq : s.q.items = evs.map Event.new)
    (hi : Inv vs s.mkt s.seq s.oos s.toks s.bids.items s.asks.items evs)
    (hf : OrderFit s env a ix tier oo evs) : Runs (newOrderExec lst env s a ix tier oo) := by
  obtain ⟨hi, ha0⟩ := hi.load (c := s.toCore) hl
  have hat : ooAt (setOo s.oos a.oo.key oo) a.oo.key = some oo := by rw [ooAt_setOo, if_pos rfl]
  have hok := hi.shape.accts _ _ hat
  obtain ⟨hdl, hslot, hroom, hown, hab, hbal, hmv, hfit⟩ := hf
  have hct := hi.money.coinTot _ _ hat
  have hpt := hi.money.pcTot _ _ hat
  have hpcM := hi.money.pc
  have hcoM := hi.money.coin
  have hdlt := hi.shape.mkt.pcDeposits
  have hlock := lockFunds_go (m := s.mkt) (oo := oo) (ix := ix) (b := bal s.toks a.payer.key) hbal (by
    cases hs : ix.side <;> simp only [hs] at hfit ⊢
    · obtain ⟨f1, f2, f3⟩ := hfit
      rw [Nat.mod_eq_of_lt (by omega)] at hpt
      omega
    · obtain ⟨f1, f2, f3, f4⟩ := hfit
      rw [Nat.mod_eq_of_lt (by omega)] at hct
      omega)
  obtain ⟨m1, o1, hlk⟩ := hlock
  obtain ⟨⟨hp1, hp2⟩, ⟨hc1, hc2⟩, ⟨hpn, hpc⟩, _⟩ := hv
  replace hp1 : 0 < ix.limitPrice := Nat.pos_of_ne_zero hp1
  replace hc1 : 0 < ix.maxCoinQty := Nat.pos_of_ne_zero hc1
  replace hc2 : ix.maxCoinQty < W64 := hc2
  have hmod : s.seq % W64 = s.seq := Nat.mod_eq_of_lt hseq
  have hlots : m1.coinLot = s.mkt.coinLot ∧ m1.pcLot = s.mkt.pcLot ∧ MktOk m1 ∧ o1.orders = oo.orders ∧
      o1.freeBits = oo.freeBits ∧ (∀ j, o1.slot j = oo.slot j) ∧
      (ix.side = .ask → ix.maxCoinQty * m1.coinLot < W64) := by
    have hm0 := hi.shape.mkt
    cases hside : ix.side with
    | bid =>
      obtain ⟨x, k⟩ := lockFunds_bid hside hlk
      have k1 := k.mkt
      have k2 := k.acct
      have k3 := k.lt
      subst k1 k2
      exact ⟨rfl, rfl, ⟨hm0.1, hm0.2, hm0.3, hm0.4, k3, hm0.6⟩, rfl, rfl, fun _ => rfl, (fun h => by cases h)⟩
    | ask =>
      obtain ⟨k0, x, k⟩ := lockFunds_ask hside hlk
      have k1 := k.mkt
      have k2 := k.acct
      have k3 := k.lt
      subst k1 k2
      exact ⟨rfl, rfl, ⟨hm0.1, hm0.2, hm0.3, hm0.4, hm0.5, k3⟩, rfl, rfl, fun _ => rfl, (fun _ => k0)⟩
  obtain ⟨L1, L2, L3, L4, L5, L6, L9⟩ := hlots
  obtain ⟨slot, f, b, hadd, _, _, _⟩ := addOrder_spec (o := o1) (by rw [L5]; exact hslot)
    (genOrderId s.seq ix.limitPrice ix.side) ix.side
  have hadd0 := hadd
  generalize ho2 : ({ o1 with
    freeBits := f
    bidBits := b
    orders := o1.orders.set slot (genOrderId s.seq ix.limitPrice ix.side) } : OpenOrders) = o2 at hadd
  obtain ⟨f', b', e2, hslt, hfree, hsl⟩ := addOrder_inv (by rw [L4]; exact hok.orders) hadd
  have hσ : ∀ b i, slotsOf (setOo (setOo s.oos a.oo.key oo) a.oo.key o2) b i =
      if b = a.oo.key ∧ i = slot then some (ix.side, genOrderId s.seq ix.limitPrice ix.side)
      else slotsOf (setOo s.oos a.oo.key oo) b i := by
    intro b i
    rw [slotsOf_setOo]
    by_cases hb : b = a.oo.key
    · subst hb
      simp only [true_and, if_true, hsl, L6]
      unfold slotsOf
      rw [hat]
    · simp [hb]
  have hbegin := hi.shape.slots.begin (a := a.oo.key) (i := slot)
    (by unfold slotsOf; rw [hat]; simp only; rw [← L6]; exact hfree) hσ
  have hbook : BookOk m1 s.bids.items s.asks.items := (hi.shape.market L3 L1 L2).book
  let req := newOrderReq ix (genOrderId s.seq ix.limitPrice ix.side) a.oo.key slot tier
  have hstart : RoundIn req (s.ob lst m1) ix.maxCoinQty req.pcLocked :=
    ⟨L3, hbook, hc1, hc2, by
        show (match ix.side with | .bid => ix.maxPcQty | .ask => 0) < W64
        cases ix.side with
        | bid => exact hpc
        | ask => exact (by decide : 0 < W64),
      fun h0 _ => L9 h0, by
        have := hi.shape.fresh (sd := ix.side) (p := ix.limitPrice) hseq
        show genOrderId s.seq ix.limitPrice ix.side ∉ ((s.ob lst m1).own ix.side).items.map (·.key)
        cases hsd : ix.side <;> rw [hsd] at this <;> exact this⟩
  have hook : OrderOk req := ⟨by
      show 0 < extractPrice (genOrderId s.seq ix.limitPrice ix.side)
      rw [extractPrice_genOrderId hseq hp2]; exact hp1,
    fun h0 => absurd h0 ha0⟩
  have hreqside : req.side = ix.side := rfl
  have hgo : Runs (newOrderLoop lst req ix.limit (s.ob lst m1) ix.maxCoinQty req.pcLocked) := by
    have hw : (Want.of req (s.ob lst m1).mkt).takes ix.limit (opposite req.side (s.ob lst m1).bids.items
        (s.ob lst m1).asks.items) ix.maxCoinQty req.pcLocked = orderMeets s a ix tier := by
      have e1 : extractPrice req.orderId = ix.limitPrice := extractPrice_genOrderId hseq hp2
      unfold orderMeets Want.of
      rw [e1, show (s.ob lst m1).mkt.pcLot = s.mkt.pcLot from L2]
      rfl
    refine loop_runs_met hook (genOrderId_lt hseq hp2) hstart ?_ ?_ ?_ (by rw [hw]; exact hab) (by rw [hw]; exact hroom)
    · rw [hreqside]
      cases hs : ix.side with
      | bid =>
        show (match ix.side with | .bid => ix.maxPcQty | .ask => 0) ≠ 0
        rw [hs]; exact hpn
      | ask =>
        show (match ix.side with | .bid => ix.maxPcQty | .ask => 0) = 0
        rw [hs]
    · rw [hreqside]
      cases hs : ix.side <;> simp only [hs] at hown <;> exact hown
    · unfold PrFit
      rw [hreqside]
      cases hs : ix.side with
      | bid =>
        have : req.pcLocked < W64 := hstart.pcLt
        show 0 + req.pcLocked < W64 ∧ 0 + req.pcLocked < W64 ∧ 0 + ix.maxCoinQty < W64
        omega
      | ask =>
        show 0 + ix.maxCoinQty < W64 ∧ 0 + ix.maxCoinQty < W64 ∧ 0 + bookLock .bid m1 every s.bids.items < W64
        rw [bookLock_congr L1 L2]
        omega
  unfold newOrderExec
  rw [hdl, (checkAssert_ok (u := ())).2 (by simpa using hreq), hlk]
  simp only [bind, Except.bind, hmod, hadd]
  obtain ⟨⟨ob', rem, lim'⟩, hno⟩ := hgo
  have hno' : newOrder lst (s.ob lst m1) req ix.limit = .ok (ob', rem, lim') := hno
  rw [hno']
  obtain ⟨hrem, ts, f, evs', given, post, tail, hpath, hran⟩ :=
    newOrder_ran (σ := slotsOf (setOo (setOo s.oos a.oo.key oo) a.oo.key o2)) (evs := evs)
    (o := req) (ob := s.ob lst m1) hook hstart rfl hq (fun _ => by
      show slotsOf _ a.oo.key slot = some (ix.side, genOrderId s.seq ix.limitPrice ix.side)
      rw [hσ, if_pos ⟨rfl, rfl⟩])
    (fun h0 => absurd h0 ha0)
    (by rw [flightOf_some (o := req) ha0]; exact hbegin) hno'
  subst hrem
  simp only [Option.isNone_none, (checkAssert_ok (u := ())).2 (rfl : true = true)]
  have hcl : ob'.mkt.coinLot = s.mkt.coinLot := hran.mkt.same.coinLot.trans L1
  have hrun := hran.run
  generalize runSums (s.ob lst m1).mkt req.feeTier ts = X at hrun
  have hap : Runs (applyProceeds (o2.setClientId slot ix.clientId) ob'.mkt.coinLot ob'.pr) := by
    rw [hcl]
    have s1 : (o2.setClientId slot ix.clientId).coinFree = o1.coinFree := by rw [e2]; rfl
    have s2 : (o2.setClientId slot ix.clientId).coinTotal = o1.coinTotal := by rw [e2]; rfl
    have s3 : (o2.setClientId slot ix.clientId).pcFree = o1.pcFree := by rw [e2]; rfl
    have s4 : (o2.setClientId slot ix.clientId).pcTotal = o1.pcTotal := by rw [e2]; rfl
    rw [hreqside] at hrun
    cases hs : ix.side with
    | bid =>
      simp only [hs] at hfit hrun
      obtain ⟨f1, f2, f3⟩ := hfit
      rw [Nat.mod_eq_of_lt (by omega)] at hct hpt
      obtain ⟨x, k⟩ := lockFunds_bid hs hlk
      have hp3 := hrun.pr
      rw [if_neg (show ¬ req.owner = 0 from ha0)] at hp3
      have hbud := hrun.budget
      have hlk' : req.pcLocked = ix.maxPcQty := by
        show (match ix.side with | .bid => ix.maxPcQty | .ask => 0) = _
        rw [hs]
      have hfa := hrun.freeAsk
      replace hfa : bookLock .ask m1 every s.asks.items = bookLock .ask m1 every ob'.asks.items +
        evSum (EventView.free .ask) every evs' + X.lots * m1.coinLot := hfa
      simp only [bookLock_congr L1 L2, L1] at hfa
      have k2 := k.acct
      have k3 := k.sum
      have k4 := k.le
      subst k2
      rw [hp3]
      refine applyProceeds_runs ?_ ?_ ?_ ?_ <;>
        simp only [s1, s2, s3, s4, Proceeds.zero, Nat.zero_mul] <;> omega
    | ask =>
      simp only [hs] at hfit hrun
      obtain ⟨f1, f2, f3, f4⟩ := hfit
      rw [Nat.mod_eq_of_lt (by omega)] at hct hpt
      obtain ⟨_, x, k⟩ := lockFunds_ask hs hlk
      have hp3 := hrun.pr
      rw [if_neg (show ¬ req.owner = 0 from ha0)] at hp3
      have hsz := congrArg (· * s.mkt.coinLot) hrun.size
      simp only [Nat.add_mul] at hsz
      replace hsz : ix.maxCoinQty * s.mkt.coinLot = X.lots * s.mkt.coinLot + given * s.mkt.coinLot +
        post * s.mkt.coinLot + tail * s.mkt.coinLot := hsz
      have hfb := hrun.freeBid
      replace hfb : bookLock .bid m1 every s.bids.items = bookLock .bid m1 every ob'.bids.items +
        evSum (EventView.free .bid) every evs' + X.pc := hfb
      simp only [bookLock_congr L1 L2] at hfb
      have k2 := k.acct
      have k3 := k.sum
      have k4 := k.le
      subst k2
      rw [hp3]
      refine applyProceeds_runs ?_ ?_ ?_ ?_ <;>
        simp only [s1, s2, s3, s4, Proceeds.zero, Nat.zero_mul, Nat.add_mul] <;> omega
  obtain ⟨o', hap⟩ := hap
  rw [hap]
  obtain ⟨l', hmv⟩ := hmv
  rw [hmv]
  exact ⟨_, rfl⟩

end Serum
