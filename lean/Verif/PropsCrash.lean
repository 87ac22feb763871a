import Verif.Meet
import Verif.PropsRefusals
import Verif.PropsCan
import Verif.PropsTake
import Verif.ChainHist

/-
C91: nothing sent to a market makes the program crash, but for the retired instructions, a replacement with too
few accounts, and amounts that do not fit in 64 bits.
-/

namespace Serum
open Props

/-- Not a crash. -/
abbrev Calm (e : Err) : Prop := e ≠ .panic

theorem calm_a : Calm .assertion := by decide

/-! ### Orders -/

theorem lockFunds_poor {m : Market} {oo : OpenOrders} {ix : NewOrderIx} {b : Nat}
    (h : b < orderDue m oo ix ∨ (ix.side = .ask ∧ W64 ≤ ix.maxCoinQty * m.coinLot)) :
    lockFunds m oo ix b = .error .insufficientFunds := by
  unfold lockFunds
  unfold orderDue at h
  cases hs : ix.side with
  | bid =>
    simp only [hs, reduceCtorEq, false_and, or_false] at h ⊢
    rw [if_pos (by omega)]
  | ask =>
    simp only [hs, true_and] at h ⊢
    cases hm : checkedMul ix.maxCoinQty m.coinLot with
    | none => rfl
    | some k =>
      obtain ⟨h1, h2⟩ := checkedMul_some.1 hm
      simp only
      subst h2
      rw [if_pos (by omega)]

theorem calm_deposit {l : Ledger} {src dst who n : Nat} : Raises Calm (depositIn l src dst who n) := by
  intro e he
  unfold depositIn at he
  split at he
  · cases he
  · split at he
    · cases he; decide
    · cases he; decide
    · split at he
      · cases he
      · cases he; decide

theorem calm_send {P : Params} {m : Market} {l : Ledger} {src dst n : Nat} : Raises Calm (sendFromVault P m l src dst n) := by
  intro e he
  unfold sendFromVault at he
  split at he
  · cases he; decide
  · split at he
    · cases he
    · cases he; decide

theorem tame_calm {e : Err} (h : Tame e) : Calm e := by
  rcases h with rfl | rfl <;> decide

theorem calm_order {o : OrderParams} (ho : OrderOk o) (hk : o.orderId < 2 ^ 128) {limit : Nat} {ob : Ob lst} {coin pc : Nat}
    (h1 : RoundIn o ob coin pc) (h2 : match o.side with | .bid => pc ≠ 0 | .ask => pc = 0) (h3 : Roomy (ob.own o.side))
    (h4 : PrFit o ob coin pc) : Raises Calm (newOrderLoop lst o limit ob coin pc) := by
  intro e he
  exact tame_calm (order_tame ho hk h1 h2 h3 h4 he)

theorem newOrderExec_calm {env : Env} {s : State lst} {a : NewOrderAccts} {ix : NewOrderIx}
    {tier : FeeTier} {oo : OpenOrders} {owner auth : Option Nat} {rent : Bool} (hv : Props.OrderValid ix)
    (hl : loadOrders s.toCore env a.oo.key owner rent auth = .ok oo)
    (hseq : s.seq < W64) {vs : Nat} {evs : List EventView}
    (hq : s.q.items = evs.map Event.new)
    (hi : Inv vs s.mkt s.seq s.oos s.toks s.bids.items s.asks.items evs)
    (hown : Roomy (match ix.side with | .bid => s.bids | .ask => s.asks))
    (hfit : orderDue s.mkt oo ix ≤ bal s.toks a.payer.key → match ix.side with
    | .bid => s.mkt.pcDeposits + orderDue s.mkt oo ix < W64 ∧
        oo.pcFree + bookLock .bid s.mkt (only a.oo.key) s.bids.items +
          evSum (EventView.lock .bid) (only a.oo.key) evs + orderDue s.mkt oo ix < W64 ∧
        oo.coinFree + bookLock .ask s.mkt (only a.oo.key) s.asks.items +
          evSum (EventView.lock .ask) (only a.oo.key) evs + s.mkt.coinDeposits < W64
    | .ask => s.mkt.coinDeposits + orderDue s.mkt oo ix < W64 ∧
        oo.coinFree + bookLock .ask s.mkt (only a.oo.key) s.asks.items +
          evSum (EventView.lock .ask) (only a.oo.key) evs + orderDue s.mkt oo ix < W64 ∧
        oo.pcFree + bookLock .bid s.mkt (only a.oo.key) s.bids.items +
          evSum (EventView.lock .bid) (only a.oo.key) evs + s.mkt.pcDeposits < W64) :
    Raises Calm (newOrderExec lst env s a ix tier oo) := by
  obtain ⟨hi, ha0⟩ := hi.load (c := s.toCore) hl
  have hat : ooAt (setOo s.oos a.oo.key oo) a.oo.key = some oo := by rw [ooAt_setOo, if_pos rfl]
  have hok := hi.shape.accts _ _ hat
  have hct := hi.money.coinTot _ _ hat
  have hpt := hi.money.pcTot _ _ hat
  have hpcM := hi.money.pc
  have hcoM := hi.money.coin
  have hdlt := hi.shape.mkt.pcDeposits
  unfold newOrderExec
  refine .bind ?_ fun _ _ => ?_
  · intro e he
    unfold checkDeadline at he
    split at he
    · cases he; decide
    · cases he
  refine .bind (.check calm_a) fun _ _ => ?_
  by_cases hpoor : bal s.toks a.payer.key < orderDue s.mkt oo ix ∨ (ix.side = .ask ∧ W64 ≤ ix.maxCoinQty * s.mkt.coinLot)
  · rw [lockFunds_poor hpoor]
    refine .bind (.error (by decide)) fun _ h => by cases h
  obtain ⟨hrich, hlots⟩ := not_or.1 hpoor
  have hrich : orderDue s.mkt oo ix ≤ bal s.toks a.payer.key := by omega
  replace hfit := hfit hrich
  have hlock := lockFunds_go (m := s.mkt) (oo := oo) (ix := ix) (b := bal s.toks a.payer.key) hrich (by
    cases hs : ix.side <;> simp only [hs] at hfit hlots ⊢
    · obtain ⟨f1, f2, f3⟩ := hfit
      rw [Nat.mod_eq_of_lt (by omega)] at hpt
      omega
    · obtain ⟨f1, f2, f3⟩ := hfit
      rw [Nat.mod_eq_of_lt (by omega)] at hct
      simp only [true_and] at hlots
      omega)
  obtain ⟨m1, o1, hlk⟩ := hlock
  rw [hlk]
  refine .bind .ok ?_
  rintro _ h; cases h
  obtain ⟨⟨hp1, hp2⟩, ⟨hc1, hc2⟩, ⟨hpn, hpc⟩, _⟩ := hv
  replace hp1 : 0 < ix.limitPrice := Nat.pos_of_ne_zero hp1
  replace hc1 : 0 < ix.maxCoinQty := Nat.pos_of_ne_zero hc1
  replace hc2 : ix.maxCoinQty < W64 := hc2
  have hmod : s.seq % W64 = s.seq := Nat.mod_eq_of_lt hseq
  have hlots' : m1.coinLot = s.mkt.coinLot ∧ m1.pcLot = s.mkt.pcLot ∧ MktOk m1 ∧ o1.orders = oo.orders ∧
      o1.freeBits = oo.freeBits ∧ (∀ j, o1.slot j = oo.slot j) ∧
      (ix.side = .ask → ix.maxCoinQty * m1.coinLot < W64) := by
    have hm0 := hi.shape.mkt
    cases hside : ix.side with
    | bid =>
      obtain ⟨x, k⟩ := lockFunds_bid hside hlk
      have k1 := k.mkt
      have k2 := k.acct
      have k3 := k.lt
      subst k1 k2
      exact ⟨rfl, rfl, ⟨hm0.1, hm0.2, hm0.3, hm0.4, k3, hm0.6⟩, rfl, rfl, fun _ => rfl, (fun h => by cases h)⟩
    | ask =>
      obtain ⟨k0, x, k⟩ := lockFunds_ask hside hlk
      have k1 := k.mkt
      have k2 := k.acct
      have k3 := k.lt
      subst k1 k2
      exact ⟨rfl, rfl, ⟨hm0.1, hm0.2, hm0.3, hm0.4, hm0.5, k3⟩, rfl, rfl, fun _ => rfl, (fun _ => k0)⟩
  obtain ⟨L1, L2, L3, L4, L5, L6, L9⟩ := hlots'
  simp only [hmod]
  refine .bind ?_ ?_
  · intro e he
    by_cases hz : o1.freeBits = 0
    · rw [addOrder_full hz] at he; cases he; decide
    · obtain ⟨slot, f, b, hadd, _⟩ := addOrder_spec hz (genOrderId s.seq ix.limitPrice ix.side) ix.side
      rw [hadd] at he; cases he
  rintro ⟨slot, o2⟩ hadd
  obtain ⟨f', b', e2, hslt, hfree, hsl⟩ := addOrder_inv (by rw [L4]; exact hok.orders) hadd
  have hσ : ∀ b i, slotsOf (setOo (setOo s.oos a.oo.key oo) a.oo.key o2) b i =
      if b = a.oo.key ∧ i = slot then some (ix.side, genOrderId s.seq ix.limitPrice ix.side)
      else slotsOf (setOo s.oos a.oo.key oo) b i := by
    intro b i
    rw [slotsOf_setOo]
    by_cases hb : b = a.oo.key
    · subst hb
      simp only [true_and, if_true, hsl, L6]
      unfold slotsOf
      rw [hat]
    · simp [hb]
  have hbegin := hi.shape.slots.begin (a := a.oo.key) (i := slot)
    (by unfold slotsOf; rw [hat]; simp only; rw [← L6]; exact hfree) hσ
  have hbook : BookOk m1 s.bids.items s.asks.items := (hi.shape.market L3 L1 L2).book
  let req := newOrderReq ix (genOrderId s.seq ix.limitPrice ix.side) a.oo.key slot tier
  have hstart : RoundIn req (s.ob lst m1) ix.maxCoinQty req.pcLocked :=
    ⟨L3, hbook, hc1, hc2, by
        show (match ix.side with | .bid => ix.maxPcQty | .ask => 0) < W64
        cases ix.side with
        | bid => exact hpc
        | ask => exact (by decide : 0 < W64),
      fun h0 _ => L9 h0, by
        have := hi.shape.fresh (sd := ix.side) (p := ix.limitPrice) hseq
        show genOrderId s.seq ix.limitPrice ix.side ∉ ((s.ob lst m1).own ix.side).items.map (·.key)
        cases hsd : ix.side <;> rw [hsd] at this <;> exact this⟩
  have hook : OrderOk req := ⟨by
      show 0 < extractPrice (genOrderId s.seq ix.limitPrice ix.side)
      rw [extractPrice_genOrderId hseq hp2]; exact hp1,
    fun h0 => absurd h0 ha0⟩
  have hreqside : req.side = ix.side := rfl
  have hkey : req.orderId < 2 ^ 128 := genOrderId_lt hseq hp2
  refine .bind ?_ ?_
  · refine calm_order hook hkey hstart ?_ ?_ ?_
    · rw [hreqside]
      cases hs : ix.side with
      | bid =>
        show (match ix.side with | .bid => ix.maxPcQty | .ask => 0) ≠ 0
        rw [hs]; exact hpn
      | ask =>
        show (match ix.side with | .bid => ix.maxPcQty | .ask => 0) = 0
        rw [hs]
    · rw [hreqside]
      cases hs : ix.side <;> simp only [hs] at hown <;> exact hown
    · unfold PrFit
      rw [hreqside]
      cases hs : ix.side with
      | bid =>
        have : req.pcLocked < W64 := hstart.pcLt
        show 0 + req.pcLocked < W64 ∧ 0 + req.pcLocked < W64 ∧ 0 + ix.maxCoinQty < W64
        omega
      | ask =>
        show 0 + ix.maxCoinQty < W64 ∧ 0 + ix.maxCoinQty < W64 ∧ 0 + bookLock .bid m1 every s.bids.items < W64
        rw [bookLock_congr L1 L2]
        omega
  rintro ⟨ob', rem, lim'⟩ hno'
  obtain ⟨hrem, ts, f, evs', given, post, tail, hpath, hran⟩ :=
    newOrder_ran (σ := slotsOf (setOo (setOo s.oos a.oo.key oo) a.oo.key o2)) (evs := evs)
    (o := req) (ob := s.ob lst m1) hook hstart rfl hq (fun _ => by
      show slotsOf _ a.oo.key slot = some (ix.side, genOrderId s.seq ix.limitPrice ix.side)
      rw [hσ, if_pos ⟨rfl, rfl⟩])
    (fun h0 => absurd h0 ha0)
    (by rw [flightOf_some (o := req) ha0]; exact hbegin) hno'
  refine .bind (.check calm_a) fun _ _ => ?_
  have hcl : ob'.mkt.coinLot = s.mkt.coinLot := hran.mkt.same.coinLot.trans L1
  have hrun := hran.run
  generalize runSums (s.ob lst m1).mkt req.feeTier ts = X at hrun
  have hap : Runs (applyProceeds (o2.setClientId slot ix.clientId) ob'.mkt.coinLot ob'.pr) := by
    rw [hcl]
    have s1 : (o2.setClientId slot ix.clientId).coinFree = o1.coinFree := by rw [e2]; rfl
    have s2 : (o2.setClientId slot ix.clientId).coinTotal = o1.coinTotal := by rw [e2]; rfl
    have s3 : (o2.setClientId slot ix.clientId).pcFree = o1.pcFree := by rw [e2]; rfl
    have s4 : (o2.setClientId slot ix.clientId).pcTotal = o1.pcTotal := by rw [e2]; rfl
    rw [hreqside] at hrun
    cases hs : ix.side with
    | bid =>
      simp only [hs] at hfit hrun
      obtain ⟨f1, f2, f3⟩ := hfit
      rw [Nat.mod_eq_of_lt (by omega)] at hct hpt
      obtain ⟨x, k⟩ := lockFunds_bid hs hlk
      have hp3 := hrun.pr
      rw [if_neg (show ¬ req.owner = 0 from ha0)] at hp3
      have hbud := hrun.budget
      have hlk' : req.pcLocked = ix.maxPcQty := by
        show (match ix.side with | .bid => ix.maxPcQty | .ask => 0) = _
        rw [hs]
      have hfa := hrun.freeAsk
      replace hfa : bookLock .ask m1 every s.asks.items = bookLock .ask m1 every ob'.asks.items +
        evSum (EventView.free .ask) every evs' + X.lots * m1.coinLot := hfa
      simp only [bookLock_congr L1 L2, L1] at hfa
      have k2 := k.acct
      have k3 := k.sum
      have k4 := k.le
      subst k2
      rw [hp3]
      refine applyProceeds_runs ?_ ?_ ?_ ?_ <;>
        simp only [s1, s2, s3, s4, Proceeds.zero, Nat.zero_mul] <;> omega
    | ask =>
      simp only [hs] at hfit hrun
      obtain ⟨f1, f2, f3⟩ := hfit
      rw [Nat.mod_eq_of_lt (by omega)] at hct hpt
      obtain ⟨_, x, k⟩ := lockFunds_ask hs hlk
      have hp3 := hrun.pr
      rw [if_neg (show ¬ req.owner = 0 from ha0)] at hp3
      have hsz := congrArg (· * s.mkt.coinLot) hrun.size
      simp only [Nat.add_mul] at hsz
      replace hsz : ix.maxCoinQty * s.mkt.coinLot = X.lots * s.mkt.coinLot + given * s.mkt.coinLot +
        post * s.mkt.coinLot + tail * s.mkt.coinLot := hsz
      have hfb := hrun.freeBid
      replace hfb : bookLock .bid m1 every s.bids.items = bookLock .bid m1 every ob'.bids.items +
        evSum (EventView.free .bid) every evs' + X.pc := hfb
      simp only [bookLock_congr L1 L2] at hfb
      have k2 := k.acct
      have k3 := k.sum
      have k4 := k.le
      subst k2
      rw [hp3]
      refine applyProceeds_runs ?_ ?_ ?_ ?_ <;>
        simp only [s1, s2, s3, s4, Proceeds.zero, Nat.zero_mul, Nat.add_mul] <;> omega
  obtain ⟨o', hap⟩ := hap
  rw [hap]
  exact .bind .ok fun _ _ => .bind calm_deposit fun _ _ => .pure

theorem sendTakeExec_calm {P : Params} {s : State lst} {a : SendTakeAccts} {ix : SendTakeIx}
    {tier : FeeTier} (hv : TakeValid ix) (hseq : s.seq < W64) {vs : Nat} {evs : List EventView}
    (hq : s.q.items = evs.map Event.new)
    (hi : Inv vs s.mkt s.seq s.oos s.toks s.bids.items s.asks.items evs)
    (hown : Roomy (match ix.side with | .bid => s.bids | .ask => s.asks))
    (hlots : ix.side = .ask → ix.maxCoinQty * s.mkt.coinLot < W64) :
    Raises Calm (sendTakeExec lst P s a ix tier) := by
  obtain ⟨⟨hp1, hp2⟩, ⟨hc1, hc2⟩, ⟨hpn, hpc⟩, _⟩ := hv
  replace hp1 : 0 < ix.limitPrice := Nat.pos_of_ne_zero hp1
  replace hc1 : 0 < ix.maxCoinQty := Nat.pos_of_ne_zero hc1
  replace hc2 : ix.maxCoinQty < W64 := hc2
  have hmod : s.seq % W64 = s.seq := Nat.mod_eq_of_lt hseq
  let req := sendTakeReq ix (genOrderId s.seq ix.limitPrice ix.side) tier
  have hreqside : req.side = ix.side := rfl
  have hdep := hi.deposits_lt
  have hco := hi.money.coin
  have hpc' := hi.money.pc
  have hstart : RoundIn req (s.ob lst s.mkt) ix.maxCoinQty req.pcLocked :=
    ⟨hi.shape.mkt, hi.shape.book, hc1, hc2, by
        show (match ix.side with | .bid => ix.maxPcQty | .ask => 0) < W64
        cases ix.side with
        | bid => exact hpc
        | ask => exact (by decide : 0 < W64),
      fun _ h0 => absurd rfl h0, by
        have := hi.shape.fresh (sd := ix.side) (p := ix.limitPrice) hseq
        show genOrderId s.seq ix.limitPrice ix.side ∉ ((s.ob lst s.mkt).own ix.side).items.map (·.key)
        cases hsd : ix.side <;> rw [hsd] at this <;> exact this⟩
  have hz : ∀ l ∈ opposite ix.side s.bids.items s.asks.items, l.owner ≠ 0 := by
    intro l hl'
    cases hsd : ix.side with
    | bid => rw [hsd] at hl'; exact hi.shape.owner_ne (sd := .ask) hl'
    | ask => rw [hsd] at hl'; exact hi.shape.owner_ne (sd := .bid) (List.mem_reverse.1 hl')
  have hook : OrderOk req := ⟨by
      show 0 < extractPrice (genOrderId s.seq ix.limitPrice ix.side)
      rw [extractPrice_genOrderId hseq hp2]; exact hp1, fun _ => rfl⟩
  unfold sendTakeExec
  simp only [hmod]
  have hkey : req.orderId < 2 ^ 128 := genOrderId_lt hseq hp2
  refine .bind ?_ ?_
  · refine calm_order hook hkey hstart ?_ ?_ ?_
    · rw [hreqside]
      cases hs : ix.side with
      | bid =>
        show (match ix.side with | .bid => ix.maxPcQty | .ask => 0) ≠ 0
        rw [hs]; exact hpn
      | ask =>
        show (match ix.side with | .bid => ix.maxPcQty | .ask => 0) = 0
        rw [hs]
    · rw [hreqside]
      cases hs : ix.side <;> simp only [hs] at hown <;> exact hown
    · unfold PrFit
      rw [hreqside]
      cases hs : ix.side with
      | bid =>
        have : req.pcLocked < W64 := hstart.pcLt
        show 0 + req.pcLocked < W64 ∧ 0 + req.pcLocked < W64 ∧ 0 + ix.maxCoinQty < W64
        omega
      | ask =>
        show 0 + ix.maxCoinQty < W64 ∧ 0 + ix.maxCoinQty < W64 ∧ 0 + bookLock .bid s.mkt every s.bids.items < W64
        omega
  rintro ⟨ob', rem, lim'⟩ hno'
  obtain ⟨_, ts, f, evs', given, post, tail, hpath, hran⟩ :=
    newOrder_ran (σ := slotsOf s.oos) (evs := evs) (o := req) (ob := s.ob lst s.mkt) hook
      hstart rfl hq (fun h0 => absurd rfl h0) (fun _ => hz) (by exact hi.shape.slots) hno'
  have hsame := hran.mkt.same
  have hrun := hran.run
  have hmk : MarketRun s.mkt ob'.mkt (runSums s.mkt req.feeTier ts) := hran.mkt
  generalize hX : runSums (s.ob lst s.mkt).mkt req.feeTier ts = X at hrun
  have hX' : runSums s.mkt req.feeTier ts = X := hX
  rw [hX'] at hmk
  have hcl : ob'.mkt.coinLot = s.mkt.coinLot := hsame.coinLot
  refine .bind ?_ fun _ _ => ?_
  · intro e he
    unfold checkMin at he
    split at he <;> split at he <;> first | (cases he; decide) | cases he
  refine .bind ?_ ?_
  · unfold sendTakeTotals
    rw [hreqside] at hrun
    cases hs : ix.side with
    | bid =>
      simp only [hs] at hrun
      have hfa := hrun.freeAsk
      replace hfa : bookLock .ask s.mkt every s.asks.items = bookLock .ask s.mkt every ob'.asks.items +
        evSum (EventView.free .ask) every evs' + X.lots * s.mkt.coinLot := hfa
      have hlt : X.lots * s.mkt.coinLot < W64 := by omega
      rw [hrun.pr]
      simp only
      rw [hcl, checkedMul_some.2 ⟨hlt, rfl⟩]
      exact .bind .ok fun _ _ => .bind (.check calm_a) fun _ _ => .pure
    | ask =>
      simp only [hs] at hrun
      have hsz : ix.maxCoinQty = X.lots + given + post + tail := hrun.size
      have hle : X.lots * s.mkt.coinLot ≤ ix.maxCoinQty * s.mkt.coinLot := Nat.mul_le_mul_right _ (by omega)
      have hlt : X.lots * s.mkt.coinLot < W64 := by
        have := hlots hs
        omega
      rw [hrun.pr]
      simp only
      rw [hcl, checkedMul_some.2 ⟨hlt, rfl⟩]
      exact .bind .ok fun _ _ => .bind (.check calm_a) fun _ _ => .pure
  rintro ⟨m', D, w⟩ _
  refine .bind ?_ fun _ _ => .pure
  unfold sendTakeTransfers
  cases ix.side with
  | bid =>
    refine .bind calm_deposit fun _ _ => ?_
    split
    · exact .ok
    · exact calm_send
  | ask =>
    refine .bind calm_deposit fun _ _ => ?_
    split
    · exact .ok
    · exact calm_send

/-! ### Cancelling -/

theorem cancelLeaf_calm {ob : Ob lst} {l : Leaf} {sd : Side} {oo : OpenOrders} {a id : Nat}
    (h1 : l.owner = a → ∃ k, oo.orderAt l.ownerSlot = some k)
    (h2 : l.owner = a → ∃ n o', unlockLeaf ob.mkt l sd oo = .ok (n, o')) :
    Raises Calm (cancelLeaf lst ob l sd oo a id) := by
  unfold cancelLeaf
  split
  · exact .error (by decide)
  · rename_i hown
    have hown : l.owner = a := Classical.not_not.1 hown
    obtain ⟨k, hk⟩ := h1 hown
    obtain ⟨n, o', hu⟩ := h2 hown
    rw [hk, hu]
    refine .bind .ok fun _ _ => .bind (.check calm_a) fun _ _ => .bind (.check calm_a) fun _ _ => .bind .ok ?_
    rintro ⟨n', o''⟩ _
    exact .bind (push_raises fun _ => by decide) fun _ _ => .pure

theorem cancelOrder_calm {vs : Nat} {c : Core} {a : Nat} {ob : Ob lst} {oo : OpenOrders} {sd : Side} {id : Nat}
    {evs : List EventView} (hm : ob.mkt = c.mkt)
    (hi : Inv vs c.mkt c.seq (setOo c.oos a oo) c.toks ob.bids.items ob.asks.items evs)
    (f1 : oo.coinFree + bookLock .ask c.mkt (only a) ob.asks.items + evSum (EventView.lock .ask) (only a) evs < W64)
    (f2 : oo.pcFree + bookLock .bid c.mkt (only a) ob.bids.items + evSum (EventView.lock .bid) (only a) evs < W64) :
    Raises Calm (cancelOrderV2 lst ob sd a oo id) := by
  have ho := ooAt_setOo_same c.oos a oo
  unfold cancelOrderV2
  refine .bind (fun e he => by cases he) ?_
  rintro ⟨b, l⟩ hr
  simp only [Except.ok.injEq, Prod.mk.injEq] at hr
  obtain ⟨rfl, hl⟩ := hr
  cases l with
  | none => exact .error (by decide)
  | some l =>
    have hmem : l ∈ sideOf sd ob.bids.items ob.asks.items := by
      have := List.mem_of_find?_eq_some hl
      cases sd <;> exact this
    refine cancelLeaf_calm (fun hown => ?_) fun hown => ?_
    · exact ⟨_, (slot_parts (hi.leaf_id ho hmem hown)).2.2⟩
    · have := unlockLeaf_ok hi ho hmem hown f1 f2
      rw [← hm] at this
      cases sd <;> exact this

theorem cancelMany_calm {vs : Nat} {c : Core} {a : Nat} {L : List (Nat × Side)} :
    ∀ {ob : Ob lst} {oo : OpenOrders} {evs : List EventView},
    ob.mkt = c.mkt → ob.q.items = evs.map Event.new →
    Inv vs c.mkt c.seq (setOo c.oos a oo) c.toks ob.bids.items ob.asks.items evs →
    oo.coinFree + bookLock .ask c.mkt (only a) ob.asks.items + evSum (EventView.lock .ask) (only a) evs < W64 →
    oo.pcFree + bookLock .bid c.mkt (only a) ob.bids.items + evSum (EventView.lock .bid) (only a) evs < W64 →
    Raises Calm (cancelMany lst a ob oo L) := by
  induction L with
  | nil => intro ob oo evs _ _ _ _ _; exact .ok
  | cons x xs ih =>
    intro ob oo evs hm hq hi f1 f2
    obtain ⟨id, sd⟩ := x
    unfold cancelMany
    have hone := cancelOrder_calm (sd := sd) (id := id) hm hi f1 f2
    cases hc : cancelOrderV2 lst ob sd a oo id with
    | error e =>
      by_cases he : e = .orderNotFound
      · subst he
        exact ih hm hq hi f1 f2
      · intro e' he'
        have : e' = e := by
          cases e <;> first | exact absurd rfl he | (cases he'; rfl)
        rw [this]
        exact hone e hc
    | ok r =>
      obtain ⟨ob1, oo1⟩ := r
      obtain ⟨l2, evs1, hkey, m1, q1, i1, w1⟩ := cancelOrderV2_effect hc hm hq hi
      obtain ⟨g1, g2⟩ := w1.held hi.shape.book
      exact ih m1 q1 i1 (by rw [g1]; exact f1) (by rw [g2]; exact f2)

/-- How a book and an account go together with another pair: the account is the same. -/
def GrownO (x y : Ob lst × OpenOrders) : Prop := Grown x.1 y.1 ∧ x.2 = y.2

theorem loss_cancelLeaf {s t : Ob lst} (h : Grown s t) (l : Leaf) (sd : Side) (oo : OpenOrders) (a id : Nat) :
    Loss GrownO (cancelLeaf lst s l sd oo a id) (cancelLeaf lst t l sd oo a id) := by
  unfold cancelLeaf
  refine Loss.ite (.inl rfl) ?_
  refine Loss.bind Loss.refl ?_
  rintro k _ rfl
  refine Loss.bind Loss.refl fun _ _ _ => ?_
  refine Loss.bind Loss.refl fun _ _ _ => ?_
  rw [show s.mkt = t.mkt from h.mkt]
  refine Loss.bind Loss.refl ?_
  rintro ⟨n, o⟩ _ rfl
  exact Loss.bind (loss_pushEv h _) fun x y hxy => (⟨hxy, rfl⟩ : GrownO (x, o) (y, o))

theorem loss_cancelLeaves {sd : Side} {a : Nat} {ls : List Leaf} : ∀ {s t : Ob lst} (_ : Grown s t) (oo : OpenOrders),
    Loss GrownO (cancelLeaves lst sd a s oo ls) (cancelLeaves lst sd a t oo ls) := by
  induction ls with
  | nil => intro s t h oo; exact ⟨h, rfl⟩
  | cons l ls ih =>
    intro s t h oo
    unfold cancelLeaves
    refine Loss.bind Loss.refl ?_
    rintro k _ rfl
    refine Loss.bind (loss_cancelLeaf h l sd oo a k) ?_
    rintro ⟨s1, o1⟩ ⟨t1, o2⟩ ⟨h1, rfl⟩
    exact ih h1 o1

/-! ### Parts of instructions -/

theorem calm_flags {c : Core} (a : AccMeta) :
    Raises Calm (loadMarket c a false) := by
  unfold loadMarket
  refine .bind (.check calm_a) fun _ _ => ?_
  intro e he
  unfold checkMarketFlags at he
  repeat' split at he
  all_goals first | (cases he; decide) | cases he

/-- The world outside has no reason to crash: the accounts that are not of the program are refused with one of its
reasons. -/
def Sane (env : Env) : Prop := ∀ a, env.acct a ≠ .other .panic

/-- The chain is such a world. -/
theorem chain_sane (now : Int) (c : Chain) : Sane (envOf now c) := by
  intro a h
  have h : acctKind (c.accs a) = .other .panic := h
  unfold acctKind at h
  split at h <;> cases h

theorem calm_orders {c : Core} {env : Env} (he : Sane env) {a : Nat} {owner auth : Option Nat} {rent : Bool} :
    Raises Calm (loadOrders c env a owner rent auth) := by
  intro e hx
  unfold loadOrders at hx
  split at hx
  · split at hx
    · cases hx; decide
    · split at hx
      · cases hx; decide
      · cases hx
  · split at hx
    · cases hx; decide
    · split at hx
      · rename_i e' h'
        cases hx
        intro h
        exact he a (by rw [h', h])
      · unfold initOrders at hx
        split at hx
        · cases hx; decide
        · split at hx
          · cases hx; decide
          · split at hx
            · cases hx; decide
            · split at hx
              · cases hx; decide
              · cases hx

theorem calm_order_args {P : Params} {env : Env} (he : Sane env) {c : Core} (hf : goodFlags c.mkt.flags = true)
    {a : NewOrderAccts} {sd : Side} : Raises Calm (newOrderArgs P env c a sd) := by
  have ha := calm_a
  unfold newOrderArgs
  refine .bind (discount_raises ha _ _) fun disc _ => ?_
  refine .bind (calm_flags _) fun _ hm => ?_
  refine .bind (.check ha) fun _ _ => ?_
  refine .bind (tier_raises ha _ _ _ _) fun tier _ => ?_
  refine .bind (key_raises fun h => by decide) fun _ _ => ?_
  refine .bind (key_raises fun h => by decide) fun _ _ => ?_
  refine .bind (tokAcct_raises ha _ _) fun _ _ => ?_
  refine .bind (by unfold checkPayer; cases sd <;> exact .orAssert ha) fun _ _ => ?_
  refine .bind (.bind (tokAcct_raises ha _ _) fun _ _ => key_raises fun h => by decide) fun _ _ => ?_
  refine .bind (.bind (tokAcct_raises ha _ _) fun _ _ => key_raises fun h => by decide) fun _ _ => ?_
  refine .bind ?_ fun _ _ => ?_
  · intro e he
    unfold loadMarket at hm
    obtain ⟨_, _, hm⟩ := bind_ok hm
    rw [enabled_of_load hf hm] at he
    cases he
  refine .bind (.check ha) fun _ _ => ?_
  refine .bind (.orAssert ha) fun _ _ => ?_
  refine .bind (.orAssert ha) fun _ _ => ?_
  exact .bind (calm_orders he) fun _ _ => .pure

theorem calm_take_args {P : Params} {c : Core} {vs : Nat}
    (hv : P.vaultSigner c.mkt.ownAddress c.mkt.vaultSignerNonce = some vs) {a : SendTakeAccts} :
    Raises Calm (sendTakeArgs P c a) := by
  have ha := calm_a
  unfold sendTakeArgs
  refine .bind (discount_raises ha _ _) fun disc _ => ?_
  refine .bind (calm_flags _) fun _ hm => ?_
  refine .bind (.check ha) fun _ _ => ?_
  refine .bind (.orAssert ha) fun tier _ => ?_
  refine .bind (key_raises fun h => by decide) fun _ _ => ?_
  refine .bind (key_raises fun h => by decide) fun _ _ => ?_
  refine .bind (coinWallet_raises ha fun t ht h => by decide) fun _ _ => ?_
  refine .bind (pcWallet_raises ha fun t ht h => by decide) fun _ _ => ?_
  refine .bind (coinVault_raises ha fun h => by decide) fun _ _ => ?_
  refine .bind (pcVault_raises ha fun h => by decide) fun _ _ => ?_
  refine .bind (.check ha) fun _ _ => ?_
  refine .bind (vaultSigner_raises ha hv) fun _ _ => ?_
  exact .bind (.orAssert ha) fun _ _ => .bind (.orAssert ha) fun _ _ => .pure

theorem calm_cancel_args {env : Env} (he : Sane env) {c : Core} {a : CancelAccts} : Raises Calm (cancelArgs env c a) := by
  have ha := calm_a
  unfold cancelArgs
  refine .bind (.orAssert ha) fun _ _ => ?_
  refine .bind (.check ha) fun _ _ => ?_
  refine .bind (calm_orders he) fun _ _ => ?_
  refine .bind (.orAssert ha) fun _ _ => ?_
  refine .bind (.orAssert ha) fun _ _ => ?_
  exact .bind (events_raise fun _ => by decide) fun _ _ => .pure

theorem calm_one {P : Params} {env : Env} {s : State lst} {keys : List Nat} (hi : SInv P s) :
    Raises Calm (consumeOne lst P env s keys) := by
  have ha := calm_a
  obtain ⟨vs, evs, hv, hq, hi⟩ := hi
  unfold consumeOne
  rw [show lst.peek s.q = s.q.items.head? from rfl, hq]
  cases evs with
  | nil => exact .ok
  | cons v rest =>
    simp only [List.map_cons, List.head?_cons, Event.asView_new]
    refine .bind .ok fun v' hv' => ?_
    cases hv'
    refine .bind ?_ fun r hr => ?_
    · have e1 : (Event.new v).owner = v.owner := by cases v <;> rfl
      obtain ⟨sd, id, hs, ht⟩ := hi.shape.slots.head
      unfold eventOwner
      rw [e1]
      split
      · cases ho : ooAt s.oos v.owner with
        | none => unfold slotsOf at hs; rw [ho] at hs; cases hs
        | some o =>
          have hcl : o.closed = false := by
            cases hc : o.closed with
            | false => rfl
            | true =>
              have hz := (hi.closed_zero ho hc).2.2 v.slot
              rw [hz] at hs; cases hs
          have hl : loadOrders s.toCore env v.owner none false none = .ok o := by
            unfold loadOrders
            rw [ho]
            simp [hcl]
          rw [hl]
          refine .bind .ok fun o' ho' => ?_
          cases ho'
          refine .bind (.check ha) fun _ hlt => .bind (.check ha) fun _ _ => ?_
          have hlt : (Event.new v).ownerSlot < 128 := by simpa using checkAssert_ok.1 hlt
          have hor := (hi.shape.accts _ _ ho).orders
          rw [show o.orderAt (Event.new v).ownerSlot = some (o.orders[(Event.new v).ownerSlot]'(by omega)) from
            List.getElem?_eq_getElem _]
          exact .bind .ok fun _ _ => .bind (.check ha) fun _ _ => .pure
      · exact .ok
    · cases r with
      | none => exact .pure
      | some oo =>
        simp only [hq, List.map_cons]
        exact .bind (apply_raises ha _ _) fun _ _ => .bind .ok fun _ _ => .pure

theorem calm_loop {P : Params} {env : Env} {keys : List Nat} (n : Nat) :
    ∀ {s : State lst}, SInv P s → Raises Calm (consumeLoop lst P env keys n s) := by
  induction n with
  | zero => intro s _; exact .ok
  | succ n ih =>
    intro s hi
    unfold consumeLoop
    refine .bind (calm_one hi) fun r hr => ?_
    cases r with
    | none => exact .pure
    | some s1 => exact ih (consumeOne_inv hr hi)

namespace Props

/-! ### What has to fit -/

/-- What an open-orders account holds of each token fits in 64 bits, if there is such an account. -/
def AccountFits (s : State conc) (a : Nat) : Prop := ∀ o, ooAt s.oos a = some o → HoldsFit s a o

/-- What an order needs not to overflow. Of the token it pays with: what is deposited and what the account holds,
each together with the whole wallet. Of the token it gets: what the account holds together with what is deposited.
And the book has room for an order at all. -/
def OrderFits (s : State conc) (accts : List AccMeta) (ix : NewOrderIx) : Prop :=
  match ix.side with
  | .bid => s.bids.nodes ≠ [] ∧ s.mkt.pcDeposits + bal s.toks (given accts 6) < 2 ^ 64 ∧
      quoteHeld s (given accts 1) (accountFor s (given accts 1) (given accts 7)) + bal s.toks (given accts 6) < 2 ^ 64 ∧
      baseHeld s (given accts 1) (accountFor s (given accts 1) (given accts 7)) + s.mkt.coinDeposits < 2 ^ 64
  | .ask => s.asks.nodes ≠ [] ∧ s.mkt.coinDeposits + bal s.toks (given accts 6) < 2 ^ 64 ∧
      baseHeld s (given accts 1) (accountFor s (given accts 1) (given accts 7)) + bal s.toks (given accts 6) < 2 ^ 64 ∧
      quoteHeld s (given accts 1) (accountFor s (given accts 1) (given accts 7)) + s.mkt.pcDeposits < 2 ^ 64

/-- That of each order of a sequence, in the state that the orders before it lead to. -/
def SequenceFits (P : Params) (env : Env) (accts : List AccMeta) : State conc → List NewOrderIx → Prop
  | _, [] => True
  | s, ix :: ixs => OrderFits s accts ix ∧
      ∀ s', newOrderV3 conc P env s accts ix = .ok s' → SequenceFits P env accts s' ixs

/-- What a replacement needs not to crash: all the accounts it picks from, and that amounts fit. -/
def ReplaceFits (P : Params) (env : Env) (s : State conc) (accts : List AccMeta) (ixs : List NewOrderIx) : Prop :=
  8 ≤ accts.length ∧ AccountFits s (given accts 1) ∧
  ∀ s0, cancelByClientIds conc env s ([0, 4, 5, 1, 7, 3].filterMap (accts[·]?)) (ixs.map (·.clientId)) = .ok s0 →
    SequenceFits P env accts s0 ixs

/-- What a send-take needs not to overflow. -/
def TakeFits (s : State conc) (ix : SendTakeIx) : Prop :=
  match ix.side with
  | .bid => s.bids.nodes ≠ []
  | .ask => s.asks.nodes ≠ [] ∧ ix.maxCoinQty * s.mkt.coinLot < 2 ^ 64

/-- What an instruction needs not to crash. -/
def CrashSafe (P : Params) (env : Env) (s : State conc) (accts : List AccMeta) : Instruction → Prop
  | .newOrderV3 ix => OrderFits s accts ix
  | .sendTake ix => TakeFits s ix
  | .cancelOrderV2 .. | .cancelOrderByClientIdV2 _ | .cancelOrdersByClientIds _ => AccountFits s (given accts 3)
  | .replaceOrderByClientId ix => ReplaceFits P env s accts [ix]
  | .replaceOrdersByClientIds ixs => ReplaceFits P env s accts ixs
  | .settleFunds => AccountFits s (given accts 1)
  | .prune _ => AccountFits s (given accts 4)
  | .newOrder _ | .cancelOrder .. | .cancelOrderByClientId _ | .newOrderV2 .. => False
  | .initializeMarket _ | .matchOrders _ | .consumeEvents _ | .consumeEventsPermissioned _ | .closeOpenOrders
  | .initOpenOrders | .disableMarket | .sweepFees => True

/-! ### The instructions -/

theorem roomy_bids {P : Params} {s : State conc} (hg : Good P s) (h : s.bids.nodes ≠ []) : Roomy (absState s).bids := by
  refine ⟨?_, hg.rs.bids.1.space⟩
  show 0 < min s.bids.nodes.length u32Max
  have := List.length_pos_iff.2 h
  have : 0 < u32Max := by decide
  omega

theorem roomy_asks {P : Params} {s : State conc} (hg : Good P s) (h : s.asks.nodes ≠ []) : Roomy (absState s).asks := by
  refine ⟨?_, hg.rs.asks.1.space⟩
  show 0 < min s.asks.nodes.length u32Max
  have := List.length_pos_iff.2 h
  have : 0 < u32Max := by decide
  omega

theorem order_calm {P : Params} {s : State conc} (h : Reach P s) (hq : s.seq < W64) {env : Env} (he : Sane env)
    {accts : List AccMeta} {ix : NewOrderIx} (hv : OrderValid ix) (hfit : OrderFits s accts ix) :
    Raises Calm (newOrderV3 conc P env s accts ix) := by
  have hg := h.good (Nat.le_of_lt hq)
  obtain ⟨vs, hvs, hqi, hi⟩ := h.view (Nat.le_of_lt hq)
  have hL := absState_q hg hqi
  intro e hx
  have hx := Sim.error_right (Refines.sim_newOrderV3 hg.rs P env accts ix hv.1.2) hx
  refine Raises.use ?_ hx
  unfold newOrderV3
  refine .bind ?_ fun a hp => ?_
  · intro e he
    unfold parseNewOrder at he
    split at he
    · split at he
      · cases he
      · cases he; decide
    · cases he; decide
  refine .bind (calm_order_args he h.flags) ?_
  rintro ⟨tier, oo⟩ hA
  obtain ⟨g1, _, _, g6, g7, _, _⟩ := parse_order_given hp
  have hload := (newOrderArgs_inv hp hA).load
  have hoo : oo = accountFor s a.oo.key a.owner.key := loaded_is hload
  unfold OrderFits at hfit
  rw [g1, g6, g7, ← hoo] at hfit
  refine newOrderExec_calm hv (s := absState s) hload hq hL hi ?_ fun hd => ?_
  · cases hs : ix.side <;> simp only [hs] at hfit ⊢
    · exact roomy_bids hg hfit.1
    · exact roomy_asks hg hfit.1
  · have hd : orderDue s.mkt oo ix ≤ bal s.toks a.payer.key := hd
    have e1 : baseHeld s a.oo.key oo = oo.coinFree + bookLock .ask s.mkt (only a.oo.key) s.asks.contents +
        evSum (EventView.lock .ask) (only a.oo.key) (pending s) := by
      rw [askLock_only, evSum_only _ _ lock_ask]; rfl
    have e2 : quoteHeld s a.oo.key oo = oo.pcFree + bookLock .bid s.mkt (only a.oo.key) s.bids.contents +
        evSum (EventView.lock .bid) (only a.oo.key) (pending s) := by
      rw [bidLock_only, evSum_only _ _ lock_bid]; rfl
    rw [e1, e2] at hfit
    cases hs : ix.side with
    | bid =>
      simp only [hs] at hfit ⊢
      obtain ⟨_, f1, f2, f3⟩ := hfit
      refine ⟨?_, ?_, ?_⟩
      · show s.mkt.pcDeposits + orderDue s.mkt oo ix < 2 ^ 64
        omega
      · show oo.pcFree + bookLock .bid s.mkt (only a.oo.key) s.bids.contents +
          evSum (EventView.lock .bid) (only a.oo.key) (pending s) + orderDue s.mkt oo ix < 2 ^ 64
        omega
      · exact f3
    | ask =>
      simp only [hs] at hfit ⊢
      obtain ⟨_, f1, f2, f3⟩ := hfit
      refine ⟨?_, ?_, ?_⟩
      · show s.mkt.coinDeposits + orderDue s.mkt oo ix < 2 ^ 64
        omega
      · show oo.coinFree + bookLock .ask s.mkt (only a.oo.key) s.asks.contents +
          evSum (EventView.lock .ask) (only a.oo.key) (pending s) + orderDue s.mkt oo ix < 2 ^ 64
        omega
      · exact f3

theorem take_calm {P : Params} {s : State conc} (h : Reach P s) (hq : s.seq < W64) {accts : List AccMeta}
    {ix : SendTakeIx} (hv : TakeValid ix) (hfit : TakeFits s ix) : Raises Calm (sendTake conc P s accts ix) := by
  have hg := h.good (Nat.le_of_lt hq)
  obtain ⟨vs, hvs, hqi, hi⟩ := h.view (Nat.le_of_lt hq)
  have hL := absState_q hg hqi
  intro e hx
  have hx := Sim.error_right (Refines.sim_sendTake hg.rs P accts ix hv.1.2) hx
  refine Raises.use ?_ hx
  unfold sendTake
  refine .bind ?_ fun a hp => ?_
  · intro e he
    unfold parseSendTake at he
    split at he
    · split at he
      · cases he
      · cases he; decide
    · cases he; decide
  refine .bind (calm_take_args hvs) fun tier hA => ?_
  unfold TakeFits at hfit
  refine sendTakeExec_calm hv (s := absState s) hq hL hi ?_ fun hs => ?_
  · cases hs : ix.side <;> simp only [hs] at hfit ⊢
    · exact roomy_bids hg hfit
    · exact roomy_asks hg hfit.1
  · rw [hs] at hfit
    exact hfit.2

theorem fits_sums {s : State conc} {a : Nat} {o : OpenOrders} (h : HoldsFit s a o) :
    o.coinFree + bookLock .ask s.mkt (only a) s.asks.contents + evSum (EventView.lock .ask) (only a) (pending s) < W64 ∧
    o.pcFree + bookLock .bid s.mkt (only a) s.bids.contents + evSum (EventView.lock .bid) (only a) (pending s) < W64 := by
  unfold HoldsFit baseHeld quoteHeld at h
  rw [askLock_only, evSum_only _ _ lock_ask, bidLock_only, evSum_only _ _ lock_bid]
  exact h

theorem cancel_calm {P : Params} {s : State conc} (h : Reach P s) (hq : s.seq ≤ W64) {env : Env} (he : Sane env)
    {accts : List AccMeta} {sd : Side} {id : Nat} (hfit : AccountFits s (given accts 3)) :
    Raises Calm (cancelV2 conc env s accts sd id) := by
  have hg := h.good hq
  obtain ⟨vs, hvs, hqi, hi⟩ := h.view hq
  intro e hx
  have hx := Sim.error_right (Refines.sim_cancelV2 hg.rs env accts sd id) hx
  refine Raises.use ?_ hx
  unfold cancelV2
  refine .bind (parse_cancel_raises calm_a _) fun a hp => ?_
  refine .bind (calm_cancel_args he) fun oo hoo => ?_
  have ho : ooAt s.oos a.oo.key = some oo := (cancelArgs_inv hoo).2.1
  rw [(parse_cancel_given hp).1] at hfit
  obtain ⟨f1, f2⟩ := fits_sums (hfit _ ho)
  exact .bind (cancelOrder_calm (c := s.toCore) (vs := vs) (evs := pending s) rfl
    (by rw [show setOo s.toCore.oos a.oo.key oo = s.oos from setOo_same ho]; exact hi) f1 f2) fun _ _ => .pure

theorem cancel_by_calm {P : Params} {s : State conc} (h : Reach P s) (hq : s.seq ≤ W64) {env : Env} (he : Sane env)
    {accts : List AccMeta} {cid : Nat} (hfit : AccountFits s (given accts 3)) :
    Raises Calm (cancelByClientIdV2 conc env s accts cid) := by
  have hg := h.good hq
  obtain ⟨vs, hvs, hqi, hi⟩ := h.view hq
  intro e hx
  have hx := Sim.error_right (Refines.sim_cancelByClientIdV2 hg.rs env accts cid) hx
  refine Raises.use ?_ hx
  unfold cancelByClientIdV2
  refine .bind (parse_cancel_raises calm_a _) fun a hp => ?_
  refine .bind (.check calm_a) fun _ hz => ?_
  have hz : cid ≠ 0 := by simpa using checkAssert_ok.1 hz
  refine .bind (calm_cancel_args he) fun oo hoo => ?_
  have ho : ooAt s.oos a.oo.key = some oo := (cancelArgs_inv hoo).2.1
  rw [(parse_cancel_given hp).1] at hfit
  obtain ⟨f1, f2⟩ := fits_sums (hfit _ ho)
  refine .bind (unknown_raises hz fun _ => by decide) ?_
  rintro ⟨id, sd⟩ _
  exact .bind (cancelOrder_calm (c := s.toCore) (vs := vs) (evs := pending s) rfl
    (by rw [show setOo s.toCore.oos a.oo.key oo = s.oos from setOo_same ho]; exact hi) f1 f2) fun _ _ => .pure

theorem batch_calm {P : Params} {s : State conc} (h : Reach P s) (hq : s.seq ≤ W64) {env : Env} (he : Sane env)
    {accts : List AccMeta} {cids : List Nat} (hfit : AccountFits s (given accts 3)) :
    Raises Calm (cancelByClientIds conc env s accts cids) := by
  have hg := h.good hq
  obtain ⟨vs, hvs, hqi, hi⟩ := h.view hq
  have hL := absState_q hg hqi
  intro e hx
  have hx := Sim.error_right (Refines.sim_cancelByClientIds hg.rs env accts cids) hx
  refine Raises.use ?_ hx
  unfold cancelByClientIds
  refine .bind (parse_cancel_raises calm_a _) fun a hp => ?_
  refine .bind (calm_cancel_args he) fun oo hoo => ?_
  have ho : ooAt s.oos a.oo.key = some oo := (cancelArgs_inv hoo).2.1
  rw [(parse_cancel_given hp).1] at hfit
  obtain ⟨f1, f2⟩ := fits_sums (hfit _ ho)
  exact .bind (cancelMany_calm (c := s.toCore) (vs := vs) (evs := pending s) rfl hL
    (by rw [show setOo s.toCore.oos a.oo.key oo = s.oos from setOo_same ho]; exact hi) f1 f2) fun _ _ => .pure

theorem newOrders_calm {P : Params} {env : Env} (he : Sane env) {accts : List AccMeta} {ixs : List NewOrderIx} :
    ∀ {s : State conc}, Reach P s → s.seq + ixs.length ≤ W64 → NotVault P s.mkt accts →
    (∀ ix ∈ ixs, OrderValid ix) → SequenceFits P env accts s ixs → Raises Calm (newOrders conc P env s accts ixs) := by
  induction ixs with
  | nil => intro s _ _ _ _ _; exact .ok
  | cons ix ixs ih =>
    intro s hr hq hn hv hf
    unfold newOrders
    simp only [List.length_cons] at hq
    refine .bind (order_calm hr (by omega) he (hv ix (by simp)) hf.1) fun s1 h1 => ?_
    have hk := newOrderV3_keeps h1
    have hseq := hk.2.1
    exact ih (place_reach hr hn (hv ix (by simp)) h1) (by omega) (hn.keeps hk.1) (fun j hj => hv j (by simp [hj]))
      (hf.2 s1 h1)

theorem replace_calm {P : Params} {s : State conc} (h : Reach P s) {env : Env} (he : Sane env) {accts : List AccMeta}
    {ixs : List NewOrderIx} (hq : s.seq + ixs.length ≤ W64) (hl : ixs.length ≤ 8)
    (hv : ∀ ix ∈ ixs, OrderValid ix) (hn : NotVault P s.mkt accts) (hfit : ReplaceFits P env s accts ixs) :
    Raises Calm (replaceOrders conc P env s accts ixs) := by
  obtain ⟨hlen, hacc, hord⟩ := hfit
  obtain ⟨a0, a1, a2, a3, a4, a5, a6, a7, rest, rfl⟩ : ∃ a0 a1 a2 a3 a4 a5 a6 a7 rest,
      accts = a0 :: a1 :: a2 :: a3 :: a4 :: a5 :: a6 :: a7 :: rest := by
    match accts, hlen with
    | a0 :: a1 :: a2 :: a3 :: a4 :: a5 :: a6 :: a7 :: rest, _ => exact ⟨_, _, _, _, _, _, _, _, _, rfl⟩
  unfold replaceOrders
  have hca : replaceCancelAccts (a0 :: a1 :: a2 :: a3 :: a4 :: a5 :: a6 :: a7 :: rest) = .ok [a0, a4, a5, a1, a7, a3] := rfl
  rw [hca, List.take_of_length_le (by simpa using hl)]
  refine .bind .ok ?_
  rintro _ hh; cases hh
  refine .bind (batch_calm h (by omega) he hacc) fun s0 h0 => ?_
  have hk := cancelByClientIds_keeps h0
  refine newOrders_calm he (batch_reach h (hn.subset (replaceCancel_subset hca)) (by simpa using hl) ?_ h0)
    (by rw [hk.2.1]; exact hq) (hn.keeps hk.1) hv (hord s0 h0)
  intro c hc
  obtain ⟨ix, hix, rfl⟩ := List.mem_map.1 hc
  exact (hv ix hix).2.2.2.1

theorem consume_calm {P : Params} {s : State conc} (h : Reach P s) (hq : s.seq ≤ W64) {env : Env}
    {accts : List AccMeta} {n : Nat} : Raises Calm (consumeEvents conc P env s accts n) := by
  have hg := h.good hq
  intro e hx
  have hx := Sim.error_right (Refines.sim_consumeEvents hg.rs P env accts n) hx
  refine Raises.use ?_ hx
  unfold consumeEvents
  refine .bind (.check calm_a) fun _ hlen => ?_
  have hlen : 5 ≤ accts.length := by simpa using checkAssert_ok.1 hlen
  split
  · rename_i m eq r hd
    refine .bind (open_market h.flags calm_a m) fun _ _ => ?_
    refine .bind (.check calm_a) fun _ _ => ?_
    exact .bind (events_raise fun _ => by decide) fun _ _ => calm_loop n hg.inv
  · rename_i hne
    exfalso
    have hl : (accts.drop (accts.length - 4)).length = 4 := by rw [List.length_drop]; omega
    match hd : accts.drop (accts.length - 4), hl with
    | x :: y :: z, _ => exact hne x y z hd

theorem consume_permissioned_calm {P : Params} {s : State conc} (h : Reach P s) (hq : s.seq ≤ W64) {env : Env}
    {accts : List AccMeta} {n : Nat} : Raises Calm (consumeEventsPermissioned conc P env s accts n) := by
  have hg := h.good hq
  intro e hx
  have hx := Sim.error_right (Refines.sim_consumeEventsPermissioned hg.rs P env accts n) hx
  refine Raises.use ?_ hx
  unfold consumeEventsPermissioned
  refine .bind (.check calm_a) fun _ hlen => ?_
  have hlen : 4 ≤ accts.length := by simpa using checkAssert_ok.1 hlen
  split
  · rename_i m eq auth r hd
    refine .bind (open_market h.flags calm_a m) fun _ _ => ?_
    refine .bind (.check calm_a) fun _ _ => ?_
    refine .bind (.check calm_a) fun _ _ => ?_
    exact .bind (events_raise fun _ => by decide) fun _ _ => calm_loop n hg.inv
  · rename_i hne
    exfalso
    have hl : (accts.drop (accts.length - 3)).length = 3 := by rw [List.length_drop]; omega
    match hd : accts.drop (accts.length - 3), hl with
    | x :: y :: z :: w, _ => exact hne x y z w hd

theorem settle_calm {P : Params} {s : State conc} (h : Reach P s) (hq : s.seq ≤ W64) {env : Env} (he : Sane env)
    {accts : List AccMeta} (hfit : AccountFits s (given accts 1)) : Raises Calm (settleFunds conc P env s accts) := by
  have hg := h.good hq
  obtain ⟨vs, hvs, hqi, hi⟩ := h.view hq
  have ha := calm_a
  intro e hx
  have hx := Sim.error_right (Refines.sim_settleFunds hg.rs P env accts) hx
  refine Raises.use ?_ hx
  unfold settleFunds
  refine .bind (parse_settle_raises ha _) fun a hp => ?_
  refine .bind ?_ fun oo hoo => ?_
  · unfold settleArgs
    refine .bind (.check ha) fun _ _ => ?_
    refine .bind (open_market h.flags ha _) fun _ _ => ?_
    refine .bind (.orAssert ha) fun _ _ => ?_
    refine .bind (.orAssert ha) fun _ _ => ?_
    refine .bind (.orAssert ha) fun _ _ => ?_
    refine .bind (.orAssert ha) fun _ _ => ?_
    refine .bind (.orAssert ha) fun _ _ => ?_
    refine .bind ?_ fun _ _ => ?_
    · unfold checkReferrer
      split
      · exact .ok
      · exact .orAssert ha
    refine .bind (vaultSigner_raises ha hvs) fun _ _ => ?_
    exact calm_orders he
  · have ho : ooAt s.oos a.oo.key = some oo := by
      unfold settleArgs at hoo
      iterate 9 obtain ⟨_, _, hoo⟩ := bind_ok hoo
      exact loaded_orders hoo
    rw [(parse_settle_given hp).1] at hfit
    obtain ⟨f1, f2⟩ := fits_sums (hfit _ ho)
    have t1 := hi.money.coinTot _ _ ho
    have t2 := hi.money.pcTot _ _ ho
    rw [Nat.mod_eq_of_lt f1] at t1
    rw [Nat.mod_eq_of_lt f2] at t2
    have u1 : checkedSub oo.coinTotal oo.coinFree = some (oo.coinTotal - oo.coinFree) := by
      unfold checkedSub; rw [if_pos (by omega)]
    have u2 : checkedSub oo.pcTotal oo.pcFree = some (oo.pcTotal - oo.pcFree) := by
      unfold checkedSub; rw [if_pos (by omega)]
    unfold settleExec
    simp only [u1, u2]
    refine .bind .ok fun _ _ => .bind .ok fun _ _ => .bind calm_send fun _ _ => .bind calm_send fun _ _ => ?_
    refine .bind ?_ fun _ _ => .pure
    unfold settleRebates
    split
    · split
      · exact .bind calm_send fun _ _ => .pure
      · exact .ok
    · exact .ok

theorem close_calm {P : Params} {s : State conc} (h : Reach P s) {env : Env} (he : Sane env) {accts : List AccMeta} :
    Raises Calm (closeOpenOrders conc env s accts) := by
  unfold closeOpenOrders
  split
  · refine .bind (.check calm_a) fun _ _ => ?_
    refine .bind (open_market h.flags calm_a _) fun _ _ => ?_
    refine .bind (calm_orders he) fun o ho => .bind ?_ fun _ _ => .pure
    intro e he
    unfold checkClosable at he
    split at he
    · cases he; decide
    · cases he
  · exact .error calm_a

theorem open_calm {s : State conc} {env : Env} (he : Sane env) {accts : List AccMeta} :
    Raises Calm (initOpenOrders conc env s accts) := by
  unfold initOpenOrders
  split
  · split
    · refine .bind ?_ fun auth hauth => ?_
      · unfold optSigner
        split
        · exact .ok
        · exact .bind (.check calm_a) fun _ _ => .pure
      refine .bind (.check calm_a) fun _ _ => ?_
      refine .bind (calm_flags _) fun _ _ => ?_
      exact .bind (calm_orders he) fun _ _ => .pure
    · exact .error calm_a
  · exact .error calm_a

theorem disable_calm {P : Params} {s : State conc} {accts : List AccMeta} :
    Raises Calm (disableMarket conc P s accts) := by
  unfold disableMarket
  split
  · exact .bind (calm_flags _) fun _ _ => .bind (.check calm_a) fun _ _ => .bind (.check calm_a) fun _ _ => .pure
  · exact .error calm_a

theorem sweep_calm {P : Params} {s : State conc} (h : Reach P s) (hq : s.seq ≤ W64) {accts : List AccMeta} :
    Raises Calm (sweepFees conc P s accts) := by
  obtain ⟨vs, hvs, _, hi⟩ := h.view hq
  unfold sweepFees
  split
  · refine .bind (calm_flags _) fun _ _ => ?_
    refine .bind (pcVault_raises calm_a fun h => by decide) fun _ _ => ?_
    refine .bind (pcWallet_raises calm_a fun t ht h => by decide) fun _ _ => ?_
    refine .bind (vaultSigner_raises calm_a hvs) fun _ _ => ?_
    refine .bind (.check calm_a) fun _ _ => ?_
    refine .bind (.check calm_a) fun _ _ => ?_
    refine .bind (.check calm_a) fun _ _ => ?_
    exact .bind calm_send fun _ _ => .pure
  · exact .error calm_a

theorem prune_calm {P : Params} {s : State conc} (h : Reach P s) (hq : s.seq ≤ W64) {env : Env} (he : Sane env)
    {accts : List AccMeta} {limit : Nat} (hfit : AccountFits s (given accts 4)) :
    Raises Calm (prune conc env s accts limit) := by
  have hg := h.good hq
  obtain ⟨vs, hvs, hqi, hi⟩ := h.view hq
  have hL := absState_q hg hqi
  intro e hx
  have hx := Sim.error_right (Refines.sim_prune hg.rs env accts limit) hx
  have ha := calm_a
  refine Raises.use ?_ hx
  unfold prune
  split
  · rename_i m b k auth oo owner eq _
    refine .bind (.check ha) fun _ _ => ?_
    refine .bind (calm_flags _) fun _ _ => ?_
    refine .bind (.check ha) fun _ _ => ?_
    refine .bind (calm_orders he) fun o hload => ?_
    have ho : ooAt s.oos oo.key = some o := loaded_orders hload
    refine .bind (.orAssert ha) fun _ _ => ?_
    refine .bind (.orAssert ha) fun _ _ => ?_
    refine .bind (events_raise fun h => by decide) fun _ _ => ?_
    refine .bind ?_ ?_
    · unfold removeAll
      exact .bind (keys_raise _ _) fun _ _ => .bind (keys_raise _ _) fun _ _ => .pure
    rintro ⟨ob, bl, al⟩ hr
    unfold removeAll at hr
    simp only at hr
    obtain ⟨⟨b', bl'⟩, hb, hr⟩ := bind_ok hr
    obtain ⟨⟨a', al'⟩, hal, hr⟩ := bind_ok hr
    cases hr
    obtain ⟨r1, r2, r3⟩ := removeKeys_lst hb
    obtain ⟨q1, q2, q3⟩ := removeKeys_lst hal
    have hmine : ∀ {L : LBook} {n : Nat} {l : Leaf}, L.items.Pairwise (fun a b => a.key < b.key) →
        l ∈ L.items → l.key ∈ (lst.findBy L n (fun l => l.owner == oo.key)).1 → l.owner = oo.key := by
      intro L n l hs hl hk
      obtain ⟨x, hx, e, hp⟩ := findBy_mem hk
      rw [key_unique hs hl hx e.symm]
      simpa using hp
    have ob1 : ∀ l ∈ bl', l.owner = oo.key := fun l hl => hmine hi.shape.book.bidSort (r2 l hl).1 (r2 l hl).2
    have oa1 : ∀ l ∈ al', l.owner = oo.key := fun l hl => hmine hi.shape.book.askSort (q2 l hl).1 (q2 l hl).2
    obtain ⟨f1, f2⟩ := fits_sums (hfit _ ho)
    generalize hw : ({ (absState s).ob lst s.mkt with bids := b', asks := a' } : Ob lst) = w
    have hwq : w.q.items = (pending s).map Event.new := by rw [← hw]; exact hL
    have hwm : w.mkt = s.mkt := by rw [← hw]; rfl
    let W := w.grow (bl'.length + al'.length)
    obtain ⟨W1, o1, B1, A1, evs1, k1, k2, k3, k4, k5, k6, k7, k8, k9⟩ := cancelLeaves_ok (c := s.toCore) (vs := vs)
      (a := oo.key) (sd := .bid) (ls := bl') (ob := W) (oo := o)
      (B := s.bids.contents) (A := s.asks.contents) (evs := pending s) hwm hwq
      (by rw [show setOo s.toCore.oos oo.key o = s.oos from setOo_same ho]; exact hi)
      (fun l hl => ⟨(r2 l hl).1, ob1 l hl⟩) r3
      (by
        show w.q.items.length + _ ≤ max w.q.cap (w.q.items.length + (bl'.length + al'.length))
        omega) f1 f2
    have k7' : A1 = s.asks.contents := k7 .ask (by decide)
    have k5' : W1.q.items.length = w.q.items.length + bl'.length := k5
    have k4' : W1.q.cap = max w.q.cap (w.q.items.length + (bl'.length + al'.length)) := k4
    obtain ⟨W2, o2, B2, A2, evs2, m1, _⟩ := cancelLeaves_ok (c := s.toCore) (vs := vs)
      (a := oo.key) (sd := .ask) (ls := al') (ob := W1) (oo := o1) (B := B1) (A := A1) (evs := evs1) k2 k3 k6
      (fun l hl => by rw [show sideOf .ask B1 A1 = A1 from rfl, k7']; exact ⟨(q2 l hl).1, oa1 l hl⟩) q3 (by omega) k8 k9
    have l1 := loss_cancelLeaves (sd := .bid) (a := oo.key) (ls := bl') (grown_grow w (bl'.length + al'.length)) o
    refine .bind (fun e he => tame_calm (Loss.tame l1 ⟨_, k1⟩ (by rw [← hw]; exact he))) ?_
    rintro ⟨w1, o'⟩ h1
    replace h1 : cancelLeaves lst .bid oo.key w o bl' = .ok (w1, o') := by rw [← hw]; exact h1
    have l2 : GrownO (w1, o') (W1, o1) := by
      have k1' : cancelLeaves lst .bid oo.key (w.grow (bl'.length + al'.length)) o bl' = .ok (W1, o1) := k1
      rw [h1, k1'] at l1
      exact l1
    obtain ⟨l2, rfl⟩ := l2
    have l3 := loss_cancelLeaves (sd := .ask) (a := oo.key) (ls := al') l2 o'
    exact .bind (fun e he => tame_calm (Loss.tame l3 ⟨_, m1⟩ he)) fun _ _ => .pure
  · exact .error ha

/-! ### All instructions -/

/-- C91. Whatever is sent to a market in any reachable state, the program does not crash: it carries out the
instruction or refuses it with a reason. Excepted are the retired instructions, a replacement with fewer than eight
accounts, and instructions on amounts that do not fit in 64 bits, as `CrashSafe` lists. -/
theorem never_crashes {P : Params} {s : State conc} (h : Reach P s) (hq : s.seq + 8 ≤ W64) {env : Env} (he : Sane env)
    {accts : List AccMeta} (data : List UInt8) (hn : NotVault P s.mkt accts)
    (hf : ∀ ix, Instruction.unpack data = some ix → CrashSafe P env s accts ix) :
    processRaw conc P env s accts data ≠ .error .panic := by
  intro hx
  refine (?_ : Raises Calm (processRaw conc P env s accts data)) _ hx rfl
  unfold processRaw
  split
  · rename_i ix hix
    have hv : IxValid ix := (decoding_is_strict _ _ hix).choose_spec.2.2.1
    have hf := hf ix hix
    cases ix with
    | initializeMarket => exact .error calm_a
    | newOrder => exact hf.elim
    | matchOrders => exact .ok
    | consumeEvents => exact consume_calm h (by omega)
    | cancelOrder => exact hf.elim
    | settleFunds => exact settle_calm h (by omega) he hf
    | cancelOrderByClientId => exact hf.elim
    | disableMarket => exact disable_calm
    | sweepFees => exact sweep_calm h (by omega)
    | newOrderV2 => exact hf.elim
    | newOrderV3 => exact order_calm h (by omega) he hv hf
    | cancelOrderV2 => exact cancel_calm h (by omega) he hf
    | cancelOrderByClientIdV2 => exact cancel_by_calm h (by omega) he hf
    | sendTake => exact take_calm h (by omega) hv hf
    | closeOpenOrders => exact close_calm h he
    | initOpenOrders => exact open_calm he
    | prune => exact prune_calm h (by omega) he hf
    | consumeEventsPermissioned => exact consume_permissioned_calm h (by omega)
    | cancelOrdersByClientIds => exact batch_calm h (by omega) he hf
    | replaceOrderByClientId ix =>
      exact replace_calm h he (by simp; omega) (by simp) (by intro j hj; rw [List.mem_singleton.1 hj]; exact hv) hn hf
    | replaceOrdersByClientIds ixs =>
      have := hv.1
      exact replace_calm h he (by omega) hv.1 hv.2 hn hf
  · exact .error (by decide)

/-- C91. The exceptions are exceptions: a retired instruction always crashes, and so does a replacement with fewer
than eight accounts. -/
theorem crashes {P : Params} {s : State conc} {env : Env} {accts : List AccMeta} {data : List UInt8} :
    (∀ ix, Instruction.unpack data = some ix → (match ix with
      | .newOrder _ | .cancelOrder .. | .cancelOrderByClientId _ | .newOrderV2 .. => True
      | .replaceOrderByClientId _ | .replaceOrdersByClientIds _ => accts.length < 8
      | _ => False) → processRaw conc P env s accts data = .error .panic) := by
  intro ix hix hm
  have short : ∀ ixs, accts.length < 8 → replaceOrders conc P env s accts ixs = .error .panic := by
    intro ixs hl
    unfold replaceOrders replaceCancelAccts
    rw [show accts[7]? = none from List.getElem?_eq_none (by omega)]
    split
    · rename_i h7 _
      cases h7
    · rfl
  unfold processRaw
  rw [hix]
  cases ix with
  | newOrder => rfl
  | cancelOrder => rfl
  | cancelOrderByClientId => rfl
  | newOrderV2 => rfl
  | replaceOrderByClientId ix => exact short _ hm
  | replaceOrdersByClientIds ixs => exact short _ hm
  | _ => exact hm.elim

/-- C91. Creating a market does not crash either, if queues and books are accounts of their own and not too short for
their headers. -/
theorem creating_never_crashes {P : Params} {mints : Nat → Bool} {toks : Ledger} {W : Accs} {accts : List AccMeta}
    {ix : InitMarketIx} (hr : ∀ r, accts[1]? = some r → 44 ≤ (W r.key).data.length)
    (hb : ∀ b i, accts[i]? = some b → i = 3 ∨ i = 4 → 52 ≤ (W b.key).data.length ∧
      ∀ q j, accts[j]? = some q → j = 1 ∨ j = 2 → b.key ≠ q.key)
    (he : ∀ q r, accts[2]? = some q → accts[1]? = some r → q.key ≠ r.key) :
    initMarket P mints toks W accts ix ≠ .error .panic := by
  have mid : ∀ d : List UInt8, (middle d).length = d.length - 12 := by
    intro d; simp [middle]; omega
  have pad : ∀ {d : List UInt8}, Raises Calm (initPadding d) := by
    intro d
    exact .bind (.check (by decide)) fun _ _ => .bind (.check (by decide)) fun _ _ => .pure
  have padded_eq : ∀ {d b : List UInt8}, initPadding d = .ok b → b = middle d := by
    intro d b h
    obtain ⟨_, _, h⟩ := bind_ok h
    obtain ⟨_, _, h⟩ := bind_ok h
    cases h
    rfl
  have own : ∀ a, Raises Calm (checkBlank a) := fun a =>
    .bind (.check (by decide)) fun _ _ => .bind (.check (by decide)) fun _ _ => .bind (.check (by decide)) fun _ _ =>
      .bind (.check (by decide)) fun _ _ => .bind (.check (by decide)) fun _ _ => .check (by decide)
  have vault : ∀ vs v m, Raises Calm (checkVault mints toks vs v m) := by
    intro vs v m
    unfold checkVault
    split
    · exact .error (by decide)
    · exact .bind (.check (by decide)) fun _ _ => .bind (.check (by decide)) fun _ _ => .bind (.check (by decide)) fun _ _ =>
        .bind (.check (by decide)) fun _ _ => .bind (.check (by decide)) fun _ _ => .check (by decide)
  have fine : ∀ b : Bool, b = true → Raises Calm (rustAssert b) := by
    intro b hb e h
    rw [hb] at h
    cases h
  have len : ∀ (U : Accs) (a : Nat) (d : List UInt8) (x : Nat), (a = x → False) → (setData U a d x).data = (U x).data := by
    intro U a d x h
    unfold setData
    rw [if_neg (fun e => h e.symm)]
  have book : ∀ (sd : Side) (U : Accs) (a : Nat), 52 ≤ (U a).data.length → Raises Calm (initBook sd U a) := by
    intro sd U a hl
    refine .bind pad fun b h => ?_
    have := padded_eq h
    subst this
    refine .bind (.check (by decide)) fun _ _ => .bind (fine _ ?_) fun _ _ => ?_
    · simp only [List.length_drop, mid, decide_eq_true_eq]; omega
    · unfold Slab.assertMinimumCapacity
      split
      · exact .error (by decide)
      · exact .ok
  intro hx
  refine (?_ : Raises Calm (initMarket P mints toks W accts ix)) _ hx rfl
  unfold initMarket
  split
  · rename_i market reqQ eventQ bids asks coinVault pcVault coinMint pcMint _ auth hk
    have key : ∀ i k : Nat, (accts.map (·.key))[i]? = some k → ∃ a : AccMeta, accts[i]? = some a ∧ a.key = k := by
      intro i k h
      rw [List.getElem?_map] at h
      cases ha : accts[i]? with
      | none => rw [ha] at h; cases h
      | some a => rw [ha] at h; cases h; exact ⟨a, rfl, rfl⟩
    obtain ⟨r, hr1, rfl⟩ := key 1 reqQ (by rw [hk]; rfl)
    obtain ⟨q, hq1, rfl⟩ := key 2 eventQ (by rw [hk]; rfl)
    obtain ⟨b, hb1, rfl⟩ := key 3 bids (by rw [hk]; rfl)
    obtain ⟨a, ha1, rfl⟩ := key 4 asks (by rw [hk]; rfl)
    have e1 := he q r hq1 hr1
    obtain ⟨b1, b2⟩ := hb b 3 hb1 (.inl rfl)
    obtain ⟨a1, a2⟩ := hb a 4 ha1 (.inr rfl)
    have b3 := b2 r 1 hr1 (.inl rfl)
    have b4 := b2 q 2 hq1 (.inr rfl)
    have a3 := a2 r 1 hr1 (.inl rfl)
    have a4 := a2 q 2 hq1 (.inr rfl)
    have r1 := hr r hr1
    refine .bind (.check (by decide)) fun _ _ => .bind (.check (by decide)) fun _ _ => .bind (own _) fun _ _ =>
      .bind (own _) fun _ _ => .bind (own _) fun _ _ => .bind (own _) fun _ _ => .bind (own _) fun _ _ => ?_
    split
    · exact .error (by decide)
    refine .bind (vault _ _ _) fun _ _ => .bind (vault _ _ _) fun _ _ => .bind ?_ fun W1 h1 => ?_
    · refine .bind pad fun b h => ?_
      have := padded_eq h
      subst this
      refine .bind (fine _ ?_) fun _ _ => ?_
      · rw [mid, decide_eq_true_eq]; omega
      · split
        · exact .error (by decide)
        · exact .ok
    have w1 : ∀ x, x ≠ r.key → (W1 x).data = (W x).data := by
      intro x hx
      obtain ⟨_, _, h1⟩ := bind_ok h1
      obtain ⟨_, _, h1⟩ := bind_ok h1
      split at h1
      · cases h1
      · cases h1; exact len _ _ _ _ (fun e => hx e.symm)
    refine .bind (fine _ (by simpa using e1)) fun _ _ => .bind ?_ fun W2 h2 => ?_
    · refine .bind pad fun b h => .bind (.check (by decide)) fun _ _ => ?_
      split
      · exact .error (by decide)
      · exact .ok
    have w2 : ∀ x, x ≠ q.key → (W2 x).data = (W1 x).data := by
      intro x hx
      obtain ⟨_, _, h2⟩ := bind_ok h2
      obtain ⟨_, _, h2⟩ := bind_ok h2
      split at h2
      · cases h2
      · cases h2; exact len _ _ _ _ (fun e => hx e.symm)
    refine .bind (fine _ (by simp [b3, b4])) fun _ _ => .bind (book _ _ _ (by rw [w2 _ b4, w1 _ b3]; exact b1))
      fun W3 h3 => ?_
    have w3 : ∀ x, 52 ≤ (W2 x).data.length → 52 ≤ (W3 x).data.length := by
      intro x hx
      obtain ⟨d, h4, h3⟩ := bind_ok h3
      have := padded_eq h4
      subst this
      obtain ⟨_, _, h3⟩ := bind_ok h3
      obtain ⟨_, h5, h3⟩ := bind_ok h3
      unfold Slab.assertMinimumCapacity at h3
      split at h3
      · cases h3
      · cases h3
        unfold setData
        split
        · have := rustAssert_ok.1 h5
          simp only [List.length_drop, mid, decide_eq_true_eq] at this
          have e : ∀ n, (packFields [(8, n)]).length = 8 := fun n => by simp [packFields]
          simp only [padded_length, List.length_append, List.length_drop, mid, e]
          omega
        · exact hx
    refine .bind (fine _ (by simp [a3, a4])) fun _ _ => .bind (book _ _ _ (w3 _ (by rw [w2 _ a4, w1 _ a3]; exact a1)))
      fun W4 _ => ?_
    split
    · exact .error (by decide)
    · refine .bind pad fun _ _ => ?_
      split
      · exact .bind (.check (by decide)) fun _ _ => .ok
      · exact .bind (.check (by decide)) fun _ _ => .ok
  · exact .error (by decide)

/-! ### Examples -/

section
open _root_.Serum.Demo

theorem demo_sane : Sane Demo.env := fun _ h => by cases h

/-- The instruction crashes. -/
def crashing (s : State conc) (a : List AccMeta) (ix : Instruction) : Bool :=
  match process conc Demo.P Demo.env s a ix with
  | .error .panic => true
  | _ => false

-- no crash creating the market of `PropsInit`
example : initMarket Demo.P (fun _ => true) Demo.toks demoAccs (demoGiven.keys.map Demo.acc) ⟨100, 10, 0, 0, 5⟩ ≠
    .error .panic := by
  have e : demoGiven.keys.map Demo.acc = [acc 50, acc 53, acc 54, acc 55, acc 56, acc 51, acc 52, acc 80, acc 81, acc 1,
    acc 90, acc 91, acc 92] := rfl
  rw [e]
  refine creating_never_crashes ?_ ?_ ?_
  · intro r h
    cases h
    show 44 ≤ (List.replicate 5132 (0 : UInt8)).length
    rw [List.length_replicate]
    decide
  · rintro b i h (rfl | rfl)
    all_goals
      cases h
      refine ⟨?_, ?_⟩
      · show 52 ≤ (List.replicate 65548 (0 : UInt8)).length
        rw [List.length_replicate]
        decide
      · rintro q j h (rfl | rfl) <;> cases h <;> decide
  · intro q r h1 h2
    cases h1
    cases h2
    decide

-- 12's bid, too large for the wallet, is refused
example : processRaw conc Demo.P Demo.env s3 a2 (Instruction.newOrderV3 (order .bid 900 3 (2 ^ 63) 9)).pack ≠
    .error .panic := by
  refine never_crashes r3 (by decide +kernel) demo_sane _ (notVault _ (by decide)) fun ix hix => ?_
  rw [instruction_round_trip (.newOrderV3 (order .bid 900 3 (2 ^ 63) 9)) (valid (by decide))] at hix
  cases hix
  show s3.bids.nodes ≠ [] ∧ s3.mkt.pcDeposits + bal s3.toks 32 < 2 ^ 64 ∧
    quoteHeld s3 42 (accountFor s3 42 12) + bal s3.toks 32 < 2 ^ 64 ∧
    baseHeld s3 42 (accountFor s3 42 12) + s3.mkt.coinDeposits < 2 ^ 64
  decide +kernel

-- what the accounts hold fits, so cancelling, settling and pruning do not crash
example : AccountFits s4 42 ∧ AccountFits s4 41 := by
  have one : ∀ a, ((ooAt s4.oos a).all fun o => decide (HoldsFit s4 a o)) = true → AccountFits s4 a := by
    intro a h o ho
    rw [ho] at h
    exact of_decide_eq_true h
  exact ⟨one _ (by decide +kernel), one _ (by decide +kernel)⟩

-- replacing a bid
example : ReplaceFits Demo.P Demo.env p6 (orderAccts 42 32 12) [order .bid 850 1 20000 8] := by
  refine ⟨by decide, ?_, ?_⟩
  · intro o ho
    have h : ((ooAt p6.oos 42).all fun o => decide (HoldsFit p6 42 o)) = true := by decide +kernel
    have ho : ooAt p6.oos 42 = some o := ho
    rw [ho] at h
    exact of_decide_eq_true h
  · intro s0 h0
    have h : (match cancelByClientIds conc Demo.env p6
        ([0, 4, 5, 1, 7, 3].filterMap ((orderAccts 42 32 12)[·]?)) [8] with
      | .ok s0 => decide (s0.bids.nodes ≠ [] ∧ s0.mkt.pcDeposits + bal s0.toks 32 < 2 ^ 64 ∧
          quoteHeld s0 42 (accountFor s0 42 12) + bal s0.toks 32 < 2 ^ 64 ∧
          baseHeld s0 42 (accountFor s0 42 12) + s0.mkt.coinDeposits < 2 ^ 64)
      | .error _ => false) = true := by decide +kernel
    have h0 : cancelByClientIds conc Demo.env p6
        ([0, 4, 5, 1, 7, 3].filterMap ((orderAccts 42 32 12)[·]?)) [8] = .ok s0 := h0
    rw [h0] at h
    have h := of_decide_eq_true h
    exact ⟨h, fun _ _ => trivial⟩

/-- A market with lots of 2^60 base units. -/
def c0 : State conc := { s0 with mkt := { Demo.mkt with coinLot := 2 ^ 60, pcLot := 1 } }

theorem cgenesis : Genesis Demo.P c0 where
  vaults := genesis.vaults
  flags := .inl rfl
  coinLot := by decide
  pcLot := by decide
  coinDeposits := rfl
  pcDeposits := rfl
  pcFees := rfl
  rebates := rfl
  oos := rfl
  seq := rfl
  reqCount := rfl
  bids := ⟨9, rfl⟩
  asks := ⟨9, rfl⟩
  q := genesis.q
  amounts := genesis.amounts

/-- 12 bids for 100 lots at 1. -/
def c1 : State conc := run c0 a2 (.newOrderV3 (order .bid 1 100 200 9))
theorem rc1 : Reach Demo.P c1 := next (.start cgenesis) (valid (by decide)) (by decide +kernel) (by decide)

-- a send-take that sells 100 lots into it crashes, because 100 lots are more than 2^64 base units; `TakeFits` excludes it
example : crashing c1 takeAccts (.sendTake { takeIx with side := .ask, limitPrice := 1, maxCoinQty := 100 }) = true ∧
    ¬ TakeFits c1 { takeIx with side := .ask, limitPrice := 1, maxCoinQty := 100 } := by
  refine ⟨by decide +kernel, fun h => ?_⟩
  have : c1.mkt.coinLot = 2 ^ 60 := by decide +kernel
  have h2 := h.2
  rw [this] at h2
  simp at h2

-- an order for as much is refused instead
example : failsAs c1 a1 (.newOrderV3 (order .ask 1 100 1 9)) .insufficientFunds = true := by decide +kernel

-- a retired instruction crashes
example : processRaw conc Demo.P Demo.env s3 a1 (Instruction.cancelOrderByClientId 9).pack = .error .panic :=
  crashes _ (instruction_round_trip _ (by decide : U64 9)) trivial

end

end Props
end Serum
