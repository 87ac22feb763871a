import Verif.LiveOrder
import Verif.PropsTrade
import Verif.PropsCancel
import Verif.Demo

/-
C65: a well-formed, funded order on an enabled market goes through.
-/

namespace Serum.Props

/-- Native units an order still needs from the paying wallet: what it commits, less what the account has free. -/
def stillDue (s : State conc) (o : OpenOrders) (ix : NewOrderIx) : Nat :=
  match ix.side with
  | .bid => ix.maxPcQty - o.pcFree
  | .ask => ix.maxCoinQty * s.mkt.coinLot - o.coinFree

/-- The token an order on a side pays with. -/
def payMint (m : Market) : Side → Nat
  | .bid => m.pcMint
  | .ask => m.coinMint

/-- The vault that token goes to. -/
def payVault (m : Market) : Side → Nat
  | .bid => m.pcVault
  | .ask => m.coinVault

/-- A new order as its sender states it. -/
def wantOrder (m : Market) (ix : NewOrderIx) (oo : Nat) (tier : FeeTier) : Want :=
  { side := ix.side, price := ix.limitPrice, owner := oo, stb := ix.stb, kind := ix.orderType, tier, pcLot := m.pcLot }

/-- A send-take as its sender states it. -/
def wantTake (m : Market) (ix : SendTakeIx) (tier : FeeTier) : Want :=
  { side := ix.side, price := ix.limitPrice, owner := 0, stb := .abortTransaction, kind := .ioc, tier,
    pcLot := m.pcLot }

/-- Quote units an order commits: only buyers pay quote. -/
def payable (side : Side) (maxPc : Nat) : Nat :=
  match side with
  | .bid => maxPc
  | .ask => 0

/-- The resting orders a new order meets at a fee tier, with what it takes of each. -/
def orderMet (s : State conc) (ix : NewOrderIx) (oo : Nat) (tier : FeeTier) : List Touch :=
  (wantOrder s.mkt ix oo tier).takes ix.limit (bestFirst s ix.side.other) ix.maxCoinQty (payable ix.side ix.maxPcQty)

/-- The resting orders a send-take meets at a fee tier, with what it takes of each. -/
def takeMet (s : State conc) (ix : SendTakeIx) (tier : FeeTier) : List Touch :=
  (wantTake s.mkt ix tier).takes ix.limit (bestFirst s ix.side.other) ix.maxCoinQty (payable ix.side ix.maxPcQty)

theorem takes_length (w : Want) : ∀ (k : Nat) (L : List Leaf) (coin pc : Nat), (w.takes k L coin pc).length ≤ k := by
  intro k
  induction k with
  | zero => intro L coin pc; exact Nat.le_refl 0
  | succ k ih =>
    intro L coin pc
    cases L with
    | nil => exact Nat.zero_le _
    | cons l L =>
      unfold Want.takes
      split
      · exact Nat.succ_le_succ (ih _ _ _)
      · exact Nat.zero_le _

/-- Whoever is met was on the book. -/
theorem takes_owner (w : Want) : ∀ (k : Nat) (L : List Leaf) (coin pc : Nat), ∀ t ∈ w.takes k L coin pc,
    ∃ l ∈ L, l.owner = t.maker.owner := by
  intro k
  induction k with
  | zero => intro L coin pc t ht; cases ht
  | succ k ih =>
    intro L coin pc t ht
    cases L with
    | nil => cases ht
    | cons l L =>
      unfold Want.takes at ht
      split at ht
      · have hm : (w.meet l coin pc).maker = l := by unfold Want.meet; (repeat' split) <;> rfl
        rcases List.mem_cons.1 ht with rfl | ht
        · exact ⟨l, List.mem_cons_self, by rw [hm]⟩
        · obtain ⟨x, hx, e⟩ := ih _ _ _ t ht
          unfold cutFirst at hx
          split at hx
          · exact ⟨x, List.mem_cons_of_mem _ hx, e⟩
          · rcases List.mem_cons.1 hx with rfl | hx
            · exact ⟨l, List.mem_cons_self, e⟩
            · exact ⟨x, List.mem_cons_of_mem _ hx, e⟩
      · cases ht

/-- An order meets no more orders than its sender allowed. -/
theorem orderMet_length (s : State conc) (ix : NewOrderIx) (oo : Nat) (tier : FeeTier) :
    (orderMet s ix oo tier).length ≤ ix.limit := takes_length _ _ _ _ _

theorem takeMet_length (s : State conc) (ix : SendTakeIx) (tier : FeeTier) : (takeMet s ix tier).length ≤ ix.limit :=
  takes_length _ _ _ _ _

/-- What a trader needs in order to place an order: `o` is the account to be used, fresh if it does not exist. -/
structure CanPlace (P : Params) (env : Env) (s : State conc) (accts : List AccMeta) (ix : NewOrderIx)
    (oo payer owner rent : Nat) (disc : List Nat) (o : OpenOrders) : Prop where
  keys : accts.map (·.key) = [s.mkt.ownAddress, oo, s.mkt.reqQ, s.mkt.eventQ, s.mkt.bids, s.mkt.asks, payer, owner,
    s.mkt.coinVault, s.mkt.pcVault, P.splToken, rent] ++ disc
  signed : (accts[7]?).any (·.signer) = true
  enabled : s.mkt.isDisabled = false
  books : s.mkt.bids ≠ s.mkt.asks
  account : (ooAt s.oos oo = some o ∧ o.closed = false ∧ o.owner = owner) ∨
    (ooAt s.oos oo = none ∧ oo ≠ 0 ∧ env.acct oo = .zeroed true ∧ s.mkt.permissioned = false ∧ o = OpenOrders.init owner)
  discount : disc = [] ∨ ∃ d t, disc = [d] ∧ s.toks d = some t ∧ t.frozen = false ∧ t.owner = owner
  deadline : ix.maxTs = i64Max ∨ env.now ≤ ix.maxTs
  slot : ∃ j < 128, o.slot j = none
  wallet : ∃ t, s.toks payer = some t ∧ t.frozen = false ∧ t.mint = payMint s.mkt ix.side ∧ t.owner = owner ∧
    t.delegate ≠ some owner ∧ stillDue s o ix ≤ t.amount
  thawed : ∀ v ∈ [s.mkt.coinVault, s.mkt.pcVault], ∀ t, s.toks v = some t → t.frozen = false
  vault : ∃ t, s.toks (payVault s.mkt ix.side) = some t ∧ t.mint = payMint s.mkt ix.side ∧
    t.amount + stillDue s o ix < 2 ^ 64
  space : match ix.side with
    | .bid => s.bids.nodes ≠ []
    | .ask => s.asks.nodes ≠ []
  selfTrade : ix.stb = .abortTransaction → ∀ tier, ∀ t ∈ orderMet s ix oo tier, t.maker.owner ≠ oo
  room : ∀ tier, (pending s).length + 3 * (orderMet s ix oo tier).length + 2 ≤ s.q.buf.length
  fits : match ix.side with
    | .bid => quoteHeld s oo o + stillDue s o ix < 2 ^ 64 ∧ baseHeld s oo o + s.mkt.coinDeposits < 2 ^ 64
    | .ask => baseHeld s oo o + stillDue s o ix < 2 ^ 64 ∧ quoteHeld s oo o + s.mkt.pcDeposits < 2 ^ 64 ∧
        ix.maxCoinQty * s.mkt.coinLot < 2 ^ 64

theorem goodFlags_enabled {m : Market} (h : goodFlags m.flags = true) (hd : m.isDisabled = false) :
    checkMarketFlags m.flags false = .ok () := by
  unfold Market.isDisabled at hd
  simp only [goodFlags, List.contains_eq_mem, List.mem_cons, List.not_mem_nil, or_false,
    decide_eq_true_eq] at h
  rcases h with h | h | h | h | h | h <;> rw [h] at hd ⊢ <;> first | rfl | exact absurd hd (by decide)

theorem tokAcct_go {l : Ledger} {a : Nat} {t : Tok} (h : l a = some t) (hf : t.frozen = false) :
    tokAcct l a = .ok t := by
  unfold tokAcct
  rw [h]
  simp only [hf]
  rfl

/-- A transfer by the owner of a wallet into a vault. -/
theorem depositIn_go {l : Ledger} {src vault auth n : Nat} {t v : Tok} (ht : l src = some t) (hv : l vault = some v)
    (h1 : t.frozen = false) (h2 : v.frozen = false) (h3 : t.mint = v.mint) (h4 : t.owner = auth)
    (h5 : t.delegate ≠ some auth) (h6 : n ≤ t.amount) (h7 : src ≠ vault) (h8 : v.amount + n < W64) :
    Runs (depositIn l src vault auth n) := by
  unfold depositIn
  by_cases h0 : n = 0
  · rw [if_pos h0]; exact ⟨_, rfl⟩
  · rw [if_neg h0]
    have e : splTransfer l src vault auth n = .ok fun a =>
        if a = vault then some { v with amount := v.amount + n }
        else if a = src then some { t with amount := t.amount - n } else l a := by
      unfold splTransfer debitTok
      rw [ht, hv]
      simp only [h1, h2]
      rw [if_neg (by decide), if_neg (by omega), if_neg (by simp [h3]), if_neg h5, if_neg (by simp [h4])]
      simp only
      rw [if_neg h7, if_neg (by omega)]
    rw [e]
    simp only
    rw [if_pos]
    · exact ⟨_, rfl⟩
    · simp [bal, hv]

theorem newOrderArgs_go {P : Params} {env : Env} {s : State conc} {accts : List AccMeta} {ix : NewOrderIx}
    {oo payer owner rent : Nat} {disc : List Nat} {o : OpenOrders}
    (hf : goodFlags s.mkt.flags = true) {vs : Nat} (hfu : Funds vs s.mkt s.toks)
    (h : CanPlace P env s accts ix oo payer owner rent disc o) :
    ∃ a tier, parseNewOrder accts = .ok a ∧ newOrderArgs P env s.toCore a ix.side = .ok (tier, o) ∧
      loadOrders s.toCore env a.oo.key (some a.owner.key) true none = .ok o ∧
      a.oo.key = oo ∧ a.payer.key = payer ∧ a.owner.key = owner ∧ a.owner ∈ accts ∧ a.owner.signer = true := by
  have hk := h.keys
  have hs := h.signed
  simp only [List.cons_append, List.nil_append] at hk
  obtain ⟨m, l0, rfl, k0, hk⟩ := List.map_eq_cons_iff.1 hk
  obtain ⟨b1, l1, rfl, k1, hk⟩ := List.map_eq_cons_iff.1 hk
  obtain ⟨rq, l2, rfl, k2, hk⟩ := List.map_eq_cons_iff.1 hk
  obtain ⟨eq, l3, rfl, k3, hk⟩ := List.map_eq_cons_iff.1 hk
  obtain ⟨b, l4, rfl, k4, hk⟩ := List.map_eq_cons_iff.1 hk
  obtain ⟨k, l5, rfl, k5, hk⟩ := List.map_eq_cons_iff.1 hk
  obtain ⟨p, l6, rfl, k6, hk⟩ := List.map_eq_cons_iff.1 hk
  obtain ⟨w, l7, rfl, k7, hk⟩ := List.map_eq_cons_iff.1 hk
  obtain ⟨cv, l8, rfl, k8, hk⟩ := List.map_eq_cons_iff.1 hk
  obtain ⟨pv, l9, rfl, k9, hk⟩ := List.map_eq_cons_iff.1 hk
  obtain ⟨t, l10, rfl, k10, hk⟩ := List.map_eq_cons_iff.1 hk
  obtain ⟨r, rest, rfl, k11, hd⟩ := List.map_eq_cons_iff.1 hk
  · have hsg : w.signer = true := by simpa using hs
    obtain ⟨tp, t1, t2, t3, t4, t5, t6⟩ := h.wallet
    have hlen : rest.length ≤ 2 := by
      rw [← List.length_map (f := (·.key)), hd]
      rcases h.discount with e | ⟨d, _, e, _⟩ <;> rw [e] <;> simp
    have hload : loadOrders s.toCore env b1.key (some w.key) true none = .ok o := by
      rw [k1, k7]
      unfold loadOrders
      rcases h.account with ⟨c1, c2, c3⟩ | ⟨c1, c2, c3, c4, c5⟩
      · rw [c1]
        simp only [c2, c3]
        simp
      · rw [c1]
        simp only
        rw [if_neg c2, c3]
        simp only [initOrders, Market.ooAuth, c4]
        rw [c5]
        rfl
    have hdisc : ∃ od tier, discountAcct s.toCore rest = .ok od ∧ loadFeeTier P s.toCore w.key od = .ok tier := by
      rcases h.discount with e | ⟨d, td, e, d1, d2, d3⟩
      · rw [e, List.map_eq_nil_iff] at hd
        subst hd
        exact ⟨none, _, rfl, rfl⟩
      · rw [e] at hd
        match rest, hd with
        | [x], hd =>
          simp only [List.map_cons, List.map_nil, List.cons.injEq, and_true] at hd
          refine ⟨some td, ?_⟩
          unfold discountAcct loadFeeTier
          simp only
          rw [hd, tokAcct_go d1 d2]
          rw [if_neg (by rw [d3, k7]; simp)]
          split
          · exact ⟨_, rfl, rfl⟩
          · split <;> exact ⟨_, rfl, rfl⟩
    obtain ⟨od, tier, hd1, hd2⟩ := hdisc
    refine ⟨⟨m, b1, rq, eq, b, k, p, w, cv, pv, t, r, rest⟩, tier, ?_, ?_, hload, k1, k6, k7, by simp, hsg⟩
    · unfold parseNewOrder
      simp only
      rw [if_pos hlen]
    · obtain ⟨vc, c1, _⟩ := hfu.coin
      obtain ⟨vp, p1, _⟩ := hfu.pc
      have e1 : loadMarket s.toCore m false = .ok () := by
        unfold loadMarket
        simp only [k0, beq_self_eq_true, checkAssert, if_true, bind, Except.bind, goodFlags_enabled hf h.enabled]
      have e2 : loadReqQ s.toCore rq = .ok () := by simp [loadReqQ, k2]
      have e3 : loadEventQ s.toCore eq = .ok () := by simp [loadEventQ, k3]
      have e4 : tokAcct s.toks p.key = .ok tp := by rw [k6]; exact tokAcct_go t1 t2
      have e5 : checkPayer s.toCore p ix.side = .ok () := by
        unfold checkPayer
        cases hsd : ix.side <;> rw [hsd] at t3 <;> simp only [pcWallet, coinWallet, e4, bind, Except.bind] <;>
          rw [if_neg (by simpa [payMint] using t3)] <;> rfl
      have e6 : coinVault s.toCore cv = .ok () := by
        unfold coinVault
        rw [k8, tokAcct_go c1 (h.thawed _ (by simp) _ c1)]
        simp only [bind, Except.bind, ne_eq, not_true_eq_false, if_false]
      have e7 : pcVault s.toCore pv = .ok () := by
        unfold pcVault
        rw [k9, tokAcct_go p1 (h.thawed _ (by simp) _ p1)]
        simp only [bind, Except.bind, ne_eq, not_true_eq_false, if_false]
      have e8 : checkEnabled s.mkt = .ok () := by unfold checkEnabled; rw [h.enabled]; rfl
      have e9 : splProgram P t = .ok () := by simp [splProgram, k10, checkAssert]
      have e10 : loadBids s.toCore b = .ok () := by
        unfold loadBids
        simp [k4, checkAssert, h.books]
      have e11 : loadAsks s.toCore k = .ok () := by simp [loadAsks, k5]
      unfold newOrderArgs
      simp only [hd1, hd2, e1, e2, e3, e4, e5, e6, e7, e8, e9, e10, e11, hload, orAssert, signed, checkAssert, hsg,
        bind, Except.bind, if_true]
      rfl

theorem free_slot {o : OpenOrders} (ho : o.orders.length = 128) (h : ∃ j < 128, o.slot j = none) : o.freeBits ≠ 0 := by
  obtain ⟨j, hj, h⟩ := h
  intro h0
  have := (freeBits_zero_iff o).1 h0 j hj
  unfold OpenOrders.slot at h
  rw [if_pos hj] at h
  cases hs : o.slotSide j with
  | none => exact this hs
  | some sd =>
    rw [hs] at h
    have : o.orders[j]? = some (o.orders[j]'(by omega)) := List.getElem?_eq_getElem (by omega)
    rw [this] at h
    cases h

/-- C65. In every reachable state of an enabled market, whoever has what `CanPlace` lists can place a valid order:
the instruction, as sent, succeeds, and its effect is that of an order. -/
theorem place_works {P : Params} {s : State conc} (h : Reach P s) (hq : s.seq < W64) {env : Env}
    {accts : List AccMeta} {ix : NewOrderIx} {oo payer owner rent : Nat} {disc : List Nat} {o : OpenOrders}
    (hv : OrderValid ix) (hn : NotVault P s.mkt accts) (hc : CanPlace P env s accts ix oo payer owner rent disc o) :
    ∃ s', processRaw conc P env s accts (Instruction.newOrderV3 ix).pack = .ok s' ∧
      ∃ a tier o' slot ts f evs, a.oo.key = oo ∧
        PlaceEffect P env s s' accts ix a tier o o' slot (stillDue s o ix) ts f evs := by
  obtain ⟨vs, hvs, hqi, hi⟩ := h.view (Nat.le_of_lt hq)
  have hg := h.good (Nat.le_of_lt hq)
  have hL := absState_q hg hqi
  obtain ⟨a, tier, hp, hA, hload, ka, kp, ko, hmem, hsg⟩ := newOrderArgs_go h.flags hi.funds hc
  have hone : owner ≠ vs := by
    intro e
    exact hn a.owner hmem hsg (by rw [ko, e]; exact hvs)
  have hdue : orderDue s.mkt o ix = stillDue s o ix := rfl
  have hok : OoOk o := by
    rcases hc.account with ⟨c1, _⟩ | ⟨_, _, _, _, c5⟩
    · exact hi.shape.accts _ _ c1
    · rw [c5]; exact init_ok _
  have hrun : Runs (newOrderExec lst env (absState s) a ix tier o) := by
    obtain ⟨tp, t1, t2, t3, t4, t5, t6⟩ := hc.wallet
    obtain ⟨tv, v1, v2, v3⟩ := hc.vault
    have hvk : s.mkt.depositVault ix.side = payVault s.mkt ix.side := by cases ix.side <;> rfl
    have hheld : Held vs s.toks (payVault s.mkt ix.side) := by
      cases hs : ix.side
      · exact hi.funds.pc
      · exact hi.funds.coin
    have hthaw : tv.frozen = false := hc.thawed (payVault s.mkt ix.side) (by cases ix.side <;> simp [payVault]) _ v1
    have hsol := hi.funds.solvent (payVault s.mkt ix.side)
    have hbv : bal s.toks (payVault s.mkt ix.side) = tv.amount := by unfold bal; rw [v1]
    rw [hbv] at hsol
    have hmeet : orderMeets (absState s) a ix tier = orderMet s ix oo tier := by
      unfold orderMeets orderMet wantOrder payable
      rw [ka, ← opposite_eq s ix.side]
      rfl
    refine newOrderExec_runs hv (s := absState s) hload hq h.reqCount hL hi
      ⟨?_, free_slot hok.orders hc.slot, ?_, ?_, ?_, ?_, ?_, ?_⟩
    · unfold checkDeadline
      rw [if_neg]
      rcases hc.deadline with e | e <;> omega
    · rw [hL, List.length_map]
      have := hc.room tier
      rw [hmeet]
      show (pending s).length + (3 * (orderMet s ix oo tier).length + 2) ≤ s.q.buf.length
      omega
    · have hsp := hc.space
      cases hs : ix.side <;> simp only [hs] at hsp ⊢
      · have := hg.rs.bids.1.space
        refine ⟨?_, this⟩
        show 0 < min s.bids.nodes.length u32Max
        have := List.length_pos_iff.2 hsp
        have : 0 < u32Max := by decide
        omega
      · have := hg.rs.asks.1.space
        refine ⟨?_, this⟩
        show 0 < min s.asks.nodes.length u32Max
        have := List.length_pos_iff.2 hsp
        have : 0 < u32Max := by decide
        omega
    · intro hst t ht
      rw [hmeet] at ht
      rw [ka]
      exact hc.selfTrade hst tier t ht
    · show orderDue s.mkt o ix ≤ bal s.toks a.payer.key
      rw [kp, hdue]
      unfold bal
      rw [t1]
      exact t6
    · show Runs (depositIn s.toks a.payer.key (s.mkt.depositVault ix.side) a.owner.key (orderDue s.mkt o ix))
      rw [kp, ko, hvk, hdue]
      refine depositIn_go t1 v1 t2 hthaw (t3.trans v2.symm) t4 t5 t6 ?_ v3
      intro e
      obtain ⟨tt, u1, u2, _⟩ := hheld
      rw [← e, t1] at u1
      cases u1
      exact hone (t4.symm.trans u2)
    · have hfit := hc.fits
      rw [ka]
      show match ix.side with
        | .bid => s.mkt.pcDeposits + orderDue s.mkt o ix < W64 ∧
            o.pcFree + bookLock .bid s.mkt (only oo) s.bids.contents +
              evSum (EventView.lock .bid) (only oo) (pending s) + orderDue s.mkt o ix < W64 ∧
            o.coinFree + bookLock .ask s.mkt (only oo) s.asks.contents +
              evSum (EventView.lock .ask) (only oo) (pending s) + s.mkt.coinDeposits < W64
        | .ask => s.mkt.coinDeposits + orderDue s.mkt o ix < W64 ∧
            o.coinFree + bookLock .ask s.mkt (only oo) s.asks.contents +
              evSum (EventView.lock .ask) (only oo) (pending s) + orderDue s.mkt o ix < W64 ∧
            o.pcFree + bookLock .bid s.mkt (only oo) s.bids.contents +
              evSum (EventView.lock .bid) (only oo) (pending s) + s.mkt.pcDeposits < W64 ∧
            ix.maxCoinQty * s.mkt.coinLot < W64
      rw [askLock_only, evSum_only _ _ lock_ask, bidLock_only, evSum_only _ _ lock_bid, hdue]
      cases hs : ix.side <;> simp only [hs, payVault] at hfit hsol v3 ⊢
      · refine ⟨?_, hfit.1, hfit.2⟩
        unfold owed at hsol
        rw [if_pos rfl] at hsol
        unfold W64
        omega
      · refine ⟨?_, hfit.1, hfit.2.1, hfit.2.2⟩
        unfold owed at hsol
        rw [if_pos rfl] at hsol
        unfold W64
        omega
  obtain ⟨t, ht⟩ := hrun
  have hlst : newOrderV3 lst P env (absState s) accts ix = .ok t := by
    unfold newOrderV3
    rw [hp]
    simp only [bind, Except.bind]
    rw [show (absState s).toCore = s.toCore from rfl, hA]
    exact ht
  obtain ⟨s', hs', _⟩ := Sim.ok_left (Refines.sim_newOrderV3 hg.rs P env accts ix hv.1.2) hlst
  refine ⟨s', ?_, ?_⟩
  · unfold processRaw
    rw [instruction_round_trip _ (by exact hv)]
    exact hs'
  · obtain ⟨a', tier', o2, o', slot, d, ts, f, evs, hE⟩ := place_effect h hq hv hn hs'
    have e1 : a' = a := by
      have := hE.args.parse
      rw [hp] at this
      exact (Except.ok.inj this).symm
    subst e1
    have e2 : o2 = o := by
      have := hE.args.load
      rw [hload] at this
      exact (Except.ok.inj this).symm
    subst e2
    have e3 : d = stillDue s o2 ix := by
      unfold stillDue
      cases hs : ix.side with
      | bid => exact (hE.bid hs).deposit
      | ask => exact (hE.ask hs).deposit
    subst e3
    exact ⟨a', tier', o', slot, ts, f, evs, ka, hE⟩

/-- 12 has what it needs to bid for 2 lots at 1100 against the resting ask, with the largest limit, in a queue of six. -/
example : CanPlace Demo.P Demo.env Demo.p3 (Demo.orderAccts 42 32 12)
    { Demo.order .bid 1100 2 30000 8 with limit := 65535 } 42 32 12 0 [] (OpenOrders.init 12) where
  keys := by decide +kernel
  signed := rfl
  enabled := by decide +kernel
  books := by decide +kernel
  account := .inl (by decide +kernel)
  discount := .inl rfl
  deadline := .inl rfl
  slot := ⟨0, by decide, by decide +kernel⟩
  wallet := ⟨Demo.tok 81 12 10000000, by decide +kernel⟩
  thawed := by
    intro v hv t ht
    simp only [List.mem_cons, List.not_mem_nil, or_false] at hv
    rcases hv with rfl | rfl
    · have e : Demo.p3.toks Demo.p3.mkt.coinVault = some (Demo.tok 80 60 500) := by decide +kernel
      rw [e] at ht; cases ht; rfl
    · have e : Demo.p3.toks Demo.p3.mkt.pcVault = some (Demo.tok 81 60 0) := by decide +kernel
      rw [e] at ht; cases ht; rfl
  vault := ⟨Demo.tok 81 60 0, by decide +kernel⟩
  space := (by decide +kernel : Demo.p3.bids.nodes ≠ [])
  selfTrade := by intro h; cases h
  room := fun tier => by cases tier <;> decide +kernel
  fits := (by decide +kernel : quoteHeld Demo.p3 42 (OpenOrders.init 12) + 30000 < 2 ^ 64 ∧
    baseHeld Demo.p3 42 (OpenOrders.init 12) + Demo.p3.mkt.coinDeposits < 2 ^ 64)

/-- The resting ask it meets. -/
example : (resting Demo.p3 .ask).map (fun l => (l.owner, l.quantity, l.price)) = [(41, 5, 1000)] := by decide +kernel

end Serum.Props
