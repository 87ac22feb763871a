import Verif.PropsTags
import Verif.Script

/-!
What new orders and send-takes do to the book, the queue and every account, in every reachable state; and
property C33: who can change what.
-/

namespace Serum.Props

/-- A side of the book, best price first, oldest first. -/
def bestFirst (s : State conc) : Side → List Leaf
  | .bid => (resting s .bid).reverse
  | .ask => resting s .ask

/-- How an order (or take) `o` ran between two states: it worked through the other side from the front
(`ts`), posted a remainder (`f`) or nothing, and queued `evs`. -/
structure Matched (s s' : State conc) (o : OrderParams) (limit : Nat) (ts : List Touch) (f : Option Posting)
    (evs : List EventView) : Prop where
  opp : takeFront (bestFirst s o.side.other) ts = some (bestFirst s' o.side.other)
  own : match f with
    | none => resting s' o.side = resting s o.side
    | some f => ∃ cap, PostOk o cap (resting s o.side) (resting s' o.side) (bestFirst s' o.side.other) f
  touches : ∀ t ∈ ts, TouchOk o t
  count : ts.length ≤ limit
  queue : pending s' = pending s ++ evs
  events : EvReport o s.mkt ts f evs
  outs : OutReport o none f evs
  sums : ∀ P, SumReport o s.mkt P (resting s o.side) (resting s' o.side) (bestFirst s o.side.other)
    (bestFirst s' o.side.other) ts f evs
  lots : s'.mkt.coinLot = s.mkt.coinLot ∧ s'.mkt.pcLot = s.mkt.pcLot
  takes : ts = (Want.of o s.mkt).takes limit (bestFirst s o.side.other) o.maxCoinQty o.pcLocked
  remains : postedLots f = (Want.of o s.mkt).rests (bestFirst s' o.side.other)
    (o.maxCoinQty - total (Want.of o s.mkt).coinUsed ts) (o.pcLocked - total (Want.of o s.mkt).pcUsed ts)
  script : evs = o.script s.mkt f ts o.maxCoinQty o.pcLocked

theorem opposite_eq (s : State conc) (sd : Side) :
    opposite sd s.bids.contents s.asks.contents = bestFirst s sd.other := by
  cases sd <;> rfl

theorem _root_.Serum.SumReport.lots {o : OrderParams} {m m' : Market} (h1 : m'.coinLot = m.coinLot) (h2 : m'.pcLot = m.pcLot)
    {P own own' opp opp' ts f evs} (h : SumReport o m P own own' opp opp' ts f evs) :
    SumReport o m' P own own' opp opp' ts f evs := by
  have e0 : ∀ s p n, lockedValue s m' p n = lockedValue s m p n := by
    intro s p n; unfold lockedValue; rw [h1, h2]
  have e1 : ∀ sd, bookLock sd m' P = bookLock sd m P := fun sd => by
    funext L; exact bookLock_congr h1 h2 sd P L
  have e2 : ∀ sd, touchLock sd m' P = touchLock sd m P := fun sd => by
    funext t; unfold touchLock; rw [e0]
  have e3 : ∀ t : Touch, t.received o.side m' = t.received o.side m := fun t => by
    unfold Touch.received Touch.pc; rw [h1, h2]
  have e4 : Touch.ref m' o.feeTier = Touch.ref m o.feeTier := by
    funext t; unfold Touch.ref Touch.fee Touch.pc; rw [h2]
  obtain ⟨a, b, c, d, e⟩ := h
  constructor
  · simp only [e1]; exact a
  · simp only [e1, e0]; exact b
  · simp only [e1, e2]; exact c
  · simp only [e1, e0, e3]; exact d
  · rw [e4]; exact e

theorem _root_.Serum.EvReport.lots {o : OrderParams} {m m' : Market} (h1 : m'.coinLot = m.coinLot) (h2 : m'.pcLot = m.pcLot)
    {ts : List Touch} {f : Option Posting} {evs : List EventView} (hr : EvReport o m ts f evs) :
    EvReport o m' ts f evs := by
  have e1 : Touch.makerFill o.side m' = Touch.makerFill o.side m := by
    funext t; unfold Touch.makerFill Touch.pc; rw [h1, h2]
  have e2 : Touch.takerFill o m' = Touch.takerFill o m := by
    funext t; unfold Touch.takerFill Touch.pc; rw [h1, h2]
  have e0 : ∀ s p n, lockedValue s m' p n = lockedValue s m p n := by
    intro s p n; unfold lockedValue; rw [h1, h2]
  have e3 : Touch.release o.side m' = Touch.release o.side m := by
    funext t; unfold Touch.release; simp only [e0]
  have e4 : evictRelease o.side m' f = evictRelease o.side m f := by
    unfold evictRelease; simp only [e0]
  obtain ⟨a, b, c⟩ := hr
  exact ⟨by rw [a, e1], by rw [b, e2], by rw [c, e3, e4]⟩

theorem matched_of_path {s s' : State conc} {t : State lst} (hrs : concLst.RS s' t) {P : Params} (hg : Good P s)
    (hqi : s.q.iter = (pending s).map Event.new) {o : OrderParams} {limit : Nat} {m1 : Market} {ob' : Ob lst}
    {ts : List Touch} {f : Option Posting} (ho : OrderOk o)
    (hl1 : m1.coinLot = s.mkt.coinLot) (hl2 : m1.pcLot = s.mkt.pcLot)
    (hz : o.owner = 0 → ∀ l ∈ opposite o.side s.bids.contents s.asks.contents, l.owner ≠ 0)
    (hin : RoundIn o ((absState s).ob lst m1) o.maxCoinQty o.pcLocked) (hpc : o.side = .ask → o.pcLocked = 0)
    (hp : Path o limit ((absState s).ob lst m1) o.maxCoinQty o.pcLocked ob' ts f)
    (hb : t.bids = ob'.bids) (ha : t.asks = ob'.asks) (hq : t.q = ob'.q)
    (hm1 : t.mkt.coinLot = s.mkt.coinLot) (hm2 : t.mkt.pcLot = s.mkt.pcLot) :
    ∃ evs, Matched s s' o limit ts f evs := by
  have hL := absState_q hg hqi
  obtain ⟨t1, t2, t3⟩ := path_touches ho hin hp
  obtain ⟨evs, q1, _, q3, q4⟩ := path_events ho hin hz hp
  have hown := path_own ho hin hp
  have hsort : (((absState s).ob lst m1).own o.side).items.Pairwise (fun a b => a.key < b.key) := by
    cases hs : o.side
    · exact hin.book.bidSort
    · exact hin.book.askSort
  have hsum := fun P => sum_report hsort hin.fresh hown t1 q3 P
  have eb : s'.bids.contents = ob'.bids.items := by
    have h1 := hrs.bids.2; rw [hb] at h1; exact (congrArg LBook.items h1).symm
  have ea : s'.asks.contents = ob'.asks.items := by
    have h1 := hrs.asks.2; rw [ha] at h1; exact (congrArg LBook.items h1).symm
  have hmk : s'.mkt = t.mkt := congrArg Core.mkt hrs.core
  have eo : opposite o.side ob'.bids.items ob'.asks.items = bestFirst s' o.side.other := by
    rw [← eb, ← ea, opposite_eq]
  have eo0 : opposite o.side ((absState s).ob lst m1).bids.items ((absState s).ob lst m1).asks.items =
      bestFirst s o.side.other := opposite_eq s o.side
  have ew : (ob'.own o.side).items = resting s' o.side := by
    unfold Ob.own resting
    cases o.side <;> simp only [eb, ea]
  have ew0 : (((absState s).ob lst m1).own o.side).items = resting s o.side := by
    unfold Ob.own resting
    cases o.side <;> rfl
  obtain ⟨k1, k2⟩ := path_takes ho hin hpc hp
  have ewt : Want.of o ((absState s).ob lst m1).mkt = Want.of o s.mkt := by
    unfold Want.of
    rw [show ((absState s).ob lst m1).mkt.pcLot = s.mkt.pcLot from hl2]
  rw [ewt, eo0] at k1
  rw [ewt, eo] at k2
  have hsc : evs = o.script s.mkt f ts o.maxCoinQty o.pcLocked := by
    have k3 := path_script ho hin hpc hz hp
    rw [q1, List.append_cancel_left_eq, OrderParams.script_lots (m' := ((absState s).ob lst m1).mkt) hl1 hl2] at k3
    exact map_new_inj k3
  refine ⟨evs, ?_, ?_, t2, t3, ?_, q3.lots hl1.symm hl2.symm, q4, ?_, ?_, k1, k2, hsc⟩
  · rw [← eo0, t1, eo]
  · obtain ⟨_, h2⟩ := hown
    rw [eo, ew, ew0] at h2
    cases f with
    | none => exact h2
    | some f => exact ⟨_, h2⟩
  · refine pending_of hrs ?_
    rw [hq, q1, List.map_append]
    congr 1
  · intro P
    have := hsum P
    rw [eo, ew, ew0, eo0] at this
    exact this.lots hl1.symm hl2.symm
  · rw [hmk]; exact ⟨hm1, hm2⟩

/-! ### Placing -/

/-- Base lots traded. -/
def tradedLots (ts : List Touch) : Nat := total Touch.traded ts
/-- Quote units traded, before fees. -/
def tradedQuote (m : Market) (ts : List Touch) : Nat := total (Touch.tradedPc m) ts
/-- Fees the taker pays. -/
def takerFees (m : Market) (tier : FeeTier) (ts : List Touch) : Nat := total (Touch.fee m tier) ts
/-- The referrers' part of the fees: a fifth of each. -/
def referrerPart (m : Market) (tier : FeeTier) (ts : List Touch) : Nat := total (fun t => t.fee m tier / 5) ts

theorem runSums_eq (m m1 : Market) (h2 : m1.pcLot = m.pcLot) (tier : FeeTier) (ts : List Touch) :
    runSums m1 tier ts = ⟨tradedLots ts, tradedQuote m ts, takerFees m tier ts, referrerPart m tier ts⟩ := by
  have e1 : Touch.tradedPc m1 = Touch.tradedPc m := by
    funext t; unfold Touch.tradedPc Touch.pc; rw [h2]
  have e2 : Touch.fee m1 tier = Touch.fee m tier := by
    funext t; unfold Touch.fee Touch.pc; rw [h2]
  have e3 : Touch.ref m1 tier = fun t => t.fee m tier / 5 := by
    funext t; unfold Touch.ref; rw [e2]; rfl
  unfold runSums
  rw [e1, e2, e3]
  rfl

/-- `n` tokens were paid in from a wallet; nothing moves if `n` is 0. -/
def PaidIn (l l' : Ledger) (src vault n : Nat) : Prop :=
  (n = 0 ∧ l' = l) ∨ (0 < n ∧ src ≠ vault ∧ Paid l l' src vault n)

/-- `n` tokens were paid out of a vault; nothing moves if `n` is 0. -/
def PaidOut (l l' : Ledger) (vault dst n : Nat) : Prop :=
  (n = 0 ∧ l' = l) ∨ (0 < n ∧ Paid l l' vault dst n)

theorem depositIn_paid {l l' : Ledger} {src v auth n : Nat} (h : depositIn l src v auth n = .ok l') :
    PaidIn l l' src v n := by
  unfold depositIn at h
  split at h
  · cases h; exact .inl ⟨by assumption, rfl⟩
  · rename_i hn
    split at h
    · cases h
    · cases h
    · rename_i l1 h1
      split at h
      · rename_i hb
        cases h
        have hp := spl_paid h1
        refine .inr ⟨by omega, fun e => ?_, hp⟩
        rw [hp.self e] at hb
        omega
      · cases h

/-- How a market's totals moved: deposits in and out, fees taken and the referrers' part of them. -/
structure Moved (m m' : Market) (coinIn coinOut pcIn pcOut fee ref : Nat) : Prop where
  mkt : m' = { m with
    coinDeposits := m.coinDeposits + coinIn - coinOut
    pcDeposits := m.pcDeposits + pcIn - pcOut
    pcFees := m.pcFees + (fee - ref)
    referrerRebates := m.referrerRebates + ref }
  coin : coinOut ≤ m.coinDeposits + coinIn
  pc : pcOut ≤ m.pcDeposits + pcIn
  ref : ref ≤ fee

/-- The money of a new order. `d` is what was paid in. -/
structure BidMoney (s s' : State conc) (ix : NewOrderIx) (tier : FeeTier) (o o' : OpenOrders) (d : Nat)
    (ts : List Touch) (f : Option Posting) : Prop where
  /-- Only what the free balance does not cover is paid in. -/
  deposit : d = ix.maxPcQty - o.pcFree
  size : tradedLots ts + postedLots f ≤ ix.maxCoinQty
  budget : tradedQuote s.mkt ts + takerFees s.mkt tier ts + postedLots f * ix.limitPrice * s.mkt.pcLot ≤ ix.maxPcQty
  /-- What was not used is free again at once. -/
  quote : o'.pcFree + (tradedQuote s.mkt ts + takerFees s.mkt tier ts +
    postedLots f * ix.limitPrice * s.mkt.pcLot) = o.pcFree + d
  base : o'.coinFree = o.coinFree + tradedLots ts * s.mkt.coinLot
  quoteTotal : o'.pcTotal + (tradedQuote s.mkt ts + takerFees s.mkt tier ts) = o.pcTotal + d
  baseTotal : o'.coinTotal = o.coinTotal + tradedLots ts * s.mkt.coinLot
  mkt : Moved s.mkt s'.mkt 0 0 d (takerFees s.mkt tier ts) (takerFees s.mkt tier ts) (referrerPart s.mkt tier ts)

structure AskMoney (s s' : State conc) (ix : NewOrderIx) (tier : FeeTier) (o o' : OpenOrders) (d : Nat)
    (ts : List Touch) (f : Option Posting) : Prop where
  deposit : d = ix.maxCoinQty * s.mkt.coinLot - o.coinFree
  fits : ix.maxCoinQty * s.mkt.coinLot < W64
  size : tradedLots ts + postedLots f ≤ ix.maxCoinQty
  base : o'.coinFree + (tradedLots ts + postedLots f) * s.mkt.coinLot = o.coinFree + d
  fees : takerFees s.mkt tier ts ≤ tradedQuote s.mkt ts
  quote : o'.pcFree = o.pcFree + (tradedQuote s.mkt ts - takerFees s.mkt tier ts)
  baseTotal : o'.coinTotal + tradedLots ts * s.mkt.coinLot = o.coinTotal + d
  quoteTotal : o'.pcTotal = o.pcTotal + (tradedQuote s.mkt ts - takerFees s.mkt tier ts)
  mkt : Moved s.mkt s'.mkt d 0 0 (takerFees s.mkt tier ts) (takerFees s.mkt tier ts) (referrerPart s.mkt tier ts)

/-- Everything a successful new order does. `o` is the account before (fresh if it did not exist), `o'` after. -/
structure PlaceEffect (P : Params) (env : Env) (s s' : State conc) (accts : List AccMeta) (ix : NewOrderIx)
    (a : NewOrderAccts) (tier : FeeTier) (o o' : OpenOrders) (slot d : Nat) (ts : List Touch) (f : Option Posting)
    (evs : List EventView) : Prop where
  args : OrderArgs P env s.toCore accts a ix.side tier o
  deadline : checkDeadline env.now ix.maxTs = .ok ()
  matched : Matched s s' (newOrderReq ix (genOrderId s.seq ix.limitPrice ix.side) a.oo.key slot tier) ix.limit ts f evs
  nonzero : a.oo.key ≠ 0
  account : ooAt s'.oos a.oo.key = some o'
  others : ∀ b, b ≠ a.oo.key → ooAt s'.oos b = ooAt s.oos b
  owner : o'.owner = o.owner ∧ o.owner = a.owner.key
  cids : o'.clientIds = o.clientIds.set slot ix.clientId
  slotFree : o.slot slot = none
  slots : ∀ j, o'.slot j = if j = slot then some (ix.side, genOrderId s.seq ix.limitPrice ix.side) else o.slot j
  rebates : o'.rebates = o.rebates
  paid : PaidIn s.toks s'.toks a.payer.key (s.mkt.depositVault ix.side) d
  signedPay : depositIn s.toks a.payer.key (s.mkt.depositVault ix.side) a.owner.key d = .ok s'.toks
  bid : ix.side = .bid → BidMoney s s' ix tier o o' d ts f
  ask : ix.side = .ask → AskMoney s s' ix tier o o' d ts f
  seq : s'.seq = s.seq + 1

theorem moved_of_run {m m1 m' : Market} {x : RunSums} {c p : Nat} (hr : MarketRun m1 m' x) (hok : MktOk m')
    (hm : m1 = { m with coinDeposits := m.coinDeposits + c, pcDeposits := m.pcDeposits + p })
    (hf : x.fee ≤ m1.pcDeposits) (hlt : m1.pcDeposits + m1.pcFees + m1.referrerRebates < W64) :
    Moved m m' c 0 p x.fee x.fee x.ref := by
  obtain ⟨h1, h2, h3, h4, h5⟩ := hr
  have h6 := hok.pcDeposits
  have e := h1.eq
  have k1 : m1.pcDeposits = m.pcDeposits + p := by rw [hm]
  have k2 : m1.pcFees = m.pcFees := by rw [hm]
  have k3 : m1.referrerRebates = m.referrerRebates := by rw [hm]
  refine ⟨?_, Nat.zero_le _, by omega, h5⟩
  rw [Nat.mod_eq_of_lt (by omega)] at h2 h3
  have e4 : m'.pcDeposits = m.pcDeposits + p - x.fee := by
    unfold W64 at *; omega
  rw [e, h2, h3, e4, k2, k3, hm]
  rfl

theorem lockFunds_deposit {m m1 : Market} {o o1 : OpenOrders} {ix : NewOrderIx} {b d : Nat}
    (h : lockFunds m o ix b = .ok (m1, o1, d)) :
    (ix.side = .bid → d = ix.maxPcQty - o.pcFree) ∧ (ix.side = .ask → d = ix.maxCoinQty * m.coinLot - o.coinFree) := by
  unfold lockFunds at h
  cases hs : ix.side with
  | bid =>
    rw [hs] at h
    simp only at h
    split at h
    · cases h
    · obtain ⟨_, _, h⟩ := bind_ok h
      obtain ⟨_, _, h⟩ := bind_ok h
      obtain ⟨_, _, h⟩ := bind_ok h
      simp only [pure, Except.pure, Except.ok.injEq, Prod.mk.injEq] at h
      refine ⟨fun _ => ?_, by simp⟩
      rw [← h.2.2]; omega
  | ask =>
    rw [hs] at h
    simp only at h
    cases hl : checkedMul ix.maxCoinQty m.coinLot with
    | none => rw [hl] at h; cases h
    | some lock =>
      rw [hl] at h
      simp only at h
      rw [checkedMul_some] at hl
      obtain ⟨hlt, rfl⟩ := hl
      split at h
      · cases h
      · obtain ⟨_, _, h⟩ := bind_ok h
        obtain ⟨_, _, h⟩ := bind_ok h
        obtain ⟨_, _, h⟩ := bind_ok h
        simp only [pure, Except.pure, Except.ok.injEq, Prod.mk.injEq] at h
        refine ⟨by simp, fun _ => ?_⟩
        rw [← h.2.2]; omega

theorem pc_backed {vs : Nat} {m : Market} {l : Ledger} (h : Funds vs m l) :
    m.pcDeposits + m.pcFees + m.referrerRebates < W64 := by
  obtain ⟨t2, e2, _⟩ := h.pc
  have b2 := h.solvent m.pcVault
  have a2 := h.amounts _ _ e2
  unfold owed bal at b2
  rw [e2] at b2
  simp only [if_true] at b2
  omega

/-- A successful new order, in every reachable state. -/
theorem place_effect {P : Params} {s s' : State conc} (h : Reach P s) (hq : s.seq < W64) {env : Env}
    {accts : List AccMeta} {ix : NewOrderIx} (hv : OrderValid ix) (hn : NotVault P s.mkt accts)
    (hx : newOrderV3 conc P env s accts ix = .ok s') :
    ∃ a tier o o' slot d ts f evs, PlaceEffect P env s s' accts ix a tier o o' slot d ts f evs := by
  obtain ⟨vs, hvs, hqi, hi⟩ := h.view (Nat.le_of_lt hq)
  have hg := h.good (Nat.le_of_lt hq)
  have hL := absState_q hg hqi
  obtain ⟨t, ht, hrs⟩ := Sim.ok_right (Refines.sim_newOrderV3 hg.rs P env accts ix hv.1.2) hx
  obtain ⟨a, tier, o, hA, m1, o1, d, slot, ob', ts, f, evs', given, post, tail, o', l', hR⟩ :=
    newOrderV3_run (evs := pending s) ht hv hn hq hvs hL hi
  have hcore : s'.toCore = t.toCore := hrs.core
  have hst := hR.state
  have hmk : s'.mkt = ob'.mkt := by rw [congrArg Core.mkt hcore, hst]
  have hoos : s'.oos = setOo s.oos a.oo.key o' := by rw [congrArg Core.oos hcore, hst]; rfl
  have htoks : s'.toks = l' := by rw [congrArg Core.toks hcore, hst]
  have hseq : s'.seq = s.seq + 1 := by rw [congrArg Core.seq hcore, hst]; rfl
  obtain ⟨l1, l2⟩ := hR.lots
  have hsm := hR.ran.mkt.same
  let req := newOrderReq ix (genOrderId s.seq ix.limitPrice ix.side) a.oo.key slot tier
  have hok := newOrderReq_ok (slot := slot) (tier := tier) hv hq hR.owner
  obtain ⟨evs, hM⟩ := matched_of_path (m1 := m1) hrs hg hqi (o := req) hok l1 l2 (fun h0 => absurd h0 hR.owner) hR.start
    (by intro hk; show (match ix.side with | .bid => ix.maxPcQty | .ask => 0) = 0; rw [show ix.side = .ask from hk])
    hR.path (by rw [hst]) (by rw [hst]) (by rw [hst]) (by rw [hst]; exact hsm.coinLot.trans l1)
    (by rw [hst]; exact hsm.pcLot.trans l2)
  have hmoney := path_money hok hR.start (fun h0 => absurd h0 hR.owner) hR.path
  have hprice : extractPrice (genOrderId s.seq ix.limitPrice ix.side) = ix.limitPrice :=
    extractPrice_genOrderId hq hv.1.2
  have hdep := lockFunds_deposit hR.lock
  have hrun := hR.ran.run
  have hsum := runSums_eq s.mkt m1 l2 tier ts
  have hmr := hR.ran.mkt
  rw [hsum] at hrun hmr
  have hacct := hR.acct
  rw [hsum] at hacct
  have hnv : a.owner.key ≠ vs := by
    intro e
    have := hn _ (parseNewOrder_mem hA.parse) hA.signed
    rw [e] at this
    exact this hvs
  have hfree : (ooAt s.oos a.oo.key = some o) ∨ (o.pcFree = 0 ∧ o.coinFree = 0) := by
    rcases loadOrders_inv hA.load with ⟨g1, _⟩ | ⟨_, _, _, _, _, w, _, rfl⟩
    · exact .inl g1
    · exact .inr ⟨rfl, rfl⟩
  have hpcle : o.pcFree ≤ s.mkt.pcDeposits := by
    have hm := hi.money.pc
    rcases hfree with g | g
    · have := accSum_ge (g := (·.pcFree)) g
      omega
    · omega
  have hown : o.owner = a.owner.key := by
    rcases loadOrders_inv hA.load with ⟨_, _, g3⟩ | ⟨_, _, _, _, _, w, g6, rfl⟩
    · have := g3.resolve_left (by simp)
      simpa using this.symm
    · simpa [OpenOrders.init] using g6.symm
  refine ⟨a, tier, o, o', slot, d, ts, f, evs, hA, hR.deadline, hM, hR.owner, ?_, ?_, ⟨hR.who, hown⟩, hR.cids,
    hR.slotFree, hR.slots, ?_, ?_, ?_, ?_, ?_, hseq⟩
  · rw [hoos, ooAt_setOo, if_pos rfl]
  · intro b hb
    rw [hoos, ooAt_setOo, if_neg hb]
  · unfold OrderAcct at hacct
    cases hs : ix.side with
    | bid => rw [hs] at hacct; obtain ⟨_, _, k⟩ := hacct; exact k.rebates
    | ask => rw [hs] at hacct; obtain ⟨_, _, k⟩ := hacct; exact k.rebates
  · rw [htoks]; exact depositIn_paid hR.deposit
  · rw [htoks]; exact hR.deposit
  · intro hs
    unfold OrderAcct at hacct
    rw [show (newOrderReq ix (genOrderId (absState s).seq ix.limitPrice ix.side) a.oo.key slot tier).side = .bid
      from hs] at hrun
    unfold PrReport at hmoney
    rw [show (newOrderReq ix (genOrderId s.seq ix.limitPrice ix.side) a.oo.key slot tier).side = .bid
      from hs] at hmoney
    rw [hs] at hacct
    obtain ⟨n, k, ac⟩ := hacct
    simp only at hmoney hrun
    obtain ⟨tl, gv, m2, _, m4, _, m6⟩ := hmoney
    have hpl : req.pcLocked = ix.maxPcQty := by
      show (match ix.side with | .bid => ix.maxPcQty | .ask => 0) = _
      rw [hs]
    have hbud := hrun.budget
    have hpr := hrun.pr
    rw [if_neg (show ¬ (newOrderReq ix (genOrderId (absState s).seq ix.limitPrice ix.side) a.oo.key slot tier).owner = 0
      from hR.owner)] at hpr
    rw [if_neg (show ¬ (newOrderReq ix (genOrderId s.seq ix.limitPrice ix.side) a.oo.key slot tier).owner = 0
      from hR.owner), hpr] at m6
    have u := congrArg Proceeds.pcUnlocked m6
    have e1 : sumBy (fun t => t.tradedPc ((absState s).ob lst m1).mkt + t.fee ((absState s).ob lst m1).mkt tier) ts =
        tradedQuote s.mkt ts + takerFees s.mkt tier ts := by
      rw [sumBy_add']
      have := runSums_eq s.mkt m1 l2 tier ts
      unfold runSums at this
      injection this with _ a2 a3 _
      rw [← a2, ← a3]
      rfl
    have e2 : ((absState s).ob lst m1).mkt.pcLot = s.mkt.pcLot := l2
    have e3 : extractPrice (newOrderReq ix (genOrderId s.seq ix.limitPrice ix.side) a.oo.key slot tier).orderId =
        ix.limitPrice := hprice
    have e4 : (newOrderReq ix (genOrderId s.seq ix.limitPrice ix.side) a.oo.key slot tier).feeTier = tier := rfl
    rw [e4, e1, e2, e3] at m2
    simp only [Nat.zero_add, State.ob, Proceeds.zero, Nat.add_zero] at u m2 m4
    have hbud' : ix.maxPcQty = tradedQuote s.mkt ts + takerFees s.mkt tier ts + given + post + tail := by
      rw [← hpl]; exact hbud
    have m2' : ix.maxPcQty = tradedQuote s.mkt ts + takerFees s.mkt tier ts + gv +
        postedLots f * ix.limitPrice * s.mkt.pcLot + tl := by
      rw [← hpl]; exact m2
    have m4' : sumBy Touch.traded ts + sumBy (Touch.given ix.stb) ts + postedLots f ≤ ix.maxCoinQty := m4
    have hl1 := k.sum
    have hl2 := k.le
    have b1 := ac.pcFree
    have b2 : o'.pcTotal = o.pcTotal + d - (tradedQuote s.mkt ts + takerFees s.mkt tier ts) := ac.pcTotal
    have b3 : tradedQuote s.mkt ts + takerFees s.mkt tier ts ≤ o.pcTotal + d := ac.le
    refine ⟨hdep.1 hs, ?_, by omega, by omega, ac.coinFree, by omega, ac.coinTotal, ?_⟩
    · show sumBy Touch.traded ts + _ ≤ _
      omega
    · rw [hmk]
      have hm1 := k.mkt
      refine moved_of_run hmr hR.ran.mktOk (c := 0) (p := d) (by rw [hm1]; rfl) ?_ ?_
      · rw [hm1]
        show takerFees s.mkt tier ts ≤ s.mkt.pcDeposits + d
        omega
      · refine pc_backed (vs := vs) (l := l') (hi.funds.deposit hR.deposit hnv (by rw [hm1]; rfl) (by rw [hm1]; rfl) ?_)
        intro b
        rw [hm1, hs]
        simp only [owed, Market.depositVault, absState]
        by_cases g1 : b = s.mkt.coinVault <;> by_cases g2 : b = s.mkt.pcVault <;>
          simp only [g1, g2, if_true, if_false] <;> first | omega | (split <;> omega) | (simp_all; omega)
  · intro hs
    unfold OrderAcct at hacct
    rw [show (newOrderReq ix (genOrderId (absState s).seq ix.limitPrice ix.side) a.oo.key slot tier).side = .ask
      from hs] at hrun
    unfold PrReport at hmoney
    rw [show (newOrderReq ix (genOrderId s.seq ix.limitPrice ix.side) a.oo.key slot tier).side = .ask
      from hs] at hmoney
    rw [hs] at hacct
    obtain ⟨n, k, ac⟩ := hacct
    simp only at hmoney hrun
    obtain ⟨tl, m2, _, m6⟩ := hmoney
    have hbud := hrun.size
    have hpr := hrun.pr
    rw [if_neg (show ¬ (newOrderReq ix (genOrderId (absState s).seq ix.limitPrice ix.side) a.oo.key slot tier).owner = 0
      from hR.owner)] at hpr
    rw [if_neg (show ¬ (newOrderReq ix (genOrderId s.seq ix.limitPrice ix.side) a.oo.key slot tier).owner = 0
      from hR.owner), hpr] at m6
    have u := congrArg Proceeds.coinUnlocked m6
    simp only [Nat.zero_add, State.ob, Proceeds.zero, Nat.add_zero] at u m2
    have m2' : ix.maxCoinQty = tradedLots ts + sumBy (Touch.given ix.stb) ts + postedLots f + tl := m2
    have hbud' : ix.maxCoinQty = tradedLots ts + given + post + tail := hbud
    have u' : given + tail = sumBy (Touch.given ix.stb) ts + tl := u
    have hl1 := k.sum
    have hl2 := k.le
    have b1 := ac.coinFree
    have b2 := ac.coinTotal
    have b3 := ac.le
    have key : ix.maxCoinQty * s.mkt.coinLot = (tradedLots ts + postedLots f) * s.mkt.coinLot +
        (given + tail) * s.mkt.coinLot := by
      rw [← Nat.add_mul]
      congr 1
      omega
    have hl1' : n + d = ix.maxCoinQty * s.mkt.coinLot := hl1
    have b1' : o'.coinFree = o.coinFree - n + (given + tail) * s.mkt.coinLot := b1
    have b2' : o'.coinTotal = o.coinTotal + d - tradedLots ts * s.mkt.coinLot := b2
    have b3' : tradedLots ts * s.mkt.coinLot ≤ o.coinTotal + d := b3
    have hfit : ix.maxCoinQty * s.mkt.coinLot < W64 := by
      have := hR.start.val hs hR.owner
      rw [show ((absState s).ob lst m1).mkt.coinLot = s.mkt.coinLot from l1] at this
      exact this
    refine ⟨hdep.2 hs, hfit, by omega, by omega, hrun.feeLe, ac.pcFree, by omega, ac.pcTotal, ?_⟩
    rw [hmk]
    have hm1 := k.mkt
    have hfb := hrun.freeBid
    have hmp := hi.money.pc
    have hfl := hrun.feeLe
    have e5 : bookLock .bid m1 every (absState s).bids.items = bookLock .bid s.mkt every s.bids.contents :=
      bookLock_congr l1 l2 _ _ _
    rw [e5] at hfb
    simp only at hfl hfb
    refine moved_of_run hmr hR.ran.mktOk (c := d) (p := 0) (by rw [hm1]; rfl) ?_ ?_
    · rw [hm1]
      show takerFees s.mkt tier ts ≤ s.mkt.pcDeposits
      omega
    · refine pc_backed (vs := vs) (l := l') (hi.funds.deposit hR.deposit hnv (by rw [hm1]; rfl) (by rw [hm1]; rfl) ?_)
      intro b
      rw [hm1, hs]
      simp only [owed, Market.depositVault, absState]
      by_cases g1 : b = s.mkt.coinVault <;> by_cases g2 : b = s.mkt.pcVault <;>
        simp only [g1, g2, if_true, if_false] <;> first | omega | (split <;> omega) | (simp_all; omega)

/-! ### Taking -/

/-- What a buying send-take pays and receives. -/
structure TakeBid (s s' : State conc) (ix : SendTakeIx) (a : SendTakeAccts) (tier : FeeTier) (ts : List Touch) : Prop where
  budget : tradedQuote s.mkt ts + takerFees s.mkt tier ts ≤ ix.maxPcQty
  minimum : ix.minCoinQty ≤ tradedLots ts
  paid : ∃ l, PaidIn s.toks l a.pcWallet.key s.mkt.pcVault (tradedQuote s.mkt ts + takerFees s.mkt tier ts) ∧
    PaidOut l s'.toks s.mkt.coinVault a.coinWallet.key (tradedLots ts * s.mkt.coinLot)
  mkt : Moved s.mkt s'.mkt 0 (tradedLots ts * s.mkt.coinLot) (tradedQuote s.mkt ts) 0 (takerFees s.mkt tier ts)
    (referrerPart s.mkt tier ts)

/-- What a selling send-take pays and receives. -/
structure TakeAsk (s s' : State conc) (ix : SendTakeIx) (a : SendTakeAccts) (tier : FeeTier) (ts : List Touch) : Prop where
  fees : takerFees s.mkt tier ts ≤ tradedQuote s.mkt ts
  minimum : ix.minPcQty ≤ tradedQuote s.mkt ts - takerFees s.mkt tier ts
  paid : ∃ l, PaidIn s.toks l a.coinWallet.key s.mkt.coinVault (tradedLots ts * s.mkt.coinLot) ∧
    PaidOut l s'.toks s.mkt.pcVault a.pcWallet.key (tradedQuote s.mkt ts - takerFees s.mkt tier ts)
  mkt : Moved s.mkt s'.mkt (tradedLots ts * s.mkt.coinLot) 0 0 (tradedQuote s.mkt ts) (takerFees s.mkt tier ts)
    (referrerPart s.mkt tier ts)

/-- Everything a successful send-take does. -/
structure TakeEffect (P : Params) (s s' : State conc) (accts : List AccMeta) (ix : SendTakeIx) (a : SendTakeAccts)
    (tier : FeeTier) (ts : List Touch) (evs : List EventView) : Prop where
  args : TakeArgs P s.toCore accts a tier
  /-- Nothing is put on the book. -/
  matched : Matched s s' (sendTakeReq ix (genOrderId s.seq ix.limitPrice ix.side) tier) ix.limit ts none evs
  accounts : s'.oos = s.oos
  size : tradedLots ts ≤ ix.maxCoinQty
  lots : tradedLots ts * s.mkt.coinLot < W64
  bid : ix.side = .bid → TakeBid s s' ix a tier ts
  ask : ix.side = .ask → TakeAsk s s' ix a tier ts
  signedPay : ∃ l n, depositIn s.toks (match ix.side with | .bid => a.pcWallet.key | .ask => a.coinWallet.key)
    (s.mkt.depositVault ix.side) a.signer.key n = .ok l ∧
    ∃ k, PaidOut l s'.toks (s.mkt.depositVault ix.side.other)
      (match ix.side with | .bid => a.coinWallet.key | .ask => a.pcWallet.key) k
  seq : s'.seq = s.seq + 1

theorem sendOut_paid {P : Params} {m : Market} {l l' : Ledger} {v dst n vs : Nat}
    (hv : P.vaultSigner m.ownAddress m.vaultSignerNonce = some vs)
    (h : (if n = 0 then .ok l else sendFromVault P m l v dst n) = Except.ok l') : PaidOut l l' v dst n := by
  split at h
  · cases h; exact .inl ⟨by assumption, rfl⟩
  · exact .inr ⟨by omega, spl_paid (sendFromVault_ok hv h)⟩

theorem coin_backed {vs : Nat} {m : Market} {l : Ledger} (h : Funds vs m l) : m.coinDeposits < W64 := by
  obtain ⟨t2, e2, _⟩ := h.coin
  have b2 := h.solvent m.coinVault
  have a2 := h.amounts _ _ e2
  unfold owed bal at b2
  rw [e2] at b2
  simp only [if_true] at b2
  omega

/-- A successful send-take, in every reachable state. -/
theorem take_effect {P : Params} {s s' : State conc} (h : Reach P s) (hq : s.seq < W64)
    {accts : List AccMeta} {ix : SendTakeIx} (hv : TakeValid ix) (hn : NotVault P s.mkt accts)
    (hx : sendTake conc P s accts ix = .ok s') :
    ∃ a tier ts evs, TakeEffect P s s' accts ix a tier ts evs := by
  obtain ⟨vs, hvs, hqi, hi⟩ := h.view (Nat.le_of_lt hq)
  have hg := h.good (Nat.le_of_lt hq)
  have hL := absState_q hg hqi
  obtain ⟨t, ht, hrs⟩ := Sim.ok_right (Refines.sim_sendTake hg.rs P accts ix hv.1.2) hx
  obtain ⟨a, tier, hA, ob', ts, f, evs', given, post, tail, m', D, w, l', hR⟩ :=
    sendTake_run (evs := pending s) ht hv hn hq hvs hL hi
  have hcore : s'.toCore = t.toCore := hrs.core
  have hst := hR.state
  have hmk : s'.mkt = m' := by rw [congrArg Core.mkt hcore, hst]
  have hoos : s'.oos = s.oos := by rw [congrArg Core.oos hcore, hst]; rfl
  have htoks : s'.toks = l' := by rw [congrArg Core.toks hcore, hst]
  have hseq : s'.seq = s.seq + 1 := by rw [congrArg Core.seq hcore, hst]; rfl
  have hsm := hR.ran.mkt.same
  have hok := sendTakeReq_ok (tier := tier) hv hq
  have hdep := hi.shape.mkt.pcDeposits
  have hMok := hR.ran.mktOk
  have hmoney := path_money hok hR.start (fun _ => hR.owners) hR.path
  have hown := path_own hok hR.start hR.path
  have hf : f = none := by
    cases f with
    | none => rfl
    | some f => exact absurd rfl hown.2.owner
  subst hf
  have hrun := hR.ran.run
  have hsum := runSums_eq s.mkt s.mkt rfl tier ts
  have hmr := hR.ran.mkt
  have hmr : MarketRun s.mkt ob'.mkt (runSums s.mkt tier ts) := hmr
  rw [hsum] at hmr
  have hrun' : match ix.side with
    | .bid => RunBid (sendTakeReq ix (genOrderId s.seq ix.limitPrice ix.side) tier) s.mkt s.bids.contents
        s.asks.contents ob'.bids.items ob'.asks.items evs' ob'.pr (runSums s.mkt tier ts) given post tail
    | .ask => RunAsk (sendTakeReq ix (genOrderId s.seq ix.limitPrice ix.side) tier) s.mkt s.bids.contents
        s.asks.contents ob'.bids.items ob'.asks.items evs' ob'.pr (runSums s.mkt tier ts) given post tail := hrun
  rw [hsum] at hrun'
  have hnv : a.signer.key ≠ vs := by
    intro e
    have := hn _ (parseSendTake_mem hA.parse) hA.signed
    rw [e] at this
    exact this hvs
  have htot := hR.totals
  have hmin := hR.min
  have htr := hR.transfers
  unfold sendTakeTotals at htot
  unfold checkMin at hmin
  unfold sendTakeTransfers at htr
  unfold PrReport at hmoney
  have e0 : (sendTakeReq ix (genOrderId s.seq ix.limitPrice ix.side) tier).side = ix.side := rfl
  rw [e0] at hmoney
  have hcl : ob'.mkt.coinLot = s.mkt.coinLot := hsm.coinLot
  have hob := hmr.same.eq
  obtain ⟨r1, r2, r3, r4, r5⟩ := hmr
  simp only at r2 r3 r4 r5
  have hmm : m' = { s.mkt with
      coinDeposits := m'.coinDeposits, pcDeposits := m'.pcDeposits, pcFees := ob'.mkt.pcFees,
      referrerRebates := ob'.mkt.referrerRebates } := by
    cases hs : ix.side with
    | bid =>
      rw [hs] at htot
      obtain ⟨w1, hw, htot⟩ := bind_ok htot
      obtain ⟨_, hle, htot⟩ := bind_ok htot
      simp only [pure, Except.pure, Except.ok.injEq, Prod.mk.injEq] at htot
      obtain ⟨rfl, rfl, rfl⟩ := htot
      rw [hob]
    | ask =>
      rw [hs] at htot
      obtain ⟨w1, hw, htot⟩ := bind_ok htot
      obtain ⟨_, hle, htot⟩ := bind_ok htot
      simp only [pure, Except.pure, Except.ok.injEq, Prod.mk.injEq] at htot
      obtain ⟨rfl, rfl, rfl⟩ := htot
      rw [hob]
  have hM : ∃ evs, Matched s s' (sendTakeReq ix (genOrderId s.seq ix.limitPrice ix.side) tier) ix.limit ts none evs := by
    refine matched_of_path (m1 := s.mkt) hrs hg hqi hok rfl rfl (fun _ => hR.owners) hR.start
      (by intro hk; show (match ix.side with | .bid => ix.maxPcQty | .ask => 0) = 0; rw [show ix.side = .ask from hk])
      hR.path (by rw [hst]) (by rw [hst]) (by rw [hst]) ?_ ?_
    · rw [hst]; simp only; rw [hmm]
    · rw [hst]; simp only; rw [hmm]
  obtain ⟨evs, hM⟩ := hM
  have hvs' : P.vaultSigner m'.ownAddress m'.vaultSignerNonce = some vs := hR.signer
  have v1 : m'.pcVault = s.mkt.pcVault := by rw [hmm]
  have v2 : m'.coinVault = s.mkt.coinVault := by rw [hmm]
  rw [v1, v2] at htr
  cases hs : ix.side with
  | bid =>
    rw [hs] at hmoney htot hmin htr hrun'
    simp only at hmoney hmin htr hrun'
    obtain ⟨tl, gv, m2, _, m4, _, m6⟩ := hmoney
    have hpr := hrun'.pr
    have hbud := hrun'.budget
    have hpl : (sendTakeReq ix (genOrderId s.seq ix.limitPrice .bid) tier).pcLocked = ix.maxPcQty := by
      show (match ix.side with | .bid => ix.maxPcQty | .ask => 0) = _
      rw [hs]
    rw [hpl] at hbud
    simp only at hbud
    have q1 : ob'.pr.coinCredit = tradedLots ts := by rw [hpr]
    have q2 : ob'.pr.pcDebit = tradedQuote s.mkt ts + takerFees s.mkt tier ts := by rw [hpr]
    obtain ⟨w1, hw, htot⟩ := bind_ok htot
    obtain ⟨_, hle, htot⟩ := bind_ok htot
    simp only [pure, Except.pure, Except.ok.injEq, Prod.mk.injEq] at htot
    obtain ⟨hm', rfl, rfl⟩ := htot
    rw [unwrap_ok, checkedMul_some, q1, hcl] at hw
    obtain ⟨hwlt, rfl⟩ := hw
    rw [checkAssert_ok, decide_eq_true_eq] at hle
    have hcd : ob'.mkt.coinDeposits = s.mkt.coinDeposits := by rw [hob]
    rw [hcd] at hle
    rw [q2] at htr
    obtain ⟨l1, hd, hout⟩ := bind_ok htr
    have hF := hi.funds.deposit hd hnv
      (m' := { s.mkt with pcDeposits := s.mkt.pcDeposits + (tradedQuote s.mkt ts + takerFees s.mkt tier ts) }) rfl rfl (by
        intro b
        simp only [owed]
        by_cases g1 : b = s.mkt.coinVault <;> by_cases g2 : b = s.mkt.pcVault <;>
          simp only [g1, g2, if_true, if_false] <;> first | omega | (split <;> omega) | (simp_all; omega))
    have hlt := pc_backed hF
    simp only at hlt
    have hcb := coin_backed hF
    simp only at hcb
    have hpd := hMok.pcDeposits
    refine ⟨a, tier, ts, evs, hA, hM, hoos, ?_, hwlt, fun _ => ⟨by omega, ?_, ⟨l1, depositIn_paid hd, ?_⟩, ?_⟩, fun h => (by rw [hs] at h; cases h), ?_, hseq⟩
    · show sumBy Touch.traded ts ≤ _
      have m4' : sumBy Touch.traded ts + sumBy (Touch.given .abortTransaction) ts + 0 + 0 ≤ ix.maxCoinQty := m4
      omega
    · rw [q1] at hmin
      split at hmin
      · cases hmin
      · omega
    · rw [htoks]; exact sendOut_paid hvs' hout
    · rw [hmk]
      rw [Nat.mod_eq_of_lt (by omega)] at r2 r3
      have z1 : m'.coinDeposits = s.mkt.coinDeposits - tradedLots ts * s.mkt.coinLot := by
        rw [← hm']
        show wsub ob'.mkt.coinDeposits _ = _
        rw [hcd, wsub_eq hle hcb]
      have z2 : m'.pcDeposits = s.mkt.pcDeposits + tradedQuote s.mkt ts := by
        rw [← hm']
        show wadd ob'.mkt.pcDeposits ob'.pr.pcDebit = _
        rw [q2]
        unfold wadd
        unfold W64 at *
        omega
      refine ⟨?_, by omega, by omega, r5⟩
      rw [hmm, z1, z2, r2, r3]
      rfl
    · simp only [hs]
      exact ⟨l1, _, hd, _, by rw [htoks]; exact sendOut_paid hvs' hout⟩
  | ask =>
    rw [hs] at hmoney htot hmin htr hrun'
    simp only at hmoney hmin htr hrun'
    obtain ⟨tl, m2, _, m6⟩ := hmoney
    have hpr := hrun'.pr
    have hfl := hrun'.feeLe
    have hfb := hrun'.freeBid
    simp only at hfl hfb
    have q1 : ob'.pr.coinDebit = tradedLots ts := by rw [hpr]
    have q2 : ob'.pr.pcCredit = tradedQuote s.mkt ts - takerFees s.mkt tier ts := by rw [hpr]
    obtain ⟨w1, hw, htot⟩ := bind_ok htot
    obtain ⟨_, hle, htot⟩ := bind_ok htot
    simp only [pure, Except.pure, Except.ok.injEq, Prod.mk.injEq] at htot
    obtain ⟨hm', rfl, rfl⟩ := htot
    rw [unwrap_ok, checkedMul_some, q1, hcl] at hw
    obtain ⟨hwlt, rfl⟩ := hw
    have hcd : ob'.mkt.coinDeposits = s.mkt.coinDeposits := by rw [hob]
    rw [q2] at htr
    obtain ⟨l1, hd, hout⟩ := bind_ok htr
    have hF := hi.funds.deposit hd hnv
      (m' := { s.mkt with coinDeposits := s.mkt.coinDeposits + tradedLots ts * s.mkt.coinLot }) rfl rfl (by
        intro b
        simp only [owed]
        by_cases g1 : b = s.mkt.coinVault <;> by_cases g2 : b = s.mkt.pcVault <;>
          simp only [g1, g2, if_true, if_false] <;> first | omega | (split <;> omega) | (simp_all; omega))
    have hlt := pc_backed hi.funds
    have hcb := coin_backed hF
    simp only at hcb
    have hpd := hMok.pcDeposits
    have hmp := hi.money.pc
    have m2' : ix.maxCoinQty = tradedLots ts + sumBy (Touch.given .abortTransaction) ts + 0 + tl + 0 := m2
    refine ⟨a, tier, ts, evs, hA, hM, hoos, by omega, hwlt, fun h => (by rw [hs] at h; cases h), fun _ =>
      ⟨hfl, ?_, ⟨l1, depositIn_paid hd, ?_⟩, ?_⟩, ?_, hseq⟩
    · rw [q2] at hmin
      split at hmin
      · cases hmin
      · omega
    · rw [htoks]; exact sendOut_paid hvs' hout
    · rw [hmk]
      rw [Nat.mod_eq_of_lt (by omega)] at r2 r3
      have z1 : m'.coinDeposits = s.mkt.coinDeposits + tradedLots ts * s.mkt.coinLot := by
        rw [← hm']
        show wadd ob'.mkt.coinDeposits _ = _
        rw [hcd, wadd_eq hcb]
      have z0 : ob'.mkt.pcDeposits = s.mkt.pcDeposits - takerFees s.mkt tier ts := by
        unfold W64 at *
        omega
      have z2 : m'.pcDeposits = s.mkt.pcDeposits - tradedQuote s.mkt ts := by
        rw [← hm']
        show wsub ob'.mkt.pcDeposits ob'.pr.pcCredit = _
        rw [q2, z0, wsub_eq (by omega) (by omega)]
        omega
      refine ⟨?_, by omega, by omega, r5⟩
      rw [hmm, z1, z2, r2, r3]
      rfl
    · simp only [hs]
      exact ⟨l1, _, hd, _, by rw [htoks]; exact sendOut_paid hvs' hout⟩

/-! ### Trades -/

/-- A trade with a resting order: the order's side, owner, id and price, and the lots traded. -/
structure Trade where
  side : Side
  owner : Nat
  id : Nat
  price : Nat
  lots : Nat

/-- Quote units of a trade. -/
def Trade.value (m : Market) (t : Trade) : Nat := t.lots * t.price * m.pcLot

/-- The trades among the orders met. -/
def tradesOf (sd : Side) (ts : List Touch) : List Trade :=
  (ts.filter (·.filled)).map fun t => ⟨sd, t.maker.owner, t.maker.key, t.maker.price, t.lots⟩

theorem total_filter {α : Type} (f : α → Nat) (p : α → Bool) (l : List α) :
    total f (l.filter p) = total (fun x => if p x then f x else 0) l := sumBy_filter f p l

theorem total_map {α β : Type} (f : β → Nat) (g : α → β) (l : List α) :
    total f (l.map g) = total (fun x => f (g x)) l := sumBy_map f g l

theorem total_congr {α : Type} {f g : α → Nat} {l : List α} (h : ∀ x ∈ l, f x = g x) : total f l = total g l :=
  sumBy_congr' h

theorem tradesOf_lots (sd : Side) (ts : List Touch) : total (·.lots) (tradesOf sd ts) = tradedLots ts := by
  unfold tradesOf tradedLots
  rw [total_map, total_filter]
  rfl

theorem tradesOf_value (m : Market) (sd : Side) (ts : List Touch) :
    total (Trade.value m) (tradesOf sd ts) = tradedQuote m ts := by
  unfold tradesOf tradedQuote
  rw [total_map, total_filter]
  rfl

theorem tradesOf_fees (m : Market) (tier : FeeTier) (sd : Side) (ts : List Touch) :
    total (fun t => tier.takerFee (t.value m)) (tradesOf sd ts) = takerFees m tier ts := by
  unfold tradesOf takerFees
  rw [total_map, total_filter]
  rfl

/-- The trade was with an order resting in `s`, at that order's own price. -/
def Trade.With (s : State conc) (t : Trade) : Prop :=
  ∃ l ∈ resting s t.side, l.key = t.id ∧ l.owner = t.owner ∧ l.price = t.price ∧ 0 < t.lots ∧ t.lots ≤ l.quantity

theorem mem_bestFirst {s : State conc} {sd : Side} {l : Leaf} : l ∈ bestFirst s sd ↔ l ∈ resting s sd := by
  cases sd
  · exact List.mem_reverse
  · exact Iff.rfl

theorem Matched.trades {s s' : State conc} {o : OrderParams} {limit : Nat} {ts : List Touch} {f : Option Posting}
    {evs : List EventView} (h : Matched s s' o limit ts f evs) {t : Trade} (ht : t ∈ tradesOf o.side.other ts) :
    t.side = o.side.other ∧ t.With s ∧ priceOk o t.price ∧ t.owner ≠ o.owner := by
  unfold tradesOf at ht
  obtain ⟨x, hx, rfl⟩ := List.mem_map.1 ht
  obtain ⟨hx, hfill⟩ := List.mem_filter.1 hx
  obtain ⟨y, hy, e, hle⟩ := takeFront_maker h.opp hx
  obtain ⟨h1, h2⟩ := takeFront_lots h.opp hx
  refine ⟨rfl, ⟨y, mem_bestFirst.1 hy, ?_, ?_, ?_, h1, Nat.le_trans h2 hle⟩, (h.touches x hx).price, ?_⟩
  · show y.key = x.maker.key
    rw [e]
  · show y.owner = x.maker.owner
    rw [e]
  · show y.price = x.maker.price
    rw [e]; rfl
  · exact fun e => ((h.touches x hx).who.1 hfill) e.symm

/-! ### C35 -/

/-- Is a trade at `price` within the limit? -/
def withinLimit (side : Side) (limit price : Nat) : Prop :=
  match side with
  | .bid => price ≤ limit
  | .ask => limit ≤ price

/-- The tokens and totals of a take that traded `lots` for `quote` with fee `fee`. -/
def TakePays (s s' : State conc) (ix : SendTakeIx) (coinWallet pcWallet lots quote fee : Nat) : Prop :=
  match ix.side with
  | .bid => quote + fee ≤ ix.maxPcQty ∧ ix.minCoinQty ≤ lots ∧
      ∃ l, PaidIn s.toks l pcWallet s.mkt.pcVault (quote + fee) ∧
        PaidOut l s'.toks s.mkt.coinVault coinWallet (lots * s.mkt.coinLot)
  | .ask => fee ≤ quote ∧ ix.minPcQty ≤ quote - fee ∧
      ∃ l, PaidIn s.toks l coinWallet s.mkt.coinVault (lots * s.mkt.coinLot) ∧
        PaidOut l s'.toks s.mkt.pcVault pcWallet (quote - fee)

/-- C35. A successful send-take was signed; it only trades with resting orders of the other side, at their own
prices, none beyond its limit; it buys or sells at most `maxCoinQty` lots; a buyer pays at most `maxPcQty`
including fees and receives at least `minCoinQty` lots, a seller receives at least `minPcQty` after fees; exactly
the traded amounts and the fee move between the named wallets and the vaults; nothing rests: its own side of the
book and all accounts are as before. -/
theorem send_take_limits {P : Params} {s s' : State conc} (h : Reach P s) (hq : s.seq < W64)
    {accts : List AccMeta} {ix : SendTakeIx} (hv : TakeValid ix) (hn : NotVault P s.mkt accts)
    (hx : sendTake conc P s accts ix = .ok s') :
    ∃ (m rq eq b k cw pw signer : AccMeta) (rest : List AccMeta) (tier : FeeTier) (trades : List Trade),
      accts = m :: rq :: eq :: b :: k :: cw :: pw :: signer :: rest ∧ signer.signer = true ∧
      (∀ t ∈ trades, t.side = otherSide ix.side ∧ t.With s ∧ withinLimit ix.side ix.limitPrice t.price) ∧
      total (·.lots) trades ≤ ix.maxCoinQty ∧
      TakePays s s' ix cw.key pw.key (total (·.lots) trades) (total (Trade.value s.mkt) trades)
        (total (fun t => tier.takerFee (t.value s.mkt)) trades) ∧
      resting s' ix.side = resting s ix.side ∧ s'.oos = s.oos := by
  obtain ⟨a, tier, ts, evs, e⟩ := take_effect h hq hv hn hx
  have hp := e.args.parse
  unfold parseSendTake at hp
  split at hp
  case h_2 => cases hp
  rename_i m rq eq b k cw pw sg cv pv t vsA rest
  split at hp
  case isFalse => cases hp
  cases hp
  refine ⟨m, rq, eq, b, k, cw, pw, sg, _, tier, tradesOf ix.side.other ts, rfl, e.args.signed, ?_, ?_, ?_,
    e.matched.own, e.accounts⟩
  · intro t ht
    obtain ⟨h1, h2, h3, _⟩ := e.matched.trades ht
    refine ⟨by rw [h1]; show ix.side.other = _; cases ix.side <;> rfl, h2, ?_⟩
    have hp : extractPrice (genOrderId s.seq ix.limitPrice ix.side) = ix.limitPrice :=
      extractPrice_genOrderId hq hv.1.2
    unfold priceOk at h3
    simp only [sendTakeReq, hp] at h3
    exact h3
  · rw [tradesOf_lots]; exact e.size
  · rw [tradesOf_lots, tradesOf_value, tradesOf_fees]
    unfold TakePays
    cases hs : ix.side with
    | bid => exact ⟨(e.bid hs).budget, (e.bid hs).minimum, (e.bid hs).paid⟩
    | ask => exact ⟨(e.ask hs).fees, (e.ask hs).minimum, (e.ask hs).paid⟩

example : Reach Demo.P Demo.s1 ∧ sendTake conc Demo.P Demo.s1 Demo.takeAccts Demo.takeIx = .ok Demo.sT ∧
    TakeValid Demo.takeIx := ⟨Demo.r1, Demo.eT, Demo.takeValid⟩

end Serum.Props
