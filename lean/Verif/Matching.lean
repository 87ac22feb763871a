import Verif.Impl
import Verif.OpenOrders

/-
The matching engine, `dex/src/matching.rs`.
-/

namespace Serum

/-- `MarketState` and the extra fields of `MarketStateV2`, `state.rs` 213-222 and 293-352. Public keys
are `Nat`s. The three authorities are meaningful only when the `Permissioned` flag is set. -/
structure Market where
  flags : Nat
  ownAddress : Nat
  vaultSignerNonce : Nat
  coinMint : Nat
  pcMint : Nat
  coinVault : Nat
  coinDeposits : Nat
  coinFees : Nat
  pcVault : Nat
  pcDeposits : Nat
  pcFees : Nat
  pcDust : Nat
  reqQ : Nat
  eventQ : Nat
  bids : Nat
  asks : Nat
  coinLot : Nat
  pcLot : Nat
  feeRateBps : Nat
  referrerRebates : Nat
  ooAuthority : Nat
  pruneAuthority : Nat
  crankAuthority : Nat
  deriving DecidableEq, Repr

/-- `RequestProceeds`, `matching.rs` 182-192. -/
structure Proceeds where
  coinUnlocked : Nat
  pcUnlocked : Nat
  coinCredit : Nat
  pcCredit : Nat
  coinDebit : Nat
  pcDebit : Nat
  deriving DecidableEq, Repr

/-- `RequestProceeds::zero`, `matching.rs` 204-213. -/
def Proceeds.zero : Proceeds := ⟨0, 0, 0, 0, 0, 0⟩

/-- `OrderBookState` (`matching.rs` 64-69) together with the event queue and the proceeds that
`new_order` also borrows mutably. -/
structure Ob (I : Impl) where
  bids : I.Book
  asks : I.Book
  q : I.Q
  mkt : Market
  pr : Proceeds

/-- `NewAskParams` / `NewBidParams`, `matching.rs` 326-338, 614-627. `pcLocked` is used by bids only. -/
structure IterParams where
  coinQty : Nat
  pcLocked : Nat
  limitPrice : Nat
  orderId : Nat
  owner : Nat
  ownerSlot : Nat
  feeTier : FeeTier
  postOnly : Bool
  postAllowed : Bool
  clientId : Nat
  stb : SelfTradeBehavior
  deriving DecidableEq, Repr

/-- `OrderRemaining`, `matching.rs` 235-238; `none` pc is 0. -/
structure Remaining where
  coin : Nat
  pc : Nat
  deriving DecidableEq, Repr

/-- `LeafNode::price`, `critbit.rs` 92-94: `NonZeroU64::new(..).unwrap()`. -/
def nzPrice (l : Leaf) : Except Err Nat := if l.price = 0 then .error .panic else .ok l.price

/-- `LeafNode::new`, `critbit.rs` 63-84, from an order's parameters. -/
def IterParams.leaf (p : IterParams) (qty : Nat) : Leaf :=
  { ownerSlot := p.ownerSlot, feeTier := p.feeTier, key := p.orderId, owner := p.owner,
    quantity := qty, clientId := p.clientId }

/-- `is_send_take`, `matching.rs` 360, 653: the owner is the system program's key, all zeros. -/
def IterParams.isSendTake (p : IterParams) : Bool := p.owner == 0

/-- `RequestProceeds::unlock_coin`, `matching.rs` 194-201, 214. -/
def Proceeds.unlockCoin (r : Proceeds) (n : Nat) : Except Err Proceeds := do
  return { r with coinUnlocked := ← unwrap (checkedAdd r.coinUnlocked n) }
/-- `RequestProceeds::unlock_native_pc`, `matching.rs` 215. -/
def Proceeds.unlockPc (r : Proceeds) (n : Nat) : Except Err Proceeds := do
  return { r with pcUnlocked := ← unwrap (checkedAdd r.pcUnlocked n) }
/-- `RequestProceeds::credit_coin`, `matching.rs` 216. -/
def Proceeds.creditCoin (r : Proceeds) (n : Nat) : Except Err Proceeds := do
  return { r with coinCredit := ← unwrap (checkedAdd r.coinCredit n) }
/-- `RequestProceeds::credit_native_pc`, `matching.rs` 217. -/
def Proceeds.creditPc (r : Proceeds) (n : Nat) : Except Err Proceeds := do
  return { r with pcCredit := ← unwrap (checkedAdd r.pcCredit n) }
/-- `RequestProceeds::debit_coin`, `matching.rs` 218. -/
def Proceeds.addDebitCoin (r : Proceeds) (n : Nat) : Except Err Proceeds := do
  return { r with coinDebit := ← unwrap (checkedAdd r.coinDebit n) }
/-- `RequestProceeds::debit_native_pc`, `matching.rs` 219. -/
def Proceeds.addDebitPc (r : Proceeds) (n : Nat) : Except Err Proceeds := do
  return { r with pcDebit := ← unwrap (checkedAdd r.pcDebit n) }

section
variable (I : Impl)

/-- `event_q.push_back(Event::new(view)).map_err(|_| EventQueueFull)?`. -/
def pushEv (ob : Ob I) (v : EventView) : Except Err (Ob I) :=
  match I.push ob.q (Event.new v) with
  | some q => .ok { ob with q }
  | none => .error .eventQueueFull

/-- The same, guarded by a condition. -/
def pushIf (c : Bool) (ob : Ob I) (v : EventView) : Except Err (Ob I) :=
  if c then pushEv I ob v else .ok ob

/-- The out event of a resting order. -/
def Leaf.out (l : Leaf) (side : Side) (release : Bool) (unlocked still : Nat) : EventView :=
  .out side release unlocked still l.key l.owner l.ownerSlot l.clientId

/-- The out event of the incoming order (never releases funds itself). -/
def IterParams.out (p : IterParams) (side : Side) (unlocked still : Nat) : EventView :=
  .out side false unlocked still p.orderId p.owner p.ownerSlot p.clientId

/-- Market fee counters after a match, `matching.rs` 541-548 and 854-861. -/
def Market.accrueFees (m : Market) (takerFee makerRebates : Nat) : Market :=
  let netBefore := wsub takerFee makerRebates
  let ref := referrerRebate takerFee
  { m with
    referrerRebates := wadd m.referrerRebates ref
    pcFees := wadd m.pcFees (wsub netBefore ref)
    pcDeposits := wsub m.pcDeposits netBefore }

/-- Posting an ask, booting the least aggressive offer if the side is full: `matching.rs` 561-593. -/
def postAsk (ob : Ob I) (p : IterParams) (qty : Nat) : Except Err (Ob I) := do
  match ← I.insert ob.asks (p.leaf qty) with
  | (asks, true) => return { ob with asks }
  | (asks, false) =>
    let (asks, l) ← I.evict .ask asks
    let l ← unwrap l
    let ob ← pushEv I { ob with asks } (l.out .ask true (wmul l.quantity ob.mkt.coinLot) 0)
    let (asks, ok) ← I.insert ob.asks (p.leaf qty)
    rustAssert ok
    return { ob with asks }

/-- Proceeds, taker fill event and fees of a match by an ask, `matching.rs` 513-549. -/
def askSettle (ob : Ob I) (p : IterParams) (unfilled accum rebates : Nat) : Except Err (Ob I) := do
  let takerPc := wmul accum ob.mkt.pcLot
  let fee := p.feeTier.takerFee takerPc
  let net := wsub takerPc fee
  let lots := wsub p.coinQty unfilled
  let pr ← ob.pr.creditPc net
  let pr ← pr.addDebitCoin lots
  let ob ← pushIf I (takerPc > 0 && !p.isSendTake) { ob with pr }
    (.fill .ask false (wmul lots ob.mkt.coinLot) net fee p.orderId p.owner p.ownerSlot p.feeTier
      p.clientId)
  return { ob with mkt := ob.mkt.accrueFees fee rebates }

/-- Posting or releasing what is left of an ask, `matching.rs` 561-611. -/
def askRest (ob : Ob I) (p : IterParams) (unfilled : Nat) (crossed : Bool) : Except Err (Ob I) := do
  if p.postAllowed && !crossed && unfilled > 0 then
    checkAssert (!p.isSendTake)
    postAsk I ob p unfilled
  else if p.isSendTake then return ob
  else
    let pr ← ob.pr.unlockCoin unfilled
    pushEv I { ob with pr } (p.out .ask (wmul unfilled ob.mkt.coinLot) 0)

/-- Everything after the loop of `new_ask`, `matching.rs` 511-611. -/
def askFinish (ob : Ob I) (p : IterParams) (unfilled accum rebates : Nat) (done crossed : Bool) :
    Except Err (Ob I × Option Remaining) := do
  let ob ← askSettle I ob p unfilled accum rebates
  if !done && unfilled != 0 then return (ob, some ⟨unfilled, 0⟩)
  else return (← askRest I ob p unfilled crossed, none)

/-- Writing back a maker's remaining quantity after a self-trade cancellation: `matching.rs` 430-436,
743-749. -/
def shrinkBest (ob : Ob I) (side : Side) (id rest : Nat) : Except Err (Ob I) := do
  match side with
  | .bid =>
    if rest == 0 then
      let (bids, l) ← I.remove ob.bids id
      let _ ← unwrap l
      return { ob with bids }
    else return { ob with bids := ← I.setBest .bid ob.bids rest }
  | .ask =>
    if rest == 0 then
      let (asks, l) ← I.remove ob.asks id
      let _ ← unwrap l
      return { ob with asks }
    else return { ob with asks := ← I.setBest .ask ob.asks rest }

/-- Quantities cancelled by self-trade protection (provide, take): `matching.rs` 396-409, 709-724. -/
def selfTradeQty (stb : SelfTradeBehavior) (makerQty tradeQty : Nat) : Except Err (Nat × Nat) :=
  match stb with
  | .decrementTake => .ok (tradeQty, tradeQty)
  | .cancelProvide => .ok (makerQty, 0)
  | .abortTransaction => .error .wouldSelfTrade

/-- Self-trade branch of `new_ask`, `matching.rs` 389-463. -/
def askSelfTrade (ob : Ob I) (p : IterParams) (best : Leaf) (price tradeQty : Nat) :
    Except Err (Ob I × Option Remaining) := do
  let (provide, take) ← selfTradeQty p.stb best.quantity tradeQty
  let rest := wsub best.quantity provide
  let ob ← pushEv I ob (best.out .bid true (wmul (wmul provide price) ob.mkt.pcLot)
    (wmul (wmul rest price) ob.mkt.pcLot))
  let ob ← shrinkBest I ob .bid best.key rest
  let unfilled := wsub p.coinQty take
  let ob ← pushEv I ob (p.out .ask (wmul take ob.mkt.coinLot) unfilled)
  let pr ← ob.pr.unlockCoin take
  return ({ ob with pr }, if unfilled = 0 then none else some ⟨unfilled, 0⟩)

/-- A maker order's quantity is written back and, when it reaches zero, its out event is pushed and the
order is removed: `matching.rs` 487-506 and 800-819. -/
def fillBest (ob : Ob I) (side : Side) (best : Leaf) (tradeQty : Nat) : Except Err (Ob I) := do
  let left := wsub best.quantity tradeQty
  match side with
  | .bid =>
    let ob := { ob with bids := ← I.setBest .bid ob.bids left }
    if left == 0 then
      let ob ← pushEv I ob (best.out .bid true 0 0)
      let (bids, l) ← I.remove ob.bids best.key
      let _ ← unwrap l
      return { ob with bids }
    else return ob
  | .ask =>
    let ob := { ob with asks := ← I.setBest .ask ob.asks left }
    if left == 0 then
      let ob ← pushEv I ob (best.out .ask true 0 0)
      let (asks, l) ← I.remove ob.asks best.key
      let _ ← unwrap l
      return { ob with asks }
    else return ob

/-- `new_ask`, `matching.rs` 341-612. Its `loop` always leaves during the first iteration. -/
def newAsk (ob : Ob I) (p : IterParams) : Except Err (Ob I × Option Remaining) := do
  match ← I.best .bid ob.bids with
  | none => askFinish I ob p p.coinQty 0 0 true false
  | some best =>
    let price ← nzPrice best
    let crossed := p.limitPrice ≤ price
    if !crossed || p.postOnly then askFinish I ob p p.coinQty 0 0 true crossed
    else
      let tradeQty := min best.quantity p.coinQty
      if tradeQty == 0 then askFinish I ob p p.coinQty 0 0 true crossed
      else if p.owner == best.owner then askSelfTrade I ob p best price tradeQty
      else
        let makerPc := wmul (wmul tradeQty price) ob.mkt.pcLot
        let rebate := best.feeTier.makerRebate makerPc
        let ob ← pushEv I ob (.fill .bid true (wsub makerPc rebate) (wmul tradeQty ob.mkt.coinLot)
          rebate best.key best.owner best.ownerSlot best.feeTier best.clientId)
        let ob ← fillBest I ob .bid best tradeQty
        askFinish I ob p (wsub p.coinQty tradeQty) (wmul tradeQty price) rebate false crossed

/-- Posting a bid, booting the least aggressive bid if the side is full: `matching.rs` 911-946. -/
def postBid (ob : Ob I) (p : IterParams) (qty : Nat) : Except Err (Ob I) := do
  match ← I.insert ob.bids (p.leaf qty) with
  | (bids, true) => return { ob with bids }
  | (bids, false) =>
    let (bids, l) ← I.evict .bid bids
    let l ← unwrap l
    let price ← nzPrice l
    let ob ← pushEv I { ob with bids }
      (l.out .bid true (wmul (wmul l.quantity price) ob.mkt.pcLot) 0)
    let (bids, ok) ← I.insert ob.bids (p.leaf qty)
    rustAssert ok
    return { ob with bids }

/-- Proceeds, taker fill event and fees of a match by a bid, `matching.rs` 823-862; also returns
`native_pc_qty_remaining`. `spent` is `max_pc_qty - pc_qty_remaining`. -/
def bidSettle (ob : Ob I) (p : IterParams) (coinRem spent rebates : Nat) :
    Except Err (Ob I × Nat) := do
  let accum := wmul spent ob.mkt.pcLot
  let fee := p.feeTier.takerFee accum
  let lots := wsub p.coinQty coinRem
  let paid := wadd accum fee
  let pr ← ob.pr.creditCoin lots
  let pr ← pr.addDebitPc paid
  let ob ← pushIf I (accum > 0 && !p.isSendTake) { ob with pr }
    (.fill .bid false paid (wmul lots ob.mkt.coinLot) fee p.orderId p.owner p.ownerSlot p.feeTier
      p.clientId)
  return ({ ob with mkt := ob.mkt.accrueFees fee rebates }, wsub (wsub p.pcLocked accum) fee)

/-- `coin_qty_to_post`, `matching.rs` 877-884. -/
def bidPostQty (m : Market) (p : IterParams) (coinRem pcRem : Nat) (crossed : Bool) : Nat :=
  if p.limitPrice ≠ 0 ∧ p.postAllowed ∧ ¬ crossed then
    min coinRem (pcRem / m.pcLot / p.limitPrice) else 0

/-- Releasing the funds a bid no longer needs, `matching.rs` 886-909. `keep` is
`pc_qty_to_keep_locked`. -/
def bidRelease (ob : Ob I) (p : IterParams) (pcRem keep : Nat) : Except Err (Ob I) := do
  if p.isSendTake then return ob
  else
    let still := wmul keep ob.mkt.pcLot
    let unlocked := wsub pcRem still
    let pr ← ob.pr.unlockPc unlocked
    pushEv I { ob with pr } (p.out .bid unlocked still)

/-- Posting or releasing what is left of a bid, `matching.rs` 877-947. -/
def bidRest (ob : Ob I) (p : IterParams) (coinRem pcRem : Nat) (crossed : Bool) :
    Except Err (Ob I) := do
  let post := bidPostQty ob.mkt p coinRem pcRem crossed
  let keep := wmul post p.limitPrice
  let ob ← bidRelease I ob p pcRem keep
  if keep > 0 then postBid I ob p post else return ob

/-- Everything after the loop of `new_bid`, `matching.rs` 823-950. -/
def bidFinish (ob : Ob I) (p : IterParams) (coinRem spent rebates : Nat) (done crossed : Bool) :
    Except Err (Ob I × Option Remaining) := do
  let (ob, pcRem) ← bidSettle I ob p coinRem spent rebates
  if !done && coinRem != 0 && pcRem != 0 then return (ob, some ⟨coinRem, pcRem⟩)
  else return (← bidRest I ob p coinRem pcRem crossed, none)

/-- Self-trade branch of `new_bid`, `matching.rs` 705-781. -/
def bidSelfTrade (ob : Ob I) (p : IterParams) (best : Leaf) (price tradeQty : Nat) :
    Except Err (Ob I × Option Remaining) := do
  let (provide, take) ← selfTradeQty p.stb best.quantity tradeQty
  let rest := wsub best.quantity provide
  let ob ← pushEv I ob (best.out .ask true (wmul provide ob.mkt.coinLot) (wmul rest ob.mkt.coinLot))
  let ob ← shrinkBest I ob .ask best.key rest
  let takerUnlocked := wmul (wmul take price) ob.mkt.pcLot
  let takerStill := wsub p.pcLocked takerUnlocked
  let coinRem := wsub p.coinQty take
  let go := coinRem != 0 && takerStill != 0
  let unlocked := if go then takerUnlocked else p.pcLocked
  let still := if go then takerStill else 0
  let pr ← ob.pr.unlockPc unlocked
  let ob ← pushEv I { ob with pr } (p.out .bid unlocked still)
  return (ob, if go then some ⟨coinRem, takerStill⟩ else none)

/-- `new_bid`, `matching.rs` 630-951. `limit_price` is `NonZeroU64::new(price)`, so `None` is 0.
Division by a zero lot size panics, `matching.rs` 658. -/
def newBid (ob : Ob I) (p : IterParams) : Except Err (Ob I × Option Remaining) := do
  checkAssert (!p.postAllowed || p.limitPrice != 0)
  rustAssert (ob.mkt.pcLot != 0)
  let maxPc := p.feeTier.removeTakerFee p.pcLocked / ob.mkt.pcLot
  match ← I.best .ask ob.asks with
  | none => bidFinish I ob p p.coinQty 0 0 true false
  | some best =>
    let price ← nzPrice best
    let crossed := p.limitPrice = 0 || price ≤ p.limitPrice
    if !crossed || p.postOnly then bidFinish I ob p p.coinQty 0 0 true crossed
    else
      let tradeQty := min (min best.quantity p.coinQty) (maxPc / price)
      if tradeQty == 0 then bidFinish I ob p p.coinQty 0 0 true crossed
      else if p.owner == best.owner then bidSelfTrade I ob p best price tradeQty
      else
        let makerPc := wmul (wmul tradeQty price) ob.mkt.pcLot
        let rebate := best.feeTier.makerRebate makerPc
        let ob ← pushEv I ob (.fill .ask true (wmul tradeQty ob.mkt.coinLot) (wadd makerPc rebate)
          rebate best.key best.owner best.ownerSlot best.feeTier best.clientId)
        let ob ← fillBest I ob .ask best tradeQty
        let pcLeft := wsub maxPc (wmul tradeQty price)
        bidFinish I ob p (wsub p.coinQty tradeQty) (wsub maxPc pcLeft) rebate false crossed

/-- `NewOrderParams`, `matching.rs` 222-233. `pcLocked = 0` is `None`. -/
structure OrderParams where
  side : Side
  orderType : OrderType
  orderId : Nat
  owner : Nat
  ownerSlot : Nat
  feeTier : FeeTier
  maxCoinQty : Nat
  pcLocked : Nat
  clientId : Nat
  stb : SelfTradeBehavior
  deriving DecidableEq, Repr

/-- The parameters handed to `new_bid` / `new_ask` in one round, `matching.rs` 264-314. -/
def OrderParams.iter (o : OrderParams) (coin pc : Nat) (postOnly : Bool) : IterParams :=
  { coinQty := coin, pcLocked := pc, limitPrice := extractPrice o.orderId, orderId := o.orderId,
    owner := o.owner, ownerSlot := o.ownerSlot, feeTier := o.feeTier, postOnly,
    postAllowed := o.orderType != .ioc, clientId := o.clientId, stb := o.stb }

/-- One round of the loop of `new_order`, `matching.rs` 275-315. -/
def newOrderStep (ob : Ob I) (o : OrderParams) (coin pc : Nat) (postOnly : Bool) :
    Except Err (Ob I × Option Remaining) :=
  match o.side with
  | .bid => do
    rustAssert (pc != 0)
    newBid I ob (o.iter coin pc postOnly)
  | .ask => do
    rustAssert (pc == 0)
    rustAssert (extractPrice o.orderId != 0)
    newAsk I ob (o.iter coin pc postOnly)

/-- The loop of `new_order`, `matching.rs` 267-324; recursion on `*limit`. Returns the remaining
limit too. -/
def newOrderLoop (o : OrderParams) : Nat → Ob I → Nat → Nat →
    Except Err (Ob I × Option Remaining × Nat)
  | 0, ob, coin, pc => do
    let (ob, r) ← newOrderStep I ob o coin pc true
    return (ob, r, 0)
  | limit + 1, ob, coin, pc => do
    let (ob, r) ← newOrderStep I ob o coin pc (o.orderType == .postOnly)
    match r with
    | none => return (ob, none, limit)
    | some r => newOrderLoop o limit ob r.coin r.pc

/-- `new_order`, `matching.rs` 241-324, called through `process_orderbook_request`, 87-131. -/
def newOrder (ob : Ob I) (o : OrderParams) (limit : Nat) :
    Except Err (Ob I × Option Remaining × Nat) :=
  newOrderLoop I o limit ob o.maxCoinQty o.pcLocked

/-- The book side of an order, `orders_mut`, `matching.rs` 72-77. -/
def Ob.side (ob : Ob I) : Side → I.Book
  | .bid => ob.bids
  | .ask => ob.asks

/-- Write back a book side. -/
def Ob.setSide (ob : Ob I) (side : Side) (b : I.Book) : Ob I :=
  match side with
  | .bid => { ob with bids := b }
  | .ask => { ob with asks := b }

/-- Unlocking the funds behind a cancelled order, `matching.rs` 989-1000. -/
def unlockLeaf (m : Market) (l : Leaf) (side : Side) (oo : OpenOrders) :
    Except Err (Nat × OpenOrders) :=
  match side with
  | .bid => do
    let price ← nzPrice l
    let n := wmul (wmul l.quantity price) m.pcLot
    return (n, ← oo.unlockPc n)
  | .ask => do
    let n := wmul l.quantity m.coinLot
    return (n, ← oo.unlockCoin n)

/-- `cancel_leaf_node`, `matching.rs` 975-1016. `oo` is the caller's open-orders account. -/
def cancelLeaf (ob : Ob I) (l : Leaf) (side : Side) (oo : OpenOrders) (ooAddr orderId : Nat) :
    Except Err (Ob I × OpenOrders) :=
  if l.owner ≠ ooAddr then .error .orderNotYours
  else do
    let id ← unwrap (oo.orderAt l.ownerSlot)
    checkAssert (orderId == id)
    checkAssert (oo.slotSide l.ownerSlot == some side)
    let (unlocked, oo) ← unlockLeaf ob.mkt l side oo
    let ob ← pushEv I ob (.out side false unlocked 0 orderId ooAddr l.ownerSlot l.clientId)
    return (ob, oo)

/-- `cancel_order_v2`, `matching.rs` 953-973. -/
def cancelOrderV2 (ob : Ob I) (side : Side) (ooAddr : Nat) (oo : OpenOrders) (orderId : Nat) :
    Except Err (Ob I × OpenOrders) := do
  let (b, l) ← I.remove (ob.side I side) orderId
  match l with
  | none => throw .orderNotFound
  | some l => cancelLeaf I (ob.setSide I side b) l side oo ooAddr orderId

/-- `filter_map(|k| remove_by_key(k))` over a list of keys, `matching.rs` 170-177. -/
def removeKeys (b : I.Book) : List Nat → Except Err (I.Book × List Leaf)
  | [] => .ok (b, [])
  | k :: ks => do
    let (b, l) ← I.remove b k
    let (b, ls) ← removeKeys b ks
    return (b, l.toList ++ ls)

/-- `remove_all`, `matching.rs` 159-179: bids removed, then asks removed. -/
def removeAll (ob : Ob I) (ooAddr limit : Nat) : Except Err (Ob I × List Leaf × List Leaf) := do
  let (askKeys, limit) := I.findBy ob.asks limit (fun l => l.owner == ooAddr)
  let (bidKeys, _) := I.findBy ob.bids limit (fun l => l.owner == ooAddr)
  let (bids, bl) ← removeKeys I ob.bids bidKeys
  let (asks, al) ← removeKeys I ob.asks askKeys
  return ({ ob with bids, asks }, bl, al)

end
end Serum
