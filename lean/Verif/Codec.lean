import Verif.Fees
import Verif.OrderId

/-
Queue item codecs: `Event::new` / `Event::as_view` and `Request::new` / `Request::as_view`,
`dex/src/state.rs` 923-1347.
-/

namespace Serum

/-- `OrderType`, `matching.rs` 49-59. -/
inductive OrderType where
  | limit | ioc | postOnly
  deriving DecidableEq, Repr

/-- `SelfTradeBehavior`, `instruction.rs` 62-72. -/
inductive SelfTradeBehavior where
  | decrementTake | cancelProvide | abortTransaction
  deriving DecidableEq, Repr

/-- `OrderType as u32`, `matching.rs` 49-59. -/
def OrderType.toCode : OrderType → Nat | .limit => 0 | .ioc => 1 | .postOnly => 2
/-- `OrderType::try_from_primitive`. -/
def OrderType.ofCode : Nat → Option OrderType
  | 0 => some .limit | 1 => some .ioc | 2 => some .postOnly | _ => none

/-- `SelfTradeBehavior as u8`, `instruction.rs` 62-72. -/
def SelfTradeBehavior.toCode : SelfTradeBehavior → Nat
  | .decrementTake => 0 | .cancelProvide => 1 | .abortTransaction => 2
/-- `SelfTradeBehavior::try_from_primitive`. -/
def SelfTradeBehavior.ofCode : Nat → Option SelfTradeBehavior
  | 0 => some .decrementTake | 1 => some .cancelProvide | 2 => some .abortTransaction | _ => none

/-- `Side as u8`, `matching.rs` 38-47. -/
def Side.toCode : Side → Nat | .bid => 0 | .ask => 1
/-- `Side::try_from_primitive`. -/
def Side.ofCode : Nat → Option Side | 0 => some .bid | 1 => some .ask | _ => none

/-- `EventView`, `state.rs` 1315-1339. `Option<NonZeroU64>` client ids are kept as the `Nat` they
are stored as, 0 standing for `None` (`map_or(0, NonZeroU64::get)` and `NonZeroU64::new` are
mutually inverse). -/
inductive EventView where
  | fill (side : Side) (maker : Bool) (paid received feeOrRebate orderId owner ownerSlot : Nat)
      (feeTier : FeeTier) (clientId : Nat)
  | out (side : Side) (releaseFunds : Bool) (unlocked stillLocked orderId owner ownerSlot : Nat)
      (clientId : Nat)
  deriving DecidableEq, Repr

/-- `EventView::side`, `state.rs` 1341-1347. -/
def EventView.side : EventView → Side
  | .fill s .. => s
  | .out s .. => s

/-- `Event`, `state.rs` 1167-1184 (padding dropped: always zero, never read). -/
structure Event where
  flags : Nat
  ownerSlot : Nat
  feeTier : Nat
  released : Nat
  paid : Nat
  feeOrRebate : Nat
  orderId : Nat
  owner : Nat
  clientId : Nat
  deriving DecidableEq, Repr

/-- The zeroed `Event` of a fresh queue account. -/
def Event.zero : Event := ⟨0, 0, 0, 0, 0, 0, 0, 0, 0⟩

/-- `EventFlag::from_side(side).bits()`, `state.rs` 1148-1155. -/
def sideFlag : Side → Nat | .bid => 0x4 | .ask => 0

/-- `Event::new`, `state.rs` 1191-1266. -/
def Event.new : EventView → Event
  | .fill side maker paid received fee orderId owner slot tier cid =>
    { flags := (sideFlag side ||| 0x1) ||| (if maker then 0x8 else 0)
      ownerSlot := slot, feeTier := tier.toU8
      released := received, paid := paid, feeOrRebate := fee
      orderId, owner, clientId := cid }
  | .out side release unlocked still orderId owner slot cid =>
    { flags := (sideFlag side ||| 0x2) ||| (if release then 0x10 else 0)
      ownerSlot := slot, feeTier := 0
      released := unlocked, paid := still, feeOrRebate := 0
      orderId, owner, clientId := cid }

/-- `flags.contains(bit)` for a single bit. -/
def hasFlag (flags bit : Nat) : Bool := flags &&& bit == bit

/-- `allowed.contains(flags)`. -/
def within (flags allowed : Nat) : Bool := flags &&& allowed == flags

/-- `Event::as_view`, `state.rs` 1269-1312. `BitFlags::from_bits(..).unwrap()` panics on unknown
bits. Note that the `Out` branch does not require the `Out` bit itself. -/
def Event.asView (e : Event) : Except Err EventView := do
  rustAssert (within e.flags 0x1f)
  let side := if hasFlag e.flags 0x4 then Side.bid else Side.ask
  if hasFlag e.flags 0x1 then
    checkAssert (within e.flags (0x1 ||| 0x4 ||| 0x8))
    match FeeTier.ofU8 e.feeTier with
    | none => throw .assertion
    | some tier =>
      return .fill side (hasFlag e.flags 0x8) e.paid e.released e.feeOrRebate e.orderId e.owner
        e.ownerSlot tier e.clientId
  else
    checkAssert (within e.flags (0x2 ||| 0x4 ||| 0x10))
    return .out side (hasFlag e.flags 0x10) e.released e.paid e.orderId e.owner e.ownerSlot e.clientId

theorem Event.asView_new (v : EventView) : (Event.new v).asView = .ok v := by
  cases v with
  | fill side maker paid received fee orderId owner slot tier cid =>
    cases side <;> cases maker <;>
      simp [Event.new, Event.asView, sideFlag, rustAssert, within, hasFlag, checkAssert,
        FeeTier.ofU8_toU8, bind, Except.bind, pure, Except.pure]
  | out side release unlocked still orderId owner slot cid =>
    cases side <;> cases release <;>
      simp [Event.new, Event.asView, sideFlag, rustAssert, within, hasFlag, checkAssert,
        bind, Except.bind, pure, Except.pure]

/-- `RequestView`, `state.rs` 951-973 (client ids as in `EventView`, `native_pc_qty_locked` likewise
0 for `None`). -/
inductive RequestView where
  | newOrder (side : Side) (orderType : OrderType) (ownerSlot : Nat) (feeTier : FeeTier)
      (orderId maxCoinQty pcLocked owner clientId : Nat) (stb : SelfTradeBehavior)
  | cancelOrder (side : Side) (orderId cancelId ownerSlot owner clientId : Nat)
  deriving DecidableEq, Repr

/-- `Request`, `state.rs` 934-947 (padding dropped). -/
structure Request where
  flags : Nat
  ownerSlot : Nat
  feeTier : Nat
  stb : Nat
  maxCoinQtyOrCancelId : Nat
  pcLocked : Nat
  orderId : Nat
  owner : Nat
  clientId : Nat
  deriving DecidableEq, Repr

/-- `Request::new`, `state.rs` 977-1040. -/
def Request.new : RequestView → Request
  | .newOrder side ty slot tier orderId maxCoin pcLocked owner cid stb =>
    let f := 0x01 ||| (match side with | .bid => 0x04 | .ask => 0)
    let f := f ||| (match ty with | .postOnly => 0x08 | .ioc => 0x10 | .limit => 0)
    { flags := f, ownerSlot := slot, feeTier := tier.toU8, stb := stb.toCode,
      maxCoinQtyOrCancelId := maxCoin, pcLocked, orderId, owner, clientId := cid }
  | .cancelOrder side orderId cancelId slot owner cid =>
    { flags := 0x02 ||| (match side with | .bid => 0x04 | .ask => 0), ownerSlot := slot,
      feeTier := 0, stb := 0, maxCoinQtyOrCancelId := cancelId, pcLocked := 0, orderId, owner,
      clientId := cid }

/-- `Request::as_view`, `state.rs` 1043-1096. -/
def Request.asView (r : Request) : Except Err RequestView := do
  rustAssert (within r.flags 0x3f)
  let side := if hasFlag r.flags 0x04 then Side.bid else Side.ask
  if hasFlag r.flags 0x01 then
    checkAssert (within r.flags (0x01 ||| 0x04 ||| 0x08 ||| 0x10))
    let ty ← match hasFlag r.flags 0x08, hasFlag r.flags 0x10 with
      | true, false => pure OrderType.postOnly
      | false, true => pure OrderType.ioc
      | false, false => pure OrderType.limit
      | true, true => throw Err.panic
    match FeeTier.ofU8 r.feeTier, SelfTradeBehavior.ofCode r.stb with
    | some tier, some stb =>
      rustAssert (r.maxCoinQtyOrCancelId != 0)
      return .newOrder side ty r.ownerSlot tier r.orderId r.maxCoinQtyOrCancelId r.pcLocked r.owner
        r.clientId stb
    | _, _ => throw .assertion
  else
    checkAssert (hasFlag r.flags 0x02)
    checkAssert (within r.flags (0x02 ||| 0x04))
    return .cancelOrder side r.orderId r.maxCoinQtyOrCancelId r.ownerSlot r.owner r.clientId

/-- The `NonZeroU64` constraint on a new-order request's quantity. -/
def RequestView.Valid : RequestView → Prop
  | .newOrder _ _ _ _ _ maxCoin _ _ _ _ => maxCoin ≠ 0
  | .cancelOrder .. => True

theorem Request.asView_new (v : RequestView) (hv : v.Valid) : (Request.new v).asView = .ok v := by
  cases v with
  | newOrder side ty slot tier orderId maxCoin pcLocked owner cid stb =>
    have h : (maxCoin != 0) = true := by simpa [RequestView.Valid] using hv
    cases side <;> cases ty <;> cases stb <;>
      simp [Request.new, Request.asView, rustAssert, within, hasFlag, checkAssert,
        FeeTier.ofU8_toU8, SelfTradeBehavior.ofCode, SelfTradeBehavior.toCode, h, bind, Except.bind,
        pure, Except.pure]
  | cancelOrder side orderId cancelId slot owner cid =>
    cases side <;>
      simp [Request.new, Request.asView, rustAssert, within, hasFlag, checkAssert, bind,
        Except.bind, pure, Except.pure]

end Serum
