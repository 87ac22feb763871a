import Verif.Codec

/-
Instruction encoding: `MarketInstruction::pack` and `::unpack`, `dex/src/instruction.rs` 46-665.
Byte strings are `List UInt8`.
-/

namespace Serum

/-- `x.to_le_bytes()` for an `n`-byte unsigned integer (also bincode's fixed-width encoding). -/
def leBytes : Nat → Nat → List UInt8
  | 0, _ => []
  | n + 1, x => UInt8.ofNat (x % 256) :: leBytes n (x / 256)

/-- `uN::from_le_bytes`. -/
def ofLe : List UInt8 → Nat
  | [] => 0
  | b :: bs => b.toNat + 256 * ofLe bs

/-- One step of `array_refs![data, .., n, ..]` followed by `uN::from_le_bytes`. -/
def readLe (n : Nat) (d : List UInt8) : Nat × List UInt8 := (ofLe (d.take n), d.drop n)

/-- `i64::to_le_bytes` as an unsigned value. -/
def i64ToNat (t : Int) : Nat := (t % 18446744073709551616).toNat

/-- `i64::from_le_bytes` from the unsigned value. -/
def i64OfNat (n : Nat) : Int := if n < 9223372036854775808 then n else (n : Int) - 18446744073709551616

/-- `i64::MAX`. -/
def i64Max : Int := 9223372036854775807

/-- `InitializeMarketInstruction`, `instruction.rs` 46-61. -/
structure InitMarketIx where
  coinLotSize : Nat
  pcLotSize : Nat
  feeRateBps : Nat
  vaultSignerNonce : Nat
  pcDustThreshold : Nat
  deriving DecidableEq, Repr

/-- `SendTakeInstruction`, `instruction.rs` 74-100 (`NonZeroU64` fields as `Nat`). -/
structure SendTakeIx where
  side : Side
  limitPrice : Nat
  maxCoinQty : Nat
  maxPcQty : Nat
  minCoinQty : Nat
  minPcQty : Nat
  limit : Nat
  deriving DecidableEq, Repr

/-- `NewOrderInstructionV3`, `instruction.rs` 102-128. -/
structure NewOrderIx where
  side : Side
  limitPrice : Nat
  maxCoinQty : Nat
  maxPcQty : Nat
  stb : SelfTradeBehavior
  orderType : OrderType
  clientId : Nat
  limit : Nat
  maxTs : Int
  deriving DecidableEq, Repr

/-- `NewOrderInstructionV1`, `instruction.rs` 149-165. -/
structure NewOrderV1Ix where
  side : Side
  limitPrice : Nat
  maxQty : Nat
  orderType : OrderType
  clientId : Nat
  deriving DecidableEq, Repr

/-- `MarketInstruction`, `instruction.rs` 327-516. `NewOrderInstructionV2` (130-147) is kept as a V1
record plus the self-trade behaviour. The unused `owner : [u64; 4]` of `CancelOrderInstruction`
is a tuple of four words. -/
inductive Instruction where
  | initializeMarket (ix : InitMarketIx)
  | newOrder (ix : NewOrderV1Ix)
  | matchOrders (limit : Nat)
  | consumeEvents (limit : Nat)
  | cancelOrder (side : Side) (orderId : Nat) (owner : Nat × Nat × Nat × Nat) (ownerSlot : Nat)
  | settleFunds
  | cancelOrderByClientId (clientId : Nat)
  | disableMarket
  | sweepFees
  | newOrderV2 (ix : NewOrderV1Ix) (stb : SelfTradeBehavior)
  | newOrderV3 (ix : NewOrderIx)
  | cancelOrderV2 (side : Side) (orderId : Nat)
  | cancelOrderByClientIdV2 (clientId : Nat)
  | sendTake (ix : SendTakeIx)
  | closeOpenOrders
  | initOpenOrders
  | prune (limit : Nat)
  | consumeEventsPermissioned (limit : Nat)
  | cancelOrdersByClientIds (ids : List Nat)
  | replaceOrderByClientId (ix : NewOrderIx)
  | replaceOrdersByClientIds (ixs : List NewOrderIx)
  deriving DecidableEq, Repr

/-- bincode encoding of `NewOrderInstructionV3` (derive `Serialize`, `instruction.rs` 102-128): enums
as `u32` variant numbers, integers little endian. -/
def NewOrderIx.pack (o : NewOrderIx) : List UInt8 :=
  leBytes 4 o.side.toCode ++ (leBytes 8 o.limitPrice ++ (leBytes 8 o.maxCoinQty ++
  (leBytes 8 o.maxPcQty ++ (leBytes 4 o.stb.toCode ++ (leBytes 4 o.orderType.toCode ++
  (leBytes 8 o.clientId ++ (leBytes 2 o.limit ++ leBytes 8 (i64ToNat o.maxTs))))))))

/-- bincode encoding of `NewOrderInstructionV1`, `instruction.rs` 149-165. -/
def NewOrderV1Ix.pack (o : NewOrderV1Ix) : List UInt8 :=
  leBytes 4 o.side.toCode ++ (leBytes 8 o.limitPrice ++ (leBytes 8 o.maxQty ++
  (leBytes 4 o.orderType.toCode ++ leBytes 8 o.clientId)))

/-- bincode encoding of `SendTakeInstruction`, `instruction.rs` 74-100. -/
def SendTakeIx.pack (o : SendTakeIx) : List UInt8 :=
  leBytes 4 o.side.toCode ++ (leBytes 8 o.limitPrice ++ (leBytes 8 o.maxCoinQty ++
  (leBytes 8 o.maxPcQty ++ (leBytes 8 o.minCoinQty ++ (leBytes 8 o.minPcQty ++ leBytes 2 o.limit)))))

/-- Elements of a sequence, one after the other. -/
def packList {α : Type} (f : α → List UInt8) : List α → List UInt8
  | [] => []
  | a :: as => f a ++ packList f as

/-- Variant number and payload of each instruction (`MarketInstruction`, `instruction.rs` 327-516, in
declaration order; a `Vec` is preceded by its `u64` length). -/
def Instruction.body : Instruction → Nat × List UInt8
  | .initializeMarket i => (0, leBytes 8 i.coinLotSize ++ (leBytes 8 i.pcLotSize ++
      (leBytes 2 i.feeRateBps ++ (leBytes 8 i.vaultSignerNonce ++ leBytes 8 i.pcDustThreshold))))
  | .newOrder i => (1, i.pack)
  | .matchOrders l => (2, leBytes 2 l)
  | .consumeEvents l => (3, leBytes 2 l)
  | .cancelOrder side id owner slot => (4, leBytes 4 side.toCode ++ (leBytes 16 id ++
      (leBytes 8 owner.1 ++ (leBytes 8 owner.2.1 ++ (leBytes 8 owner.2.2.1 ++
        (leBytes 8 owner.2.2.2 ++ leBytes 1 slot))))))
  | .settleFunds => (5, [])
  | .cancelOrderByClientId c => (6, leBytes 8 c)
  | .disableMarket => (7, [])
  | .sweepFees => (8, [])
  | .newOrderV2 i stb => (9, i.pack ++ leBytes 4 stb.toCode)
  | .newOrderV3 i => (10, i.pack)
  | .cancelOrderV2 side id => (11, leBytes 4 side.toCode ++ leBytes 16 id)
  | .cancelOrderByClientIdV2 c => (12, leBytes 8 c)
  | .sendTake i => (13, i.pack)
  | .closeOpenOrders => (14, [])
  | .initOpenOrders => (15, [])
  | .prune l => (16, leBytes 2 l)
  | .consumeEventsPermissioned l => (17, leBytes 2 l)
  | .cancelOrdersByClientIds ids => (18, packList (leBytes 8) ids)
  | .replaceOrderByClientId i => (19, i.pack)
  | .replaceOrdersByClientIds is => (20, leBytes 8 is.length ++ packList NewOrderIx.pack is)

/-- `MarketInstruction::pack`, `instruction.rs` 519-521: bincode of `(0u8, self)`. -/
def Instruction.pack (i : Instruction) : List UInt8 :=
  leBytes 1 0 ++ (leBytes 4 i.body.1 ++ i.body.2)

/-- `NewOrderInstructionV3::unpack`, `instruction.rs` 225-267 (given 54 bytes). The conversion
`u32 -> u8 -> enum` accepts exactly the enum's variant numbers. -/
def NewOrderIx.unpack (d : List UInt8) : Option NewOrderIx := do
  let (side, d) := readLe 4 d
  let (price, d) := readLe 8 d
  let (maxCoin, d) := readLe 8 d
  let (maxPc, d) := readLe 8 d
  let (stb, d) := readLe 4 d
  let (ty, d) := readLe 4 d
  let (cid, d) := readLe 8 d
  let (limit, d) := readLe 2 d
  let (ts, _) := readLe 8 d
  let side ← Side.ofCode side
  if price = 0 then none
  if maxCoin = 0 then none
  if maxPc = 0 then none
  let stb ← SelfTradeBehavior.ofCode stb
  let ty ← OrderType.ofCode ty
  return ⟨side, price, maxCoin, maxPc, stb, ty, cid, limit, i64OfNat ts⟩

/-- `NewOrderInstructionV1::unpack`, `instruction.rs` 270-299 (given 32 bytes). -/
def NewOrderV1Ix.unpack (d : List UInt8) : Option NewOrderV1Ix := do
  let (side, d) := readLe 4 d
  let (price, d) := readLe 8 d
  let (maxQty, d) := readLe 8 d
  let (ty, d) := readLe 4 d
  let (cid, _) := readLe 8 d
  let side ← Side.ofCode side
  if price = 0 then none
  if maxQty = 0 then none
  let ty ← OrderType.ofCode ty
  return ⟨side, price, maxQty, ty, cid⟩

/-- `SendTakeInstruction::unpack`, `instruction.rs` 190-222 (given 46 bytes). -/
def SendTakeIx.unpack (d : List UInt8) : Option SendTakeIx := do
  let (side, d) := readLe 4 d
  let (price, d) := readLe 8 d
  let (maxCoin, d) := readLe 8 d
  let (maxPc, d) := readLe 8 d
  let (minCoin, d) := readLe 8 d
  let (minPc, d) := readLe 8 d
  let (limit, _) := readLe 2 d
  let side ← Side.ofCode side
  if price = 0 then none
  if maxCoin = 0 then none
  if maxPc = 0 then none
  return ⟨side, price, maxCoin, maxPc, minCoin, minPc, limit⟩

/-- `data.chunks_exact(54).map(NewOrderInstructionV3::unpack).collect::<Option<Vec<_>>>()`,
`instruction.rs` 640-647, for `n` chunks. -/
def unpackOrders : Nat → List UInt8 → Option (List NewOrderIx)
  | 0, _ => some []
  | n + 1, d => do
    let o ← NewOrderIx.unpack (d.take 54)
    let os ← unpackOrders n (d.drop 54)
    return o :: os

/-- `data.chunks_exact(8)` decoded as `u64`s, `n` of them, `instruction.rs` 621-625. -/
def readIds : Nat → List UInt8 → List Nat
  | 0, _ => []
  | n + 1, d => ofLe (d.take 8) :: readIds n (d.drop 8)

/-- The `match (discrim, data.len())` of `MarketInstruction::unpack`, `instruction.rs` 532-651. -/
def Instruction.unpackBody (discrim : Nat) (d : List UInt8) : Option Instruction :=
  match discrim with
  | 0 =>
    if d.length = 34 then
      let (a, d) := readLe 8 d
      let (b, d) := readLe 8 d
      let (c, d) := readLe 2 d
      let (n, d) := readLe 8 d
      let (t, _) := readLe 8 d
      some (.initializeMarket ⟨a, b, c, n, t⟩)
    else none
  | 1 => if d.length = 32 then (NewOrderV1Ix.unpack d).map .newOrder else none
  | 2 => if d.length = 2 then some (.matchOrders (readLe 2 d).1) else none
  | 3 => if d.length = 2 then some (.consumeEvents (readLe 2 d).1) else none
  | 4 =>
    if d.length = 53 then
      let (side, d) := readLe 4 d
      let (id, d) := readLe 16 d
      let (o1, d) := readLe 8 d
      let (o2, d) := readLe 8 d
      let (o3, d) := readLe 8 d
      let (o4, d) := readLe 8 d
      let (slot, _) := readLe 1 d
      (Side.ofCode side).map fun side => .cancelOrder side id (o1, o2, o3, o4) slot
    else none
  | 5 => if d.length = 0 then some .settleFunds else none
  | 6 => if d.length = 8 then some (.cancelOrderByClientId (readLe 8 d).1) else none
  | 7 => if d.length = 0 then some .disableMarket else none
  | 8 => if d.length = 0 then some .sweepFees else none
  | 9 =>
    if d.length = 36 then do
      let v1 ← NewOrderV1Ix.unpack (d.take 32)
      let stb ← SelfTradeBehavior.ofCode (readLe 4 (d.drop 32)).1
      return .newOrderV2 v1 stb
    else none
  | 10 =>
    if d.length = 46 then (NewOrderIx.unpack (d ++ leBytes 8 (i64ToNat i64Max))).map .newOrderV3
    else if d.length = 54 then (NewOrderIx.unpack d).map .newOrderV3
    else none
  | 11 =>
    if d.length = 20 then
      let (side, d) := readLe 4 d
      let (id, _) := readLe 16 d
      (Side.ofCode side).map fun side => .cancelOrderV2 side id
    else none
  | 12 => if d.length = 8 then some (.cancelOrderByClientIdV2 (readLe 8 d).1) else none
  | 13 => if d.length = 46 then (SendTakeIx.unpack d).map .sendTake else none
  | 14 => if d.length = 0 then some .closeOpenOrders else none
  | 15 => if d.length = 0 then some .initOpenOrders else none
  | 16 => if d.length = 2 then some (.prune (readLe 2 d).1) else none
  | 17 => if d.length = 2 then some (.consumeEventsPermissioned (readLe 2 d).1) else none
  | 18 =>
    if d.length % 8 = 0 ∧ d.length ≤ 8 * 8 then
      some (.cancelOrdersByClientIds
        (readIds (d.length / 8) d ++ List.replicate (8 - d.length / 8) 0))
    else none
  | 19 => if d.length = 54 then (NewOrderIx.unpack d).map .replaceOrderByClientId else none
  | 20 =>
    if d.length % 54 = 8 ∧ d.length ≤ 8 + 8 * 54 then
      if (readLe 8 d).1 ≠ (d.length - 8) / 54 then none
      else (unpackOrders ((d.length - 8) / 54) (d.drop 8)).map .replaceOrdersByClientIds
    else none
  | _ => none

/-- `MarketInstruction::unpack`, `instruction.rs` 523-653. -/
def Instruction.unpack (bytes : List UInt8) : Option Instruction :=
  if bytes.length < 5 ∨ 5 + 8 + 54 * 8 < bytes.length then none
  else
    let (version, d) := readLe 1 bytes
    if version ≠ 0 then none
    else
      let (discrim, d) := readLe 4 d
      unpackBody discrim d

/-! ### Little-endian facts -/

@[simp] theorem leBytes_length (n x : Nat) : (leBytes n x).length = n := by
  induction n generalizing x with
  | zero => rfl
  | succ n ih => simp [leBytes, ih]

theorem ofLe_leBytes (n x : Nat) (h : x < 256 ^ n) : ofLe (leBytes n x) = x := by
  induction n generalizing x with
  | zero => simp at h; simp [leBytes, ofLe, h]
  | succ n ih =>
    rw [Nat.pow_succ] at h
    simp only [leBytes, ofLe]
    rw [ih (x / 256) (by omega)]
    simp only [UInt8.toNat_ofNat']
    omega

theorem ofLe_lt (d : List UInt8) : ofLe d < 256 ^ d.length := by
  induction d with
  | nil => simp [ofLe]
  | cons b d ih =>
    have := b.toNat_lt
    simp only [ofLe, List.length_cons, Nat.pow_succ]
    omega

theorem leBytes_ofLe (d : List UInt8) : leBytes d.length (ofLe d) = d := by
  induction d with
  | nil => rfl
  | cons b d ih =>
    have := b.toNat_lt
    simp only [ofLe, List.length_cons, leBytes]
    rw [show (b.toNat + 256 * ofLe d) / 256 = ofLe d by omega, ih,
      show (b.toNat + 256 * ofLe d) % 256 = b.toNat by omega]
    simp

theorem readLe_append {n x : Nat} (h : x < 256 ^ n) (r : List UInt8) :
    readLe n (leBytes n x ++ r) = (x, r) := by
  unfold readLe
  rw [List.take_left' (leBytes_length n x), List.drop_left' (leBytes_length n x), ofLe_leBytes n x h]

theorem readLe_self {n x : Nat} (h : x < 256 ^ n) : readLe n (leBytes n x) = (x, []) := by
  have := readLe_append h []
  simpa using this

/-- Every long enough byte string starts with the encoding of some integer. -/
theorem split_le (n : Nat) (d : List UInt8) (h : n ≤ d.length) :
    ∃ x r, x < 256 ^ n ∧ d = leBytes n x ++ r ∧ r.length = d.length - n := by
  refine ⟨ofLe (d.take n), d.drop n, ?_, ?_, by simp⟩
  · have := ofLe_lt (d.take n)
    rwa [List.length_take, Nat.min_eq_left h] at this
  · have := leBytes_ofLe (d.take n)
    rw [List.length_take, Nat.min_eq_left h] at this
    rw [this, List.take_append_drop]

theorem i64_round {t : Int} (h1 : -9223372036854775808 ≤ t) (h2 : t < 9223372036854775808) :
    i64OfNat (i64ToNat t) = t := by
  unfold i64OfNat i64ToNat
  split <;> omega

theorem i64_round' {n : Nat} (h : n < 18446744073709551616) : i64ToNat (i64OfNat n) = n := by
  unfold i64OfNat i64ToNat
  split <;> omega

theorem i64ToNat_lt (t : Int) : i64ToNat t < 18446744073709551616 := by
  unfold i64ToNat; omega

theorem i64OfNat_range {n : Nat} (h : n < 18446744073709551616) :
    -9223372036854775808 ≤ i64OfNat n ∧ i64OfNat n < 9223372036854775808 := by
  unfold i64OfNat; split <;> omega

end Serum
