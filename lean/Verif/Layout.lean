import Verif.Processor
import Verif.Instr

/-
Byte layout of the accounts the program owns, and the loaders that turn account bytes into the values the
other modules work on: `dex/src/state.rs` 30-760, 868-878, 1093-1106, 1167-1184 and `critbit.rs` 28-60,
127-170, 253-320. Addresses are 32-byte little-endian numbers.
-/

namespace Serum

/-! ### Fixed-width fields -/

/-- Unsigned little-endian fields, `(width in bytes, value)`, one after the other: a `repr(packed)` struct. -/
def packFields : List (Nat × Nat) → List UInt8
  | [] => []
  | (w, x) :: fs => leBytes w x ++ packFields fs

/-- Read fields of the given widths. -/
def readFields : List Nat → List UInt8 → List Nat
  | [], _ => []
  | w :: ws, d => ofLe (d.take w) :: readFields ws (d.drop w)

/-- Every value fits its field. -/
def FieldsFit (fs : List (Nat × Nat)) : Prop := ∀ f ∈ fs, f.2 < 256 ^ f.1

theorem packFields_length (fs : List (Nat × Nat)) : (packFields fs).length = (fs.map (·.1)).sum := by
  induction fs with
  | nil => rfl
  | cons f fs ih => obtain ⟨w, x⟩ := f; simp [packFields, ih, leBytes_length]

theorem packFields_append (fs gs : List (Nat × Nat)) : packFields (fs ++ gs) = packFields fs ++ packFields gs := by
  induction fs with
  | nil => rfl
  | cons f fs ih => obtain ⟨w, x⟩ := f; simp [packFields, ih]

/-- What was written is read back, whatever follows. -/
theorem read_pack (fs : List (Nat × Nat)) (r : List UInt8) (h : FieldsFit fs) :
    readFields (fs.map (·.1)) (packFields fs ++ r) = fs.map (·.2) := by
  induction fs with
  | nil => rfl
  | cons f fs ih =>
    obtain ⟨w, x⟩ := f
    simp only [List.map_cons, readFields, packFields, List.append_assoc]
    rw [List.take_left' (leBytes_length w x), List.drop_left' (leBytes_length w x), ofLe_leBytes w x (h (w, x) (by simp)),
      ih (fun f hf => h f (by simp [hf]))]

/-! ### Padding and slices -/

/-- `ACCOUNT_HEAD_PADDING`, `state.rs` 351: `b"serum"`. -/
def headPad : List UInt8 := [115, 101, 114, 117, 109]

/-- `ACCOUNT_TAIL_PADDING`, `state.rs` 352: `b"padding"`. -/
def tailPad : List UInt8 := [112, 97, 100, 100, 105, 110, 103]

/-- What `init_account_padding` leaves around a body, `state.rs` 354-360. -/
def padded (body : List UInt8) : List UInt8 := headPad ++ (body ++ tailPad)

/-- The bytes between the paddings. -/
def middle (d : List UInt8) : List UInt8 := (d.drop 5).take (d.length - 12)

/-- `check_account_padding`, `state.rs` 362-368; the cast to 8-byte words needs a multiple of 8. -/
def checkPadding (d : List UInt8) : Except Err (List UInt8) := do
  checkAssert (12 ≤ d.length)
  checkAssert (d.take 5 == headPad)
  checkAssert (d.drop (d.length - 7) == tailPad)
  checkAssert ((d.length - 12) % 8 == 0)
  return middle d

/-- `strip_header` with `init_allowed = false`, `state.rs` 378-415: header and rest. `split_at_mut` panics on a
body shorter than the header. -/
def stripHeader (hdr : Nat) (d : List UInt8) : Except Err (List UInt8 × List UInt8) := do
  let b ← checkPadding d
  rustAssert (hdr ≤ b.length)
  return (b.take hdr, b.drop hdr)

/-- `remove_slop` and the cast to items of `k` bytes, `state.rs` 2534-2545: the items of a slice. -/
def items (k : Nat) (d : List UInt8) : List (List UInt8) :=
  (List.range (d.length / k)).map fun i => (d.drop (k * i)).take k

/-! ### Market accounts -/

/-- `MarketState`, `state.rs` 300-343. -/
def Market.fieldsV1 (m : Market) : List (Nat × Nat) :=
  [(8, m.flags), (32, m.ownAddress), (8, m.vaultSignerNonce), (32, m.coinMint), (32, m.pcMint),
   (32, m.coinVault), (8, m.coinDeposits), (8, m.coinFees), (32, m.pcVault), (8, m.pcDeposits), (8, m.pcFees),
   (8, m.pcDust), (32, m.reqQ), (32, m.eventQ), (32, m.bids), (32, m.asks), (8, m.coinLot), (8, m.pcLot),
   (8, m.feeRateBps), (8, m.referrerRebates)]

/-- `MarketStateV2`, `state.rs` 201-211. -/
def Market.fieldsV2 (m : Market) : List (Nat × Nat) :=
  m.fieldsV1 ++ [(32, m.ooAuthority), (32, m.pruneAuthority), (32, m.crankAuthority), (992, 0)]

def marketWidthsV1 : List Nat := [8, 32, 8, 32, 32, 32, 8, 8, 32, 8, 8, 8, 32, 32, 32, 32, 8, 8, 8, 8]
def marketWidthsV2 : List Nat := marketWidthsV1 ++ [32, 32, 32, 992]

/-- A market from its fields; the authorities of version 1 are absent. -/
def Market.ofFields (l : List Nat) : Market :=
  { flags := l.getD 0 0, ownAddress := l.getD 1 0, vaultSignerNonce := l.getD 2 0, coinMint := l.getD 3 0
    pcMint := l.getD 4 0, coinVault := l.getD 5 0, coinDeposits := l.getD 6 0, coinFees := l.getD 7 0
    pcVault := l.getD 8 0, pcDeposits := l.getD 9 0, pcFees := l.getD 10 0, pcDust := l.getD 11 0
    reqQ := l.getD 12 0, eventQ := l.getD 13 0, bids := l.getD 14 0, asks := l.getD 15 0
    coinLot := l.getD 16 0, pcLot := l.getD 17 0, feeRateBps := l.getD 18 0, referrerRebates := l.getD 19 0
    ooAuthority := l.getD 20 0, pruneAuthority := l.getD 21 0, crankAuthority := l.getD 22 0 }

/-- The bytes of a market account. -/
def Market.bytes (m : Market) : List UInt8 :=
  padded (packFields (if m.permissioned then m.fieldsV2 else m.fieldsV1))

/-- The flags word of an account, `Market::account_flags`, `state.rs` 115-126. -/
def accountFlags (d : List UInt8) : Except Err Nat := do
  checkAssert (13 ≤ d.length)
  let f := ofLe ((d.drop 5).take 8)
  if !within f 0x7ff then .error .invalidMarketFlags else .ok f

/-- `MarketState::load` and `MarketStateV2::load`, `state.rs` 228-253 and 418-437, up to the flag check:
`from_bytes_mut` panics unless the size is exactly that of the struct. -/
def marketFrom (widths : List Nat) (d : List UInt8) : Except Err Market := do
  let b ← checkPadding d
  rustAssert (b.length == widths.sum)
  return Market.ofFields (readFields widths b)

/-- `Market::load`, `state.rs` 91-113, on an account's bytes (`owned`: the account belongs to the program). -/
def loadMarketBytes (owned : Bool) (d : List UInt8) (allowDisabled : Bool) : Except Err Market := do
  let f ← accountFlags d
  checkAssert owned
  let m ← marketFrom (if hasFlag f 512 then marketWidthsV2 else marketWidthsV1) d
  checkMarketFlags m.flags allowDisabled
  return m

/-! ### Open orders accounts -/

/-- `OpenOrders`, `state.rs` 556-576; `market` is the address of its market. A closed account has only the
closed flag (2912). -/
def OpenOrders.fields (o : OpenOrders) (market : Nat) : List (Nat × Nat) :=
  [(8, if o.closed then 256 else 5), (32, market), (32, o.owner), (8, o.coinFree), (8, o.coinTotal), (8, o.pcFree),
   (8, o.pcTotal), (16, o.freeBits.toNat), (16, o.bidBits.toNat)] ++
  (o.orders.map fun x => (16, x)) ++ (o.clientIds.map fun x => (8, x)) ++ [(8, o.rebates)]

def ooWidths : List Nat :=
  [8, 32, 32, 8, 8, 8, 8, 16, 16] ++ List.replicate 128 16 ++ List.replicate 128 8 ++ [8]

def OpenOrders.ofFields (l : List Nat) : OpenOrders :=
  { closed := l.getD 0 0 == 256, owner := l.getD 2 0, coinFree := l.getD 3 0, coinTotal := l.getD 4 0
    pcFree := l.getD 5 0, pcTotal := l.getD 6 0, freeBits := BitVec.ofNat 128 (l.getD 7 0)
    bidBits := BitVec.ofNat 128 (l.getD 8 0), orders := (l.drop 9).take 128, clientIds := (l.drop 137).take 128
    rebates := l.getD 265 0 }

def OpenOrders.bytes (o : OpenOrders) (market : Nat) : List UInt8 := padded (packFields (o.fields market))

/-- `load_orders_mut`, `state.rs` 156-198, for an account that is initialised already: flags, market and owner
are compared (`strip_header` writes the same padding again). -/
def loadOrdersBytes (owned : Bool) (d : List UInt8) (market : Nat) (owner : Option Nat) : Except Err OpenOrders := do
  checkAssert owned
  checkAssert (12 ≤ d.length)
  checkAssert ((d.length - 12) % 8 == 0)
  rustAssert ((middle d).length == ooWidths.sum)
  let l := readFields ooWidths (middle d)
  if !within (l.getD 0 0) 0x7ff then .error .invalidMarketFlags
  else if l.getD 0 0 ≠ 5 then .error .wrongOrdersAccount
  else if l.getD 1 0 ≠ market then .error .wrongOrdersAccount
  else if owner ≠ none ∧ owner ≠ some (l.getD 2 0) then .error .wrongOrdersAccount
  else .ok (OpenOrders.ofFields l)

/-! ### Queues -/

/-- `Event`, `state.rs` 1167-1184. -/
def Event.fields (e : Event) : List (Nat × Nat) :=
  [(1, e.flags), (1, e.ownerSlot), (1, e.feeTier), (5, 0), (8, e.released), (8, e.paid), (8, e.feeOrRebate),
   (16, e.orderId), (32, e.owner), (8, e.clientId)]

def eventWidths : List Nat := [1, 1, 1, 5, 8, 8, 8, 16, 32, 8]

def Event.ofFields (l : List Nat) : Event :=
  { flags := l.getD 0 0, ownerSlot := l.getD 1 0, feeTier := l.getD 2 0, released := l.getD 4 0, paid := l.getD 5 0
    feeOrRebate := l.getD 6 0, orderId := l.getD 7 0, owner := l.getD 8 0, clientId := l.getD 9 0 }

def Event.bytes (e : Event) : List UInt8 := packFields e.fields
def Event.ofBytes (d : List UInt8) : Event := Event.ofFields (readFields eventWidths d)

/-- `EventQueueHeader` and the ring buffer, `state.rs` 1093-1106; `slop` are bytes after the last whole item. -/
def eventQBytes (q : Queue Event) (slop : List UInt8) : List UInt8 :=
  padded (packFields [(8, 17), (8, q.head), (8, q.count), (8, q.seq)] ++ (packList Event.bytes q.buf ++ slop))

/-- The flag check of the queue and book loaders (`BitFlags::from_bits(..).unwrap()` panics on unknown bits). -/
def checkFlags (f want : Nat) : Except Err Unit := do
  rustAssert (within f 0x7ff)
  checkAssert (f == want)

/-- `load_event_queue_mut`, `state.rs` 500-512, without the comparison of the address. -/
def loadEventQBytes (d : List UInt8) : Except Err (Queue Event) := do
  let (h, b) ← stripHeader 32 d
  let l := readFields [8, 8, 8, 8] h
  checkFlags (l.getD 0 0) 17
  return { head := l.getD 1 0, count := l.getD 2 0, seq := l.getD 3 0, buf := (items 88 b).map Event.ofBytes }

/-- `RequestQueueHeader`, `state.rs` 868-878, in front of the (unused) request slots. -/
def reqQBytes (head count seq : Nat) (slots : List UInt8) : List UInt8 :=
  padded (packFields [(8, 9), (8, head), (8, count), (8, seq)] ++ slots)

/-- `load_request_queue_mut`, `state.rs` 485-498: head, count and next sequence number, and the number of
80-byte slots. -/
def loadReqQBytes (d : List UInt8) : Except Err (Nat × Nat × Nat × Nat) := do
  let (h, b) ← stripHeader 32 d
  let l := readFields [8, 8, 8, 8] h
  checkFlags (l.getD 0 0) 9
  return (l.getD 1 0, l.getD 2 0, l.getD 3 0, b.length / 80)

/-! ### Book sides -/

/-- A slab node, `critbit.rs` 28-37, 49-60, 127-133, 161-167. -/
def Node.fields : Node → List (Nat × Nat)
  | .uninit => [(4, 0), (68, 0)]
  | .inner p k c0 c1 => [(4, 1), (4, p), (16, k), (4, c0), (4, c1), (40, 0)]
  | .leaf l => [(4, 2), (1, l.ownerSlot), (1, l.feeTier.toU8), (2, 0), (16, l.key), (32, l.owner), (8, l.quantity),
      (8, l.clientId)]
  | .free n => [(4, 3), (4, n), (64, 0)]
  | .lastFree n => [(4, 4), (4, n), (64, 0)]

def Node.bytes (n : Node) : List UInt8 := packFields n.fields

/-- `AnyNode::case` and the casts behind it, `critbit.rs` 207-225; the fee tier byte of a leaf is decoded
(86-89). -/
def Node.ofBytes (d : List UInt8) : Node :=
  let rest := d.drop 4
  match ofLe (d.take 4) with
  | 1 =>
    let l := readFields [4, 16, 4, 4] rest
    .inner (l.getD 0 0) (l.getD 1 0) (l.getD 2 0) (l.getD 3 0)
  | 2 =>
    let l := readFields [1, 1, 2, 16, 32, 8, 8] rest
    .leaf { ownerSlot := l.getD 0 0, feeTier := (FeeTier.ofU8 (l.getD 1 0)).getD .base, key := l.getD 3 0
            owner := l.getD 4 0, quantity := l.getD 5 0, clientId := l.getD 6 0 }
  | 3 => .free (ofLe (rest.take 4))
  | 4 => .lastFree (ofLe (rest.take 4))
  | _ => .uninit

/-- `SlabHeader` and nodes, `critbit.rs` 253-262, 320-333. -/
def Slab.fields (s : Slab) : List (Nat × Nat) :=
  [(8, s.bumpIndex), (8, s.freeLen), (4, s.freeHead), (4, s.root), (8, s.leafCount)]

def Slab.bytes (s : Slab) : List UInt8 := packFields s.fields ++ packList Node.bytes s.nodes

/-- `Slab::new`, `critbit.rs` 295-305: panics on less than a header, drops incomplete nodes. -/
def Slab.ofBytes (d : List UInt8) : Except Err Slab := do
  rustAssert (32 ≤ d.length)
  let l := readFields [8, 8, 4, 4, 8] d
  return { bumpIndex := l.getD 0 0, freeLen := l.getD 1 0, freeHead := l.getD 2 0, root := l.getD 3 0
           leafCount := l.getD 4 0, nodes := (items 72 (d.drop 32)).map Node.ofBytes }

/-- `Initialized | Bids` and `Initialized | Asks`. -/
def sideFlags : Side → Nat
  | .bid => 33
  | .ask => 65

/-- `OrderBookStateHeader` and the slab. -/
def bookBytes (sd : Side) (s : Slab) (slop : List UInt8) : List UInt8 :=
  padded (packFields [(8, sideFlags sd)] ++ (s.bytes ++ slop))

/-- `load_bids_mut` and `load_asks_mut`, `state.rs` 457-475, without the comparison of the address. -/
def loadBookBytes (sd : Side) (d : List UInt8) : Except Err Slab := do
  let (h, b) ← stripHeader 8 d
  checkFlags (ofLe h) (sideFlags sd)
  Slab.ofBytes b

end Serum
