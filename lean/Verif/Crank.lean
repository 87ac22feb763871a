import Verif.Client
import Verif.InitMarket

/-!
The crank, `dex/crank/src/lib.rs`: what it reads from the accounts it fetches and the instructions it makes of that. The
RPC client, threads, timing and logging are not modelled.
-/

namespace Serum.Crank

/-- `remove_dex_account_padding`, `lib.rs` 393-420. The first slice panics on less than five bytes; the cast to words needs
at least one and nothing left over. -/
def removePadding (d : List UInt8) : Except Err (List UInt8) := do
  rustAssert (5 ≤ d.length)
  checkAssert (12 ≤ d.length)
  checkAssert (d.take 5 == headPad)
  checkAssert (d.drop (d.length - 7) == tailPad)
  checkAssert ((d.length - 12) % 8 == 0 && decide (12 < d.length))
  return middle d

/-- `MarketPubkeys`, `lib.rs` 380-392. -/
structure MarketKeys where
  market : Nat
  reqQ : Nat
  eventQ : Nat
  bids : Nat
  asks : Nat
  coinVault : Nat
  pcVault : Nat
  vaultSigner : Nat
  deriving DecidableEq, Repr

/-- `get_keys_for_market`, `lib.rs` 422-472, on the bytes of the account. The cast to the struct needs its exact size. -/
def keysForMarket (P : Params) (market : Nat) (d : List UInt8) : Except Err MarketKeys := do
  let b ← removePadding d
  let f ← accountFlags d
  let widths := if hasFlag f 512 then marketWidthsV2 else marketWidthsV1
  checkAssert (b.length == widths.sum)
  let m := Market.ofFields (readFields widths b)
  checkMarketFlags m.flags true
  match P.vaultSigner market m.vaultSignerNonce with
  | none => .error .programError
  | some vs =>
    rustAssert (m.ownAddress == market)
    return ⟨market, m.reqQ, m.eventQ, m.bids, m.asks, m.coinVault, m.pcVault, vs⟩

/-- `parse_event_queue`, `lib.rs` 474-484: the events from the head to the end of the buffer, and those that wrapped
around. `split_at` and slicing panic out of range; the cast to events needs at least one and ignores what is left over. -/
def parseEventQueue (b : List UInt8) : Except Err (List Event × List Event) := do
  rustAssert (32 ≤ b.length)
  let h := readFields [8, 8, 8, 8] (b.take 32)
  let events := (items 88 (b.drop 32)).map Event.ofBytes
  checkAssert (1 ≤ events.length)
  let head := h.getD 1 0
  let count := h.getD 2 0
  rustAssert (head ≤ events.length)
  let headLen := min (events.drop head).length count
  rustAssert (count - headLen ≤ (events.take head).length)
  return ((events.drop head).take headLen, (events.take head).take (count - headLen))

/-- What `read_queue_length_loop`, `lib.rs` 1579-1592, answers to a request, given the bytes of all accounts. The HTTP server
and the JSON around the number are not modelled. -/
def queueLength (P : Params) (market : Nat) (bytes : Nat → List UInt8) : Except Err Nat := do
  let keys ← keysForMarket P market (bytes market)
  let b ← removePadding (bytes keys.eventQ)
  let (seg0, seg1) ← parseEventQueue b
  return seg0.length + seg1.length

/-- `BTreeSet::insert` on the sorted list of a set's elements. -/
def insertKey (k : Nat) : List Nat → List Nat
  | [] => [k]
  | x :: l => if k = x then x :: l else if keyLe k x then k :: x :: l else x :: insertKey k l

/-- The accounts for one instruction, `lib.rs` 593-602: owners in the order of their events until there are enough. -/
def collectOwners (num : Nat) : List Nat → List Nat → List Nat
  | [], used => used
  | k :: ks, used =>
    if num ≤ (insertKey k used).length then insertKey k used else collectOwners num ks (insertKey k used)

/-- `consume_events_loop`, `lib.rs` 515-670, one round without the waiting: the instructions sent, all alike, one for each
worker. The request queue is read as if it held events. `events_per_worker` is cast to `u16` (720) and divides (638). -/
def loopCalls (prog : Nat) (keys : MarketKeys) (coinWallet pcWallet numWorkers perWorker numAccounts : Nat)
    (eventQ reqQ : List UInt8) : Except Err (List Call) := do
  let b ← removePadding eventQ
  let (seg0, seg1) ← parseEventQueue b
  let r ← removePadding reqQ
  let _ ← parseEventQueue r
  if seg0.length + seg1.length = 0 then return []
  else do
    let owners := collectOwners numAccounts ((seg0 ++ seg1).map (·.owner)) []
    rustAssert (perWorker != 0)
    let c : Call :=
      { prog := prog
        metas := owners.map wr ++ [wr keys.market, wr keys.eventQ, wr coinWallet, wr pcWallet]
        data := (Instruction.consumeEvents (perWorker % 65536)).pack }
    return List.replicate (min numWorkers (2 * (seg0.length + seg1.length) / perWorker + 1)) c

/-- `Vec::dedup`: drops repetitions of neighbours. -/
def dedup : List Nat → List Nat
  | a :: b :: l => if a = b then dedup (b :: l) else a :: dedup (b :: l)
  | l => l

/-- `consume_events_instruction`, `lib.rs` 779-823: the 32 lowest owners, and as many events as there are accounts in the
list. -/
def onceCall (prog : Nat) (keys : MarketKeys) (coinWallet pcWallet : Nat) (eventQ : List UInt8) :
    Except Err (Option Call) := do
  let b ← removePadding eventQ
  let (seg0, seg1) ← parseEventQueue b
  if seg0.length + seg1.length = 0 then return none
  else
    let owners := (dedup (((seg0 ++ seg1).map (·.owner)).mergeSort fun a b => decide (keyLe a b))).take 32
    let metas := owners.map wr ++ [wr keys.market, wr keys.eventQ, wr coinWallet, wr pcWallet]
    return some { prog := prog, metas := metas, data := (Instruction.consumeEvents (metas.length % 65536)).pack }

/-- The instruction of `place_order`, `lib.rs` 1169-1188. -/
def placeOrder (P : Params) (prog rent wallet payer oo : Nat) (keys : MarketKeys) (ix : NewOrderIx) : Call :=
  { prog := prog
    metas := [wr keys.market, wr oo, wr keys.reqQ, wr keys.eventQ, wr keys.bids, wr keys.asks, wr wallet, roSig payer,
      wr keys.coinVault, wr keys.pcVault, ro P.splToken, ro rent]
    data := (Instruction.newOrderV3 ix).pack }

/-- The instruction of `settle_funds`, `lib.rs` 1212-1227. -/
def settleFunds (P : Params) (prog signer oo coinWallet pcWallet : Nat) (keys : MarketKeys) : Call :=
  { prog := prog
    metas := [wr keys.market, wr oo, roSig signer, wr keys.coinVault, wr keys.pcVault, wr coinWallet, wr pcWallet,
      ro keys.vaultSigner, ro P.splToken]
    data := Instruction.settleFunds.pack }

/-- The instruction of `match_orders`, `lib.rs` 1429-1443. -/
def matchOrders (prog coinWallet pcWallet : Nat) (keys : MarketKeys) : Call :=
  { prog := prog
    metas := [wr keys.market, wr keys.reqQ, wr keys.eventQ, wr keys.bids, wr keys.asks, wr coinWallet, wr pcWallet]
    data := (Instruction.matchOrders 2).pack }

/-- The nonce search of `gen_listing_params`, `lib.rs` 1374-1383, from `i` with `fuel` tries left: the first nonce that
gives an address. Running out of tries panics. -/
def findNonce (P : Params) (market : Nat) : Nat → Nat → Except Err (Nat × Nat)
  | 0, _ => .error .panic
  | fuel + 1, i =>
    match P.vaultSigner market i with
    | some vs => .ok (i, vs)
    | none => findNonce P market fuel (i + 1)

/-- The sizes of the accounts `list_market` creates, `gen_listing_params`, `lib.rs` 1369-1373, with the padding added by
`create_dex_account` (1409). -/
def listingSizes : List Nat := [376, 640, 1 <<< 20, 1 <<< 16, 1 <<< 16].map (· + 12)

/-- `list_market`, `lib.rs` 1258-1348: the instruction that initialises the market; `vaults` are the token accounts
created for the address found. -/
def listMarket (P : Params) (prog rent market reqQ eventQ bids asks coinVault pcVault coinMint pcMint coinLot pcLot : Nat) :
    Except Err (Call × Nat) := do
  let (nonce, vs) ← findNonce P market 100 0
  return (Client.initializeMarket rent market prog coinMint pcMint coinVault pcVault none none none bids asks reqQ eventQ
    coinLot pcLot nonce 100, vs)

end Serum.Crank
