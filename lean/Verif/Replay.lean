import Verif.Demo

/-
The project's own tests, `dex/src/tests.rs`, replayed on the model with the numbers they assert. These are checks of the model
against what the authors of the program expect of it, not proofs of any property. Amounts, prices, order sizes and the sequence of
calls are those of the tests; keys are small numbers and queues and books are shorter.
-/

namespace Serum.Replay
open Serum.Demo (P acc sig zeroEvent)

/-- The clock of a test build, `state.rs` 3241-3242. -/
def env : Env := { now := 1650000000, acct := fun _ => .zeroed true }

/-- `setup_market`, 167-278: coin lots of 1000, price lots of 1, dust threshold 5. -/
def mkt : Market := { Demo.mkt with coinLot := 1000, pcLot := 1, pcDust := 5 }

def tok (mint owner amount : Nat) : Tok := ⟨mint, owner, amount, false, none, 0, none⟩

/-- The vaults, the base and quote wallets 21 and 31 of trader 11, and those of the taker 12. -/
def start (coin pc tcoin tpc : Nat) : State conc :=
  { mkt := mkt, reqCount := 0, seq := 0, oos := []
    toks := fun a => match a with
      | 51 => some (tok 80 60 0)
      | 52 => some (tok 81 60 0)
      | 21 => some (tok 80 11 coin)
      | 31 => some (tok 81 11 pc)
      | 22 => some (tok 80 12 tcoin)
      | 32 => some (tok 81 12 tpc)
      | _ => none
    bids := Slab.fresh 16, asks := Slab.fresh 16, q := Queue.fresh (List.replicate 32 zeroEvent) }

/-- One call through the entry point: the bytes the test packs. -/
def call (accts : List AccMeta) (ix : Instruction) (s : State conc) : Except Err (State conc) :=
  processRaw conc P env s accts ix.pack

def orderAccts (oo payer owner : Nat) : List AccMeta :=
  [acc 50, acc oo, acc 53, acc 54, acc 55, acc 56, acc payer, sig owner, acc 51, acc 52, acc 73, acc 0]
def cancelAccts (oo owner : Nat) : List AccMeta := [acc 50, acc 55, acc 56, acc oo, sig owner, acc 54]
def takeAccts : List AccMeta :=
  [acc 50, acc 53, acc 54, acc 55, acc 56, acc 22, acc 32, sig 12, acc 51, acc 52, acc 73, sig 60]
def crankAccts (oos : List Nat) : List AccMeta := oos.map acc ++ [acc 50, acc 54, acc 21, acc 31]

def order (side : Side) (price coin pc : Nat) (ty : OrderType) (cid limit : Nat) (maxTs : Int := i64Max) : NewOrderIx :=
  { side, limitPrice := price, maxCoinQty := coin, maxPcQty := pc, stb := .abortTransaction, orderType := ty, clientId := cid,
    limit, maxTs }

/-- `layer_orders`, 280-349: a limit order at each price, sizes rising by `step`. -/
def layer (side : Side) (accts : List AccMeta) (prices : List Nat) (step : Nat) (s : State conc) : Except Err (State conc) :=
  (prices.zipIdx).foldlM (fun s (p, i) => call accts (.newOrderV3 (order side p (1 + step * i) ((1 + step * i) * p) .limit i 1)) s) s

/-- Free and total coin, free and total quote of an account. -/
def funds (s : State conc) (oo : Nat) : Option (Nat × Nat × Nat × Nat) :=
  (ooAt s.oos oo).map fun o => (o.coinFree, o.coinTotal, o.pcFree, o.pcTotal)

/-- Deposits, fees and rebates of the market. -/
def books (s : State conc) : Nat × Nat × Nat := (s.mkt.pcDeposits, s.mkt.pcFees, s.mkt.referrerRebates)

/-- `get_bbo`, 360-396: best bid and ask with their sizes. -/
def bbo (s : State conc) : Option ((Nat × Nat) × (Nat × Nat)) := do
  let b ← s.bids.contents.getLast?
  let a ← s.asks.contents.head?
  return ((b.price, b.quantity), (a.price, a.quantity))

/-- Do the calls succeed, with a final state satisfying `p`? -/
def gives (r : Except Err (State conc)) (p : State conc → Bool) : Bool :=
  match r with
  | .ok s => p s
  | .error _ => false

/-- Does the call fail with this error? -/
def fails (r : Except Err (State conc)) (e : Err) : Bool :=
  match r with
  | .ok _ => false
  | .error e' => e' == e

/-- `test_new_order`, 407-561. -/
def newOrder1 := call (orderAccts 41 31 11) (.newOrderV3 (order .bid 100000 5 520000 .limit 0xabcd 5)) (start 10000 1000000 0 0)
def newOrder2 := newOrder1 >>= call (orderAccts 42 21 11) (.newOrderV3 (order .ask 99000 4 (W64 - 1) .limit 0 5))
def newOrder3 := newOrder2 >>= call (crankAccts [41, 42]) (.consumeEvents 200)

example : gives newOrder1 (fun s => books s = (520000, 0, 0)) = true := by decide +kernel
example : gives newOrder2 (fun s => s.mkt.referrerRebates = 32 ∧ s.mkt.pcFees = 128 ∧
    s.mkt.pcFees + s.mkt.pcDeposits + s.mkt.referrerRebates = 520000 ∧
    funds s 41 = some (0, 0, 20000, 520000) ∧ funds s 42 = some (0, 0, 399840, 399840)) = true := by decide +kernel
example : gives newOrder3 (fun s => s.mkt.referrerRebates = 32 ∧ s.mkt.pcFees = 128 ∧
    s.mkt.pcFees + s.mkt.pcDeposits + s.mkt.referrerRebates = 520000 ∧
    funds s 41 = some (4000, 4000, 20000, 120000) ∧ funds s 42 = some (0, 0, 399840, 399840)) = true := by decide +kernel

/-- `test_ioc_new_order`, 564-729. -/
def layered (tcoin tpc : Nat) : Except Err (State conc) :=
  layer .bid (orderAccts 41 31 11) [10000, 9800, 9600, 9400, 9200, 9000] 2 (start 25000 1000000 tcoin tpc) >>=
    layer .ask (orderAccts 41 21 11) [10100, 10300, 10500, 10700, 10900, 11100] 1
def ioc1 := layered 6000 100000 >>= call (orderAccts 42 22 12) (.newOrderV3 (order .ask 10000 1 1 .ioc 0xface 1))
def ioc2 := ioc1 >>= call (orderAccts 42 22 12) (.newOrderV3 (order .ask 9800 5 1 .ioc 0xabcd 1))

example : gives ioc1 (fun s => bal s.toks 22 = 5000 ∧ bal s.toks 32 = 100000 ∧ bbo s = some ((9800, 3), (10100, 1))) = true := by
  decide +kernel
example : gives ioc2 (fun s => (bbo s).map (fun b => (b.1.1, b.2.1)) = some (9600, 10100)) = true := by decide +kernel

/-- `test_send_take`, 732-1083. -/
def takeIx (side : Side) (price minCoin minPc limit : Nat) (pc : Nat := 3 * price) : Instruction :=
  .sendTake { side, limitPrice := price, maxCoinQty := 3, maxPcQty := pc, minCoinQty := minCoin, minPcQty := minPc, limit }
def take1 := layered 6000 100000 >>= call takeAccts (takeIx .bid 10299 0 0 50)
def take2 := take1 >>= call takeAccts (takeIx .ask 9999 0 0 1)
def take3 := take2 >>= call takeAccts (takeIx .ask 9999 3 (3 * 9999) 2)
def take4 := take2 >>= call takeAccts (takeIx .ask 9800 1 0 2 (3 * 9999))
def take5 := take4 >>= call (crankAccts [41]) (.consumeEvents 200)

example : gives take1 (fun s => bal s.toks 22 = 7000 ∧ bal s.toks 32 = 100000 - 10100 - 5) = true := by decide +kernel
example : gives take2 (fun s => bal s.toks 22 = 6000 ∧ bal s.toks 32 = (100000 - 10100 - 5) + 10000 - 4) = true := by decide +kernel
example : gives take3 (fun _ => true) = false := by decide +kernel
example : gives take4 (fun s => bbo s = some ((9600, 5), (10300, 2)) ∧ bal s.toks 22 = 3000 ∧
    bal s.toks 32 = (100000 - 10100 - 5 + 10000 - 4) + 3 * 9800 - 12) = true := by decide +kernel
/-- The total on the book before the taker's sales: 1·10000 + 3·9800 + … + 11·9000. -/
def onBook : Nat := 10000 + 3 * 9800 + 5 * 9600 + 7 * 9400 + 9 * 9200 + 11 * 9000
example : gives take5 (fun s => funds s 41 = some (4000, 24000, 10100, onBook - 10000 - 9800 * 3 + 10100)) = true := by
  decide +kernel

/-- `test_cancel_orders`, 1086-1176. -/
def bid50 (cid : Nat) : Instruction := .newOrderV3 (order .bid 10000 10 50000 .limit cid 5)
def cancels1 := call (orderAccts 41 31 11) (bid50 0x123a) (start 0 1000000 0 0) >>= call (orderAccts 41 31 11) (bid50 0x123b) >>=
  call (orderAccts 41 31 11) (bid50 0x123c)
def cancels2 := cancels1 >>= call (cancelAccts 41 11) (.cancelOrdersByClientIds [0x123a, 0x123d, 0, 0x123c, 0, 0, 0, 0])

example : gives cancels1 (fun s => books s = (150000, 0, 0) ∧ funds s 41 = some (0, 0, 0, 150000)) = true := by decide +kernel
example : gives cancels2 (fun s => funds s 41 = some (0, 0, 100000, 150000)) = true := by decide +kernel

/-- `test_max_ts_order`, 1179-1262. -/
def dated (ts : Int) := call (orderAccts 41 31 11) (.newOrderV3 (order .bid 10000 10 50000 .limit 0xabcd 5 ts)) (start 0 1000000 0 0)

example : fails (dated 1649999999) .orderMaxTimestampExceeded = true ∧ gives (dated 1650000000) (fun _ => true) = true := by
  decide +kernel

/-- `test_replace_orders`, 1265-1430. -/
def bidOf (pc cid : Nat) : NewOrderIx := order .bid 10000 10 pc .limit cid 5
def repl1 := call (orderAccts 41 31 11) (bid50 0xabc1) (start 0 1000000 0 0) >>= call (orderAccts 41 31 11) (bid50 0xabc2) >>=
  call (orderAccts 41 31 11) (bid50 0xabc3)
def repl2 := repl1 >>= call (orderAccts 41 31 11) (.replaceOrderByClientId (bidOf 60000 0xabc1))
def repl3 := repl2 >>= call (orderAccts 41 31 11)
  (.replaceOrdersByClientIds [bidOf 70000 0xabc1, bidOf 70000 0xabc3, bidOf 70000 0xabc4])

example : gives repl1 (fun s => books s = (150000, 0, 0) ∧ funds s 41 = some (0, 0, 0, 150000)) = true := by decide +kernel
example : gives repl2 (fun s => funds s 41 = some (0, 0, 0, 160000)) = true := by decide +kernel
example : gives repl3 (fun s => funds s 41 = some (0, 0, 0, 260000)) = true := by decide +kernel

end Serum.Replay
