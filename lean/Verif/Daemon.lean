import Verif.Crank

/-!
The loop of the crank around its rounds: `dex/crank/src/lib.rs` 515-708. `Crank.loopCalls` is the round.

Instants are nanoseconds since some beginning. The second's sleep of line 540, the log and the re-reading of the payer's key
file (639) are left out; an answer that does not come ends the loop with an error as the code does and is not modelled.
-/

namespace Serum.Crank

/-- The arguments of `consume_events_loop`, `lib.rs` 515-527, with the keys of the market (530). -/
structure LoopOpts where
  prog : Nat
  keys : MarketKeys
  coinWallet : Nat
  pcWallet : Nat
  workers : Nat
  perWorker : Nat
  numAccounts : Nat
  maxQ : Nat
  /-- In seconds. -/
  maxWait : Nat
deriving DecidableEq

/-- What the loop keeps: `max_slot_height` (533) and `last_cranked_at` (534). -/
structure Daemon where
  maxSlot : Nat
  last : Nat
deriving DecidableEq

/-- What one pass meets: the slot and the account data the node answers with (544-564), the instant of `elapsed` (580), for
each worker whether the node took its transaction (688), and the instant at which all workers are done (662). -/
structure Look where
  slot : Nat
  eventQ : Option (List UInt8)
  reqQ : Option (List UInt8)
  now : Nat
  took : Nat → Bool
  done : Nat

/-- `std::time::Duration::from_secs`. -/
def secs (n : Nat) : Nat := n * 1000000000

/-- The state before the first pass, `lib.rs` 533-536: `checked_sub` fails when the instant cannot be represented. -/
def startDaemon (o : LoopOpts) (now : Nat) : Daemon :=
  { maxSlot := 0, last := if secs o.maxWait ≤ now then now - secs o.maxWait else now }

/-- The length of an event queue as the loop reads it, `lib.rs` 565-569. -/
def readLength (d : List UInt8) : Except Err Nat := do
  let b ← removePadding d
  let (seg0, seg1) ← parseEventQueue b
  return seg0.length + seg1.length

/-- One pass of the loop, `lib.rs` 539-668, with `consume_events_wrapper` (672-708): the new state and the instructions sent.
The workers' updates of `max_slot_height` are all alike, so their order does not matter. -/
def pass (o : LoopOpts) (st : Daemon) (l : Look) : Except Err (Daemon × List Call) :=
  if l.slot ≤ st.maxSlot then .ok (st, [])
  else do
    let e ← checkSome l.eventQ
    let r ← checkSome l.reqQ
    let len ← readLength e
    let _ ← readLength r
    if len = 0 then .ok (st, [])
    else if l.now - st.last < secs o.maxWait ∧ len < o.maxQ then .ok (st, [])
    else do
      let calls ← loopCalls o.prog o.keys o.coinWallet o.pcWallet o.workers o.perWorker o.numAccounts e r
      .ok ({ maxSlot := if (List.range calls.length).any l.took then max l.slot st.maxSlot else st.maxSlot, last := l.done },
        calls)
where
  /-- `ok_or(format_err!(..))?`, `lib.rs` 557 and 562. -/
  checkSome : Option (List UInt8) → Except Err (List UInt8)
    | some d => .ok d
    | none => .error .assertion

/-- The passes of a run of the loop, with what each sent. -/
def passes (o : LoopOpts) (st : Daemon) : List Look → Except Err (Daemon × List (Look × List Call))
  | [] => .ok (st, [])
  | l :: ls => do
    let (st', calls) ← pass o st l
    let (st'', rest) ← passes o st' ls
    .ok (st'', (l, calls) :: rest)

end Serum.Crank
