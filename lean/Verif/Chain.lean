import Verif.InitMarket
import Verif.Token

/-
The program on bytes: any number of markets in one account space. An instruction decodes the accounts of its
market, runs `process` and writes back what changed (`dex/src/state.rs` 2550-2680 together with the loaders of
`Verif.Layout`). Histories of the whole chain: instructions of the dex, token instructions, and everything else
that may happen to accounts outside the program.

Simplifications: all accounts of the market are decoded, whether or not the instruction needs them, and errors
are not told apart (that they always decode is part of C67); bytes that carry no information (the rest of free
nodes, popped events, removed slots) are written in the form of `Verif.Layout`. `process` compares the address of the
market account with the address recorded in it; the program does not, but they are always equal (C67).
-/

namespace Serum

/-- Accounts as the program sees them, and the token accounts. -/
structure Chain where
  accs : Accs
  toks : Ledger

/-- The position of the market account among the accounts of an instruction (`state.rs` 1750-2535). -/
def marketAt (ix : Instruction) (accts : List AccMeta) : Option Nat :=
  let key (i : Nat) := (accts[i]?).map (·.key)
  match ix with
  | .consumeEvents _ => if 5 ≤ accts.length then key (accts.length - 4) else none
  | .consumeEventsPermissioned _ => if 4 ≤ accts.length then key (accts.length - 3) else none
  | .closeOpenOrders => key 3
  | .initOpenOrders => key 2
  | .settleFunds | .disableMarket | .sweepFees | .newOrderV3 _ | .cancelOrderV2 .. | .cancelOrderByClientIdV2 _
  | .sendTake _ | .prune _ | .cancelOrdersByClientIds _ | .replaceOrderByClientId _ | .replaceOrdersByClientIds _ => key 0
  | .initializeMarket _ | .newOrder _ | .matchOrders _ | .cancelOrder .. | .cancelOrderByClientId _ | .newOrderV2 .. => none

/-- An open-orders account of a market, open or closed: owned by the program, of the right size, flags and
market as expected (`load_orders_mut`, `state.rs` 156-198). -/
def ooOf (market : Nat) (a : RawAcc) : Option OpenOrders :=
  if a.owned ∧ a.data.length = 3228 then
    let l := readFields ooWidths (middle a.data)
    if (l.getD 0 0 = 5 ∨ l.getD 0 0 = 256) ∧ l.getD 1 0 = market then some (OpenOrders.ofFields l) else none
  else none

/-- Other accounts offered as open-orders account: blank ones are initialised (`state.rs` 173-189), the rest is
rejected. The program tests only the flags word; accounts whose flags word is zero are all zero (C67). -/
def acctKind (a : RawAcc) : AcctKind :=
  if a.owned && a.data == zeros 3228 then .zeroed a.exempt else .other .wrongOrdersAccount

/-- The state of the market at address `k`, with the open-orders accounts among `keys`. A market that uses one
account for both sides never loads its bids (`loadBids`). -/
def loadState (c : Chain) (k : Nat) (keys : List Nat) : Except Err (State conc) := do
  let m ← loadMarketBytes (c.accs k).owned (c.accs k).data true
  let (_, count, seq, _) ← loadReqQBytes (c.accs m.reqQ).data
  let q ← loadEventQBytes (c.accs m.eventQ).data
  let asks ← loadBookBytes .ask (c.accs m.asks).data
  let bids ← if m.bids = m.asks then .ok asks else loadBookBytes .bid (c.accs m.bids).data
  return {
    mkt := m, reqCount := count, seq := seq
    oos := keys.filterMap fun a => (ooOf m.ownAddress (c.accs a)).map (a, ·)
    toks := c.toks, bids := bids, asks := asks, q := q }

/-- The bytes of a request queue with another sequence number. -/
def putSeq (d : List UInt8) (seq : Nat) : List UInt8 :=
  let l := readFields [8, 8, 8, 8] ((middle d).take 32)
  reqQBytes (l.getD 1 0) (l.getD 2 0) (seq % W64) ((middle d).drop 32)

/-- The bytes of an account after an instruction that took the market from `s` to `s'`: rewritten if the value it
holds changed. -/
def putData (k : Nat) (s s' : State conc) (keys : List Nat) (a : Nat) (d : List UInt8) : List UInt8 :=
  if a = k then (if s'.mkt = s.mkt then d else s'.mkt.bytes)
  else if a = s.mkt.reqQ then (if s'.seq = s.seq then d else putSeq d s'.seq)
  else if a = s.mkt.eventQ then
    (if s'.q = s.q then d else eventQBytes s'.q ((middle d).drop (32 + 88 * s.q.buf.length)))
  else if a = s.mkt.asks then
    (if s'.asks = s.asks then d else bookBytes .ask s'.asks ((middle d).drop (40 + 72 * s.asks.nodes.length)))
  else if a = s.mkt.bids then
    (if s'.bids = s.bids then d else bookBytes .bid s'.bids ((middle d).drop (40 + 72 * s.bids.nodes.length)))
  else if a ∈ keys then
    match ooAt s'.oos a with
    | some o => if ooAt s.oos a = some o then d else o.bytes s.mkt.ownAddress
    | none => d
  else d

/-- Write back what changed. -/
def storeState (c : Chain) (k : Nat) (s s' : State conc) (keys : List Nat) : Chain :=
  { accs := fun a => { c.accs a with data := putData k s s' keys a (c.accs a).data }
    toks := s'.toks }

/-- One instruction of the dex on the chain, `State::process`, `state.rs` 2550-2680. `MatchOrders` does nothing
(2585-2588). -/
def execBytes (P : Params) (mints : Nat → Bool) (now : Int) (c : Chain) (accts : List AccMeta) (data : List UInt8) :
    Except Err Chain :=
  match Instruction.unpack data with
  | none => .error .programError
  | some (.initializeMarket ix) => do
    let W ← initMarket P mints c.toks c.accs accts ix
    return { c with accs := W }
  | some (.matchOrders _) => .ok c
  | some ix =>
    match marketAt ix accts with
    | none => .error .assertion
    | some k => do
      let keys := accts.map (·.key)
      let s ← loadState c k keys
      let s' ← process conc P ⟨now, fun a => acctKind (c.accs a)⟩ s accts ix
      return storeState c k s s' keys

/-- The runtime's limit on the size of accounts: 10 MiB. -/
def maxLen : Nat := 10 * 1024 * 1024

/-- What may happen to an account outside the program: lamports come and go; an account that the program does not
own, or that it closed (`state.rs` 2912), may be deleted, created anew and handed over to the program, always
zeroed. -/
inductive Alters : RawAcc → RawAcc → Prop where
  | lamports (r : RawAcc) (e : Bool) : Alters r { r with exempt := e }
  | other {r r' : RawAcc} (h : r.owned = false ∨ ofLe ((r.data.drop 5).take 8) = 256)
      (hz : r'.owned = true → ∃ n, r'.data = zeros n) (hl : r'.data.length ≤ maxLen) : Alters r r'

/-- One step of the chain. Vault signers are program-derived addresses: they sign only inside the dex. -/
inductive CStep (P : Params) : Chain → Chain → Prop where
  /-- A successful instruction of the dex, with 32-byte addresses, whoever sends it with whatever accounts and data. -/
  | instr {c c' : Chain} {mints : Nat → Bool} {now : Int} {accts : List AccMeta} {data : List UInt8}
      (hk : ∀ a ∈ accts, a.key < 256 ^ 32)
      (hs : ∀ a ∈ accts, a.signer = true → ∀ k n, P.vaultSigner k n ≠ some a.key)
      (h : execBytes P mints now c accts data = .ok c') : CStep P c c'
  /-- A token instruction. -/
  | token {c : Chain} {signs : Nat → Bool} {ix : TokIx} {l : Ledger}
      (hs : ∀ a, signs a = true → ∀ k n, P.vaultSigner k n ≠ some a)
      (h : tokExec signs c.toks ix = some l) : CStep P c { c with toks := l }
  /-- Something else happens to an account; the system program's account (address 0) cannot be handed over. -/
  | alter {c : Chain} {a : Nat} {r : RawAcc} (h : Alters (c.accs a) r) (h0 : a = 0 → r.owned = false) :
      CStep P c { c with accs := fun x => if x = a then r else c.accs x }

/-- Chains before the program is deployed. -/
structure CStart (c : Chain) : Prop where
  owned : ∀ a, (c.accs a).owned = false
  lens : ∀ a, (c.accs a).data.length ≤ maxLen
  amounts : ∀ a t, c.toks a = some t → t.amount < W64

/-- Chains reachable in `n` steps. -/
inductive CReach (P : Params) : Nat → Chain → Prop where
  | start {c : Chain} (h : CStart c) : CReach P 0 c
  | step {n : Nat} {c c' : Chain} (h : CReach P n c) (hs : CStep P c c') : CReach P (n + 1) c'

end Serum
