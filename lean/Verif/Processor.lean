import Verif.Matching
import Verif.Instr

/-
The instruction processor, `dex/src/state.rs` 91-198 (loading), 502-575 (checks), 1611-2540 (account
parsing) and 2550-3465 (processing), for the accounts of one market.

Scope and simplifications.
* One market. An instruction naming another market account is out of scope and is an error here: the
  accounts that instruction may change are checked against that other market (queue, book and vault keys,
  the `market` field of open-orders accounts, the vault signer derived from the market key).
* Public keys are `Nat`s, ordered as `[u64; 4]`.
* Rust's dynamic borrow checks (`RefCell`) never fail because the accounts borrowed together are
  distinct; lamports are in `Verif.Rent`.
* The SPL token program is modelled by `splTransfer`.
-/

namespace Serum

/-- An `AccountInfo` as the processor sees it: key and signature. -/
structure AccMeta where
  key : Nat
  signer : Bool
  deriving DecidableEq, Repr

/-- An SPL token account. `frozen` accounts fail the `data[0x6c] == 1` test of `TokenAccount`,
`state.rs` 1480-1488. -/
structure Tok where
  mint : Nat
  owner : Nat
  amount : Nat
  frozen : Bool
  delegate : Option Nat
  delegated : Nat
  closeAuth : Option Nat
  deriving DecidableEq, Repr

/-- Token accounts by address. -/
abbrev Ledger := Nat → Option Tok

/-- A key's place in the order of `[u64; 4]`: keys are 32 bytes, as four little-endian words compared first word
first. -/
def keyRank (k : Nat) : Nat :=
  (((k / W64 ^ 4 * W64 + k % W64) * W64 + k / W64 % W64) * W64 + k / W64 ^ 2 % W64) * W64 + k / W64 ^ 3 % W64

/-- The order of `[u64; 4]`, used for sorting and searching keys. -/
def keyLe (a b : Nat) : Prop := keyRank a ≤ keyRank b

instance (a b : Nat) : Decidable (keyLe a b) := inferInstanceAs (Decidable (_ ≤ _))

/-- `slice::binary_search_by_key` on keys, `state.rs` 3114: what the standard library promises. A key
reported as found is in the slice, and in a sorted slice every present key is found. -/
structure Search where
  find : List Nat → Nat → Bool
  sound : ∀ l a, find l a = true → a ∈ l
  complete : ∀ l a, l.Pairwise keyLe → a ∈ l → find l a = true

/-- Linear search satisfies the contract. -/
def Search.linear : Search where
  find l a := l.contains a
  sound l a h := by simpa using h
  complete l a _ h := by simpa using h

/-- Constants of the deployed program: `fee_sweeper::ID`, `disable_authority::ID`, `spl_token::ID`,
`srm_token::ID`, `msrm_token::ID` (`lib.rs`, `state.rs`), the stable market list (`fees.rs` 93-104), and
`gen_vault_signer_key` (`state.rs` 1364-1371; `none` if the seeds give no valid address). -/
structure Params where
  feeSweeper : Nat
  disableAuth : Nat
  splToken : Nat
  srmMint : Nat
  msrmMint : Nat
  isStable : Nat → Bool
  vaultSigner : Nat → Nat → Option Nat
  search : Search

/-- An account offered as open-orders account that is not in the market's map: a zeroed account owned
by the program, or one whose loading fails with the given error (foreign owner, other market, ...). -/
inductive AcctKind where
  | zeroed (rentExempt : Bool)
  | other (e : Err)
  deriving DecidableEq, Repr

/-- Facts about the outside world during one instruction: `Clock::unix_timestamp` and the accounts
that are not yet open-orders accounts of this market. -/
structure Env where
  now : Int
  acct : Nat → AcctKind

/-- Everything but the books and the event queue. `seq` is the number of order ids drawn so far, of
which the request queue stores the low 64 bits as `next_seq_num`. -/
structure Core where
  mkt : Market
  reqCount : Nat
  seq : Nat
  oos : List (Nat × OpenOrders)
  toks : Ledger

/-- The on-chain state of a market and of the token accounts it interacts with. -/
structure State (I : Impl) extends Core where
  bids : I.Book
  asks : I.Book
  q : I.Q

/-- Replace every error by an assertion error: `.or(check_unreachable!())`. -/
def orAssert {α : Type} (x : Except Err α) : Except Err α :=
  match x with
  | .ok a => .ok a
  | .error _ => .error .assertion

/-! ### Loading accounts -/

/-- Bit tests on `account_flags`, `state.rs` 49-63. -/
def Market.permissioned (m : Market) : Bool := hasFlag m.flags 512
def Market.crankFlag (m : Market) : Bool := hasFlag m.flags 1024
def Market.isDisabled (m : Market) : Bool := hasFlag m.flags 128

/-- `Market::load` as a function of the flags word: `account_flags` (115-126), the choice of version
(98-111), `MarketState::check_flags` (440-455) and `MarketStateV2::check_flags` (255-283), all in
`state.rs`. -/
def checkMarketFlags (flags : Nat) (allowDisabled : Bool) : Except Err Unit :=
  if !within flags 0x7ff then .error .invalidMarketFlags
  else if hasFlag flags 512 then
    if flags == 515 || flags == 1539 || (allowDisabled && (flags == 643 || flags == 1667)) then .ok ()
    else .error .invalidMarketFlags
  else if flags == 3 || (allowDisabled && flags == 131) then .ok ()
  else .error .invalidMarketFlags

/-- `Market::load`, `state.rs` 91-113. -/
def loadMarket (c : Core) (a : AccMeta) (allowDisabled : Bool) : Except Err Unit := do
  checkAssert (a.key == c.mkt.ownAddress)
  checkMarketFlags c.mkt.flags allowDisabled

/-- `open_orders_authority`, `state.rs` 128-133. -/
def Market.ooAuth (m : Market) : Option Nat := if m.permissioned then some m.ooAuthority else none
/-- `prune_authority`, `state.rs` 135-140. -/
def Market.pruneAuth (m : Market) : Option Nat := if m.permissioned then some m.pruneAuthority else none
/-- `consume_events_authority`, `state.rs` 142-154. -/
def Market.crankAuth (m : Market) : Option Nat :=
  if m.permissioned && m.crankFlag then some m.crankAuthority else none

/-- The open-orders account at an address. -/
def ooAt (l : List (Nat × OpenOrders)) (a : Nat) : Option OpenOrders := l.lookup a

/-- Write back an open-orders account. -/
def setOo : List (Nat × OpenOrders) → Nat → OpenOrders → List (Nat × OpenOrders)
  | [], a, o => [(a, o)]
  | (b, p) :: t, a, o => if a == b then (a, o) :: t else (b, p) :: setOo t a o

/-- Initialising a zeroed account, `state.rs` 172-187. -/
def initOrders (m : Market) (owner : Option Nat) (rent : Bool) (auth : Option Nat) (exempt : Bool) :
    Except Err OpenOrders :=
  if auth ≠ m.ooAuth then .error .invalidOpenOrdersAuthority
  else if !rent then .error .rentNotProvided
  else match owner with
    | none => .error .ownerAccountNotProvided
    | some o => if !exempt then .error .ordersNotRentExempt else .ok (OpenOrders.init o)

/-- `load_orders_mut`, `state.rs` 156-198. The system program's account (address 0) is not owned by the
program. -/
def loadOrders (c : Core) (env : Env) (a : Nat) (owner : Option Nat) (rent : Bool)
    (auth : Option Nat) : Except Err OpenOrders :=
  match ooAt c.oos a with
  | some oo =>
    if oo.closed then .error .wrongOrdersAccount
    else if owner ≠ none ∧ owner ≠ some oo.owner then .error .wrongOrdersAccount
    else .ok oo
  | none =>
    if a = 0 then .error .assertion
    else match env.acct a with
      | .other e => .error e
      | .zeroed exempt => initOrders c.mkt owner rent auth exempt

/-- `load_bids_mut`, `state.rs` 457-465. If one account serves as both sides, its header carries the
`Asks` flag written last (3521-3537), so it never loads as the bids. -/
def loadBids (c : Core) (a : AccMeta) : Except Err Unit :=
  if a.key ≠ c.mkt.bids then .error .wrongBidsAccount
  else checkAssert (c.mkt.bids != c.mkt.asks)
/-- `load_asks_mut`, `state.rs` 467-475. -/
def loadAsks (c : Core) (a : AccMeta) : Except Err Unit :=
  if a.key ≠ c.mkt.asks then .error .wrongAsksAccount else .ok ()
/-- `load_request_queue_mut`, `state.rs` 477-488. -/
def loadReqQ (c : Core) (a : AccMeta) : Except Err Unit :=
  if a.key ≠ c.mkt.reqQ then .error .wrongRequestQueueAccount else .ok ()
/-- `load_event_queue_mut`, `state.rs` 490-501. -/
def loadEventQ (c : Core) (a : AccMeta) : Except Err Unit :=
  if a.key ≠ c.mkt.eventQ then .error .wrongEventQueueAccount else .ok ()

/-- `TokenAccount::new`, `state.rs` 1480-1488. -/
def tokAcct (l : Ledger) (a : Nat) : Except Err Tok :=
  match l a with
  | some t => if t.frozen then .error .assertion else .ok t
  | none => .error .assertion

/-- `CoinVault::from_account`, `state.rs` 502-508. -/
def coinVault (c : Core) (a : AccMeta) : Except Err Unit := do
  let _ ← tokAcct c.toks a.key
  if a.key ≠ c.mkt.coinVault then .error .wrongCoinVault else .ok ()
/-- `PcVault::from_account`, `state.rs` 510-516. -/
def pcVault (c : Core) (a : AccMeta) : Except Err Unit := do
  let _ ← tokAcct c.toks a.key
  if a.key ≠ c.mkt.pcVault then .error .wrongPcVault else .ok ()
/-- `CoinWallet::from_account`, `state.rs` 518-525. -/
def coinWallet (c : Core) (a : AccMeta) : Except Err Unit := do
  let t ← tokAcct c.toks a.key
  if t.mint ≠ c.mkt.coinMint then .error .wrongCoinMint else .ok ()
/-- `PcWallet::from_account`, `state.rs` 527-533. -/
def pcWallet (c : Core) (a : AccMeta) : Except Err Unit := do
  let t ← tokAcct c.toks a.key
  if t.mint ≠ c.mkt.pcMint then .error .wrongPcMint else .ok ()

/-- `SignerAccount::new`, `state.rs` 1519-1522. -/
def signed (a : AccMeta) : Except Err Unit := checkAssert a.signer

/-- `SplTokenProgram::new`, `state.rs` 1465-1468. -/
def splProgram (P : Params) (a : AccMeta) : Except Err Unit := checkAssert (a.key == P.splToken)

/-- `VaultSigner::new`, `state.rs` 1560-1569. -/
def vaultSignerAcct (P : Params) (c : Core) (a : AccMeta) : Except Err Unit :=
  match P.vaultSigner c.mkt.ownAddress c.mkt.vaultSignerNonce with
  | none => .error .programError
  | some k => checkAssert (a.key == k)

/-- `load_fee_tier`, `state.rs` 535-569. -/
def loadFeeTier (P : Params) (c : Core) (owner : Nat) (acc : Option Tok) : Except Err FeeTier :=
  let st := P.isStable c.mkt.ownAddress
  match acc with
  | none => .ok (FeeTier.ofBalances st 0 0)
  | some t =>
    if t.owner ≠ owner then .error .assertion
    else if t.mint = P.srmMint then .ok (FeeTier.ofBalances st t.amount 0)
    else if t.mint = P.msrmMint then .ok (FeeTier.ofBalances st 0 t.amount)
    else .ok (FeeTier.ofBalances st 0 0)

/-- The optional fee discount account, `state.rs` 1776-1780, 1872-1876. -/
def discountAcct (c : Core) : List AccMeta → Except Err (Option Tok)
  | [] => .ok none
  | [a] => do return some (← tokAcct c.toks a.key)
  | _ => .error .assertion

/-- `check_enabled`, `state.rs` 571-577. -/
def checkEnabled (m : Market) : Except Err Unit :=
  if m.isDisabled then .error .marketIsDisabled else .ok ()

/-! ### Token transfers -/

/-- Errors of the token program that the processor distinguishes. -/
inductive TokErr where
  | insufficient | other
  deriving DecidableEq, Repr

/-- Debiting the source of a transfer: by its delegate, within the allowance, or by its owner. -/
def debitTok (t : Tok) (auth n : Nat) : Except TokErr Tok :=
  if t.delegate = some auth then
    if t.delegated < n then .error .insufficient
    else .ok { t with
      amount := t.amount - n
      delegated := t.delegated - n
      delegate := if t.delegated - n = 0 then none else t.delegate }
  else if t.owner ≠ auth then .error .other
  else .ok { t with amount := t.amount - n }

/-- SPL Token `Transfer` with the authority's signature present. A transfer from an account to itself
leaves it unchanged. -/
def splTransfer (l : Ledger) (src dst auth n : Nat) : Except TokErr Ledger :=
  match l src, l dst with
  | some s, some d =>
    if s.frozen || d.frozen then .error .other
    else if s.amount < n then .error .insufficient
    else if s.mint ≠ d.mint then .error .other
    else match debitTok s auth n with
      | .error e => .error e
      | .ok s' =>
        if src = dst then .ok l
        else if d.amount + n ≥ W64 then .error .other
        else .ok fun a => if a = dst then some { d with amount := d.amount + n }
                          else if a = src then some s' else l a
  | _, _ => .error .other

/-- Balance of a token account (0 if absent). -/
def bal (l : Ledger) (a : Nat) : Nat := match l a with | some t => t.amount | none => 0

/-- `send_from_vault`, `state.rs` 1408-1434. -/
def sendFromVault (P : Params) (m : Market) (l : Ledger) (vault dst n : Nat) : Except Err Ledger :=
  match P.vaultSigner m.ownAddress m.vaultSignerNonce with
  | none => .error .transferFailed
  | some vs =>
    match splTransfer l vault dst vs n with
    | .ok l => .ok l
    | .error _ => .error .transferFailed

/-- Deposit into a vault with the balance check, `state.rs` 2781-2816 and 3373-3408. -/
def depositIn (l : Ledger) (src vault auth n : Nat) : Except Err Ledger :=
  if n = 0 then .ok l
  else match splTransfer l src vault auth n with
    | .error .insufficient => .error .insufficientFunds
    | .error .other => .error .transferFailed
    | .ok l' =>
      if bal l' vault = bal l vault + n then .ok l' else .error .assertion

/-! ### New orders -/

/-- Accounts of `NewOrderV3`, `state.rs` 1858-1871. -/
structure NewOrderAccts where
  market : AccMeta
  oo : AccMeta
  reqQ : AccMeta
  eventQ : AccMeta
  bids : AccMeta
  asks : AccMeta
  payer : AccMeta
  owner : AccMeta
  coinVault : AccMeta
  pcVault : AccMeta
  splToken : AccMeta
  rent : AccMeta
  discount : List AccMeta

def parseNewOrder : List AccMeta → Except Err NewOrderAccts
  | m :: oo :: rq :: eq :: b :: a :: p :: o :: cv :: pv :: t :: r :: rest =>
    if rest.length ≤ 2 then .ok ⟨m, oo, rq, eq, b, a, p, o, cv, pv, t, r, rest⟩ else .error .assertion
  | _ => .error .assertion

/-- The payer's mint must fit the side, `state.rs` 1892-1896. -/
def checkPayer (c : Core) (a : AccMeta) : Side → Except Err Unit
  | .bid => orAssert (pcWallet c a)
  | .ask => orAssert (coinWallet c a)

/-- `NewOrderV3Args::with_parsed_args`, `state.rs` 1843-1929: fee tier and open-orders account. -/
def newOrderArgs (P : Params) (env : Env) (c : Core) (a : NewOrderAccts) (side : Side) :
    Except Err (FeeTier × OpenOrders) := do
  let disc ← discountAcct c a.discount
  loadMarket c a.market false
  signed a.owner
  let tier ← loadFeeTier P c a.owner.key disc
  loadReqQ c a.reqQ
  loadEventQ c a.eventQ
  let _ ← tokAcct c.toks a.payer.key
  checkPayer c a.payer side
  coinVault c a.coinVault
  pcVault c a.pcVault
  checkEnabled c.mkt
  splProgram P a.splToken
  orAssert (loadBids c a.bids)
  orAssert (loadAsks c a.asks)
  let oo ← loadOrders c env a.oo.key (some a.owner.key) true none
  return (tier, oo)

/-- The `max_ts` check, `state.rs` 3240-3250. -/
def checkDeadline (now maxTs : Int) : Except Err Unit :=
  if maxTs < i64Max ∧ now > maxTs then .error .orderMaxTimestampExceeded else .ok ()

/-- Locking the funds of a new order, `state.rs` 3256-3301: market, account and amount to deposit. -/
def lockFunds (m : Market) (oo : OpenOrders) (ix : NewOrderIx) (payerBal : Nat) :
    Except Err (Market × OpenOrders × Nat) :=
  match ix.side with
  | .bid => do
    let lock := ix.maxPcQty
    let free := min lock oo.pcFree
    let deposit := lock - free
    if payerBal < deposit then .error .insufficientFunds
    else do
      let oo ← oo.lockFreePc free
      let oo ← oo.creditLockedPc deposit
      let d ← unwrap (checkedAdd m.pcDeposits deposit)
      return ({ m with pcDeposits := d }, oo, deposit)
  | .ask =>
    match checkedMul ix.maxCoinQty m.coinLot with
    | none => .error .insufficientFunds
    | some lock => do
      let free := min lock oo.coinFree
      let deposit := lock - free
      if payerBal < deposit then .error .insufficientFunds
      else do
        let oo ← oo.lockFreeCoin free
        let oo ← oo.creditLockedCoin deposit
        let d ← unwrap (checkedAdd m.coinDeposits deposit)
        return ({ m with coinDeposits := d }, oo, deposit)

/-- Applying the proceeds to the taker's account, `state.rs` 3331-3364. -/
def applyProceeds (oo : OpenOrders) (coinLot : Nat) (pr : Proceeds) : Except Err OpenOrders := do
  let unlocked ← unwrap (checkedMul pr.coinUnlocked coinLot)
  let credit ← unwrap (checkedMul pr.coinCredit coinLot)
  let debit ← unwrap (checkedMul pr.coinDebit coinLot)
  let oo ← oo.creditLockedCoin credit
  let oo ← oo.unlockCoin credit
  let oo ← oo.unlockCoin unlocked
  let oo ← oo.creditLockedPc pr.pcCredit
  let oo ← oo.unlockPc pr.pcCredit
  let oo ← oo.unlockPc pr.pcUnlocked
  let ct ← unwrap (checkedSub oo.coinTotal debit)
  let pt ← unwrap (checkedSub oo.pcTotal pr.pcDebit)
  checkAssert (oo.coinFree ≤ ct)
  checkAssert (oo.pcFree ≤ pt)
  return { oo with coinTotal := ct, pcTotal := pt }

/-- `client_order_ids[slot] = id`, `state.rs` 3305. -/
def OpenOrders.setClientId (oo : OpenOrders) (slot id : Nat) : OpenOrders :=
  { oo with clientIds := oo.clientIds.set slot id }

/-- The vault a side deposits into. -/
def Market.depositVault (m : Market) : Side → Nat
  | .bid => m.pcVault
  | .ask => m.coinVault

section
variable (I : Impl)

/-- The engine's view of a state, with empty proceeds. -/
def State.ob (s : State I) (m : Market) : Ob I :=
  { bids := s.bids, asks := s.asks, q := s.q, mkt := m, pr := Proceeds.zero }

/-- The engine request of a new order, `state.rs` 3309-3320. -/
def newOrderReq (ix : NewOrderIx) (id owner slot : Nat) (tier : FeeTier) : OrderParams :=
  { side := ix.side, orderType := ix.orderType, orderId := id, owner := owner, ownerSlot := slot,
    feeTier := tier, maxCoinQty := ix.maxCoinQty,
    pcLocked := (match ix.side with | .bid => ix.maxPcQty | .ask => 0),
    clientId := ix.clientId, stb := ix.stb }

/-- `process_new_order_v3`, `state.rs` 3223-3410. -/
def newOrderExec (env : Env) (s : State I) (a : NewOrderAccts) (ix : NewOrderIx) (tier : FeeTier)
    (oo : OpenOrders) : Except Err (State I) := do
  checkDeadline env.now ix.maxTs
  checkAssert (s.reqCount == 0)
  let (mkt, oo, deposit) ← lockFunds s.mkt oo ix (bal s.toks a.payer.key)
  let id := genOrderId (s.seq % W64) ix.limitPrice ix.side
  let (slot, oo) ← oo.addOrder id ix.side
  let (ob, rem, _) ← newOrder I (s.ob I mkt) (newOrderReq ix id a.oo.key slot tier) ix.limit
  checkAssert rem.isNone
  let oo ← applyProceeds (oo.setClientId slot ix.clientId) ob.mkt.coinLot ob.pr
  let toks ← depositIn s.toks a.payer.key (s.mkt.depositVault ix.side) a.owner.key deposit
  return { s with
    mkt := ob.mkt
    seq := s.seq + 1
    oos := setOo s.oos a.oo.key oo
    toks := toks
    bids := ob.bids
    asks := ob.asks
    q := ob.q }

/-- `NewOrderV3`. -/
def newOrderV3 (P : Params) (env : Env) (s : State I) (accts : List AccMeta) (ix : NewOrderIx) :
    Except Err (State I) := do
  let a ← parseNewOrder accts
  let (tier, oo) ← newOrderArgs P env s.toCore a ix.side
  newOrderExec I env s a ix tier oo

/-! ### Send-take -/

/-- Accounts of `SendTake`, `state.rs` 1762-1775. -/
structure SendTakeAccts where
  market : AccMeta
  reqQ : AccMeta
  eventQ : AccMeta
  bids : AccMeta
  asks : AccMeta
  coinWallet : AccMeta
  pcWallet : AccMeta
  signer : AccMeta
  coinVault : AccMeta
  pcVault : AccMeta
  splToken : AccMeta
  vaultSigner : AccMeta
  discount : List AccMeta

def parseSendTake : List AccMeta → Except Err SendTakeAccts
  | m :: rq :: eq :: b :: a :: cw :: pw :: s :: cv :: pv :: t :: vs :: rest =>
    if rest.length ≤ 1 then .ok ⟨m, rq, eq, b, a, cw, pw, s, cv, pv, t, vs, rest⟩ else .error .assertion
  | _ => .error .assertion

/-- `SendTakeArgs::with_parsed_args`, `state.rs` 1750-1826. -/
def sendTakeArgs (P : Params) (c : Core) (a : SendTakeAccts) : Except Err FeeTier := do
  let disc ← discountAcct c a.discount
  loadMarket c a.market false
  signed a.signer
  let tier ← orAssert (loadFeeTier P c a.signer.key disc)
  loadReqQ c a.reqQ
  loadEventQ c a.eventQ
  coinWallet c a.coinWallet
  pcWallet c a.pcWallet
  coinVault c a.coinVault
  pcVault c a.pcVault
  splProgram P a.splToken
  vaultSignerAcct P c a.vaultSigner
  orAssert (loadBids c a.bids)
  orAssert (loadAsks c a.asks)
  return tier

/-- The engine request of a send-take, `state.rs` 2700-2722. -/
def sendTakeReq (ix : SendTakeIx) (id : Nat) (tier : FeeTier) : OrderParams :=
  { side := ix.side, orderType := .ioc, orderId := id, owner := 0, ownerSlot := 0,
    feeTier := tier, maxCoinQty := ix.maxCoinQty,
    pcLocked := (match ix.side with | .bid => ix.maxPcQty | .ask => 0),
    clientId := 0, stb := .abortTransaction }

/-- The minimum-output check, `state.rs` 2744-2753. -/
def checkMin (ix : SendTakeIx) (pr : Proceeds) : Except Err Unit :=
  match ix.side with
  | .bid => if pr.coinCredit < ix.minCoinQty then .error .minAmountNotMet else .ok ()
  | .ask => if pr.pcCredit < ix.minPcQty then .error .minAmountNotMet else .ok ()

/-- Market totals of a send-take, `state.rs` 2766-2793: market, deposit and withdrawal. -/
def sendTakeTotals (m : Market) (side : Side) (pr : Proceeds) : Except Err (Market × Nat × Nat) :=
  match side with
  | .bid => do
    let w ← unwrap (checkedMul pr.coinCredit m.coinLot)
    checkAssert (w ≤ m.coinDeposits)
    return ({ m with
      pcDeposits := wadd m.pcDeposits pr.pcDebit
      coinDeposits := wsub m.coinDeposits w }, pr.pcDebit, w)
  | .ask => do
    let d ← unwrap (checkedMul pr.coinDebit m.coinLot)
    checkAssert (pr.pcCredit ≤ m.pcDeposits)
    return ({ m with
      coinDeposits := wadd m.coinDeposits d
      pcDeposits := wsub m.pcDeposits pr.pcCredit }, d, pr.pcCredit)

/-- Token movements of a send-take, `state.rs` 2781-2842. -/
def sendTakeTransfers (P : Params) (m : Market) (l : Ledger) (side : Side) (a : SendTakeAccts)
    (deposit withdraw : Nat) : Except Err Ledger :=
  match side with
  | .bid => do
    let l ← depositIn l a.pcWallet.key m.pcVault a.signer.key deposit
    if withdraw = 0 then .ok l else sendFromVault P m l m.coinVault a.coinWallet.key withdraw
  | .ask => do
    let l ← depositIn l a.coinWallet.key m.coinVault a.signer.key deposit
    if withdraw = 0 then .ok l else sendFromVault P m l m.pcVault a.pcWallet.key withdraw

/-- `process_send_take`, `state.rs` 2683-2845. -/
def sendTakeExec (P : Params) (s : State I) (a : SendTakeAccts) (ix : SendTakeIx) (tier : FeeTier) :
    Except Err (State I) := do
  let id := genOrderId (s.seq % W64) ix.limitPrice ix.side
  let (ob, _, _) ← newOrder I (s.ob I s.mkt) (sendTakeReq ix id tier) ix.limit
  checkMin ix ob.pr
  let (mkt, deposit, withdraw) ← sendTakeTotals ob.mkt ix.side ob.pr
  let toks ← sendTakeTransfers P mkt s.toks ix.side a deposit withdraw
  return { s with
    mkt := mkt
    seq := s.seq + 1
    toks := toks
    bids := ob.bids
    asks := ob.asks
    q := ob.q }

/-- `SendTake`. -/
def sendTake (P : Params) (s : State I) (accts : List AccMeta) (ix : SendTakeIx) :
    Except Err (State I) := do
  let a ← parseSendTake accts
  let tier ← sendTakeArgs P s.toCore a
  sendTakeExec I P s a ix tier

/-! ### Cancellations -/

/-- Accounts of the cancel instructions, `state.rs` 2055-2063. -/
structure CancelAccts where
  market : AccMeta
  bids : AccMeta
  asks : AccMeta
  oo : AccMeta
  signer : AccMeta
  eventQ : AccMeta

def parseCancel : List AccMeta → Except Err CancelAccts
  | m :: b :: a :: oo :: s :: eq :: _ => .ok ⟨m, b, a, oo, s, eq⟩
  | _ => .error .assertion

/-- The common part of `CancelOrderV2Args`, `CancelOrderByClientIdV2Args` and
`CancelOrdersByClientIdsArgs`, `state.rs` 2042-2234. -/
def cancelArgs (env : Env) (c : Core) (a : CancelAccts) : Except Err OpenOrders := do
  orAssert (loadMarket c a.market true)
  signed a.signer
  let oo ← loadOrders c env a.oo.key (some a.signer.key) false none
  orAssert (loadBids c a.bids)
  orAssert (loadAsks c a.asks)
  loadEventQ c a.eventQ
  return oo

/-- Write back the engine state and one open-orders account. -/
def State.back (s : State I) (ob : Ob I) (a : Nat) (oo : OpenOrders) : State I :=
  { s with
    mkt := ob.mkt
    oos := setOo s.oos a oo
    bids := ob.bids
    asks := ob.asks
    q := ob.q }

/-- `process_cancel_order_v2`, `state.rs` 3077-3096. -/
def cancelV2 (env : Env) (s : State I) (accts : List AccMeta) (side : Side) (orderId : Nat) :
    Except Err (State I) := do
  let a ← parseCancel accts
  let oo ← cancelArgs env s.toCore a
  let (ob, oo) ← cancelOrderV2 I (s.ob I s.mkt) side a.oo.key oo orderId
  return s.back I ob a.oo.key oo

/-- The first in-use slot with the client id, `state.rs` 3015-3018. -/
def findClientId (oo : OpenOrders) (cid : Nat) : Except Err (Nat × Side) :=
  match oo.ordersWithClientIds.find? (fun e => cid == e.1) with
  | some e => .ok e.2
  | none => .error .clientIdNotFound

/-- `process_cancel_order_by_client_id_v2`, `state.rs` 3002-3026. -/
def cancelByClientIdV2 (env : Env) (s : State I) (accts : List AccMeta) (cid : Nat) :
    Except Err (State I) := do
  let a ← parseCancel accts
  checkAssert (cid != 0)
  let oo ← cancelArgs env s.toCore a
  let (orderId, side) ← findClientId oo cid
  let (ob, oo) ← cancelOrderV2 I (s.ob I s.mkt) side a.oo.key oo orderId
  return s.back I ob a.oo.key oo

/-- The cancellation loop of `process_cancel_orders_by_client_ids`, `state.rs` 3049-3073:
`OrderNotFound` is skipped. -/
def cancelMany (ooAddr : Nat) : Ob I → OpenOrders → List (Nat × Side) → Except Err (Ob I × OpenOrders)
  | ob, oo, [] => .ok (ob, oo)
  | ob, oo, (id, side) :: rest =>
    match cancelOrderV2 I ob side ooAddr oo id with
    | .ok (ob, oo) => cancelMany ooAddr ob oo rest
    | .error .orderNotFound => cancelMany ooAddr ob oo rest
    | .error e => .error e

/-- The orders selected by a list of client ids, `state.rs` 3041-3047. -/
def selectByClientIds (oo : OpenOrders) (cids : List Nat) : List (Nat × Side) :=
  (oo.ordersWithClientIds.filter (fun e => cids.contains e.1)).map (·.2)

/-- `process_cancel_orders_by_client_ids`, `state.rs` 3028-3075. -/
def cancelByClientIds (env : Env) (s : State I) (accts : List AccMeta) (cids : List Nat) :
    Except Err (State I) := do
  let a ← parseCancel accts
  let cids := cids.filter (· != 0)
  let oo ← cancelArgs env s.toCore a
  let (ob, oo) ← cancelMany I a.oo.key (s.ob I s.mkt) oo (selectByClientIds oo cids)
  return s.back I ob a.oo.key oo

/-! ### Replacing orders -/

/-- The account selection of `ReplaceOrdersByClientIdsArgs`, `state.rs` 1947-1951: indices
0, 4, 5, 1, 7, 3; indexing panics if there are too few accounts. -/
def replaceCancelAccts (accts : List AccMeta) : Except Err (List AccMeta) :=
  match accts[0]?, accts[4]?, accts[5]?, accts[1]?, accts[7]?, accts[3]? with
  | some a, some b, some c, some d, some e, some f => .ok [a, b, c, d, e, f]
  | _, _, _, _, _, _ => .error .panic

/-- The new-order loop of `process_replace_orders_by_client_ids`, `state.rs` 3430-3437. -/
def newOrders (P : Params) (env : Env) (s : State I) (accts : List AccMeta) :
    List NewOrderIx → Except Err (State I)
  | [] => .ok s
  | ix :: ixs => do
    let s ← newOrderV3 I P env s accts ix
    newOrders P env s accts ixs

/-- `process_replace_orders_by_client_ids`, `state.rs` 1941-1966, 3412-3440. -/
def replaceOrders (P : Params) (env : Env) (s : State I) (accts : List AccMeta)
    (ixs : List NewOrderIx) : Except Err (State I) := do
  let ca ← replaceCancelAccts accts
  let s ← cancelByClientIds I env s ca ((ixs.map (·.clientId)).take 8)
  newOrders I P env s accts ixs

/-! ### Consuming events -/

/-- Applying one event to its owner's account, `state.rs` 3135-3205. Plain arithmetic wraps. -/
def applyEvent (oo : OpenOrders) : EventView → Except Err OpenOrders
  | .fill side maker paid received fee _ _ _ _ _ =>
    if maker then
      match side with
      | .bid => .ok { oo with
          pcTotal := wsub oo.pcTotal paid
          coinTotal := wadd oo.coinTotal received
          coinFree := wadd oo.coinFree received
          pcFree := wadd oo.pcFree fee }
      | .ask => .ok { oo with
          coinTotal := wsub oo.coinTotal paid
          pcTotal := wadd oo.pcTotal received
          pcFree := wadd oo.pcFree received }
    else .ok { oo with rebates := wadd oo.rebates (referrerRebate fee) }
  | .out side release unlocked still _ _ slot _ =>
    let oo := match side with
      | .bid => { oo with pcFree := if release then wadd oo.pcFree unlocked else oo.pcFree }
      | .ask => { oo with coinFree := if release then wadd oo.coinFree unlocked else oo.coinFree }
    let okay := match side with
      | .bid => decide (oo.pcFree ≤ oo.pcTotal)
      | .ask => decide (oo.coinFree ≤ oo.coinTotal)
    if !okay then .error .assertion
    else if still = 0 then oo.removeOrder slot
    else .ok oo

/-- The owner's account of the event at the head of the queue, checked against the event,
`state.rs` 3110-3133. `none` means the loop stops. -/
def eventOwner (P : Params) (env : Env) (c : Core) (keys : List Nat) (e : Event) (v : EventView) :
    Except Err (Option OpenOrders) :=
  if P.search.find keys e.owner then do
    let oo ← loadOrders c env e.owner none false none
    checkAssert (e.ownerSlot < 128)
    checkAssert (oo.slotSide e.ownerSlot == some v.side)
    let id ← unwrap (oo.orderAt e.ownerSlot)
    checkAssert (id == e.orderId)
    return some oo
  else .ok none

/-- One iteration of `process_consume_events`, `state.rs` 3107-3215. `none` means the loop stops. -/
def consumeOne (P : Params) (env : Env) (s : State I) (keys : List Nat) :
    Except Err (Option (State I)) :=
  match I.peek s.q with
  | none => .ok none
  | some e => do
    let v ← e.asView
    let r ← eventOwner P env s.toCore keys e v
    match r with
    | none => return none
    | some oo =>
      let oo ← applyEvent oo v
      let q ← unwrap (I.pop s.q)
      return some { s with oos := setOo s.oos e.owner oo, q := q }

/-- The loop of `process_consume_events`, `state.rs` 3107-3218. -/
def consumeLoop (P : Params) (env : Env) (keys : List Nat) : Nat → State I → Except Err (State I)
  | 0, s => .ok s
  | n + 1, s => do
    let r ← consumeOne I P env s keys
    match r with
    | none => return s
    | some s => consumeLoop P env keys n s

/-- `ConsumeEvents`, `state.rs` 1977-2003: open-orders accounts, market, event queue, two unused. -/
def consumeEvents (P : Params) (env : Env) (s : State I) (accts : List AccMeta) (limit : Nat) :
    Except Err (State I) := do
  checkAssert (5 ≤ accts.length)
  match accts.drop (accts.length - 4) with
  | m :: eq :: _ =>
    loadMarket s.toCore m true
    checkAssert s.mkt.crankAuth.isNone
    loadEventQ s.toCore eq
    consumeLoop I P env ((accts.take (accts.length - 4)).map (·.key)) limit s
  | _ => throw .panic

/-- `ConsumeEventsPermissioned`, `state.rs` 2005-2038: open-orders accounts, market, event queue,
authority. -/
def consumeEventsPermissioned (P : Params) (env : Env) (s : State I) (accts : List AccMeta)
    (limit : Nat) : Except Err (State I) := do
  checkAssert (4 ≤ accts.length)
  match accts.drop (accts.length - 3) with
  | m :: eq :: auth :: _ =>
    loadMarket s.toCore m true
    checkAssert auth.signer
    checkAssert (some auth.key == s.mkt.crankAuth)
    loadEventQ s.toCore eq
    consumeLoop I P env ((accts.take (accts.length - 3)).map (·.key)) limit s
  | _ => throw .panic

/-! ### Settling, sweeping, disabling, opening and closing accounts -/

/-- Accounts of `SettleFunds`, `state.rs` 2256-2266. -/
structure SettleAccts where
  market : AccMeta
  oo : AccMeta
  owner : AccMeta
  coinVault : AccMeta
  pcVault : AccMeta
  coinWallet : AccMeta
  pcWallet : AccMeta
  vaultSigner : AccMeta
  splToken : AccMeta
  referrer : Option AccMeta

def parseSettle : List AccMeta → Except Err SettleAccts
  | [m, oo, o, cv, pv, cw, pw, vs, t] => .ok ⟨m, oo, o, cv, pv, cw, pw, vs, t, none⟩
  | [m, oo, o, cv, pv, cw, pw, vs, t, r] => .ok ⟨m, oo, o, cv, pv, cw, pw, vs, t, some r⟩
  | _ => .error .assertion

/-- The optional referrer account, `state.rs` 2280-2286. -/
def checkReferrer (c : Core) : Option AccMeta → Except Err Unit
  | none => .ok ()
  | some r => orAssert (pcWallet c r)

/-- `SettleFundsArgs::with_parsed_args`, `state.rs` 2248-2301. -/
def settleArgs (P : Params) (env : Env) (c : Core) (a : SettleAccts) : Except Err OpenOrders := do
  splProgram P a.splToken
  loadMarket c a.market true
  orAssert (signed a.owner)
  orAssert (coinVault c a.coinVault)
  orAssert (pcVault c a.pcVault)
  orAssert (coinWallet c a.coinWallet)
  orAssert (pcWallet c a.pcWallet)
  checkReferrer c a.referrer
  vaultSignerAcct P c a.vaultSigner
  loadOrders c env a.oo.key (some a.owner.key) false none

/-- Referrer rebates at settlement, `state.rs` 2979-2995: paid out if a referrer is given, otherwise
added to the market's fees. -/
def settleRebates (P : Params) (m : Market) (l : Ledger) (oo : OpenOrders) (referrer : Option AccMeta) :
    Except Err (Market × Ledger) :=
  match referrer with
  | some r =>
    if oo.rebates > 0 then do
      let l ← sendFromVault P m l m.pcVault r.key oo.rebates
      return (m, l)
    else .ok ({ m with pcFees := wadd m.pcFees oo.rebates }, l)
  | none => .ok ({ m with pcFees := wadd m.pcFees oo.rebates }, l)

/-- `process_settle_funds`, `state.rs` 2918-3000. -/
def settleExec (P : Params) (s : State I) (a : SettleAccts) (oo : OpenOrders) :
    Except Err (State I) := do
  let coin := oo.coinFree
  let pc := oo.pcFree
  let m := { s.mkt with
    coinDeposits := wsub s.mkt.coinDeposits coin
    pcDeposits := wsub s.mkt.pcDeposits pc }
  let ct ← unwrap (checkedSub oo.coinTotal coin)
  let pt ← unwrap (checkedSub oo.pcTotal pc)
  let l ← sendFromVault P m s.toks m.coinVault a.coinWallet.key coin
  let l ← sendFromVault P m l m.pcVault a.pcWallet.key pc
  let (m, l) ← settleRebates P m l oo a.referrer
  let m := { m with referrerRebates := wsub m.referrerRebates oo.rebates }
  let oo := { oo with coinFree := 0, pcFree := 0, coinTotal := ct, pcTotal := pt, rebates := 0 }
  return { s with mkt := m, oos := setOo s.oos a.oo.key oo, toks := l }

/-- `SettleFunds`. -/
def settleFunds (P : Params) (env : Env) (s : State I) (accts : List AccMeta) :
    Except Err (State I) := do
  let a ← parseSettle accts
  let oo ← settleArgs P env s.toCore a
  settleExec I P s a oo

/-- `DisableMarket`, `state.rs` 2304-2328, 3442-3450. -/
def disableMarket (P : Params) (s : State I) (accts : List AccMeta) : Except Err (State I) :=
  match accts with
  | [m, auth] => do
    loadMarket s.toCore m false
    checkAssert auth.signer
    checkAssert (auth.key == P.disableAuth)
    return { s with mkt := { s.mkt with flags := s.mkt.flags ||| 128 } }
  | _ => .error .assertion

/-- `SweepFees`, `state.rs` 2331-2371, 3452-3475. -/
def sweepFees (P : Params) (s : State I) (accts : List AccMeta) : Except Err (State I) :=
  match accts with
  | [m, pv, auth, w, vs, t] => do
    loadMarket s.toCore m false
    pcVault s.toCore pv
    pcWallet s.toCore w
    vaultSignerAcct P s.toCore vs
    splProgram P t
    checkAssert auth.signer
    checkAssert (auth.key == P.feeSweeper)
    let l ← sendFromVault P s.mkt s.toks s.mkt.pcVault w.key s.mkt.pcFees
    return { s with mkt := { s.mkt with pcFees := 0 }, toks := l }
  | _ => .error .assertion

/-- The conditions for closing, `state.rs` 2404-2420. -/
def checkClosable (oo : OpenOrders) : Except Err Unit :=
  if oo.freeBits ≠ BitVec.allOnes 128 ∨ oo.coinTotal ≠ 0 ∨ oo.pcTotal ≠ 0 then
    .error .tooManyOpenOrders
  else .ok ()

/-- `CloseOpenOrders`, `state.rs` 2373-2426, 2896-2915. -/
def closeOpenOrders (env : Env) (s : State I) (accts : List AccMeta) : Except Err (State I) :=
  match accts with
  | [oo, owner, _dest, m] => do
    signed owner
    loadMarket s.toCore m true
    let o ← loadOrders s.toCore env oo.key (some owner.key) false none
    checkClosable o
    return { s with oos := setOo s.oos oo.key { o with closed := true } }
  | _ => .error .assertion

/-- The optional open-orders authority, `state.rs` 2446-2449. -/
def optSigner : List AccMeta → Except Err (Option Nat)
  | [] => .ok none
  | a :: _ => do
    signed a
    return some a.key

/-- `InitOpenOrders`, `state.rs` 2428-2479, 2892-2894. -/
def initOpenOrders (env : Env) (s : State I) (accts : List AccMeta) : Except Err (State I) :=
  match accts with
  | oo :: owner :: m :: _rent :: rest =>
    if rest.length ≤ 1 then do
      let auth ← optSigner rest
      signed owner
      loadMarket s.toCore m false
      let o ← loadOrders s.toCore env oo.key (some owner.key) true auth
      return { s with oos := setOo s.oos oo.key o }
    else .error .assertion
  | _ => .error .assertion

/-! ### Pruning -/

/-- The cancellation loops of `process_prune`, `state.rs` 2864-2888: the order id is read from the slot
named by the leaf. -/
def cancelLeaves (side : Side) (ooAddr : Nat) : Ob I → OpenOrders → List Leaf →
    Except Err (Ob I × OpenOrders)
  | ob, oo, [] => .ok (ob, oo)
  | ob, oo, l :: ls => do
    let id ← unwrap (oo.orderAt l.ownerSlot)
    let (ob, oo) ← cancelLeaf I ob l side oo ooAddr id
    cancelLeaves side ooAddr ob oo ls

/-- `Prune`, `state.rs` 2481-2535, 2847-2890. The owner account need not sign. -/
def prune (env : Env) (s : State I) (accts : List AccMeta) (limit : Nat) : Except Err (State I) :=
  match accts with
  | [m, b, a, auth, oo, owner, eq] => do
    signed auth
    loadMarket s.toCore m false
    checkAssert (s.mkt.pruneAuth == some auth.key)
    let o ← loadOrders s.toCore env oo.key (some owner.key) false none
    orAssert (loadBids s.toCore b)
    orAssert (loadAsks s.toCore a)
    loadEventQ s.toCore eq
    let (ob, bl, al) ← removeAll I (s.ob I s.mkt) oo.key limit
    let (ob, o) ← cancelLeaves I .bid oo.key ob o bl
    let (ob, o) ← cancelLeaves I .ask oo.key ob o al
    return s.back I ob oo.key o
  | _ => .error .assertion

/-! ### Dispatch -/

/-- `State::process` after decoding, `state.rs` 2552-2680. `InitializeMarket` concerns another, not yet
existing market (`Verif.InitMarket`): the accounts of this one are not zeroed. -/
def process (P : Params) (env : Env) (s : State I) (accts : List AccMeta) :
    Instruction → Except Err (State I)
  | .initializeMarket _ => .error .assertion
  | .newOrder _ => .error .panic
  | .matchOrders _ => .ok s
  | .consumeEvents limit => consumeEvents I P env s accts limit
  | .cancelOrder .. => .error .panic
  | .settleFunds => settleFunds I P env s accts
  | .cancelOrderByClientId _ => .error .panic
  | .disableMarket => disableMarket I P s accts
  | .sweepFees => sweepFees I P s accts
  | .newOrderV2 .. => .error .panic
  | .newOrderV3 ix => newOrderV3 I P env s accts ix
  | .cancelOrderV2 side id => cancelV2 I env s accts side id
  | .cancelOrderByClientIdV2 cid => cancelByClientIdV2 I env s accts cid
  | .sendTake ix => sendTake I P s accts ix
  | .closeOpenOrders => closeOpenOrders I env s accts
  | .initOpenOrders => initOpenOrders I env s accts
  | .prune limit => prune I env s accts limit
  | .consumeEventsPermissioned limit => consumeEventsPermissioned I P env s accts limit
  | .cancelOrdersByClientIds ids => cancelByClientIds I env s accts ids
  | .replaceOrderByClientId ix => replaceOrders I P env s accts [ix]
  | .replaceOrdersByClientIds ixs => replaceOrders I P env s accts ixs

/-- `State::process`, `state.rs` 2550-2680: undecodable input is `ProgramError::InvalidArgument`. -/
def processRaw (P : Params) (env : Env) (s : State I) (accts : List AccMeta) (data : List UInt8) :
    Except Err (State I) :=
  match Instruction.unpack data with
  | some ix => process I P env s accts ix
  | none => .error .programError

end
end Serum
