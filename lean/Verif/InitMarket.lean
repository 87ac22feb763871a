import Verif.Layout

/-
`InitializeMarket`: `account_parser::InitializeMarketArgs::new` (`dex/src/state.rs` 1611-1733) and
`process_initialize_market` (3477-3604), on the bytes of the accounts.
-/

namespace Serum

/-- What the runtime shows the program of an account: does the dex program own it, is it rent exempt, its
bytes. -/
structure RawAcc where
  owned : Bool
  exempt : Bool
  data : List UInt8

/-- Accounts by address. -/
abbrev Accs := Nat → RawAcc

def setData (W : Accs) (a : Nat) (d : List UInt8) : Accs := fun x => if x = a then { W x with data := d } else W x

/-- Zero bytes. -/
def zeros (n : Nat) : List UInt8 := List.replicate n 0

/-- The checks on each of the five program accounts, `state.rs` 1645-1654. -/
def checkBlank (a : RawAcc) : Except Err Unit := do
  checkAssert a.owned
  checkAssert (a.data.length % 8 == 4)
  checkAssert (20 ≤ a.data.length)
  checkAssert (a.data.take 5 == zeros 5)
  checkAssert ((a.data.drop 5).take 8 == zeros 8)
  checkAssert (a.data.drop (a.data.length - 7) == zeros 7)

/-- The checks on a vault and its mint, `state.rs` 1664-1683, 1480-1488 and `TokenAccountAndMint::new`
(1592-1604). `mints`: initialised SPL mints. -/
def checkVault (mints : Nat → Bool) (toks : Ledger) (vs vault mint : Nat) : Except Err Unit :=
  match toks vault with
  | none => .error .assertion
  | some t => do
    checkAssert (!t.frozen)
    checkAssert (mints mint)
    checkAssert (t.owner == vs)
    checkAssert (t.delegate.isNone)
    checkAssert (t.closeAuth.isNone)
    checkAssert (t.mint == mint)

/-- `init_account_padding`, `state.rs` 354-360: the body; the caller stores it back padded. -/
def initPadding (d : List UInt8) : Except Err (List UInt8) := do
  checkAssert (12 ≤ d.length)
  checkAssert ((d.length - 12) % 8 == 0)
  return middle d

/-- Request queue, `state.rs` 3501-3517. -/
def initReqQ (W : Accs) (a : Nat) : Except Err Accs := do
  let b ← initPadding (W a).data
  rustAssert (32 ≤ b.length)
  if (b.length - 32) / 80 = 0 then .error .requestQueueEmpty
  else .ok (setData W a (padded (packFields [(8, 9), (8, 0), (8, 0), (8, 0)] ++ b.drop 32)))

/-- Event queue, `state.rs` 3519-3534. -/
def initEventQ (W : Accs) (a : Nat) : Except Err Accs := do
  let b ← initPadding (W a).data
  checkAssert (32 < b.length)
  if (b.length - 32) / 88 < 128 then .error .eventQueueTooSmall
  else .ok (setData W a (padded (packFields [(8, 17), (8, 0), (8, 0), (8, 0)] ++ b.drop 32)))

/-- One side of the book, `state.rs` 3536-3550: only the flags are written; the slab's header stays as it is.
`Slab::new` and `assert_minimum_capacity`: `critbit.rs` 295-312. -/
def initBook (sd : Side) (W : Accs) (a : Nat) : Except Err Accs := do
  let b ← initPadding (W a).data
  checkAssert (8 < b.length)
  rustAssert (32 ≤ (b.drop 8).length)
  Slab.assertMinimumCapacity (((b.drop 8).length - 32) / 72) 100
  return setData W a (padded (packFields [(8, sideFlags sd)] ++ b.drop 8))

/-- The market's account, `state.rs` 3552-3602: a version 1 market without authorities, a version 2 market with;
the size must be exactly that of the struct. The crank authority is written only if given. -/
def initMarketAcc (W : Accs) (m : Market) (crank : Option Nat) : Except Err Accs := do
  let b ← initPadding (W m.ownAddress).data
  if m.permissioned then
    checkAssert (b.length == 1464)
    .ok (setData W m.ownAddress (padded (packFields m.fieldsV1 ++ (packFields [(32, m.ooAuthority), (32, m.pruneAuthority)] ++
      (match crank with
        | some c => leBytes 32 c ++ b.drop 472
        | none => b.drop 440)))))
  else
    checkAssert (b.length == 376)
    .ok (setData W m.ownAddress (padded (packFields m.fieldsV1)))

/-- The market state that is written, `state.rs` 3554-3590. -/
def freshMarket (ix : InitMarketIx) (market reqQ eventQ bids asks coinVault pcVault coinMint pcMint : Nat)
    (auth : List Nat) : Market :=
  { flags := match auth with
      | [] => 3
      | _ :: _ :: _ :: _ => 3 ||| 512 ||| 1024
      | _ => 3 ||| 512
    ownAddress := market, vaultSignerNonce := ix.vaultSignerNonce, coinMint := coinMint, pcMint := pcMint
    coinVault := coinVault, coinDeposits := 0, coinFees := 0, pcVault := pcVault, pcDeposits := 0, pcFees := 0
    pcDust := ix.pcDustThreshold, reqQ := reqQ, eventQ := eventQ, bids := bids, asks := asks
    coinLot := ix.coinLotSize, pcLot := ix.pcLotSize, feeRateBps := ix.feeRateBps, referrerRebates := 0
    ooAuthority := auth.getD 0 0, pruneAuthority := auth.getD 1 0, crankAuthority := auth.getD 2 0 }

/-- The whole instruction. `rq_data` and `eq_data` stay mutably borrowed to the end, so none of the accounts
initialised after them may be the same account (`unwrap` on the second borrow panics; for the market the
borrow error is returned). Bids and asks are borrowed one after the other. -/
def initMarket (P : Params) (mints : Nat → Bool) (toks : Ledger) (W : Accs) (accts : List AccMeta)
    (ix : InitMarketIx) : Except Err Accs :=
  match accts.map (·.key) with
  | market :: reqQ :: eventQ :: bids :: asks :: coinVault :: pcVault :: coinMint :: pcMint :: _ :: auth => do
    checkAssert (auth.length ≤ 3)
    checkAssert ([reqQ, eventQ, bids, asks, coinVault, pcVault, coinMint, pcMint].all fun a => (W a).exempt)
    checkBlank (W market)
    checkBlank (W reqQ)
    checkBlank (W eventQ)
    checkBlank (W bids)
    checkBlank (W asks)
    match P.vaultSigner market ix.vaultSignerNonce with
    | none => .error .programError
    | some vs =>
      checkVault mints toks vs coinVault coinMint
      checkVault mints toks vs pcVault pcMint
      let W ← initReqQ W reqQ
      rustAssert (eventQ != reqQ)
      let W ← initEventQ W eventQ
      rustAssert (bids != reqQ && bids != eventQ)
      let W ← initBook .bid W bids
      rustAssert (asks != reqQ && asks != eventQ)
      let W ← initBook .ask W asks
      let m := freshMarket ix market reqQ eventQ bids asks coinVault pcVault coinMint pcMint auth
      if market = reqQ ∨ market = eventQ then .error .programError
      else initMarketAcc W m auth[2]?
  | _ => .error .assertion

end Serum
