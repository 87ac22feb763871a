import Verif.Layout
import Verif.Token

/-
The permissioned-market proxy, `dex/permissioned/src/proxy.rs` and `middleware.rs`, with the three middlewares
of the library, and the assert-owner program, `assert-owner/src/lib.rs`.
-/

namespace Serum.Proxy

/-- Facts fixed by the environment. `pda` is `find_program_address` for the seeds of `open_orders_authority!`
(`middleware.rs` 477-519), `createPda` and `createInit` are `create_program_address` for those seeds and for
`open_orders_init_authority!` (524-539) with a given bump. `data` are account data, `fresh` says that an account
can be created at an address. -/
structure ProxyEnv where
  dexId : Nat
  systemId : Nat
  rentId : Nat
  pda : Nat → Nat → Nat
  createPda : Nat → Nat → UInt8 → Option Nat
  createInit : Nat → UInt8 → Option Nat
  data : Nat → List UInt8
  fresh : Nat → Bool

/-- The middlewares: `OpenOrdersPda` with its two bumps, `Logger`, `ReferralFees`. -/
inductive Middleware where
  | pda (bump bumpInit : UInt8)
  | logger
  | referral (key : Nat)
  deriving DecidableEq

/-- `Context`, `middleware.rs` 18-35: accounts, derived signers (`none`: the seeds give no address), token
instructions before and after. Post callbacks are not used by these middlewares. -/
structure PCtx where
  accounts : List AccMeta
  seeds : List (Option Nat)
  pre : List TokIx
  post : List TokIx

/-- `MarketMiddleware::instruction`, `middleware.rs` 141-153 for `OpenOrdersPda`, 64-66 for the others. -/
def Middleware.instruction (m : Middleware) (d : List UInt8) : Except Err (Middleware × List UInt8) :=
  match m with
  | .pda b bi =>
    match d with
    | [] => .error .panic
    | disc :: d =>
      if disc = 0 then
        match d with
        | x :: y :: d => .ok (.pda x y, d)
        | _ => .error .panic
      else .ok (.pda b bi, d)
  | m => .ok (m, d)

/-- `proxy.rs` 50-52. -/
def instructions : List Middleware → List UInt8 → Except Err (List Middleware × List UInt8)
  | [], d => .ok ([], d)
  | m :: ms, d => do
    let (m, d) ← m.instruction d
    let (ms, d) ← instructions ms d
    return (m :: ms, d)

/-- Indexing; out of range is a panic. -/
def get (l : List AccMeta) (i : Nat) : Except Err AccMeta := unwrap l[i]?

/-- `prepare_pda`, `middleware.rs` 133-137. -/
def preparePda (a : AccMeta) : AccMeta := { a with signer := true }

/-- The amount approved for a new order, `middleware.rs` 220-231: at byte 5 + 43·8 of the market lies its base lot size. -/
def approveAmount (X : ProxyEnv) (market : Nat) (ix : NewOrderIx) : Except Err Nat :=
  match ix.side with
  | .bid => .ok ix.maxPcQty
  | .ask =>
    if (X.data market).length < 5 + 43 * 8 + 8 then .error .panic
    else unwrap (checkedMul ix.maxCoinQty (ofLe (((X.data market).drop (5 + 43 * 8)).take 8)))

/-- `OpenOrdersPda::new_order_v3`, `middleware.rs` 207-272. -/
def pdaNewOrder (X : ProxyEnv) (c : PCtx) (ix : NewOrderIx) : Except Err PCtx := do
  let user ← get c.accounts 7
  if !user.signer then .error .programError
  else
    let market ← get c.accounts 0
    let oo ← get c.accounts 1
    let payer ← get c.accounts 6
    let n ← approveAmount X market.key ix
    return { accounts := c.accounts.set 7 (preparePda oo)
             seeds := c.seeds ++ [some (X.pda market.key user.key)]
             pre := c.pre ++ [.approve payer.key oo.key user.key n]
             post := c.post ++ [.revoke payer.key user.key] }

/-- The common part of `cancel_order_v2` (`middleware.rs` 282-303), `cancel_order_by_client_id_v2` (313-334),
`settle_funds` (344-361) and `close_open_orders` (371-388): positions of market, user and open-orders account. -/
def pdaReplace (X : ProxyEnv) (c : PCtx) (im iu io : Nat) : Except Err PCtx := do
  let market ← get c.accounts im
  let user ← get c.accounts iu
  if !user.signer then .error .programError
  else
    let oo ← get c.accounts io
    return { c with
      seeds := c.seeds ++ [some (X.pda market.key user.key)]
      accounts := c.accounts.set iu (preparePda oo) }

/-- `InitAccount::try_accounts`, `middleware.rs` 561-586, as Anchor documents the constraints: addresses, the new account at
the derived address, the user's signature, the init authority at its derived address. The account is created
zeroed, owned by the DEX. -/
def initAccount (X : ProxyEnv) (bump bumpInit : UInt8) (l : List AccMeta) : Except Err Unit :=
  match l with
  | dex :: sys :: oo :: user :: market :: rent :: auth :: _ =>
    if dex.key = X.dexId ∧ sys.key = X.systemId ∧ user.signer = true ∧ rent.key = X.rentId ∧ X.fresh oo.key = true ∧
      X.createPda market.key user.key bump = some oo.key ∧ X.createInit market.key bumpInit = some auth.key
    then .ok () else .error .programError
  | _ => .error .programError

/-- `OpenOrdersPda::init_open_orders`, `middleware.rs` 166-197. -/
def pdaInit (X : ProxyEnv) (bump bumpInit : UInt8) (c : PCtx) : Except Err PCtx := do
  let market ← get c.accounts 4
  let user ← get c.accounts 3
  initAccount X bump bumpInit c.accounts
  let l := c.accounts.drop 2
  let oo ← get l 0
  let l := l.set 1 (preparePda oo)
  let auth ← get l 4
  return { c with
    seeds := c.seeds ++ [X.createPda market.key user.key bump, X.createInit market.key bumpInit]
    accounts := l.set 4 (preparePda auth) }

/-- `OpenOrdersPda::prune`, `middleware.rs` 398-402. -/
def pdaPrune (c : PCtx) : Except Err PCtx := do
  let oo ← get c.accounts 4
  if c.accounts.length ≤ 5 then .error .panic
  else return { c with accounts := c.accounts.set 5 oo }

/-- `ReferralFees::settle_funds`, `middleware.rs` 467-471. Bytes 32-64 of the account; of a token account, its owner. -/
def referralSettle (owner : Nat → Option Nat) (key : Nat) (c : PCtx) : Except Err PCtx := do
  let a ← get c.accounts 9
  if owner a.key = some key then .ok c else .error .programError

/-- The handler of one middleware for one instruction. -/
def Middleware.handle (X : ProxyEnv) (owner : Nat → Option Nat) (m : Middleware) (ix : Instruction) (c : PCtx) :
    Except Err PCtx :=
  match m, ix with
  | .pda b bi, .initOpenOrders => pdaInit X b bi c
  | .pda _ _, .newOrderV3 o => pdaNewOrder X c o
  | .pda _ _, .cancelOrderV2 _ _ => pdaReplace X c 0 4 3
  | .pda _ _, .cancelOrderByClientIdV2 _ => pdaReplace X c 0 4 3
  | .pda _ _, .settleFunds => pdaReplace X c 0 2 1
  | .pda _ _, .closeOpenOrders => pdaReplace X c 3 1 0
  | .pda _ _, .prune _ => pdaPrune c
  | .referral k, .settleFunds => referralSettle owner k c
  | _, _ => .ok c

def handleAll (X : ProxyEnv) (owner : Nat → Option Nat) (ix : Instruction) : List Middleware → PCtx → Except Err PCtx
  | [], c => .ok c
  | m :: ms, c => do
    let c ← m.handle X owner ix c
    handleAll X owner ix ms c

/-- The relayed instructions with the least number of accounts, `proxy.rs` 61-122. -/
def minAccounts : Instruction → Option Nat
  | .initOpenOrders => some 4
  | .newOrderV3 _ => some 12
  | .cancelOrderV2 _ _ => some 6
  | .cancelOrderByClientIdV2 _ => some 6
  | .settleFunds => some 10
  | .closeOpenOrders => some 4
  | .consumeEvents _ => some 4
  | .consumeEventsPermissioned _ => some 3
  | .prune _ => some 7
  | _ => none

/-- `MarketProxy::run` up to the calls, `proxy.rs` 36-135: the context and instruction to relay; `none` if
nothing is relayed. -/
def plan (X : ProxyEnv) (owner : Nat → Option Nat) (mws : List Middleware) (accts : List AccMeta) (data : List UInt8) :
    Except Err (Option (PCtx × Instruction)) :=
  match accts with
  | [] => .error .panic
  | dex :: rest =>
    if dex.key ≠ X.dexId then .error .programError
    else do
      let (mws, d) ← instructions mws data
      match Instruction.unpack d with
      | none => .ok none
      | some ix =>
        match minAccounts ix with
        | none => .ok none
        | some k =>
          if rest.length < k then .error .programError
          else do
            let c ← handleAll X owner ix mws ⟨rest, [], [], []⟩
            return some (c, ix)

/-- Did `k` sign? -/
def signs (accts : List AccMeta) (k : Nat) : Bool := accts.any fun a => a.key == k && a.signer

/-- The runtime's rule for `invoke_signed`: whoever is passed on as signer signed, or is an address derived
from the seeds given. -/
def checkCpi (accts : List AccMeta) (seeds : List (Option Nat)) (metas : List AccMeta) : Except Err Unit :=
  if seeds.any (·.isNone) then .error .programError
  else if metas.all fun a => !a.signer || signs accts a.key || seeds.contains (some a.key) then .ok ()
  else .error .programError

/-- The token instructions before and after, `proxy.rs` 138-148 and 179-189. -/
def tokCalls (sg : Nat → Bool) (l : Ledger) : List TokIx → Except Err Ledger
  | [] => .ok l
  | ix :: ixs =>
    match tokExec sg l ix with
    | none => .error .programError
    | some l => tokCalls sg l ixs

variable (I : Impl)

/-- `MarketProxy::run`, `proxy.rs` 36-197. `env` is as the DEX sees it (after a new account has been
created). -/
def run (X : ProxyEnv) (P : Params) (env : Env) (mws : List Middleware) (s : State I) (accts : List AccMeta)
    (data : List UInt8) : Except Err (State I) := do
  match ← plan X (fun a => (s.toks a).map Tok.owner) mws accts data with
  | none => return s
  | some (c, ix) =>
    let l ← tokCalls (signs accts) s.toks c.pre
    checkCpi accts c.seeds c.accounts
    let s ← processRaw I P env { s with toks := l } c.accounts ix.pack
    let l ← tokCalls (signs accts) s.toks c.post
    return { s with toks := l }

/-- `assert-owner/src/lib.rs` 7-18. -/
def assertOwner (owners : List (List UInt8)) (data : List UInt8) : Except Err Unit :=
  match owners with
  | [] => .error .programError
  | o :: _ =>
    if data.length ≠ 32 then .error .programError
    else if data ≠ o then .error .programError
    else .ok ()

end Serum.Proxy
