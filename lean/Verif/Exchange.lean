import Verif.Proxy

/-
The example exchange, `dex/tests/permissioned/programs/permissioned-markets/src/lib.rs`: the library's proxy with the
middlewares `Logger`, `Identity`, `ReferralFees` and `OpenOrdersPda`, in that order.
-/

namespace Serum.Exchange
open Serum.Proxy

/-- Facts fixed by the environment. `prune` is `find_program_address` for the seeds of `prune_authority!` (`lib.rs` 217-250),
as a function of the market; `consume_events_authority!` (252-266) is the same. `referral` is `referral::ID` (279-282).
The identity token is the rent sysvar (195, 206). -/
structure ExEnv where
  X : ProxyEnv
  prune : Nat → Nat
  referral : Nat

/-- `verify_and_strip_auth`, `lib.rs` 192-201. -/
def verify (X : ProxyEnv) (c : PCtx) : Except Err PCtx := do
  let auth ← get c.accounts 0
  if auth.key = X.rentId then return { c with accounts := c.accounts.drop 1 } else .error .programError

/-- `verify_revoked_and_strip_auth`, `lib.rs` 203-212. -/
def verifyRevoked (X : ProxyEnv) (c : PCtx) : Except Err PCtx := do
  let auth ← get c.accounts 0
  if auth.key ≠ X.rentId then return { c with accounts := c.accounts.drop 1 } else .error .programError

/-- `Identity::prune`, `lib.rs` 144-157. -/
def idPrune (E : ExEnv) (c : PCtx) : Except Err PCtx := do
  let c ← verifyRevoked E.X c
  let market ← get c.accounts 0
  let auth ← get c.accounts 3
  return { c with
    seeds := c.seeds ++ [some (E.prune market.key)]
    accounts := c.accounts.set 3 (preparePda auth) }

/-- `Identity::consume_events_permissioned`, `lib.rs` 163-180. With fewer than three accounts left the index wraps
and indexing panics. -/
def idConsume (E : ExEnv) (c : PCtx) : Except Err PCtx := do
  let c ← verifyRevoked E.X c
  let n := c.accounts.length
  if n < 3 then .error .panic
  else do
    let market ← get c.accounts (n - 3)
    let auth ← get c.accounts (n - 1)
    return { c with
      seeds := c.seeds ++ [some (E.prune market.key)]
      accounts := c.accounts.set (n - 1) (preparePda auth) }

/-- The handlers of `Identity`, `lib.rs` 83-188. `consume_events` is the trait's default (`middleware.rs` 100-102);
everything the proxy does not relay goes to `fallback`. -/
def identity (E : ExEnv) (ix : Option Instruction) (c : PCtx) : Except Err PCtx :=
  match ix with
  | some (.consumeEvents _) => .ok c
  | some (.prune _) => idPrune E c
  | some (.consumeEventsPermissioned _) => idConsume E c
  | _ => verify E.X c

/-- The library's middlewares of the exchange. `Logger` comes first and only logs. -/
def wares (E : ExEnv) : List Middleware := [.logger, .referral E.referral, .pda 0 0]

/-- `MarketProxy::run` up to the calls, `proxy.rs` 36-135, with the exchange's middlewares (`lib.rs` 61-68). -/
def plan (E : ExEnv) (owner : Nat → Option Nat) (accts : List AccMeta) (data : List UInt8) :
    Except Err (Option (PCtx × Instruction)) :=
  match accts with
  | [] => .error .panic
  | dex :: rest =>
    if dex.key ≠ E.X.dexId then .error .programError
    else do
      let (mws, d) ← instructions (wares E) data
      let c0 : PCtx := ⟨rest, [], [], []⟩
      match (Instruction.unpack d).bind fun ix => (minAccounts ix).map fun k => (ix, k) with
      | none => do
        let _ ← identity E none c0
        return none
      | some (ix, k) =>
        if rest.length < k then .error .programError
        else do
          let c ← identity E (some ix) c0
          let c ← handleAll E.X owner ix mws c
          return some (c, ix)

variable (I : Impl)

/-- The exchange's entry point, `lib.rs` 61-68: `MarketProxy::run`, `proxy.rs` 36-197. -/
def run (E : ExEnv) (P : Params) (env : Env) (s : State I) (accts : List AccMeta) (data : List UInt8) :
    Except Err (State I) := do
  match ← plan E (fun a => (s.toks a).map Tok.owner) accts data with
  | none => return s
  | some (c, ix) =>
    let l ← tokCalls (signs accts) s.toks c.pre
    checkCpi accts c.seeds c.accounts
    let s ← processRaw I P env { s with toks := l } c.accounts ix.pack
    let l ← tokCalls (signs accts) s.toks c.post
    return { s with toks := l }

end Serum.Exchange
