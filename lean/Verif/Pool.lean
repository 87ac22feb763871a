import Verif.Processor
import Verif.Token

/-
The pool library: `pool/src/context.rs`, `pool/src/pool.rs`, `pool/src/lib.rs`, with the two pools under
`pool/examples`. Modelled on decoded requests and states (Borsh encoding and account sizes are not). Every
`ProgramError` is `Err.programError`. The token program is `splTransfer` of `Verif.Processor` with `mintTo` and
`burnFrom` below.
-/

namespace Serum.Pool

/-- `MIN_FEE_RATE`, `FEE_RATE_DENOMINATOR`, `pool/schema/src/schema.rs`. -/
def minFeeRate : Nat := 150
def feeRateDenominator : Nat := 1000000

/-! ### Fees -/

/-- `Fees`, `context.rs` 262-267. -/
structure Fees where
  lqd : Nat
  initializer : Nat
  referrer : Nat
  deriving DecidableEq, Repr

/-- `Fees::total_fee`, 270-272. -/
def Fees.total (f : Fees) : Nat := wadd (wadd f.lqd f.initializer) f.referrer

/-- `Fees::from_fee_rate_and_tokens`, 274-316. -/
def feesFor (rate tokens : Nat) : Except Err Fees :=
  if rate < minFeeRate ∨ rate ≥ feeRateDenominator then .error .programError
  else if tokens = 0 then .ok ⟨0, 0, 0⟩
  else do
    let total := ((tokens * rate - 1) / feeRateDenominator + 1) % W64
    rustAssert (total ≤ tokens)
    let dbl ← unwrap (checkedMul total 2)
    let lqd := max (dbl / 5) ((tokens - 1) / 10000 + 1)
    rustAssert (lqd ≤ total)
    let referrer := min (lqd / 2) (total - lqd)
    let two ← unwrap (checkedAdd lqd referrer)
    rustAssert (two ≤ total)
    let rest ← unwrap (checkedSub total lqd)
    let initializer ← unwrap (checkedSub rest referrer)
    let all ← unwrap (checkedAdd two initializer)
    rustAssert (all ≤ tokens)
    return ⟨lqd, initializer, referrer⟩

/-! ### State and world -/

/-- `AssetInfo`. -/
structure Asset where
  mint : Nat
  vault : Nat
  deriving DecidableEq, Repr

/-- `PoolState`, `schema.rs`; `custom` is the `paused` flag of the admin-controlled pool (`none`: no custom
state). -/
structure PoolState where
  mint : Nat
  assets : List Asset
  signer : Nat
  nonce : Nat
  params : List Nat
  lqdVault : Nat
  initVault : Nat
  feeRate : Nat
  admin : Option Nat
  custom : Option Bool
  deriving DecidableEq, Repr

/-- The token accounts, and supply and mint authority of the pool token. -/
structure World where
  toks : Ledger
  supply : Nat
  minter : Option Nat

/-- Facts fixed by the environment. -/
structure PoolEnv where
  splToken : Nat
  feeOwner : Nat
  rentId : Nat
  derive : Nat → Nat → Option Nat
  exempt : Nat → Bool
  /-- the program owning an account -/
  programOf : Nat → Nat

/-! ### Token instructions -/

/-- SPL `MintTo` for the pool token, the mint authority having signed. -/
def mintTo (w : World) (mint a n : Nat) : Except Err World :=
  match w.toks a with
  | none => .error .programError
  | some t =>
    if t.frozen || t.mint != mint || t.amount + n ≥ W64 || w.supply + n ≥ W64 then .error .programError
    else .ok { w with toks := w.toks.put a (some { t with amount := t.amount + n }), supply := w.supply + n }

/-- SPL `Burn` of pool tokens. -/
def burnFrom (w : World) (mint a auth n : Nat) : Except Err World :=
  match w.toks a with
  | none => .error .programError
  | some t =>
    if t.frozen || t.mint != mint || t.amount < n || w.supply < n then .error .programError
    else match debitTok t auth n with
      | .error _ => .error .programError
      | .ok t' => .ok { w with toks := w.toks.put a (some t'), supply := w.supply - n }

/-- A transfer, `signed` by its authority. -/
def transfer (l : Ledger) (src dst auth n : Nat) (signed : Bool) : Except Err Ledger :=
  if !signed then .error .programError
  else match splTransfer l src dst auth n with
    | .ok l => .ok l
    | .error _ => .error .programError

/-- The loops of `transfer_basket_from_user` (422-468) and `transfer_basket_to_user` (601-656): a list of
source, destination and quantity. -/
def transfers (l : Ledger) (auth : Nat) (signed : Bool) : List (Nat × Nat × Nat) → Except Err Ledger
  | [] => .ok l
  | (src, dst, n) :: rest => do
    let l ← transfer l src dst auth n signed
    transfers l auth signed rest

/-! ### Context -/

/-- The accounts of an `Execute` request, `context.rs` 78-138. -/
structure Accts where
  mint : AccMeta
  vaults : List AccMeta
  authority : AccMeta
  userPool : AccMeta
  userAssets : List AccMeta
  userAuth : AccMeta
  lqd : AccMeta
  initializer : AccMeta
  referrer : AccMeta
  splToken : AccMeta
  params : List AccMeta

/-- `next_account_info`. -/
def next : List AccMeta → Except Err (AccMeta × List AccMeta)
  | [] => .error .programError
  | a :: l => .ok (a, l)

/-- `next_account_infos`, `lib.rs` 248-260. -/
def nextN (n : Nat) (l : List AccMeta) : Except Err (List AccMeta × List AccMeta) :=
  if l.length < n then .error .programError else .ok (l.take n, l.drop n)

/-- `check_account_address`, `context.rs` 659-665. -/
def checkAddr (a : AccMeta) (key : Nat) : Except Err Unit :=
  if a.key = key then .ok () else .error .programError

/-- `check_token_account`, 680-702: an initialised token account of the mint; owned by, or delegated to, the
authority. -/
def checkTok (l : Ledger) (a : AccMeta) (mint : Nat) (auth : Option Nat) : Except Err Unit :=
  match l a.key with
  | none => .error .programError
  | some t =>
    if t.mint ≠ mint then .error .programError
    else match auth with
      | none => .ok ()
      | some k => if t.owner = k ∨ t.delegate = some k then .ok () else .error .programError

/-- Every account paired with its expectation passes. -/
def checkAll {α : Type} (f : AccMeta → α → Except Err Unit) : List (AccMeta × α) → Except Err Unit
  | [] => .ok ()
  | (a, x) :: l => do
    f a x
    checkAll f l

/-- `FeeAccounts::new`, 208-233. -/
def checkFeeAccts (E : PoolEnv) (st : PoolState) (l : Ledger) (lqd initializer referrer : AccMeta) : Except Err Unit := do
  checkAddr lqd st.lqdVault
  checkAddr initializer st.initVault
  checkTok l lqd st.mint (some E.feeOwner)
  checkTok l initializer st.mint none
  checkTok l referrer st.mint none

/-- `PoolContext::new` for all requests, 78-112: pool account, pool token mint, vaults, authority. -/
def baseContext (st : PoolState) (w : World) (accts : List AccMeta) :
    Except Err (AccMeta × AccMeta × List AccMeta × AccMeta × List AccMeta) := do
  let (pool, l) ← next accts
  let (mint, l) ← next l
  let (vaults, l) ← nextN st.assets.length l
  let (authority, l) ← next l
  checkAddr mint st.mint
  if w.minter ≠ some st.signer then .error .programError
  else
    checkAll (fun a (x : Asset) => do checkAddr a x.vault; checkTok w.toks a x.mint (some st.signer))
      (vaults.zip st.assets)
    checkAddr authority st.signer
    return (pool, mint, vaults, authority, l)

/-- `PoolContext::new` for `Execute`, 127-150 and 172-181. -/
def execContext (E : PoolEnv) (st : PoolState) (w : World) (accts : List AccMeta) : Except Err Accts := do
  let (_, mint, vaults, authority, l) ← baseContext st w accts
  let (userPool, l) ← next l
  let (userAssets, l) ← nextN st.assets.length l
  let (userAuth, l) ← next l
  let (lqd, l) ← next l
  let (initializer, l) ← next l
  let (referrer, l) ← next l
  checkTok w.toks userPool st.mint none
  checkAll (fun a (x : Asset) => checkTok w.toks a x.mint none) (userAssets.zip st.assets)
  checkFeeAccts E st w.toks lqd initializer referrer
  let (splToken, l) ← next l
  let (params, _) ← nextN st.params.length l
  checkAddr splToken E.splToken
  checkAll checkAddr (params.zip st.params)
  return { mint, vaults, authority, userPool, userAssets, userAuth, lqd, initializer, referrer, splToken, params }

/-! ### Creation and redemption -/

/-- One quantity of `get_simple_basket`, 375-388: checked `u128` arithmetic, the result an `i64`. -/
def share (amount tokens supply : Nat) (up : Bool) : Except Err Nat :=
  let x := amount * tokens + (if up then supply - 1 else 0)
  if x < 2 ^ 128 ∧ x / supply < 2 ^ 63 then .ok (x / supply) else .error .programError

/-- `get_simple_basket`, 363-397. -/
def simpleBasket (w : World) (tokens : Nat) (up : Bool) : List AccMeta → Except Err (List Nat)
  | [] => if w.supply = 0 then .error .programError else .ok []
  | v :: vs =>
    if w.supply = 0 then .error .programError
    else match w.toks v.key with
      | none => .error .programError
      | some t => do
        let q ← share t.amount tokens w.supply up
        let qs ← simpleBasket w tokens up vs
        return q :: qs

/-- `get_fees`, 400-419. -/
def getFees (st : PoolState) (A : Accts) (tokens : Nat) : Except Err Fees := do
  let f ← feesFor st.feeRate tokens
  let f := if A.lqd.key = A.userPool.key then ⟨0, 0, 0⟩ else f
  let f := if A.initializer.key = A.userPool.key then { f with initializer := 0 } else f
  let f := if A.referrer.key = A.userPool.key then { f with referrer := 0 } else f
  return f

/-- The loop of `mint_tokens`, 488-521: quantities of zero are skipped. -/
def mintAll (w : World) (mint : Nat) : List (Nat × Nat) → Except Err World
  | [] => .ok w
  | (a, n) :: rest =>
    if n = 0 then mintAll w mint rest
    else do
      let w ← mintTo w mint a n
      mintAll w mint rest

/-- `mint_tokens`, 472-524. -/
def mintTokens (st : PoolState) (w : World) (A : Accts) (quantity : Nat) : Except Err World := do
  let f ← getFees st A quantity
  mintAll w st.mint [(A.lqd.key, f.lqd), (A.initializer.key, f.initializer), (A.referrer.key, f.referrer),
    (A.userPool.key, wsub quantity f.total)]

/-- `burn_tokens_and_collect_fees`, 527-598. -/
def burnTokens (st : PoolState) (w : World) (A : Accts) (size : Nat) (f : Fees) : Except Err World := do
  let l ← transfers w.toks A.userAuth.key A.userAuth.signer
    (([(A.lqd.key, f.lqd), (A.initializer.key, f.initializer), (A.referrer.key, f.referrer)].filter (0 < ·.2)).map
      fun p => (A.userPool.key, p.1, p.2))
  if !A.userAuth.signer then .error .programError
  else burnFrom { w with toks := l } st.mint A.userPool.key A.userAuth.key size

/-- The basket methods of a pool: the trait's defaults (`pool.rs` 17-33, used by `examples/simple`), or those of
`examples/admin-controlled` (128-153), which refuse while paused. -/
inductive PoolKind where
  | simple
  | admin
  deriving DecidableEq

/-- May baskets be computed? -/
def PoolKind.open (k : PoolKind) (st : PoolState) : Bool :=
  match k with
  | .simple => true
  | .admin => st.custom == some false

def PoolKind.basket (k : PoolKind) (st : PoolState) (w : World) (tokens : Nat) (up : Bool) (vaults : List AccMeta) :
    Except Err (List Nat) :=
  if k.open st then simpleBasket w tokens up vaults else .error .programError

/-- `Pool::process_creation`, `pool.rs` 44-53. -/
def processCreation (k : PoolKind) (st : PoolState) (w : World) (A : Accts) (size : Nat) : Except Err World := do
  let basket ← k.basket st w size true A.vaults
  let l ← transfers w.toks A.userAuth.key A.userAuth.signer
    (((basket.zip A.userAssets).zip A.vaults).map fun p => (p.1.2.key, p.2.key, p.1.1))
  mintTokens st { w with toks := l } A size

/-- `Pool::process_redemption`, `pool.rs` 55-66. The pool authority signs with the seeds of the pool account. -/
def processRedemption (k : PoolKind) (st : PoolState) (w : World) (A : Accts) (size : Nat) : Except Err World := do
  let f ← getFees st A size
  let net := wsub size f.total
  let basket ← k.basket st w net false A.vaults
  let w ← burnTokens st w A net f
  let l ← transfers w.toks A.authority.key true
    (((basket.zip A.userAssets).zip A.vaults).map fun p => (p.2.key, p.1.2.key, p.1.1))
  return { w with toks := l }

/-- `PoolAction`. -/
inductive Action where
  | create (n : Nat)
  | redeem (n : Nat)
  | swap (inputs : List Nat)

/-- The `Execute` branch of `process_instruction`, `lib.rs` 149-164; swaps are refused by both pools
(`pool.rs` 68-75). -/
def execute (E : PoolEnv) (k : PoolKind) (st : PoolState) (w : World) (accts : List AccMeta) (act : Action) :
    Except Err World := do
  let A ← execContext E st w accts
  match act with
  | .create n => processCreation k st w A n
  | .redeem n => processRedemption k st w A n
  | .swap _ => .error .programError

/-- The `GetBasket` branch, `lib.rs` 124-148 with `context.rs` 114-121 and `RetbufAccounts::new` (238-247). The
call of the return-buffer program is not modelled: it is unsigned. -/
def getBasket (E : PoolEnv) (k : PoolKind) (st : PoolState) (w : World) (accts : List AccMeta) (act : Action) :
    Except Err (List Nat) := do
  let (_, _, vaults, _, l) ← baseContext st w accts
  let (buf, l) ← next l
  let (prog, l) ← next l
  if E.programOf buf.key ≠ prog.key then .error .programError
  else
    let (params, _) ← nextN st.params.length l
    checkAll checkAddr (params.zip st.params)
    match act with
    | .create n => k.basket st w n true vaults
    | .redeem n => k.basket st w n false vaults
    | .swap _ => .error .programError

/-! ### Initialisation -/

/-- `InitializePoolRequest`. -/
structure InitReq where
  nonce : Nat
  assets : Nat
  feeRate : Nat

/-- The assets read off the vaults, `lib.rs` 177-186. -/
def readAssets (l : Ledger) : List AccMeta → Except Err (List Asset)
  | [] => .ok []
  | a :: as =>
    match l a.key with
    | none => .error .programError
    | some t => do
      let rest ← readAssets l as
      return ⟨t.mint, a.key⟩ :: rest

/-- `check_rent_exemption`, `context.rs` 328-342. -/
def checkExempt (E : PoolEnv) (a : AccMeta) : Except Err Unit :=
  if E.exempt a.key then .ok () else .error .programError

/-- `check_lqd_fee_account`, `lib.rs` 227-247. -/
def checkLqd (E : PoolEnv) (l : Ledger) (signer : Nat) (a : AccMeta) : Except Err Unit :=
  match l a.key with
  | none => .error .programError
  | some t =>
    if t.owner ≠ E.feeOwner then .error .programError
    else if t.delegate ≠ none then .error .programError
    else if t.closeAuth ≠ none ∧ t.closeAuth ≠ some signer then .error .programError
    else .ok ()

/-- `Pool::initialize_pool` of the two pools: `pool.rs` 13-16, `examples/admin-controlled` 118-126. -/
def PoolKind.init (k : PoolKind) (st : PoolState) (custom : List AccMeta) : Except Err PoolState :=
  match k with
  | .simple => .ok st
  | .admin =>
    match custom with
    | [] => .error .programError
    | a :: _ => .ok { st with admin := some a.key, custom := some false }

/-- `PoolProcessor::initialize_pool`, `lib.rs` 167-225, with the `Initialize` part of `PoolContext::new`
(`context.rs` 151-170). The pool name is left out. -/
def initPool (E : PoolEnv) (k : PoolKind) (w : World) (accts : List AccMeta) (r : InitReq) : Except Err PoolState := do
  let (_, l) ← next accts
  let (mint, l) ← next l
  let (vaults, l) ← nextN r.assets l
  let (signer, l) ← next l
  let (lqd, l) ← next l
  let (initializer, _) ← next l
  let assets ← readAssets w.toks vaults
  let st : PoolState :=
    { mint := mint.key, assets, signer := signer.key, nonce := r.nonce, params := [], lqdVault := lqd.key,
      initVault := initializer.key, feeRate := r.feeRate, admin := none, custom := none }
  let (pool, mint, vaults, authority, l) ← baseContext st w accts
  let (lqd, l) ← next l
  let (initializer, l) ← next l
  let (rent, l) ← next l
  checkFeeAccts E st w.toks lqd initializer lqd
  if rent.key ≠ E.rentId then .error .programError
  else
    checkExempt E pool
    checkExempt E mint
    checkAll (fun a () => checkExempt E a) (vaults.map fun a => (a, ()))
    checkExempt E lqd
    checkLqd E w.toks st.signer lqd
    checkExempt E initializer
    let st ← k.init st l
    if E.derive pool.key st.nonce ≠ some authority.key then .error .programError
    else if st.feeRate < minFeeRate then .error .programError
    else if st.feeRate ≥ feeRateDenominator then .error .programError
    else return st

/-! ### The admin-controlled pool -/

/-- `AdminInstructionInner`, `examples/admin-controlled` 26-85. -/
inductive AdminIx where
  | pause
  | unpause
  | approveDelegate (amount : Nat)
  | addAsset
  | removeAsset
  | updateFee (rate : Nat)
  | updateAdmin
  deriving DecidableEq

/-- The loop of `Unpause`, 218-232. -/
def checkUndelegated (l : Ledger) : List Asset → List AccMeta → Except Err Unit
  | [], _ => .ok ()
  | _ :: _, [] => .error .programError
  | x :: xs, a :: as =>
    if a.key ≠ x.vault then .error .programError
    else match l a.key with
      | none => .error .programError
      | some t =>
        if t.delegate.isSome && 0 < t.delegated then .error .programError
        else checkUndelegated l xs as

/-- SPL `Approve`, the owner having signed. -/
def splApprove (l : Ledger) (a delegate auth n : Nat) : Except Err Ledger :=
  match l a with
  | none => .error .programError
  | some t =>
    if t.frozen || t.owner != auth then .error .programError
    else .ok (l.put a (some { t with delegate := some delegate, delegated := n }))

/-- `process_admin_request`, 206-345. `accts` are the accounts after pool and admin. -/
def adminRequest (E : PoolEnv) (st : PoolState) (w : World) (accts : List AccMeta) (ix : AdminIx) :
    Except Err (PoolState × World) :=
  match st.custom with
  | none => .error .programError
  | some paused =>
    match ix with
    | .pause => .ok ({ st with custom := some true }, w)
    | .unpause => do
      checkUndelegated w.toks st.assets accts
      return ({ st with custom := some false }, w)
    | .approveDelegate n => do
      let (vault, l) ← next accts
      let (delegate, l) ← next l
      let (signer, l) ← next l
      let (spl, _) ← next l
      if !(st.assets.any (·.vault == vault.key)) then .error .programError
      else if signer.key ≠ st.signer then .error .programError
      else if spl.key ≠ E.splToken then .error .programError
      else
        let t ← splApprove w.toks vault.key delegate.key st.signer n
        return ({ st with custom := some true }, { w with toks := t })
    | .addAsset => do
      let (vault, _) ← next accts
      match w.toks vault.key with
      | none => .error .programError
      | some t =>
        if st.assets.any (fun x => x.vault == vault.key || x.mint == t.mint) then .error .programError
        else if t.owner ≠ st.signer then .error .programError
        else .ok ({ st with assets := st.assets ++ [⟨t.mint, vault.key⟩], custom := some paused }, w)
    | .removeAsset => do
      let (vault, _) ← next accts
      match w.toks vault.key with
      | none => .error .programError
      | some t =>
        if 0 < t.amount then .error .programError
        else
          let rest := st.assets.filter (·.vault != vault.key)
          if rest.length = st.assets.length then .error .programError
          else .ok ({ st with assets := rest, custom := some paused }, w)
    | .updateFee rate =>
      if rate < minFeeRate then .error .programError
      else if rate ≥ feeRateDenominator then .error .programError
      else .ok ({ st with feeRate := rate, custom := some paused }, w)
    | .updateAdmin => do
      let (new, _) ← next accts
      if !new.signer then .error .programError
      else .ok ({ st with admin := some new.key, custom := some paused }, w)

/-- `process_foreign_instruction`, 155-202. -/
def admin (E : PoolEnv) (st : PoolState) (w : World) (accts : List AccMeta) (ix : AdminIx) :
    Except Err (PoolState × World) := do
  let (_, l) ← next accts
  let (adm, l) ← next l
  if st.admin ≠ some adm.key then .error .programError
  else if !adm.signer then .error .programError
  else adminRequest E st w l ix

/-! ### The entry point -/

/-- Requests: those of the library, and the admin instructions (other data is refused by either pool). -/
inductive Req where
  | init (r : InitReq)
  | getBasket (act : Action)
  | exec (act : Action)
  | admin (ix : AdminIx)

/-- `process_instruction`, `lib.rs` 45-68 and 113-164, on the state held by the pool account (`none`: all
zero). -/
def process (E : PoolEnv) (k : PoolKind) (st : Option PoolState) (w : World) (accts : List AccMeta) (r : Req) :
    Except Err (Option PoolState × World) :=
  match st, r with
  | none, .init r => do
    let st ← initPool E k w accts r
    return (some st, w)
  | none, _ => .error .programError
  | some _, .init _ => .error .programError
  | some st, .getBasket act => do
    let _ ← getBasket E k st w accts act
    return (some st, w)
  | some st, .exec act => do
    let w ← execute E k st w accts act
    return (some st, w)
  | some st, .admin ix =>
    match k with
    | .simple => .error .programError
    | .admin => do
      let (st, w) ← admin E st w accts ix
      return (some st, w)

end Serum.Pool
