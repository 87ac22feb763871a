import Verif.Borsh
import Verif.Pool
import Verif.InitMarket

/-
The pool program on bytes: requests and admin instructions as instruction data, pool records as account data, any
number of pools. `pool/schema/src/schema.rs`, `pool/src/lib.rs`, `pool/examples/{simple,admin-controlled}`.
-/

namespace Serum.Pool

open Borsh

/-! ### Types and their encodings -/

/-- `PoolStateTag`, `schema.rs` 78. -/
def stateTag : Nat := 0x16a7874c7fb2301b
/-- `PoolRequestTag`, `schema.rs` 131. -/
def requestTag : Nat := 0x220a6cbdcd1cc4cf
/-- `AdminInstructionTag`, `examples/admin-controlled` 17. -/
def adminTag : Nat := 0x31e6452361a17878
/-- `AdminControlledPoolTag`, `examples/admin-controlled` 87. -/
def customTag : Nat := 0x4a3ab7f76f93f94e

/-- `Address`, `schema.rs` 8-11, 214-226. -/
def key : Codec Nat := uint 32

/-- `AssetInfo`, `schema.rs` 113-118. -/
def assetCodec : Codec Asset := iso (fun p => ⟨p.1, p.2⟩) (fun a => (a.mint, a.vault)) (pair key key)

/-- `PoolState`, `schema.rs` 80-111, with all its fields; a `ParamDesc` (120-124) is a pair. -/
structure Record where
  mint : Nat
  assets : List Asset
  signer : Nat
  nonce : Nat
  params : List (Nat × Bool)
  name : List UInt8
  lqdVault : Nat
  initVault : Nat
  feeRate : Nat
  admin : Option Nat
  custom : List UInt8
  deriving DecidableEq

/-- The fields in the order of `schema.rs` 80-111. -/
def recordCodec : Codec Record :=
  iso (fun (_, a, b, c, d, e, f, g, h, i, j, k) => ⟨a, b, c, d, e, f, g, h, i, j, k⟩)
    (fun r => ((), r.mint, r.assets, r.signer, r.nonce, r.params, r.name, r.lqdVault, r.initVault, r.feeRate, r.admin, r.custom))
    (pair (tag 8 stateTag) (pair key (pair (vec assetCodec) (pair key (pair (uint 1) (pair (vec (pair key bool))
      (pair string (pair key (pair key (pair (uint 4) (pair (opt key) (vec byte))))))))))))

/-- `CustomPoolState`, `examples/admin-controlled` 89-93. -/
def customCodec : Codec Bool := iso (·.2) (fun b => ((), b)) (pair (tag 8 customTag) bool)

/-- `InitializePoolRequest`, `schema.rs` 186-193. -/
structure InitRequest where
  nonce : Nat
  assets : Nat
  name : List UInt8
  feeRate : Nat
  data : List UInt8
  deriving DecidableEq

/-- `PoolRequestInner`, `schema.rs` 139-184. -/
inductive Request where
  | init (r : InitRequest)
  | getBasket (act : Action)
  | exec (act : Action)

/-- The fields of `InitializePoolRequest` in order. -/
def initCodec : Codec InitRequest :=
  iso (fun (a, b, c, d, e) => ⟨a, b, c, d, e⟩) (fun r => (r.nonce, r.assets, r.name, r.feeRate, r.data))
    (pair (uint 1) (pair (uint 1) (pair string (pair (uint 4) (vec byte)))))

/-- `PoolAction`, `schema.rs` 195-203. -/
def actionCodec : Codec Action :=
  iso (fun | .inl n => .create n | .inr (.inl n) => .redeem n | .inr (.inr l) => .swap l)
    (fun | .create n => .inl n | .redeem n => .inr (.inl n) | .swap l => .inr (.inr l))
    (variant 0 (uint 8) (variant 1 (uint 8) (last 2 (vec (uint 8)))))

/-- `PoolRequest`, `schema.rs` 133-137. -/
def requestCodec : Codec Request :=
  iso (fun | (_, .inl r) => .init r | (_, .inr (.inl a)) => .getBasket a | (_, .inr (.inr a)) => .exec a)
    (fun | .init r => ((), .inl r) | .getBasket a => ((), .inr (.inl a)) | .exec a => ((), .inr (.inr a)))
    (pair (tag 8 requestTag) (variant 0 initCodec (variant 1 actionCodec (last 2 actionCodec))))

/-- `AdminInstruction`, `examples/admin-controlled` 19-85. -/
def adminCodec : Codec AdminIx :=
  iso
    (fun
      | (_, .inl _) => .pause
      | (_, .inr (.inl _)) => .unpause
      | (_, .inr (.inr (.inl n))) => .approveDelegate n
      | (_, .inr (.inr (.inr (.inl _)))) => .addAsset
      | (_, .inr (.inr (.inr (.inr (.inl _))))) => .removeAsset
      | (_, .inr (.inr (.inr (.inr (.inr (.inl n)))))) => .updateFee n
      | (_, .inr (.inr (.inr (.inr (.inr (.inr _)))))) => .updateAdmin)
    (fun
      | .pause => ((), .inl ())
      | .unpause => ((), .inr (.inl ()))
      | .approveDelegate n => ((), .inr (.inr (.inl n)))
      | .addAsset => ((), .inr (.inr (.inr (.inl ()))))
      | .removeAsset => ((), .inr (.inr (.inr (.inr (.inl ())))))
      | .updateFee n => ((), .inr (.inr (.inr (.inr (.inr (.inl n))))))
      | .updateAdmin => ((), .inr (.inr (.inr (.inr (.inr (.inr ())))))))
    (pair (tag 8 adminTag) (variant 0 unit (variant 1 unit (variant 2 (uint 8) (variant 3 unit (variant 4 unit
      (variant 5 (uint 4) (last 6 unit))))))))

/-- `Basket`, `schema.rs` 205-210; quantities of baskets are not negative and below 2^63 (C48, C49). -/
def basketCodec : Codec (List Nat) := vec (uint 8)

/-! ### The program -/

/-- `read_custom_state`, `examples/admin-controlled` 101-106, and the fields that requests look at. -/
def Record.view (p : Record) : PoolState where
  mint := p.mint
  assets := p.assets
  signer := p.signer
  nonce := p.nonce
  params := p.params.map (·.1)
  lqdVault := p.lqdVault
  initVault := p.initVault
  feeRate := p.feeRate
  admin := p.admin
  custom := customCodec.all p.custom

/-- The record after an admin instruction: the fields it may set, and `write_custom_state` (`examples/admin-controlled`
108-111, 342). -/
def Record.put (p : Record) (st : PoolState) : Record :=
  { p with
    assets := st.assets, feeRate := st.feeRate, admin := st.admin
    custom := match st.custom with | some b => customCodec.enc b | none => p.custom }

/-- The record that `initialize_pool` writes, `lib.rs` 177-199. -/
def newRecord (r : InitRequest) (st : PoolState) : Record :=
  Record.put
    { mint := st.mint, assets := st.assets, signer := st.signer, nonce := st.nonce, params := [], name := r.name
      lqdVault := st.lqdVault, initVault := st.initVault, feeRate := st.feeRate, admin := none, custom := [] } st

/-- `get_state`, `lib.rs` 77-100. -/
def getState (d : List UInt8) : Except Err (Option Record) :=
  if d.all (· == 0) then .ok none
  else match recordCodec.dec d with
    | some (p, _) => .ok (some p)
    | none => .error .programError

/-- `save_state`, `lib.rs` 102-110: the bytes after the record stay. -/
def saveState (p : Record) (d : List UInt8) : Except Err (List UInt8) :=
  let b := recordCodec.enc p
  if d.length < b.length then .error .programError else .ok (b ++ d.drop b.length)

/-- The accounts of the pool program, the token accounts, and supply and mint authority of every mint. -/
structure PoolChain where
  accs : Accs
  toks : Ledger
  supply : Nat → Nat
  minter : Nat → Option Nat

/-- What a pool with the given pool token sees. -/
def PoolChain.world (c : PoolChain) (m : Nat) : World := ⟨c.toks, c.supply m, c.minter m⟩

/-- What it leaves behind. -/
def PoolChain.putWorld (c : PoolChain) (m : Nat) (w : World) : PoolChain :=
  { c with
    toks := w.toks
    supply := fun x => if x = m then w.supply else c.supply x
    minter := fun x => if x = m then w.minter else c.minter x }

/-- Write the record to the pool account. -/
def PoolChain.save (c : PoolChain) (a : Nat) (p : Record) : Except Err PoolChain := do
  let d ← saveState p (c.accs a).data
  return { c with accs := setData c.accs a d }

/-- `process_instruction`, `lib.rs` 113-164, on the request. -/
def processRequest (E : PoolEnv) (k : PoolKind) (c : PoolChain) (a : Nat) (accts : List AccMeta) (r : Request) :
    Except Err PoolChain := do
  match ← getState (c.accs a).data with
  | none =>
    match r with
    | .init r => do
      let st ← initPool E k (c.world ((accts.map (·.key)).getD 1 0)) accts ⟨r.nonce, r.assets, r.feeRate⟩
      c.save a (newRecord r st)
    | _ => .error .programError
  | some p =>
    match r with
    | .init _ => .error .programError
    | .getBasket act => do
      let _ ← getBasket E k p.view (c.world p.mint) accts act
      return c
    | .exec act => do
      let w ← execute E k p.view (c.world p.mint) accts act
      (c.putWorld p.mint w).save a p

/-- `process_foreign_instruction`: `pool.rs` 77-84, `examples/admin-controlled` 155-202. -/
def processForeign (E : PoolEnv) (k : PoolKind) (c : PoolChain) (a : Nat) (accts : List AccMeta) (data : List UInt8) :
    Except Err PoolChain :=
  match k with
  | .simple => .error .programError
  | .admin =>
    match recordCodec.dec (c.accs a).data, adminCodec.all data with
    | some (p, _), some ix => do
      let (st, w) ← Pool.admin E p.view (c.world p.mint) accts ix
      (c.putWorld p.mint w).save a (p.put st)
    | _, _ => .error .programError

/-- `pool_entrypoint`, `lib.rs` 45-68. Errors are not told apart. -/
def poolEntry (E : PoolEnv) (k : PoolKind) (c : PoolChain) (accts : List AccMeta) (data : List UInt8) :
    Except Err PoolChain :=
  match accts with
  | [] => .error .programError
  | a :: _ =>
    if (c.accs a.key).owned then
      if 8 ≤ data.length ∧ ofLe (data.take 8) = requestTag then
        match requestCodec.all data with
        | some r => processRequest E k c a.key accts r
        | none => .error .programError
      else processForeign E k c a.key accts data
    else .error .programError

end Serum.Pool
