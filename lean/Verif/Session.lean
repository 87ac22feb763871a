import Verif.Chain
import Verif.Crank

/-
The commands of `dex/crank/src/lib.rs` for customers of a market: the transactions they send. A transaction is a list of
instructions, of the system program (`create_account`) or of the dex; if one fails all are undone.
-/

namespace Serum.Crank

open Client

/-- One instruction of a transaction: an account of `len` bytes is created for the dex, or the dex is called. -/
inductive TxIx where
  | create (a len : Nat)
  | call (c : Call)

/-- An address nobody has used: no program owns it and it has no data. The lamports of accounts are not modelled here; an
address holding lamports would be refused by the system program too. -/
def Unused (c : Chain) (a : Nat) : Prop := a ≠ 0 ∧ (c.accs a).owned = false ∧ (c.accs a).data = []

instance (c : Chain) (a : Nat) : Decidable (Unused c a) := by unfold Unused; infer_instance

/-- The chain with a new account: zeroed, owned by the dex and rent exempt (the client pays
`get_minimum_balance_for_rent_exemption`, `lib.rs` 1415). -/
def withNew (c : Chain) (a len : Nat) : Chain :=
  { c with accs := fun x => if x = a then ⟨true, true, zeros len⟩ else c.accs x }

/-- An instruction of a transaction signed by `sg`. `create_account` wants the new address to sign. -/
def runIx (P : Params) (mints : Nat → Bool) (now : Int) (sg : Nat → Bool) (c : Chain) : TxIx → Except Err Chain
  | .create a len => if Unused c a ∧ sg a = true then .ok (withNew c a len) else .error .programError
  | .call x => execBytes P mints now c (x.accts sg) x.data

/-- A transaction. -/
def runTx (P : Params) (mints : Nat → Bool) (now : Int) (sg : Nat → Bool) : Chain → List TxIx → Except Err Chain
  | c, [] => .ok c
  | c, x :: xs => do
    let c' ← runIx P mints now sg c x
    runTx P mints now sg c' xs

/-- The size of an open-orders account without padding (`size_of::<OpenOrders>()`). -/
def ordersSize : Nat := 3216

/-- `create_dex_account`, `lib.rs` 1403-1419: twelve bytes of padding are added. -/
def createDexAccount (a unpadded : Nat) : TxIx := .create a (unpadded + 12)

/-- The open-orders account a command uses: the one given, or a new one (`lib.rs` 1100-1117, 1148-1165). -/
def ordersFor (given : Option Nat) (fresh : Nat) : Nat × List TxIx :=
  match given with
  | some a => (a, [])
  | none => (fresh, [createDexAccount fresh ordersSize])

/-- `init_open_orders`, `lib.rs` 1093-1137. -/
def initOpenOrdersTx (prog rent owner : Nat) (keys : MarketKeys) (given : Option Nat) (fresh : Nat) : List TxIx :=
  let (oo, ixs) := ordersFor given fresh
  ixs ++ [.call (Client.initOpenOrders rent prog oo owner keys.market none)]

/-- `place_order`, `lib.rs` 1139-1200. -/
def placeOrderTx (P : Params) (prog rent wallet payer : Nat) (keys : MarketKeys) (given : Option Nat) (fresh : Nat)
    (ix : NewOrderIx) : List TxIx :=
  let (oo, ixs) := ordersFor given fresh
  ixs ++ [.call (placeOrder P prog rent wallet payer oo keys ix)]

/-- `cancel_order_by_client_order_id`, `lib.rs` 999-1029. -/
def cancelOrderTx (prog owner oo : Nat) (keys : MarketKeys) (clientId : Nat) : List TxIx :=
  [.call (Client.cancelOrderByClientId prog keys.market keys.bids keys.asks oo owner keys.eventQ clientId)]

/-- `cancel_orders_by_client_order_ids`, `lib.rs` 1031-1062. -/
def cancelOrdersTx (prog owner oo : Nat) (keys : MarketKeys) (ids : List Nat) : List TxIx :=
  [.call (Client.cancelOrdersByClientIds prog keys.market keys.bids keys.asks oo owner keys.eventQ ids)]

/-- `settle_funds`, `lib.rs` 1202-1256. -/
def settleFundsTx (P : Params) (prog signer oo coinWallet pcWallet : Nat) (keys : MarketKeys) : List TxIx :=
  [.call (settleFunds P prog signer oo coinWallet pcWallet keys)]

/-- `close_open_orders`, `lib.rs` 1064-1091: the rent deposit goes to the owner. -/
def closeOpenOrdersTx (prog owner oo : Nat) (keys : MarketKeys) : List TxIx :=
  [.call (Client.closeOpenOrders prog oo owner owner keys.market)]

end Serum.Crank
