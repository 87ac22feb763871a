import Verif.PoolHist

/-!
The `common` crate: the cluster a user names on the command line (`common/src/client/mod.rs`), and the transactions on
tokens its client (`common/src/client/rpc.rs`) and the crank (`dex/crank/src/lib.rs`) send.

Simplifications: strings are lists of characters; lower case is that of ASCII (of the other characters only the Kelvin
sign has a lower case in ASCII, and no name here has a `k`). A transaction is what its token instructions do, all or
nothing, on the chain of `PoolHist`; creating an account is the opening of the token account or mint in it; that an
account can be opened only for a mint that exists is left out. Lamports, fees, blockhashes, sending and confirming are not
modelled. -/

namespace Serum.Common

open Pool

/-- `Cluster`, `client/mod.rs` 6-15. -/
inductive Cluster where
  | testnet
  | mainnet
  | vipMainnet
  | devnet
  | localnet
  | debug
  | custom (url : List Char)
  deriving DecidableEq

/-- `to_lowercase`. -/
def lower (s : List Char) : List Char := s.map Char.toLower

/-- `contains`. -/
def hasSub (p : List Char) : List Char → Bool
  | [] => p.isEmpty
  | c :: s => p.isPrefixOf (c :: s) || hasSub p s

def http : List Char := ['h', 't', 't', 'p']

/-- `Cluster::from_str`, 23-39. -/
def Cluster.parse (s : List Char) : Option Cluster :=
  let l := lower s
  if hasSub http l then some (.custom s)
  else if l = "t".toList ∨ l = "testnet".toList then some .testnet
  else if l = "m".toList ∨ l = "mainnet".toList then some .mainnet
  else if l = "v".toList ∨ l = "vipmainnet".toList then some .vipMainnet
  else if l = "d".toList ∨ l = "devnet".toList then some .devnet
  else if l = "l".toList ∨ l = "localnet".toList then some .localnet
  else if l = "g".toList ∨ l = "debug".toList then some .debug
  else none

/-- `Display`, 41-54. -/
def Cluster.display : Cluster → List Char
  | .testnet => "testnet".toList
  | .mainnet => "mainnet".toList
  | .vipMainnet => "vipmainnet".toList
  | .devnet => "devnet".toList
  | .localnet => "localnet".toList
  | .debug => "debug".toList
  | .custom url => url

/-- `Cluster::url`, 56-68. -/
def Cluster.url : Cluster → List Char
  | .devnet => "https://api.devnet.solana.com".toList
  | .testnet => "https://api.testnet.solana.com".toList
  | .mainnet => "https://api.mainnet-beta.solana.com".toList
  | .vipMainnet => "https://vip-api.mainnet-beta.solana.com".toList
  | .localnet => "http://127.0.0.1:8899".toList
  | .debug => "http://34.90.18.145:8899".toList
  | .custom url => url

/-- The signers of a transaction. -/
def signedBy (ks : List Nat) (k : Nat) : Bool := ks.contains k

/-- `create_token_account`, `client/rpc.rs` 51-106. -/
def createTokenAccount (c : PoolChain) (payer acct mint owner : Nat) : Option PoolChain :=
  tokChain (signedBy [payer, acct]) c (.tok (.openAcct acct mint owner))

/-- `create_and_init_mint`, 119-155 (`new_mint`, 108-117, with a fresh key). There is no freeze authority. -/
def createMint (c : PoolChain) (payer mint owner : Nat) : Option PoolChain :=
  tokChain (signedBy [payer, mint]) c (.newMint mint (some owner))

/-- `mint_to_new_account`, 157-206: the payer owns the new account; the token program compares the minting key named
with the mint's authority. -/
def mintToNewAccount (c : PoolChain) (payer minter acct mint quantity : Nat) : Option PoolChain := do
  let signs := signedBy [payer, minter, acct]
  let c ← tokChain signs c (.tok (.openAcct acct mint payer))
  if c.minter mint = some minter then tokChain signs c (.tok (.mint acct quantity)) else none

/-- `transfer`, 208-229. -/
def sendTokens (c : PoolChain) (src dst amount auth payer : Nat) : Option PoolChain :=
  tokChain (signedBy [payer, auth]) c (.tok (.transfer src dst auth amount))

/-- `mint_to_existing_account`, `dex/crank/src/lib.rs` 1508-1537: the token program compares mint and minting key. -/
def mintToExistingAccount (c : PoolChain) (payer minter mint acct quantity : Nat) : Option PoolChain := do
  let t ← c.toks acct
  if t.mint = mint ∧ c.minter mint = some minter then
    tokChain (signedBy [payer, minter]) c (.tok (.mint acct quantity))
  else none

/-- `initialize_token_account`, `dex/crank/src/lib.rs` 1539-1566: the payer owns the account. -/
def initializeTokenAccount (c : PoolChain) (acct mint owner : Nat) : Option PoolChain :=
  tokChain (signedBy [owner, acct]) c (.tok (.openAcct acct mint owner))

end Serum.Common
