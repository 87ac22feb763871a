import Verif.Processor
import Verif.InitMarket

/-!
The client side: the instruction builders of `dex/src/instruction.rs` 666-1169, and how the runtime hands a built
instruction to the program.
-/

namespace Serum

/-- `solana_program::instruction::AccountMeta`. -/
structure Meta where
  key : Nat
  signer : Bool
  writable : Bool
  deriving DecidableEq, Repr

/-- `solana_program::instruction::Instruction`. -/
structure Call where
  prog : Nat
  metas : List Meta
  data : List UInt8
  deriving DecidableEq, Repr

/-- `AccountMeta::new(key, false)`. -/
def wr (k : Nat) : Meta := ⟨k, false, true⟩
/-- `AccountMeta::new_readonly(key, false)`. -/
def ro (k : Nat) : Meta := ⟨k, false, false⟩
/-- `AccountMeta::new_readonly(key, true)`. -/
def roSig (k : Nat) : Meta := ⟨k, true, false⟩

/-- The accounts the program sees when the call is sent in a transaction signed by `sg`: for every account whether its
key signed the transaction, whatever this mention of it asked for. -/
def Call.accts (c : Call) (sg : Nat → Bool) : List AccMeta := c.metas.map fun m => ⟨m.key, sg m.key⟩

/-- The runtime refuses a transaction that lacks a signature asked for. -/
def Call.SignedBy (c : Call) (sg : Nat → Bool) : Prop := ∀ m ∈ c.metas, m.signer = true → sg m.key = true

/-- The accounts a call may change. -/
def Call.mayWrite (c : Call) (k : Nat) : Prop := ∃ m ∈ c.metas, m.key = k ∧ m.writable = true

namespace Client

/-- `initialize_market`, `instruction.rs` 666-742. The authorities are nested: one without its predecessor is dropped.
`rent` is `sysvar::rent::ID`. -/
def initializeMarket (rent market prog coinMint pcMint coinVault pcVault : Nat) (auth prune crank : Option Nat)
    (bids asks reqQ eventQ coinLot pcLot nonce dust : Nat) : Call :=
  { prog := prog
    metas := [wr market, wr reqQ, wr eventQ, wr bids, wr asks, wr coinVault, wr pcVault, ro coinMint, ro pcMint,
      ro rent] ++
      (match auth with
      | none => []
      | some a => ro a :: match prune with
        | none => []
        | some p => ro p :: match crank with
          | none => []
          | some c => [ro c])
    data := (Instruction.initializeMarket ⟨coinLot, pcLot, 0, nonce, dust⟩).pack }

/-- `new_order`, `instruction.rs` 744-803. -/
def newOrder (market oo reqQ eventQ bids asks payer owner coinVault pcVault spl rent : Nat) (srm : Option Nat)
    (prog : Nat) (ix : NewOrderIx) : Call :=
  { prog := prog
    metas := [wr market, wr oo, wr reqQ, wr eventQ, wr bids, wr asks, wr payer, roSig owner, wr coinVault, wr pcVault,
      ro spl, ro rent] ++
      (match srm with
      | some k => [ro k]
      | none => [])
    data := (Instruction.newOrderV3 ix).pack }

/-- `match_orders`, `instruction.rs` 805-831. -/
def matchOrders (prog market reqQ bids asks eventQ coinFee pcFee limit : Nat) : Call :=
  { prog := prog
    metas := [wr market, wr reqQ, wr eventQ, wr bids, wr asks, wr coinFee, wr pcFee]
    data := (Instruction.matchOrders limit).pack }

/-- `consume_events`, `instruction.rs` 833-858. -/
def consumeEvents (prog : Nat) (oos : List Nat) (market eventQ coinFee pcFee limit : Nat) : Call :=
  { prog := prog
    metas := oos.map wr ++ [wr market, wr eventQ, wr coinFee, wr pcFee]
    data := (Instruction.consumeEvents limit).pack }

/-- `consume_events_permissioned`, `instruction.rs` 860-883. -/
def consumeEventsPermissioned (prog : Nat) (oos : List Nat) (market eventQ auth limit : Nat) : Call :=
  { prog := prog
    metas := oos.map wr ++ [wr market, wr eventQ, roSig auth]
    data := (Instruction.consumeEventsPermissioned limit).pack }

/-- `cancel_order`, `instruction.rs` 885-910. -/
def cancelOrder (prog market bids asks oo owner eventQ : Nat) (side : Side) (orderId : Nat) : Call :=
  { prog := prog
    metas := [wr market, wr bids, wr asks, wr oo, roSig owner, wr eventQ]
    data := (Instruction.cancelOrderV2 side orderId).pack }

/-- `settle_funds`, `instruction.rs` 912-945. -/
def settleFunds (prog market spl oo owner coinVault coinWallet pcVault pcWallet : Nat) (refer : Option Nat)
    (vaultSigner : Nat) : Call :=
  { prog := prog
    metas := [wr market, wr oo, roSig owner, wr coinVault, wr pcVault, wr coinWallet, wr pcWallet, ro vaultSigner,
      ro spl] ++
      (match refer with
      | some k => [wr k]
      | none => [])
    data := Instruction.settleFunds.pack }

/-- `cancel_order_by_client_order_id`, `instruction.rs` 947-971. -/
def cancelOrderByClientId (prog market bids asks oo owner eventQ clientId : Nat) : Call :=
  { prog := prog
    metas := [wr market, wr bids, wr asks, wr oo, roSig owner, wr eventQ]
    data := (Instruction.cancelOrderByClientIdV2 clientId).pack }

/-- `cancel_orders_by_client_order_ids`, `instruction.rs` 973-997. -/
def cancelOrdersByClientIds (prog market bids asks oo owner eventQ : Nat) (ids : List Nat) : Call :=
  { prog := prog
    metas := [wr market, wr bids, wr asks, wr oo, roSig owner, wr eventQ]
    data := (Instruction.cancelOrdersByClientIds ids).pack }

/-- `disable_market`, `instruction.rs` 999-1014. -/
def disableMarket (prog market auth : Nat) : Call :=
  { prog := prog
    metas := [wr market, roSig auth]
    data := Instruction.disableMarket.pack }

/-- `sweep_fees`, `instruction.rs` 1016-1039. -/
def sweepFees (prog market pcVault auth dst vaultSigner spl : Nat) : Call :=
  { prog := prog
    metas := [wr market, wr pcVault, roSig auth, wr dst, ro vaultSigner, ro spl]
    data := Instruction.sweepFees.pack }

/-- `send_take`, `instruction.rs` 1041-1096. -/
def sendTake (market reqQ eventQ bids asks coinWallet pcWallet owner coinVault pcVault spl vaultSigner : Nat)
    (srm : Option Nat) (prog : Nat) (ix : SendTakeIx) : Call :=
  { prog := prog
    metas := [wr market, wr reqQ, wr eventQ, wr bids, wr asks, wr coinWallet, wr pcWallet, roSig owner, wr coinVault,
      wr pcVault, ro spl, ro vaultSigner] ++
      (match srm with
      | some k => [ro k]
      | none => [])
    data := (Instruction.sendTake ix).pack }

/-- `close_open_orders`, `instruction.rs` 1098-1117. -/
def closeOpenOrders (prog oo owner dest market : Nat) : Call :=
  { prog := prog
    metas := [wr oo, roSig owner, wr dest, ro market]
    data := Instruction.closeOpenOrders.pack }

/-- `init_open_orders`, `instruction.rs` 1119-1141. -/
def initOpenOrders (rent prog oo owner market : Nat) (auth : Option Nat) : Call :=
  { prog := prog
    metas := [wr oo, roSig owner, ro market, ro rent] ++
      (match auth with
      | some k => [roSig k]
      | none => [])
    data := Instruction.initOpenOrders.pack }

/-- `prune`, `instruction.rs` 1143-1169. -/
def prune (prog market bids asks auth oo owner eventQ limit : Nat) : Call :=
  { prog := prog
    metas := [wr market, wr bids, wr asks, roSig auth, wr oo, ro owner, wr eventQ]
    data := (Instruction.prune limit).pack }

end Client
end Serum
