import Verif.Chain

/-
Lamports. `CloseOpenOrders` pays the whole balance of the account, its rent deposit, to an account of the sender's choice
(`dex/src/state.rs` 2896-2908). Nothing else in the program assigns to the lamports of an account.

The runtime accepts an instruction only if it leaves the sum of the lamports of its accounts as it was
(`UnbalancedInstruction`), lets nobody but the owning program take lamports from an account, and deletes accounts without
lamports. Not modelled: that the runtime also refuses changes to accounts not passed as writable (see C69 for the accounts
concerned), transaction fees and rent collection; that lamports decide the `exempt` mark of an account.
-/

namespace Serum

/-- The lamports of every account. -/
abbrev Lamports := Nat → Nat

/-- `process_close_open_orders`, `state.rs` 2903-2908: the destination is read, then written, then the account emptied. They may
be the same account. -/
def closeLamports (L : Lamports) (oo dest : Nat) : Except Err Lamports := do
  let sum ← unwrap (checkedAdd (L dest) (L oo))
  let L := fun a => if a = dest then sum else L a
  return fun a => if a = oo then 0 else L a

/-- Each account once. -/
def distinct : List Nat → List Nat
  | [] => []
  | a :: l => a :: (distinct l).filter (· ≠ a)

/-- The runtime's check after an instruction. -/
def balanced (L L' : Lamports) (accts : List AccMeta) : Bool :=
  let keys := distinct (accts.map (·.key))
  (keys.map L).sum == (keys.map L').sum

/-- The effect of an instruction on lamports: `State::process`, `state.rs` 2550-2680, of which only 2658-2663 leads to an
assignment to lamports. -/
def lamportsAfter (L : Lamports) (ix : Option Instruction) (accts : List AccMeta) : Except Err Lamports :=
  match ix, accts with
  | some .closeOpenOrders, [oo, _, dest, _] => closeLamports L oo.key dest.key
  | _, _ => .ok L

/-- One instruction of the dex with its effect on lamports, then the runtime's check. -/
def execRent (P : Params) (mints : Nat → Bool) (now : Int) (c : Chain) (L : Lamports) (accts : List AccMeta) (data : List UInt8) :
    Except Err (Chain × Lamports) := do
  let c' ← execBytes P mints now c accts data
  let L' ← lamportsAfter L (Instruction.unpack data) accts
  if balanced L L' accts then return (c', L') else .error .programError

/-- What may happen to lamports outside the program: accounts of the program receive, but do not give. -/
def Credits (c : Chain) (L L' : Lamports) : Prop := ∀ a, (c.accs a).owned = true → L a ≤ L' a

/-- One step of the chain, with lamports. The runtime deletes an account of the program only if it has none. -/
inductive RStep (P : Params) : Chain → Lamports → Chain → Lamports → Prop where
  | instr {c c' : Chain} {L L' : Lamports} {mints : Nat → Bool} {now : Int} {accts : List AccMeta} {data : List UInt8}
      (hk : ∀ a ∈ accts, a.key < 256 ^ 32)
      (hs : ∀ a ∈ accts, a.signer = true → ∀ k n, P.vaultSigner k n ≠ some a.key)
      (h : execRent P mints now c L accts data = .ok (c', L')) : RStep P c L c' L'
  | token {c : Chain} {L L' : Lamports} {signs : Nat → Bool} {ix : TokIx} {l : Ledger}
      (hs : ∀ a, signs a = true → ∀ k n, P.vaultSigner k n ≠ some a)
      (h : tokExec signs c.toks ix = some l) (hL : Credits c L L') : RStep P c L { c with toks := l } L'
  | alter {c : Chain} {L L' : Lamports} {a : Nat} {r : RawAcc} (h : Alters (c.accs a) r) (h0 : a = 0 → r.owned = false)
      (hd : (c.accs a).owned = true → r = { c.accs a with exempt := r.exempt } ∨ L a = 0) (hL : Credits c L L') :
      RStep P c L { c with accs := fun x => if x = a then r else c.accs x } L'

/-- A later point of the history. -/
inductive RLater (P : Params) (n : Nat) (c : Chain) (L : Lamports) : Nat → Chain → Lamports → Prop where
  | refl : RLater P n c L n c L
  | step {i : Nat} {d e : Chain} {M N : Lamports} (h : RLater P n c L i d M) (hs : RStep P d M e N) :
      RLater P n c L (i + 1) e N

end Serum
