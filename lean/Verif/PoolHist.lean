import Verif.PoolBytes
import Verif.Chain

/-
Histories of a pool program with any number of pools: calls with any bytes and accounts, token instructions with any
mints, and whatever happens to accounts outside the program.
-/

namespace Serum.Pool

/-- Token instructions, with those on mints. -/
inductive MintIx where
  | tok (ix : TokIx)
  | setMinter (m : Nat) (new : Option Nat)
  | newMint (m : Nat) (auth : Option Nat)

/-- The token program with supply and mint authority of every mint (trusted, as `Verif.Token`). A mint without authority
may also be one that does not exist yet. -/
def tokChain (signs : Nat → Bool) (c : PoolChain) : MintIx → Option PoolChain
  | .tok (.mint a n) =>
    match c.toks a with
    | none => none
    | some t =>
      if (c.minter t.mint).any signs && decide (c.supply t.mint + n < W64) then
        (tokExec signs c.toks (.mint a n)).map fun l =>
          { c with toks := l, supply := fun x => if x = t.mint then c.supply t.mint + n else c.supply x }
      else none
  | .tok (.burn a auth n) =>
    match c.toks a with
    | none => none
    | some t =>
      if n ≤ c.supply t.mint then
        (tokExec signs c.toks (.burn a auth n)).map fun l =>
          { c with toks := l, supply := fun x => if x = t.mint then c.supply t.mint - n else c.supply x }
      else none
  | .tok ix => (tokExec signs c.toks ix).map fun l => { c with toks := l }
  | .setMinter m new =>
    if (c.minter m).any signs then some { c with minter := fun x => if x = m then new else c.minter x } else none
  | .newMint m auth =>
    if c.minter m = none then some { c with minter := fun x => if x = m then auth else c.minter x } else none

/-- One step of the chain. Addresses derived for the pool program sign only inside it. -/
inductive PStep (E : PoolEnv) (k : PoolKind) : PoolChain → PoolChain → Prop where
  /-- A successful call of the pool program. -/
  | call {c c' : PoolChain} {accts : List AccMeta} {data : List UInt8} (hk : ∀ a ∈ accts, a.key < 256 ^ 32)
      (hs : ∀ a ∈ accts, a.signer = true → ∀ p n, E.derive p n ≠ some a.key) (h : poolEntry E k c accts data = .ok c') :
      PStep E k c c'
  /-- A token instruction. -/
  | token {c c' : PoolChain} {signs : Nat → Bool} {ix : MintIx} (hs : ∀ p n a, E.derive p n = some a → signs a = false)
      (hk : ∀ a m o, ix = .tok (.openAcct a m o) → m < 256 ^ 32) (h : tokChain signs c ix = some c') : PStep E k c c'
  /-- Lamports come and go. -/
  | lamports {c : PoolChain} (a : Nat) (e : Bool) :
      PStep E k c { c with accs := fun x => if x = a then { c.accs a with exempt := e } else c.accs x }
  /-- An account that the program does not own changes, and may be handed over to it, zeroed. -/
  | other {c : PoolChain} {a : Nat} {r : RawAcc} (h : (c.accs a).owned = false)
      (hz : r.owned = true → ∃ n, r.data = zeros n) (hl : r.data.length ≤ maxLen) :
      PStep E k c { c with accs := fun x => if x = a then r else c.accs x }

/-- Before the program is deployed. -/
structure PStart (c : PoolChain) : Prop where
  owned : ∀ a, (c.accs a).owned = false
  lens : ∀ a, (c.accs a).data.length ≤ maxLen
  mints : ∀ a t, c.toks a = some t → t.mint < 256 ^ 32

/-- Chains reachable by any number of steps. -/
inductive PReach (E : PoolEnv) (k : PoolKind) : PoolChain → Prop where
  | start {c : PoolChain} (h : PStart c) : PReach E k c
  | step {c c' : PoolChain} (h : PReach E k c) (hs : PStep E k c c') : PReach E k c'

/-- Later points of a history, each step satisfying `ok`. -/
inductive PLater (E : PoolEnv) (k : PoolKind) (ok : PoolChain → PoolChain → Prop) (c : PoolChain) : PoolChain → Prop where
  | refl : PLater E k ok c c
  | step {c' c'' : PoolChain} (h : PLater E k ok c c') (hs : PStep E k c' c'') (ho : ok c' c'') : PLater E k ok c c''

end Serum.Pool
