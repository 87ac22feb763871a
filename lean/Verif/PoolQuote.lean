import Verif.PoolBytes
import Verif.Client

/-
How a pool answers `GetBasket`: the call it makes to the program of the return buffer. `pool/src/lib.rs` 136-147,
`pool/src/context.rs` 64-68, 236-262.
-/

namespace Serum.Pool

/-- The data of the call, `lib.rs` 136-140: eight zero bytes (the offset to write at), then the basket. -/
def quoteData (qs : List Nat) : List UInt8 := List.replicate 8 0 ++ basketCodec.enc qs

/-- `RetbufAccounts::write_data`, `context.rs` 250-261, for the accounts that `PoolContext::new` picks (114-116): pool, mint,
vaults and authority come before them. -/
def quoteCall (st : PoolState) (accts : List AccMeta) (qs : List Nat) : Option Call := do
  let buf ← accts[3 + st.assets.length]?
  let prog ← accts[4 + st.assets.length]?
  return { prog := prog.key, metas := [wr buf.key], data := quoteData qs }

/-- The `GetBasket` branch with its call, `lib.rs` 124-148. -/
def answer (E : PoolEnv) (k : PoolKind) (st : PoolState) (w : World) (accts : List AccMeta) (act : Action) :
    Except Err Call := do
  let qs ← getBasket E k st w accts act
  match quoteCall st accts qs with
  | some c => return c
  | none => .error .programError

end Serum.Pool
