/-
Machine arithmetic and error values.

Rust `u64` values are modelled as `Nat` together with explicit reduction modulo 2^64.
`dex/Cargo.toml` lines 47-49 (`[profile.release]`) does not switch on `overflow-checks`, so in the
deployed program the plain operators `+ - *` on `u64` wrap around; `checked_add(..).unwrap()` and
friends abort the instruction instead.
-/

namespace Serum

/-- 2^64, the modulus of `u64`. -/
def W64 : Nat := 18446744073709551616

/-- 2^128, the modulus of `u128`. -/
def W128 : Nat := 340282366920938463463374607431768211456

/-- Plain `a + b` on `u64` in a release build (wraps). -/
def wadd (a b : Nat) : Nat := (a + b) % W64

/-- Plain `a - b` on `u64` in a release build (wraps). -/
def wsub (a b : Nat) : Nat := (a + (W64 - b % W64)) % W64

/-- Plain `a * b` on `u64` in a release build (wraps). -/
def wmul (a b : Nat) : Nat := (a * b) % W64

/-- The ways an instruction can fail. `dex/src/error.rs` 7-203 has one numeric code per case; the
model keeps those that tests and clients distinguish, and merges all `check_assert!` failures into
`assertion` and all Rust panics (`unwrap`, `assert!`, `unreachable!`, slice index) into `panic`.
Either way the runtime discards every effect of the instruction. -/
inductive Err where
  | panic
  | assertion
  | programError
  | invalidMarketFlags
  | slabTooSmall
  | requestQueueEmpty
  | eventQueueTooSmall
  | insufficientFunds
  | wrongCoinVault
  | wrongPcVault
  | wrongCoinMint
  | wrongPcMint
  | wrongFeeDiscountAccountOwner
  | wrongFeeDiscountMint
  | clientIdNotFound
  | tooManyOpenOrders
  | wrongOrdersAccount
  | wrongBidsAccount
  | wrongAsksAccount
  | wrongRequestQueueAccount
  | wrongEventQueueAccount
  | eventQueueFull
  | marketIsDisabled
  | transferFailed
  | rentNotProvided
  | ownerAccountNotProvided
  | ordersNotRentExempt
  | orderNotFound
  | orderNotYours
  | wouldSelfTrade
  | invalidOpenOrdersAuthority
  | orderMaxTimestampExceeded
  | minAmountNotMet
  deriving DecidableEq, Repr

/-- `check_assert!(b)?`, `dex/src/error.rs` 151-159. -/
def checkAssert (b : Bool) : Except Err Unit := if b then .ok () else .error .assertion

/-- Rust `assert!(b)`: a panic if false. -/
def rustAssert (b : Bool) : Except Err Unit := if b then .ok () else .error .panic

/-- `opt.unwrap()`: a panic on `None`. -/
def unwrap {α : Type} : Option α → Except Err α
  | some a => .ok a
  | none => .error .panic

/-- `a.checked_add(b)` on `u64`. -/
def checkedAdd (a b : Nat) : Option Nat := if a + b < W64 then some (a + b) else none

/-- `a.checked_sub(b)` on `u64`. -/
def checkedSub (a b : Nat) : Option Nat := if b ≤ a then some (a - b) else none

/-- `a.checked_mul(b)` on `u64`. -/
def checkedMul (a b : Nat) : Option Nat := if a * b < W64 then some (a * b) else none

theorem wadd_eq {a b : Nat} (h : a + b < W64) : wadd a b = a + b := Nat.mod_eq_of_lt h

theorem wmul_eq {a b : Nat} (h : a * b < W64) : wmul a b = a * b := Nat.mod_eq_of_lt h

theorem wsub_eq {a b : Nat} (h : b ≤ a) (ha : a < W64) : wsub a b = a - b := by
  unfold wsub
  unfold W64 at *
  omega

theorem wadd_lt (a b : Nat) : wadd a b < W64 := Nat.mod_lt _ (by decide)
theorem wsub_lt (a b : Nat) : wsub a b < W64 := Nat.mod_lt _ (by decide)
theorem wmul_lt (a b : Nat) : wmul a b < W64 := Nat.mod_lt _ (by decide)

/-- Wrapping subtraction undoes wrapping addition. -/
theorem wsub_wadd {a b : Nat} (ha : a < W64) : wsub (wadd a b) b = a := by
  unfold wsub wadd
  unfold W64 at *
  omega

/-- Wrapping addition undoes wrapping subtraction. -/
theorem wadd_wsub {a b : Nat} (ha : a < W64) : wadd (wsub a b) b = a := by
  unfold wsub wadd
  unfold W64 at *
  omega

theorem checkedAdd_some {a b c : Nat} : checkedAdd a b = some c ↔ a + b < W64 ∧ c = a + b := by
  unfold checkedAdd; split <;> simp [eq_comm] <;> omega

theorem checkedSub_some {a b c : Nat} : checkedSub a b = some c ↔ b ≤ a ∧ c = a - b := by
  unfold checkedSub; split <;> simp [eq_comm] <;> omega

theorem checkedMul_some {a b c : Nat} : checkedMul a b = some c ↔ a * b < W64 ∧ c = a * b := by
  unfold checkedMul; split <;> simp [eq_comm] <;> omega

theorem checkAssert_ok {b : Bool} {u : Unit} : checkAssert b = .ok u ↔ b = true := by
  unfold checkAssert; split <;> simp_all

theorem rustAssert_ok {b : Bool} {u : Unit} : rustAssert b = .ok u ↔ b = true := by
  unfold rustAssert; split <;> simp_all

theorem unwrap_ok {α : Type} {o : Option α} {a : α} : unwrap o = .ok a ↔ o = some a := by
  cases o <;> simp [unwrap]

end Serum
