import Verif.Arith

/-
Model of `dex/src/fees.rs`.
-/

namespace Serum

/-- `FeeTier`, `fees.rs` 29-41. -/
inductive FeeTier where
  | base | srm2 | srm3 | srm4 | srm5 | srm6 | msrm | stable
  deriving DecidableEq, Repr

/-- `FeeTier as u8` (`IntoPrimitive`, declaration order), `fees.rs` 29-41. -/
def FeeTier.toU8 : FeeTier → Nat
  | .base => 0 | .srm2 => 1 | .srm3 => 2 | .srm4 => 3
  | .srm5 => 4 | .srm6 => 5 | .msrm => 6 | .stable => 7

/-- `FeeTier::try_from_primitive`, `fees.rs` 29. -/
def FeeTier.ofU8 : Nat → Option FeeTier
  | 0 => some .base | 1 => some .srm2 | 2 => some .srm3 | 3 => some .srm4
  | 4 => some .srm5 | 5 => some .srm6 | 6 => some .msrm | 7 => some .stable
  | _ => none

/-- `U64F64::mul_u64`, `fees.rs` 61 (`u128` product, wrapping in release). -/
def fixMul (rate n : Nat) : Nat := (rate * n) % W128

/-- `U64F64::floor`, `fees.rs` 66. -/
def fixFloor (x : Nat) : Nat := (x >>> 64) % W64

/-- `U64F64::frac_part`, `fees.rs` 71. -/
def fixFrac (x : Nat) : Nat := x % W64

/-- `fee_tenth_of_bps`, `fees.rs` 82. -/
def feeTenthOfBps (t : Nat) : Nat := (t <<< 64) / 100000

/-- `rebate_tenth_of_bps`, `fees.rs` 87. -/
def rebateTenthOfBps (t : Nat) : Nat := feeTenthOfBps t + 1

/-- The per-tier argument of `fee_tenth_of_bps` in `taker_rate`, `fees.rs` 122-134. -/
def FeeTier.tenthBps : FeeTier → Nat
  | .base => 40 | .srm2 => 39 | .srm3 => 38 | .srm4 => 36
  | .srm5 => 34 | .srm6 => 32 | .msrm => 30 | .stable => 10

/-- `FeeTier::taker_rate`, `fees.rs` 122-134. -/
def FeeTier.takerRate (t : FeeTier) : Nat := feeTenthOfBps t.tenthBps

/-- `FeeTier::maker_rebate`, `fees.rs` 118. -/
def FeeTier.makerRebate (_t : FeeTier) (pcQty : Nat) : Nat :=
  fixFloor (fixMul (rebateTenthOfBps 0) pcQty)

/-- `FeeTier::taker_fee`, `fees.rs` 137-141. -/
def FeeTier.takerFee (t : FeeTier) (pcQty : Nat) : Nat :=
  let exact := fixMul t.takerRate pcQty
  wadd (fixFloor exact) (if fixFrac exact != 0 then 1 else 0)

/-- `FeeTier::remove_taker_fee`, `fees.rs` 144-150. The `try_into::<u64>().unwrap()` cannot fail
because the quotient is at most the `u64` argument (`removeTakerFee_le`). -/
def FeeTier.removeTakerFee (t : FeeTier) (pcQtyInclFee : Nat) : Nat :=
  (pcQtyInclFee <<< 64) / ((1 <<< 64) + t.takerRate)

/-- `referrer_rebate`, `fees.rs` 154. -/
def referrerRebate (amount : Nat) : Nat := amount / 5

/-- `FeeTier::from_srm_and_msrm_balances`, `fees.rs` 93-115; the six hard-coded market addresses
are the parameter `isStable`. -/
def FeeTier.ofBalances (isStable : Bool) (srm msrm : Nat) : FeeTier :=
  if isStable then .stable
  else if msrm ≥ 1 then .msrm
  else if srm ≥ 1000000 * 1000000 then .srm6
  else if srm ≥ 1000000 * 100000 then .srm5
  else if srm ≥ 1000000 * 10000 then .srm4
  else if srm ≥ 1000000 * 1000 then .srm3
  else if srm ≥ 1000000 * 100 then .srm2
  else .base

/-! ### Basic facts -/

theorem FeeTier.ofU8_toU8 (t : FeeTier) : FeeTier.ofU8 t.toU8 = some t := by cases t <;> rfl

theorem takerRate_le (t : FeeTier) : t.takerRate ≤ 7378697629483820 := by
  cases t <;> decide

theorem takerRate_pos (t : FeeTier) : 1844674407370955 ≤ t.takerRate := by
  cases t <;> decide

theorem fixMul_eq {r n : Nat} (hr : r < W64) (hn : n < W64) : fixMul r n = r * n := by
  apply Nat.mod_eq_of_lt
  have : r * n < W64 * W64 := Nat.mul_lt_mul'' hr hn
  have h : W64 * W64 = W128 := by decide
  omega

/-- The maker rebate is always zero. -/
theorem makerRebate_zero (t : FeeTier) {q : Nat} (hq : q < W64) : t.makerRebate q = 0 := by
  unfold FeeTier.makerRebate
  have h1 : rebateTenthOfBps 0 = 1 := by decide
  rw [h1, fixMul_eq (by decide) hq]
  unfold fixFloor
  rw [Nat.shiftRight_eq_div_pow, Nat.one_mul]
  unfold W64 at *
  omega

/-- Closed form of the taker fee: the ceiling of `rate * q / 2^64`. -/
theorem takerFee_eq (t : FeeTier) {q : Nat} (hq : q < W64) :
    t.takerFee q = (t.takerRate * q + (W64 - 1)) / W64 := by
  have hr : t.takerRate < W64 := Nat.lt_of_le_of_lt (takerRate_le t) (by decide)
  unfold FeeTier.takerFee
  simp only [fixMul_eq hr hq]
  unfold fixFloor fixFrac wadd
  rw [Nat.shiftRight_eq_div_pow]
  have hle := takerRate_le t
  have hb : t.takerRate * q ≤ 7378697629483820 * q := Nat.mul_le_mul_right _ hle
  generalize t.takerRate * q = x at *
  unfold W64 at *
  by_cases hx : x % 18446744073709551616 = 0
  · simp [hx]; omega
  · simp [hx]; omega

/-- The fee is at most (roughly) q/2500 rounded up, so fees never overflow. -/
theorem takerFee_le (t : FeeTier) {q : Nat} (hq : q < W64) : t.takerFee q ≤ q := by
  rw [takerFee_eq t hq]
  have hb : t.takerRate * q ≤ 7378697629483820 * q := Nat.mul_le_mul_right _ (takerRate_le t)
  generalize t.takerRate * q = x at *
  unfold W64 at *
  omega

theorem takerFee_zero (t : FeeTier) : t.takerFee 0 = 0 := by cases t <;> decide

theorem takerFee_pos (t : FeeTier) {q : Nat} (hq : q < W64) (h0 : 0 < q) : 0 < t.takerFee q := by
  rw [takerFee_eq t hq]
  have hb : 1844674407370955 * q ≤ t.takerRate * q := Nat.mul_le_mul_right _ (takerRate_pos t)
  generalize t.takerRate * q = x at *
  unfold W64 at *
  omega

theorem removeTakerFee_eq (t : FeeTier) (q : Nat) :
    t.removeTakerFee q = (q * W64) / (W64 + t.takerRate) := by
  unfold FeeTier.removeTakerFee
  rw [Nat.shiftLeft_eq, Nat.shiftLeft_eq]
  rfl

theorem removeTakerFee_le (t : FeeTier) (q : Nat) : t.removeTakerFee q ≤ q := by
  rw [removeTakerFee_eq]
  apply Nat.div_le_of_le_mul
  rw [Nat.mul_comm]
  exact Nat.mul_le_mul_right _ (Nat.le_add_right _ _)

/-- Spending at most `removeTakerFee q` leaves room for the fee within `q`. -/
theorem spend_fee_le (t : FeeTier) {q m : Nat} (hq : q < W64) (hm : m ≤ t.removeTakerFee q) :
    m + t.takerFee m ≤ q := by
  have hmq : m ≤ q := Nat.le_trans hm (removeTakerFee_le t q)
  rw [takerFee_eq t (by omega)]
  rw [removeTakerFee_eq] at hm
  have hpos : 0 < W64 + t.takerRate := by unfold W64; omega
  have h1 : m * (W64 + t.takerRate) ≤ q * W64 := (Nat.le_div_iff_mul_le hpos).1 hm
  have h2 : m * (W64 + t.takerRate) = m * W64 + t.takerRate * m := by
    rw [Nat.mul_add, Nat.mul_comm m t.takerRate]
  rw [h2] at h1
  generalize t.takerRate * m = x at *
  unfold W64 at *
  omega

/-- At the full budget at most one unit is left over. -/
theorem full_budget_dust (t : FeeTier) {q : Nat} (hq : q < W64) :
    q ≤ t.removeTakerFee q + t.takerFee (t.removeTakerFee q) + 1 := by
  have hmq : t.removeTakerFee q ≤ q := removeTakerFee_le t q
  rw [takerFee_eq t (by omega)]
  have hpos : 0 < W64 + t.takerRate := by unfold W64; omega
  have h1 : q * W64 < (t.removeTakerFee q + 1) * (W64 + t.takerRate) := by
    rw [removeTakerFee_eq]
    have := Nat.lt_mul_div_succ (q * W64) hpos
    rwa [Nat.mul_comm (W64 + t.takerRate)] at this
  generalize t.removeTakerFee q = m at *
  have h2 : (m + 1) * (W64 + t.takerRate) = m * W64 + W64 + t.takerRate * m + t.takerRate := by
    rw [Nat.add_mul, Nat.mul_add, Nat.mul_comm m t.takerRate]; omega
  rw [h2] at h1
  have hr := takerRate_le t
  generalize t.takerRate * m = x at *
  generalize t.takerRate = r at *
  unfold W64 at *
  omega

end Serum
