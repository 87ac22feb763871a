import Verif.PropsFees

/-!
C127: adding the fee and removing it fit together exactly; and what the project's property tests of `fees.rs` (158-202) sample
holds for all inputs.
-/

namespace Serum.Props

/-- C127: so much to spend comes out of what was locked if and only if what was locked covers it with its fee. -/
theorem fee_adjoint (t : FeeTier) {n q : Nat} (hq : q < 2 ^ 64) : q ≤ t.removeTakerFee n ↔ q + t.takerFee q ≤ n := by
  have hq' : q < W64 := hq
  rw [takerFee_eq t hq']
  unfold FeeTier.removeTakerFee
  rw [Nat.le_div_iff_mul_le (by simp only [Nat.shiftLeft_eq]; omega), Nat.shiftLeft_eq, Nat.shiftLeft_eq, Nat.mul_add, Nat.mul_comm q t.takerRate]
  generalize t.takerRate * q = x
  unfold W64
  omega

/-- C127: an amount with its fee, and the fee removed, is the amount. -/
theorem fee_round_trip (t : FeeTier) {q : Nat} (hq : q < 2 ^ 64) : t.removeTakerFee (q + t.takerFee q) = q := by
  refine Nat.le_antisymm ?_ ((fee_adjoint t hq).2 (Nat.le_refl _))
  have hq' : q < W64 := hq
  rw [takerFee_eq t hq']
  unfold FeeTier.removeTakerFee
  refine Nat.le_of_lt_succ ((Nat.div_lt_iff_lt_mul (by simp only [Nat.shiftLeft_eq]; omega)).2 ?_)
  rw [Nat.shiftLeft_eq, Nat.shiftLeft_eq, Nat.succ_mul, Nat.mul_add, Nat.mul_comm q t.takerRate]
  generalize t.takerRate * q = x
  generalize t.takerRate = r
  unfold W64
  omega

/-- C127: more to spend costs strictly more, and who locks more can spend no less. -/
theorem fee_monotone (t : FeeTier) : (∀ {q p : Nat}, p < 2 ^ 64 → q < p → q + t.takerFee q < p + t.takerFee p) ∧
    ∀ {n m : Nat}, n ≤ m → t.removeTakerFee n ≤ t.removeTakerFee m := by
  refine ⟨fun {q p} hp h => ?_, fun {n m} h => ?_⟩
  · refine Nat.lt_of_not_le fun hle => ?_
    have := (fee_adjoint t hp).2 hle
    rw [fee_round_trip t (Nat.lt_trans h hp)] at this
    omega
  · unfold FeeTier.removeTakerFee
    refine Nat.div_le_div_right ?_
    rw [Nat.shiftLeft_eq, Nat.shiftLeft_eq]
    exact Nat.mul_le_mul_right _ h

/-- C127: the test `market_order_cannot_cheat`, for every amount: what is kept back for the fee is the fee or one unit more. -/
theorem fee_kept_back (t : FeeTier) {q : Nat} (hq : q < 2 ^ 64) :
    q - t.removeTakerFee q = t.takerFee (t.removeTakerFee q) ∨ q - t.removeTakerFee q = t.takerFee (t.removeTakerFee q) + 1 := by
  obtain ⟨h1, h2⟩ := buyer_fee_fits_budget t q hq
  have := h1 _ (Nat.le_refl _)
  omega

/-- C127: the test `positive_net_fees`, for every amount and tighter: the exchange keeps four fifths of the advertised rate, but
for rounding. -/
theorem net_fee_rate (taker maker : FeeTier) {q : Nat} (hq : q < 2 ^ 64) {net : Nat}
    (hn : net = taker.takerFee q - (maker.makerRebate q + referrerRebate (taker.takerFee q))) :
    4 * (advertised taker * q) < 5 * (net * 100000) + 400000 ∧ (0 < q → 0 < net) ∧ 3 * q < net * 100000 + 2 ^ 32 := by
  obtain ⟨_, _, h1, h2⟩ := taker_fee_is_rate_rounded_up taker q hq
  rw [makerRebate_zero maker hq] at hn
  unfold referrerRebate at hn
  have ha : 10 * q ≤ advertised taker * q := Nat.mul_le_mul_right _ (by cases taker <;> decide)
  generalize advertised taker * q = x at *
  refine ⟨by omega, fun h0 => ?_, by omega⟩
  have := h2 h0
  omega

/-- C127: the test `fee_tenth_of_bps_approx`, for every rate: a rate is stored exactly, or as the next smaller number with 64
fractional bits. -/
theorem rate_stored {n : Nat} (hn : n < 100000) :
    feeTenthOfBps n * 100000 ≤ n * 2 ^ 64 ∧ n * 2 ^ 64 < (feeTenthOfBps n + 1) * 100000 ∧
    (0 < n → fixFloor (fixMul (feeTenthOfBps n) 100000) = n - (if fixFrac (fixMul (feeTenthOfBps n) 100000) ≠ 0 then 1 else 0)) := by
  have e : feeTenthOfBps n = n * 18446744073709551616 / 100000 := by rw [feeTenthOfBps, Nat.shiftLeft_eq]
  have h2 : (2 : Nat) ^ 64 = 18446744073709551616 := by decide
  have hr : feeTenthOfBps n * 100000 ≤ n * 18446744073709551616 ∧ n * 18446744073709551616 < feeTenthOfBps n * 100000 + 100000 := by
    rw [e]; omega
  have hw : feeTenthOfBps n < W64 := by unfold W64; omega
  rw [h2, Nat.succ_mul]
  refine ⟨hr.1, hr.2, fun h0 => ?_⟩
  rw [fixMul_eq hw (by decide)]
  unfold fixFloor fixFrac
  rw [Nat.shiftRight_eq_div_pow, h2]
  obtain ⟨y, hy⟩ : ∃ y, y = feeTenthOfBps n * 100000 := ⟨_, rfl⟩
  rw [← hy] at hr ⊢
  clear hy
  have hm : y / 18446744073709551616 % W64 = y / 18446744073709551616 := Nat.mod_eq_of_lt (by unfold W64; omega)
  have ew : W64 = 18446744073709551616 := by decide
  rw [hm, ew]
  clear e hw hm ew h2
  by_cases hy : y % 18446744073709551616 = 0
  · rw [if_neg (by simp [hy])]; omega
  · rw [if_pos hy]; omega

/-- Spending a million at the base rate needs exactly 1000400. -/
example : FeeTier.removeTakerFee .base 1000400 = 1000000 ∧ FeeTier.removeTakerFee .base 1000399 < 1000000 ∧
    FeeTier.takerFee .base 1000000 = 400 := by decide

end Serum.Props
