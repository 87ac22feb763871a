import Verif.Fees

/-!
Properties C01–C04: fees.
The specification is stated over plain natural numbers: the advertised rate of each tier in tenths
of a basis point, and exact rational inequalities cleared of denominators.
-/

namespace Serum.Props

/-- Specification: advertised taker rates, in 1/100000 of the traded amount. -/
def advertised : FeeTier → Nat
  | .base => 40 | .srm2 => 39 | .srm3 => 38 | .srm4 => 36
  | .srm5 => 34 | .srm6 => 32 | .msrm => 30 | .stable => 10

/-- Specification: `n` is the least integer not below `a / b`. -/
def IsCeilDiv (a b n : Nat) : Prop := a ≤ n * b ∧ ∀ m, a ≤ m * b → n ≤ m

/-- C01. The fee is the amount times the tier's rate (truncated to 64 fractional bits) rounded up;
it exceeds the exact decimal fee by less than 1, falls short of it by less than 1, and is positive
on a positive trade. -/
theorem taker_fee_is_rate_rounded_up (t : FeeTier) (q : Nat) (hq : q < 2 ^ 64) :
    IsCeilDiv ((advertised t * 2 ^ 64 / 100000) * q) (2 ^ 64) (t.takerFee q) ∧
    t.takerFee q * 100000 < advertised t * q + 100000 ∧
    advertised t * q < t.takerFee q * 100000 + 100000 ∧
    (0 < q → 0 < t.takerFee q) := by
  have hq' : q < W64 := hq
  have hrate : t.takerRate = advertised t * 2 ^ 64 / 100000 := by cases t <;> decide
  have hfee := takerFee_eq t hq'
  rw [hrate] at hfee
  refine ⟨⟨?_, ?_⟩, ?_, ?_, takerFee_pos t hq'⟩
  · rw [hfee]
    generalize advertised t * 2 ^ 64 / 100000 * q = x
    unfold W64; omega
  · intro m hm
    rw [hfee]
    generalize advertised t * 2 ^ 64 / 100000 * q = x at *
    unfold W64; omega
  · rw [hfee]
    unfold W64 at *
    cases t <;> simp only [advertised] <;> omega
  · rw [hfee]
    unfold W64 at *
    cases t <;> simp only [advertised] <;> omega

example : FeeTier.takerFee .base 1000000 = 400 := by decide
example : FeeTier.takerFee .stable 1 = 1 := by decide

/-- C02. Locking `q` units and removing the fee gives a budget `m`; every spend within it leaves
room for its fee, and spending all of it leaves at most one unit idle. -/
theorem buyer_fee_fits_budget (t : FeeTier) (q : Nat) (hq : q < 2 ^ 64) :
    (∀ spend ≤ t.removeTakerFee q, spend + t.takerFee spend ≤ q) ∧
    q ≤ t.removeTakerFee q + t.takerFee (t.removeTakerFee q) + 1 :=
  ⟨fun _ h => spend_fee_le t hq h, full_budget_dust t hq⟩

example : FeeTier.removeTakerFee .base 1000400 = 1000000 ∧
    (1000000 : Nat) ≤ FeeTier.removeTakerFee .base 1000400 := by decide

/-- C03. The taker fee always strictly exceeds everything paid out of it. -/
theorem net_fees_positive (taker maker : FeeTier) (q : Nat) (hq : q < 2 ^ 64) (h0 : 1 ≤ q) :
    maker.makerRebate q + referrerRebate (taker.takerFee q) < taker.takerFee q ∧
    maker.makerRebate q = 0 := by
  have h1 := takerFee_pos taker hq h0
  have h2 := makerRebate_zero maker hq
  refine ⟨?_, h2⟩
  rw [h2]
  unfold referrerRebate
  omega

example : FeeTier.makerRebate .msrm 1000000 + referrerRebate (FeeTier.takerFee .msrm 1000000) = 60 ∧
    FeeTier.takerFee .msrm 1000000 = 300 := by decide

theorem takerFee_mono_rate {t u : FeeTier} (h : advertised t ≤ advertised u) {q : Nat}
    (hq : q < 2 ^ 64) : t.takerFee q ≤ u.takerFee q := by
  have hq' : q < W64 := hq
  rw [takerFee_eq t hq', takerFee_eq u hq']
  have hr : t.takerRate ≤ u.takerRate := by
    revert h
    cases t <;> cases u <;> decide
  have := Nat.mul_le_mul_right q hr
  apply Nat.div_le_div_right
  omega

/-- C04. Holding more SRM and MSRM, or holding any MSRM at all, never raises the fee; the
designated stable markets have the lowest fee of all tiers whatever is held. -/
theorem more_tokens_never_raise_fee (isStable : Bool) (srm msrm srm' msrm' q : Nat)
    (hq : q < 2 ^ 64) (h : (srm ≤ srm' ∧ msrm ≤ msrm') ∨ 1 ≤ msrm') :
    (FeeTier.ofBalances isStable srm' msrm').takerFee q ≤
      (FeeTier.ofBalances isStable srm msrm).takerFee q ∧
    ∀ t : FeeTier, (FeeTier.ofBalances true srm msrm).takerFee q ≤ t.takerFee q := by
  refine ⟨takerFee_mono_rate ?_ hq, fun t => takerFee_mono_rate ?_ hq⟩
  · unfold FeeTier.ofBalances
    cases isStable
    · simp only [Bool.false_eq_true, if_false]
      repeat' split
      all_goals simp only [advertised]
      all_goals first | omega | (exfalso; omega)
    · simp
  · cases t <;> simp [FeeTier.ofBalances, advertised]

example : FeeTier.ofBalances false 100000000 0 = .srm2 ∧
    FeeTier.ofBalances false 1000000000000 0 = .srm6 ∧ FeeTier.ofBalances false 0 1 = .msrm := by
  decide

end Serum.Props
