import Verif.Errors

/-
C82: the number a failed transaction shows says what failed.
-/

namespace Serum.Props

/-- C82. Numbers and codes translate back and forth: every code is recovered from its number, so no two
codes share one, and every number that is no code's reads as an assertion. -/
theorem code_round_trip (c : ErrorCode) : ErrorCode.ofNum c.toNum = c := by
  cases c <;> rfl

/-- C82. -/
theorem code_injective {c d : ErrorCode} (h : c.toNum = d.toNum) : c = d := by
  rw [← code_round_trip c, ← code_round_trip d, h]

private theorem ofNum_default (n : Nat) (h : 1001 < n) : ErrorCode.ofNum n = .assertionError := by
  unfold ErrorCode.ofNum
  split <;> first | rfl | omega

private theorem toNum_le (c : ErrorCode) : c.toNum ≤ 1001 := by
  cases c <;> decide

/-- C82. A number is read as a named code exactly when it is that code's number. -/
theorem code_read (n : Nat) (c : ErrorCode) (hc : c ≠ .assertionError) :
    ErrorCode.ofNum n = c ↔ n = c.toNum := by
  constructor
  · intro h
    by_cases hn : 1001 < n
    · exact absurd (h.symm.trans (ofNum_default n hn)) hc
    · subst h
      revert hc
      unfold ErrorCode.ofNum
      split <;> intro hc <;> first | rfl | exact absurd rfl hc
  · rintro rfl
    exact code_round_trip c

/-- The value of an assertion's number: the line in the low 16 bits, the file in the upper 8. -/
theorem assertion_value (e : AssertionError) :
    e.toNum.toNat = e.line.toNat + 2 ^ 24 * e.file.id := by
  have hl := e.line.isLt
  obtain ⟨l, f⟩ := e
  simp only [AssertionError.toNum, BitVec.toNat_add, BitVec.toNat_shiftLeft, BitVec.toNat_ofNat,
    BitVec.truncate_eq_setWidth, BitVec.toNat_setWidth] at hl ⊢
  cases f <;> simp [SourceFile.id] <;> omega

/-- The file of an assertion, read off a number. -/
def fileOf (n : Nat) : Option SourceFile :=
  if n / 2 ^ 24 = 1 then some .state
  else if n / 2 ^ 24 = 2 then some .matching
  else if n / 2 ^ 24 = 3 then some .critbit
  else none

/-- C82. From the number of a failed assertion its file and line can be read off; source files have fewer
than 65536 lines. -/
theorem assertion_readable (f : SourceFile) (line : Nat) (h : line < 2 ^ 16) :
    let n := (assertionAt f line).toNum.toNat
    fileOf n = some f ∧ n % 2 ^ 24 = line := by
  have hv := assertion_value (assertionAt f line)
  simp only [assertionAt, BitVec.toNat_ofNat] at hv ⊢
  rw [hv, Nat.mod_eq_of_lt h]
  have h1 : (line + 2 ^ 24 * f.id) / 2 ^ 24 = f.id := by omega
  have h2 : (line + 2 ^ 24 * f.id) % 2 ^ 24 = line := by omega
  refine ⟨?_, h2⟩
  unfold fileOf
  rw [h1]
  cases f <;> rfl

/-- C82. A failed assertion is never taken for a named code, on the wire or by `DexErrorCode::from`. -/
theorem assertion_no_code (e : AssertionError) (c : ErrorCode) :
    (DexErr.ofAssertion e).toProg ≠ (DexErr.code c).toProg
    ∧ ErrorCode.ofNum e.toNum.toNat = .assertionError := by
  have hv := assertion_value e
  have hf : 1 ≤ e.file.id := by cases e.file <;> decide
  have hc := toNum_le c
  constructor
  · intro h
    injection h with h
    have h2 := congrArg BitVec.toNat h
    rw [BitVec.toNat_ofNat] at h2
    omega
  · exact ofNum_default _ (by omega)

/-- C82. What the client sees of a failure determines it: two failures with named codes that look the same
are the same failure. -/
theorem failure_told_apart {e f : Err} {c : ErrorCode} (he : e.code = some c) (hf : f.code = some c) :
    e = f := by
  cases e <;> cases f <;> first
    | rfl
    | (simp only [Err.code, Option.some.injEq, reduceCtorEq] at he hf
       try (subst he; exact absurd hf (by decide)))

/-- C82. The same on the wire. -/
theorem wire_told_apart {c d : ErrorCode} (h : (DexErr.code c).toProg = (DexErr.code d).toProg) :
    c = d := by
  injection h with h
  have h2 := congrArg BitVec.toNat h
  rw [BitVec.toNat_ofNat, BitVec.toNat_ofNat] at h2
  have hc := toNum_le c
  have hd := toNum_le d
  exact code_injective (by omega)

example : ErrorCode.minAmountNotMet.toNum = 64 ∧ ErrorCode.wouldSelfTrade.toNum = 61 := ⟨rfl, rfl⟩
example : (assertionAt .matching 400).toNum = 0x02000190#32 := by decide

end Serum.Props
