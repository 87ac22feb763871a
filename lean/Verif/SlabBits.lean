import Verif.Slab

/-! Bit-level facts behind the crit-bit tree. -/

namespace Serum

/-- The top `p` bits of a 128-bit key, as a number. -/
def pre (p k : Nat) : Nat := k / 2 ^ (128 - p)

theorem clz128_le_iff {x p : Nat} (hx : x < 2 ^ 128) (hp : p ≤ 128) :
    p ≤ clz128 x ↔ x < 2 ^ (128 - p) := by
  unfold clz128
  by_cases h : x = 0
  · subst h
    simp [Nat.two_pow_pos]; exact hp
  · simp only [h, if_false]
    have h1 : x.log2 < 128 := (Nat.log2_lt h).2 hx
    rw [← Nat.log2_lt h]
    omega

theorem xor_lt_iff {x y n : Nat} : x ^^^ y < 2 ^ n ↔ x / 2 ^ n = y / 2 ^ n := by
  have h1 : x ^^^ y < 2 ^ n ↔ (x ^^^ y) / 2 ^ n = 0 := by
    rw [Nat.div_eq_zero_iff]
    have := Nat.two_pow_pos n
    omega
  rw [h1, ← Nat.shiftRight_eq_div_pow, Nat.shiftRight_xor_distrib, Nat.shiftRight_eq_div_pow,
    Nat.shiftRight_eq_div_pow]
  constructor
  · intro h
    apply Nat.eq_of_testBit_eq
    intro i
    have := congrArg (fun z => Nat.testBit z i) h
    simp only [Nat.testBit_xor, Nat.zero_testBit] at this
    simpa using this
  · intro h; rw [h]; exact Nat.xor_self _

theorem clz128_xor_iff {x y p : Nat} (hx : x < 2 ^ 128) (hy : y < 2 ^ 128) (hp : p ≤ 128) :
    p ≤ clz128 (x ^^^ y) ↔ pre p x = pre p y := by
  rw [clz128_le_iff (Nat.xor_lt_two_pow hx hy) hp, xor_lt_iff]
  rfl

theorem critBit_eq {p k : Nat} (hp : p < 128) : critBit p k = k.testBit (127 - p) := by
  unfold critBit
  have h : (1 <<< 127) >>> p = 2 ^ (127 - p) := by
    rw [Nat.one_shiftLeft, Nat.shiftRight_eq_div_pow, Nat.pow_div (by omega) (by omega)]
  rw [h]
  cases hb : k.testBit (127 - p) with
  | false =>
    have : k &&& 2 ^ (127 - p) = 0 := by
      apply Nat.eq_of_testBit_eq
      intro i
      rw [Nat.testBit_and, Nat.testBit_two_pow]
      by_cases hi : 127 - p = i
      · subst hi; simp [hb]
      · simp [hi]
    simp [this]
  | true =>
    have : k &&& 2 ^ (127 - p) ≠ 0 := by
      intro h0
      have h1 : (k &&& 2 ^ (127 - p)).testBit (127 - p) = true := by
        rw [Nat.testBit_and, Nat.testBit_two_pow]; simp [hb]
      rw [h0] at h1; simp at h1
    simpa using this

/-- The next bit splits a prefix. -/
theorem pre_succ {p k : Nat} (hp : p < 128) :
    pre (p + 1) k = 2 * pre p k + (k.testBit (127 - p)).toNat := by
  unfold pre
  have e1 : 128 - (p + 1) = 127 - p := by omega
  have e2 : 128 - p = (127 - p) + 1 := by omega
  rw [e1, e2, Nat.pow_succ, ← Nat.div_div_eq_div_mul, Nat.toNat_testBit]
  omega

theorem lt_of_critBit {p x y : Nat} (hp : p < 128) (hpre : pre p x = pre p y)
    (hx : critBit p x = false) (hy : critBit p y = true) : x < y := by
  rw [critBit_eq hp] at hx hy
  have h1 := pre_succ (k := x) hp
  have h2 := pre_succ (k := y) hp
  rw [hx] at h1; rw [hy, ← hpre] at h2
  simp at h1 h2
  have h3 : pre (p+1) x < pre (p+1) y := by omega
  exact Nat.lt_of_div_lt_div h3

/-- Shorter prefixes agree when longer ones do. -/
theorem pre_mono {p q x y : Nat} (hpq : p ≤ q) (hq : q ≤ 128) (h : pre q x = pre q y) :
    pre p x = pre p y := by
  unfold pre at *
  have e : 128 - p = (128 - q) + (q - p) := by omega
  rw [e, Nat.pow_add, ← Nat.div_div_eq_div_mul, ← Nat.div_div_eq_div_mul, h]

/-- If prefixes of length `q` agree then so does every bit above. -/
theorem critBit_of_pre {p q x y : Nat} (hpq : p < q) (hq : q ≤ 128) (h : pre q x = pre q y) :
    critBit p x = critBit p y := by
  have hp : p < 128 := by omega
  have h1 := pre_mono (p := p) (by omega) hq h
  have h2 := pre_mono (p := p+1) (by omega) hq h
  rw [pre_succ hp, pre_succ hp, h1] at h2
  rw [critBit_eq hp, critBit_eq hp]
  cases hx : x.testBit (127-p) <;> cases hy : y.testBit (127-p) <;> simp_all

/-- Distinct keys differ at the bit after their longest common prefix. -/
theorem critBit_shared {x y : Nat} (hx : x < 2 ^ 128) (hy : y < 2 ^ 128) (hne : x ≠ y) :
    clz128 (x ^^^ y) < 128 ∧ pre (clz128 (x ^^^ y)) x = pre (clz128 (x ^^^ y)) y ∧
    critBit (clz128 (x ^^^ y)) x = !critBit (clz128 (x ^^^ y)) y := by
  have hle : clz128 (x ^^^ y) ≤ 128 := by unfold clz128; omega
  have hpre : pre (clz128 (x ^^^ y)) x = pre (clz128 (x ^^^ y)) y :=
    (clz128_xor_iff hx hy hle).1 (Nat.le_refl _)
  have hlt : clz128 (x ^^^ y) < 128 := by
    apply Nat.lt_of_le_of_ne hle
    intro h
    rw [h] at hpre
    apply hne
    simpa [pre] using hpre
  refine ⟨hlt, hpre, ?_⟩
  have hn : ¬ (clz128 (x ^^^ y) + 1 ≤ clz128 (x ^^^ y)) := by omega
  rw [clz128_xor_iff hx hy (by omega)] at hn
  generalize clz128 (x ^^^ y) = p at *
  rw [pre_succ hlt, pre_succ hlt, hpre] at hn
  rw [critBit_eq hlt, critBit_eq hlt]
  cases hx : x.testBit (127-p) <;> cases hy : y.testBit (127-p) <;> simp_all

end Serum
