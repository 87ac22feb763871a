import Verif.Borsh

/-
What the name check of the pool's decoder amounts to: the bytes are the UTF-8 encoding (RFC 3629) of some text.
-/

namespace Serum.Utf8

open Serum.Borsh

/-- Unicode scalar values: code points other than surrogates. -/
def Scalar (c : Nat) : Prop := c < 0xD800 ∨ (0xE000 ≤ c ∧ c < 0x110000)

/-- The UTF-8 encoding of one code point (RFC 3629, section 3). -/
def encode (c : Nat) : List UInt8 :=
  (if c < 0x80 then [c]
   else if c < 0x800 then [0xC0 + c / 64, 0x80 + c % 64]
   else if c < 0x10000 then [0xE0 + c / 4096, 0x80 + c / 64 % 64, 0x80 + c % 64]
   else [0xF0 + c / 262144, 0x80 + c / 4096 % 64, 0x80 + c / 64 % 64, 0x80 + c % 64]).map UInt8.ofNat

/-- The bytes are some text in UTF-8. -/
def IsText (l : List UInt8) : Prop := ∃ cs : List Nat, (∀ c ∈ cs, Scalar c) ∧ l = cs.flatMap encode

theorem toNat_ofNat {n : Nat} (h : n < 256) : (UInt8.ofNat n).toNat = n := by
  rw [UInt8.toNat_ofNat']; omega

theorem from_zero (a b a' b' : Nat) (l : List UInt8) : utf8From 0 a b l = utf8From 0 a' b' l := by
  cases l <;> rfl

theorem cont {n lo hi : Nat} {x : Nat} {l : List UInt8} (h1 : lo ≤ x) (h2 : x ≤ hi) (h3 : x < 256) :
    utf8From (n + 1) lo hi (UInt8.ofNat x :: l) = utf8From n 128 191 l := by
  have e : utf8From (n + 1) lo hi (UInt8.ofNat x :: l) =
    (decide (lo ≤ (UInt8.ofNat x).toNat) && decide ((UInt8.ofNat x).toNat ≤ hi) && utf8From n 128 191 l) := rfl
  rw [e, toNat_ofNat h3, decide_eq_true h1, decide_eq_true h2]
  rfl

theorem lead (a b : Nat) (x : UInt8) (l : List UInt8) : utf8From 0 a b (x :: l) =
    (if x.toNat < 128 then utf8From 0 0 0 l
    else if x.toNat < 194 then false
    else if x.toNat < 224 then utf8From 1 128 191 l
    else if x.toNat = 224 then utf8From 2 160 191 l
    else if x.toNat = 237 then utf8From 2 128 159 l
    else if x.toNat < 240 then utf8From 2 128 191 l
    else if x.toNat = 240 then utf8From 3 144 191 l
    else if x.toNat < 244 then utf8From 3 128 191 l
    else if x.toNat = 244 then utf8From 3 128 143 l
    else false) := rfl

theorem from_encode {c : Nat} (h : Scalar c) (l : List UInt8) : utf8From 0 0 0 (encode c ++ l) = utf8From 0 0 0 l := by
  unfold Scalar at h
  unfold encode
  by_cases h1 : c < 0x80
  · rw [if_pos h1]
    simp only [List.map_cons, List.map_nil, List.cons_append, List.nil_append]
    rw [lead, toNat_ofNat (by omega), if_pos (by omega)]
  rw [if_neg h1]
  by_cases h2 : c < 0x800
  · rw [if_pos h2]
    simp only [List.map_cons, List.map_nil, List.cons_append, List.nil_append]
    rw [lead, toNat_ofNat (by omega), if_neg (by omega), if_neg (by omega), if_pos (by omega),
      cont (by omega) (by omega) (by omega)]
    exact from_zero _ _ _ _ _
  rw [if_neg h2]
  by_cases h3 : c < 0x10000
  · rw [if_pos h3]
    simp only [List.map_cons, List.map_nil, List.cons_append, List.nil_append]
    rw [lead, toNat_ofNat (by omega), if_neg (by omega), if_neg (by omega), if_neg (by omega)]
    have fin : ∀ lo hi, lo ≤ 128 + c / 64 % 64 → 128 + c / 64 % 64 ≤ hi →
        utf8From 2 lo hi (UInt8.ofNat (128 + c / 64 % 64) :: UInt8.ofNat (128 + c % 64) :: l) = utf8From 0 0 0 l := by
      intro lo hi a b
      rw [cont a b (by omega), cont (by omega) (by omega) (by omega)]
      exact from_zero _ _ _ _ _
    split
    · exact fin _ _ (by omega) (by omega)
    split
    · exact fin _ _ (by omega) (by omega)
    rw [if_pos (by omega)]
    exact fin _ _ (by omega) (by omega)
  · rw [if_neg h3]
    simp only [List.map_cons, List.map_nil, List.cons_append, List.nil_append]
    rw [lead, toNat_ofNat (by omega), if_neg (by omega), if_neg (by omega), if_neg (by omega), if_neg (by omega),
      if_neg (by omega), if_neg (by omega)]
    have fin : ∀ lo hi, lo ≤ 128 + c / 4096 % 64 → 128 + c / 4096 % 64 ≤ hi →
        utf8From 3 lo hi (UInt8.ofNat (128 + c / 4096 % 64) :: UInt8.ofNat (128 + c / 64 % 64) :: UInt8.ofNat (128 + c % 64) :: l) =
          utf8From 0 0 0 l := by
      intro lo hi a b
      rw [cont a b (by omega), cont (by omega) (by omega) (by omega), cont (by omega) (by omega) (by omega)]
      exact from_zero _ _ _ _ _
    split
    · exact fin _ _ (by omega) (by omega)
    split
    · exact fin _ _ (by omega) (by omega)
    rw [if_pos (by omega)]
    exact fin _ _ (by omega) (by omega)

theorem of_toNat {x : UInt8} {n : Nat} (h : x.toNat = n) : x = UInt8.ofNat n := by
  subst h; simp

theorem uncont {n lo hi : Nat} {l : List UInt8} (h : utf8From (n + 1) lo hi l = true) :
    ∃ x l', l = x :: l' ∧ lo ≤ x.toNat ∧ x.toNat ≤ hi ∧ utf8From n 128 191 l' = true := by
  cases l with
  | nil => cases h
  | cons x l =>
    have e : utf8From (n + 1) lo hi (x :: l) = (decide (lo ≤ x.toNat) && decide (x.toNat ≤ hi) && utf8From n 128 191 l) := rfl
    rw [e] at h
    simp only [Bool.and_eq_true, decide_eq_true_eq] at h
    exact ⟨x, l, rfl, h.1.1, h.1.2, h.2⟩

theorem text_of : ∀ (n : Nat) (l : List UInt8), l.length ≤ n → utf8From 0 0 0 l = true → IsText l := by
  intro n
  induction n with
  | zero =>
    intro l hl _
    cases l with
    | nil => exact ⟨[], by simp, rfl⟩
    | cons => simp at hl
  | succ n ih =>
    intro l hl h
    cases l with
    | nil => exact ⟨[], by simp, rfl⟩
    | cons x l =>
      simp only [List.length_cons] at hl
      have put : ∀ c (l' : List UInt8), Scalar c → l'.length ≤ n → utf8From 0 128 191 l' = true → x :: l = encode c ++ l' →
          IsText (x :: l) := by
        intro c l' hc h1 h2 e
        rw [from_zero _ _ 0 0] at h2
        obtain ⟨cs, h3, rfl⟩ := ih l' h1 h2
        refine ⟨c :: cs, ?_, e⟩
        intro d hd
        rcases List.mem_cons.1 hd with rfl | hd
        · exact hc
        · exact h3 d hd
      have hx := x.toNat_lt
      have three : ∀ lo hi, utf8From 2 lo hi l = true → 224 ≤ x.toNat → x.toNat < 240 → 128 ≤ lo → hi ≤ 191 →
          (x.toNat = 224 → 160 ≤ lo) → (x.toNat = 237 → hi ≤ 159) → IsText (x :: l) := by
        intro lo hi h a b c d e f
        obtain ⟨y, l1, rfl, y1, y2, h⟩ := uncont h
        obtain ⟨z, l2, rfl, z1, z2, h⟩ := uncont h
        simp only [List.length_cons] at hl
        refine put ((x.toNat - 224) * 4096 + (y.toNat - 128) * 64 + (z.toNat - 128)) l2 ?_ (by omega) h ?_
        · unfold Scalar; omega
        · unfold encode
          rw [if_neg (by omega), if_neg (by omega), if_pos (by omega)]
          simp only [List.map_cons, List.map_nil, List.cons_append, List.nil_append]
          rw [← of_toNat (x := x) (by omega), ← of_toNat (x := y) (by omega), ← of_toNat (x := z) (by omega)]
      have four : ∀ lo hi, utf8From 3 lo hi l = true → 240 ≤ x.toNat → x.toNat < 245 → 128 ≤ lo → hi ≤ 191 →
          (x.toNat = 240 → 144 ≤ lo) → (x.toNat = 244 → hi ≤ 143) → IsText (x :: l) := by
        intro lo hi h a b c d e f
        obtain ⟨y, l1, rfl, y1, y2, h⟩ := uncont h
        obtain ⟨z, l2, rfl, z1, z2, h⟩ := uncont h
        obtain ⟨w, l3, rfl, w1, w2, h⟩ := uncont h
        simp only [List.length_cons] at hl
        refine put ((x.toNat - 240) * 262144 + (y.toNat - 128) * 4096 + (z.toNat - 128) * 64 + (w.toNat - 128)) l3 ?_ (by omega) h ?_
        · unfold Scalar; omega
        · unfold encode
          rw [if_neg (by omega), if_neg (by omega), if_neg (by omega)]
          simp only [List.map_cons, List.map_nil, List.cons_append, List.nil_append]
          rw [← of_toNat (x := x) (by omega), ← of_toNat (x := y) (by omega), ← of_toNat (x := z) (by omega),
            ← of_toNat (x := w) (by omega)]
      rw [lead] at h
      split at h
      · refine put x.toNat l (by unfold Scalar; omega) (by omega) (by rw [from_zero _ _ 0 0]; exact h) ?_
        unfold encode
        rw [if_pos (by omega)]
        simp
      split at h
      · cases h
      split at h
      · obtain ⟨y, l1, rfl, y1, y2, h⟩ := uncont h
        simp only [List.length_cons] at hl
        refine put ((x.toNat - 192) * 64 + (y.toNat - 128)) l1 (by unfold Scalar; omega) (by omega) h ?_
        unfold encode
        rw [if_neg (by omega), if_pos (by omega)]
        simp only [List.map_cons, List.map_nil, List.cons_append, List.nil_append]
        rw [← of_toNat (x := x) (by omega), ← of_toNat (x := y) (by omega)]
      split at h
      · exact three _ _ h (by omega) (by omega) (by omega) (by omega) (by omega) (by omega)
      split at h
      · exact three _ _ h (by omega) (by omega) (by omega) (by omega) (by omega) (by omega)
      split at h
      · exact three _ _ h (by omega) (by omega) (by omega) (by omega) (by omega) (by omega)
      split at h
      · exact four _ _ h (by omega) (by omega) (by omega) (by omega) (by omega) (by omega)
      split at h
      · exact four _ _ h (by omega) (by omega) (by omega) (by omega) (by omega) (by omega)
      split at h
      · exact four _ _ h (by omega) (by omega) (by omega) (by omega) (by omega) (by omega)
      · cases h

/-- The check passes exactly on the encodings of texts. -/
theorem utf8_iff (l : List UInt8) : utf8 l = true ↔ IsText l := by
  constructor
  · exact text_of _ l (Nat.le_refl _)
  · rintro ⟨cs, h, rfl⟩
    show utf8From 0 0 0 _ = true
    induction cs with
    | nil => rfl
    | cons c cs ih =>
      rw [List.flatMap_cons, from_encode (h c (by simp))]
      exact ih fun d hd => h d (by simp [hd])

end Serum.Utf8
