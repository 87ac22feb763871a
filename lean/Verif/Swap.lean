import Verif.PropsFunds

/-
Token transfers in another order: a payment out of a market vault commutes with another payment out of a vault
and with a deposit into one.
-/

namespace Serum

theorem spl_iff {l l' : Ledger} {s d a n : Nat} (hne : s ≠ d) : splTransfer l s d a n = .ok l' ↔
    ∃ t u t', l s = some t ∧ l d = some u ∧ t.frozen = false ∧ u.frozen = false ∧ n ≤ t.amount ∧ t.mint = u.mint ∧
      debitTok t a n = .ok t' ∧ u.amount + n < W64 ∧
      l' = fun x => if x = d then some { u with amount := u.amount + n } else if x = s then some t' else l x := by
  constructor
  · intro h
    unfold splTransfer at h
    cases hs : l s with
    | none => rw [hs] at h; cases h
    | some t =>
      cases hd : l d with
      | none => rw [hs, hd] at h; cases h
      | some u =>
        rw [hs, hd] at h
        simp only [if_neg hne] at h
        split at h
        · cases h
        rename_i h1
        split at h
        · cases h
        rename_i h2
        split at h
        · cases h
        rename_i h3
        cases hb : debitTok t a n with
        | error e => rw [hb] at h; cases h
        | ok t' =>
          rw [hb] at h
          simp only at h
          split at h
          · cases h
          rename_i h4
          refine ⟨t, u, t', rfl, rfl, ?_, ?_, by omega, ?_, hb, by omega, (Except.ok.inj h).symm⟩
          · cases hf : t.frozen <;> simp_all
          · cases hf : u.frozen <;> simp_all
          · exact Decidable.of_not_not h3
  · rintro ⟨t, u, t', h1, h2, h3, h4, h5, h6, h7, h8, rfl⟩
    unfold splTransfer
    rw [h1, h2]
    simp only [h3, h4, h6, h7, if_neg hne]
    rw [if_neg (by decide), if_neg (by omega), if_neg (by simp), if_neg (by omega)]

theorem debit_held {t : Tok} {vs n : Nat} (h1 : t.owner = vs) (h2 : t.delegate = none) :
    debitTok t vs n = .ok { t with amount := t.amount - n } := by
  unfold debitTok
  rw [h2, if_neg (by simp), if_neg (by simp [h1])]

theorem debit_add {t t' : Tok} {a n k : Nat} (h : debitTok t a n = .ok t') (hn : n ≤ t.amount) :
    debitTok { t with amount := t.amount + k } a n = .ok { t' with amount := t'.amount + k } := by
  unfold debitTok at h ⊢
  have e : t.amount + k - n = t.amount - n + k := by omega
  simp only [e]
  split at h
  · rename_i h1
    rw [if_pos h1]
    split at h
    · cases h
    · rename_i h2
      rw [if_neg h2]
      cases h
      rfl
  · rename_i h1
    rw [if_neg h1]
    split at h
    · cases h
    · rename_i h2
      rw [if_neg h2]
      cases h
      rfl

theorem debit_amount {t t' : Tok} {a n : Nat} (h : debitTok t a n = .ok t') :
    t'.amount = t.amount - n ∧ t'.mint = t.mint ∧ t'.frozen = t.frozen := by
  unfold debitTok at h
  split at h
  · split at h
    · cases h
    · cases h; exact ⟨rfl, rfl, rfl⟩
  · split at h
    · cases h
    · cases h; exact ⟨rfl, rfl, rfl⟩

/-- Two payments out of vaults can be made in either order. -/
theorem spl_swap_out {l l1 l2 : Ledger} {vs v d n w e k : Nat} (hv : Held vs l v) (hw : Held vs l w)
    (h1 : v ≠ d) (h2 : w ≠ d) (h3 : v ≠ e) (h4 : w ≠ e)
    (ho : splTransfer l v d vs n = .ok l1) (ht : splTransfer l1 w e vs k = .ok l2) :
    ∃ l', splTransfer l w e vs k = .ok l' ∧ splTransfer l' v d vs n = .ok l2 := by
  obtain ⟨t, u, t', a1, a2, a3, a4, a5, a6, a7, a8, rfl⟩ := (spl_iff h1).1 ho
  obtain ⟨x, y, x', b1, b2, b3, b4, b5, b6, b7, b8, rfl⟩ := (spl_iff h4).1 ht
  obtain ⟨t0, c1, c2, c3, _⟩ := hv
  rw [a1] at c1; cases c1
  rw [debit_held c2 c3] at a7
  cases a7
  obtain ⟨x0, d1, d2, d3, _⟩ := hw
  simp only [if_neg h2] at b1
  simp only [if_neg (Ne.symm h3)] at b2
  have hx : x.owner = vs ∧ x.delegate = none := by
    split at b1
    · cases b1; exact ⟨c2, c3⟩
    · rw [d1] at b1; cases b1; exact ⟨d2, d3⟩
  rw [debit_held hx.1 hx.2] at b7
  cases b7
  have hx0 : x0.amount = (if w = v then x.amount + n else x.amount) ∧ x0.mint = x.mint ∧ x0.frozen = x.frozen ∧
      { x with amount := x0.amount } = x0 := by
    split at b1
    · rename_i e
      subst e
      rw [a1] at d1
      cases d1
      cases b1
      refine ⟨by simp; omega, rfl, rfl, rfl⟩
    · rename_i e
      rw [d1] at b1
      cases b1
      exact ⟨by simp [e], rfl, rfl, rfl⟩
  have hy : ∃ y0, l e = some y0 ∧ y.amount = (if e = d then y0.amount + n else y0.amount) ∧ y0.mint = y.mint ∧
      y0.frozen = y.frozen ∧ { y with amount := y0.amount } = y0 := by
    split at b2
    · rename_i e
      subst e
      cases b2
      exact ⟨u, a2, by simp, rfl, rfl, rfl⟩
    · rename_i e
      exact ⟨y, b2, by simp [e], rfl, rfl, rfl⟩
  obtain ⟨y0, e1, e2, e3, e4, e5⟩ := hy
  obtain ⟨f1, f2, f3, f5⟩ := hx0
  refine ⟨_, (spl_iff h4).2 ⟨x0, y0, _, d1, e1, by rw [f3, b3], by rw [e4, b4], by split at f1 <;> omega, by rw [f2, b6, e3],
    debit_held d2 d3, by split at e2 <;> omega, rfl⟩, ?_⟩
  refine (spl_iff h1).2 ⟨if v = w then { x0 with amount := x0.amount - k } else t,
    if d = e then { y0 with amount := y0.amount + k } else u, _, ?_, ?_, ?_, ?_, ?_, ?_, debit_held ?_ ?_, ?_, ?_⟩
  · simp only [if_neg h3]
    by_cases h : v = w <;> simp [h, a1]
  · by_cases h : d = e
    · simp [h]
    · simp [h, a2, Ne.symm h2]
  · by_cases h : v = w <;> simp [h, f3, b3, a3]
  · by_cases h : d = e <;> simp [h, e4, b4, a4]
  · by_cases h : v = w
    · subst h
      simp only [if_true] at f1 ⊢
      omega
    · simp [h, a5]
  · by_cases h : v = w
    · subst h
      have : x0 = t := by rw [a1] at d1; exact (Option.some.inj d1).symm
      subst this
      by_cases hd : d = e
      · subst hd
        rw [a2] at e1; cases e1
        simp [a6]
      · simp [hd, a6]
    · by_cases hd : d = e
      · subst hd
        rw [a2] at e1; cases e1
        simp [h, a6]
      · simp [hd, h, a6]
  · by_cases h : v = w <;> simp [h, d2, c2]
  · by_cases h : v = w <;> simp [h, d3, c3]
  · by_cases h : d = e
    · subst h
      simp only [if_true] at e2 ⊢
      omega
    · simp [h, a8]
  · rw [← f5, ← e5]
    funext z
    by_cases hd : d = e
    · subst hd
      have hu : y0 = u := by rw [a2] at e1; exact (Option.some.inj e1).symm
      simp only [if_true] at e2 b2 ⊢
      cases b2
      by_cases hv : v = w
      · subst hv
        simp only [if_true] at b1 f1 ⊢
        cases b1
        by_cases z1 : z = d
        · simp [z1, hu]; omega
        · by_cases z2 : z = v
          · simp only [z2, if_neg h1, if_true]
            congr 2
            simp only at f1 ⊢
            omega
          · simp [z1, z2]
      · simp only [if_neg (Ne.symm hv)] at b1 f1
        rw [d1] at b1
        by_cases z1 : z = d
        · simp [z1, hu]; omega
        · by_cases z2 : z = v
          · simp [z2, hv, h1]
          · by_cases z3 : z = w
            · subst z3
              simp only [if_neg z1, if_neg z2, if_true]
              congr 2
              omega
            · simp [z1, z2, z3]
    · simp only [if_neg (Ne.symm hd)] at e2 b2
      by_cases hv : v = w
      · subst hv
        simp only [if_true] at b1 f1 ⊢
        cases b1
        by_cases z1 : z = d
        · simp [z1, hd, Ne.symm h1]
        · by_cases z2 : z = v
          · simp only [z2, if_neg h1, if_neg h3, if_true]
            congr 2
            simp only at f1 ⊢
            omega
          · by_cases z3 : z = e
            · simp [z3, Ne.symm hd, Ne.symm h3, e2]
            · simp [z1, z2, z3]
      · simp only [if_neg (Ne.symm hv)] at b1 f1
        by_cases z1 : z = d
        · simp [z1, hd, Ne.symm h2]
        · by_cases z2 : z = v
          · simp [z2, hv, h1, h3]
          · by_cases z3 : z = e
            · simp [z3, Ne.symm hd, Ne.symm h3, e2]
            · by_cases z4 : z = w
              · simp [z4, Ne.symm hv, h2, h4, f1]
              · simp [z1, z2, z3, z4]

/-- A payment out of a vault can be made before or after a deposit into one. -/
theorem spl_swap_in {l l1 l' : Ledger} {vs p v a n w e k : Nat} (hw : Held vs l w)
    (h1 : p ≠ v) (h2 : p ≠ w) (h3 : v ≠ e) (h4 : w ≠ e)
    (ho : splTransfer l p v a n = .ok l1) (ht : splTransfer l w e vs k = .ok l') :
    ∃ l2, splTransfer l1 w e vs k = .ok l2 ∧ splTransfer l' p v a n = .ok l2 := by
  obtain ⟨t, u, t', a1, a2, a3, a4, a5, a6, a7, a8, rfl⟩ := (spl_iff h1).1 ho
  obtain ⟨x, y, x', b1, b2, b3, b4, b5, b6, b7, b8, rfl⟩ := (spl_iff h4).1 ht
  obtain ⟨x0, d1, d2, d3, _⟩ := hw
  rw [b1] at d1; cases d1
  rw [debit_held d2 d3] at b7
  cases b7
  obtain ⟨g1, g2, g3⟩ := debit_amount a7
  refine ⟨_, (spl_iff h4).2 ⟨if w = v then { u with amount := u.amount + n } else x,
    if e = p then t' else y, _, ?_, ?_, ?_, ?_, ?_, ?_, debit_held ?_ ?_, ?_, rfl⟩, ?_⟩
  · by_cases h : w = v
    · simp [h]
    · simp [h, Ne.symm h2, b1]
  · by_cases h : e = p
    · simp [h, h1]
    · simp [h, Ne.symm h3, b2]
  · by_cases h : w = v <;> simp [h, a4, b3]
  · by_cases h : e = p
    · simp [h, g3, a3]
    · simp [h, b4]
  · by_cases h : w = v
    · subst h
      rw [a2] at b1; cases b1
      simp only [if_true]
      omega
    · simp [h, b5]
  · by_cases h : w = v
    · subst h
      rw [a2] at b1; cases b1
      by_cases he : e = p
      · subst he
        rw [a1] at b2; cases b2
        simp [g2, b6]
      · simp [he, b6]
    · by_cases he : e = p
      · subst he
        rw [a1] at b2; cases b2
        simp [h, g2, b6]
      · simp [he, h, b6]
  · by_cases h : w = v
    · subst h
      rw [a2] at b1; cases b1
      simp [d2]
    · simp [h, d2]
  · by_cases h : w = v
    · subst h
      rw [a2] at b1; cases b1
      simp [d3]
    · simp [h, d3]
  · by_cases h : e = p
    · subst h
      rw [a1] at b2; cases b2
      simp only [if_true]
      omega
    · simp [h, b8]
  · refine (spl_iff h1).2 ⟨if p = e then { t with amount := t.amount + k } else t,
      if v = w then { u with amount := u.amount - k } else u,
      if p = e then { t' with amount := t'.amount + k } else t', ?_, ?_, ?_, ?_, ?_, ?_, ?_, ?_, ?_⟩
    · by_cases h : p = e
      · subst h
        rw [a1] at b2; cases b2
        simp
      · simp [h, h2, a1]
    · by_cases h : v = w
      · subst h
        rw [a2] at b1; cases b1
        simp [h3]
      · simp [h, h3, a2]
    · by_cases h : p = e <;> simp [h, a3]
    · by_cases h : v = w <;> simp [h, a4]
    · by_cases h : p = e
      · simp [h]; omega
      · simp [h, a5]
    · by_cases h : p = e <;> by_cases h' : v = w <;> simp [h, h', a6]
    · by_cases h : p = e
      · simp only [h, if_true]
        exact debit_add a7 a5
      · simp [h, a7]
    · by_cases h : v = w
      · simp [h]; omega
      · simp [h, a8]
    · funext z
      by_cases hv : v = w
      · subst hv
        rw [a2] at b1; cases b1
        by_cases he : p = e
        · subst he
          rw [a1] at b2; cases b2
          by_cases z1 : z = v
          · simp only [z1, if_neg h3, if_true]
            congr 2
            omega
          · by_cases z2 : z = p <;> simp [z1, z2, h1]
        · by_cases z1 : z = v
          · simp only [z1, if_neg h3, if_true]
            congr 2
            omega
          · by_cases z2 : z = p
            · simp [z2, h1, he]
            · by_cases z3 : z = e
              · simp [z3, Ne.symm h3, Ne.symm he]
              · simp [z1, z2, z3]
      · by_cases he : p = e
        · subst he
          rw [a1] at b2; cases b2
          by_cases z1 : z = v
          · simp [z1, h3, hv]
          · by_cases z2 : z = p
            · simp [z2, h1]
            · by_cases z3 : z = w
              · simp [z3, Ne.symm h2, Ne.symm hv]
              · simp [z1, z2, z3]
        · by_cases z1 : z = v
          · simp [z1, h3, hv]
          · by_cases z2 : z = p
            · simp [z2, h1, he, h2]
            · by_cases z3 : z = e
              · simp [z3, Ne.symm h3, Ne.symm he]
              · by_cases z4 : z = w
                · simp [z4, Ne.symm h2, Ne.symm hv, h4]
                · simp [z1, z2, z3, z4]

/-! ### Several payments -/

/-- Payments (from, to, amount) made by `vs`, one after the other. -/
def Pays (vs : Nat) : List (Nat × Nat × Nat) → Ledger → Ledger → Prop
  | [], l, l' => l' = l
  | x :: ts, l, l' => ∃ l1, splTransfer l x.1 x.2.1 vs x.2.2 = .ok l1 ∧ Pays vs ts l1 l'

/-- Every payment is from one of two accounts to neither. -/
def Legs (c p : Nat) (ts : List (Nat × Nat × Nat)) : Prop :=
  ∀ x ∈ ts, (x.1 = c ∨ x.1 = p) ∧ x.2.1 ≠ c ∧ x.2.1 ≠ p

/-- Both accounts are held by `vs`. -/
def Two (vs c p : Nat) (l : Ledger) : Prop := Held vs l c ∧ Held vs l p

theorem Two.spl {vs c p : Nat} {l l' : Ledger} {s d a n : Nat} (h : Two vs c p l)
    (e : splTransfer l s d a n = .ok l') : Two vs c p l' :=
  ⟨(splTransfer_moved e).held _ _ h.1, (splTransfer_moved e).held _ _ h.2⟩

theorem Two.of {vs c p : Nat} {l : Ledger} {v : Nat} (h : Two vs c p l) (hv : v = c ∨ v = p) : Held vs l v := by
  rcases hv with rfl | rfl
  · exact h.1
  · exact h.2

theorem Pays.two {vs c p : Nat} {ts : List (Nat × Nat × Nat)} : ∀ {l l' : Ledger}, Two vs c p l → Pays vs ts l l' →
    Two vs c p l' := by
  induction ts with
  | nil => intro l l' h e; cases e; exact h
  | cons x ts ih => rintro l l' h ⟨l1, h1, h2⟩; exact ih (h.spl h1) h2

theorem Pays.det {vs : Nat} {ts : List (Nat × Nat × Nat)} : ∀ {l l1 l2 : Ledger}, Pays vs ts l l1 → Pays vs ts l l2 →
    l1 = l2 := by
  induction ts with
  | nil => intro l l1 l2 h e; cases e; cases h; rfl
  | cons x ts ih =>
    rintro l l1 l2 ⟨k1, h1, h2⟩ ⟨k2, g1, g2⟩
    rw [h1] at g1
    cases Except.ok.inj g1
    exact ih h2 g2

theorem ne_of_legs {c p v d : Nat} (hv : v = c ∨ v = p) (h1 : d ≠ c) (h2 : d ≠ p) : v ≠ d := by
  rcases hv with rfl | rfl
  · exact h1.symm
  · exact h2.symm

theorem pays_swap_in {vs c p q v a n : Nat} (hq : q ≠ c ∧ q ≠ p) (hv : v = c ∨ v = p) {ts : List (Nat × Nat × Nat)} :
    ∀ {l l1 l' : Ledger}, Two vs c p l → Legs c p ts → splTransfer l q v a n = .ok l1 → Pays vs ts l l' →
    ∃ l2, Pays vs ts l1 l2 ∧ splTransfer l' q v a n = .ok l2 := by
  induction ts with
  | nil => intro l l1 l' h hl ho e; cases e; exact ⟨l1, rfl, ho⟩
  | cons x ts ih =>
    rintro l l1 l' h hl ho ⟨k, h1, h2⟩
    obtain ⟨x1, x2, x3⟩ := hl x (by simp)
    obtain ⟨k2, h3, h4⟩ := spl_swap_in (h.of x1) (ne_of_legs hv hq.1 hq.2).symm (ne_of_legs x1 hq.1 hq.2).symm
      (ne_of_legs hv x2 x3) (ne_of_legs x1 x2 x3) ho h1
    obtain ⟨l2, h5, h6⟩ := ih (h.spl h1) (fun y hy => hl y (by simp [hy])) h4 h2
    exact ⟨l2, ⟨k2, h3, h5⟩, h6⟩

theorem pays_swap_out {vs c p v d n : Nat} (hv : v = c ∨ v = p) (hd : d ≠ c ∧ d ≠ p) {ts : List (Nat × Nat × Nat)} :
    ∀ {l l1 l2 : Ledger}, Two vs c p l → Legs c p ts → splTransfer l v d vs n = .ok l1 → Pays vs ts l1 l2 →
    ∃ l', Pays vs ts l l' ∧ splTransfer l' v d vs n = .ok l2 := by
  induction ts with
  | nil => intro l l1 l2 h hl ho e; cases e; exact ⟨l, rfl, ho⟩
  | cons x ts ih =>
    rintro l l1 l2 h hl ho ⟨k, h1, h2⟩
    obtain ⟨x1, x2, x3⟩ := hl x (by simp)
    obtain ⟨k1, h3, h4⟩ := spl_swap_out (h.of hv) (h.of x1) (ne_of_legs hv hd.1 hd.2) (ne_of_legs x1 hd.1 hd.2)
      (ne_of_legs hv x2 x3) (ne_of_legs x1 x2 x3) ho h1
    obtain ⟨l', h5, h6⟩ := ih (h.spl h3) (fun y hy => hl y (by simp [hy])) h4 h2
    exact ⟨l', ⟨k1, h3, h5⟩, h6⟩

/-- Two lists of payments can be made in either order. -/
theorem pays_swap {vs c p : Nat} {us ts : List (Nat × Nat × Nat)} : ∀ {l l1 l2 : Ledger}, Two vs c p l →
    Legs c p us → Legs c p ts → Pays vs us l l1 → Pays vs ts l1 l2 → ∃ l', Pays vs ts l l' ∧ Pays vs us l' l2 := by
  induction us with
  | nil => intro l l1 l2 h hu ht e h2; cases e; exact ⟨l2, h2, rfl⟩
  | cons x us ih =>
    rintro l l1 l2 h hu ht ⟨k, h1, h2⟩ h3
    obtain ⟨x1, x2, x3⟩ := hu x (by simp)
    obtain ⟨k', h4, h5⟩ := ih (h.spl h1) (fun y hy => hu y (by simp [hy])) ht h2 h3
    obtain ⟨l', h6, h7⟩ := pays_swap_out x1 ⟨x2, x3⟩ h ht h1 h4
    exact ⟨l', h6, k', h7, h5⟩

theorem Pays.keeps {vs : Nat} {ts : List (Nat × Nat × Nat)} : ∀ {l l' : Ledger}, Pays vs ts l l' → ∀ a t, l a = some t →
    ∃ t', l' a = some t' ∧ t'.mint = t.mint ∧ t'.frozen = t.frozen := by
  induction ts with
  | nil => intro l l' e a t h; cases e; exact ⟨t, h, rfl, rfl⟩
  | cons x ts ih =>
    rintro l l' ⟨k, h1, h2⟩ a t h
    obtain ⟨t1, e1, e2, e3⟩ := Props.spl_keeps h1 a t h
    obtain ⟨t2, e4, e5, e6⟩ := ih h2 a t1 e1
    exact ⟨t2, e4, e5.trans e2, e6.trans e3⟩

theorem Pays.others {vs : Nat} {ts : List (Nat × Nat × Nat)} : ∀ {l l' : Ledger}, Pays vs ts l l' → ∀ a,
    (∀ x ∈ ts, a ≠ x.1 ∧ a ≠ x.2.1) → l' a = l a := by
  induction ts with
  | nil => intro l l' e a h; cases e; rfl
  | cons x ts ih =>
    rintro l l' ⟨k, h1, h2⟩ a h
    rw [ih h2 a (fun y hy => h y (by simp [hy]))]
    exact (Props.spl_paid h1).others a (h x (by simp)).1 (h x (by simp)).2

theorem Pays.grows {vs c p : Nat} {ts : List (Nat × Nat × Nat)} : ∀ {l l' : Ledger}, Legs c p ts → Pays vs ts l l' → ∀ a,
    a ≠ c → a ≠ p → bal l a ≤ bal l' a := by
  induction ts with
  | nil => intro l l' hl e a h1 h2; cases e; exact Nat.le_refl _
  | cons x ts ih =>
    rintro l l' hl ⟨k, h1, h2⟩ a ha hb
    refine Nat.le_trans ?_ (ih (fun y hy => hl y (by simp [hy])) h2 a ha hb)
    obtain ⟨x1, x2, x3⟩ := hl x (by simp)
    rw [(splTransfer_moved h1).bal]
    have : a ≠ x.1 := (ne_of_legs x1 ha hb).symm
    split
    · exact Nat.le_refl _
    · split
      · omega
      · exact Nat.le_refl _

end Serum
