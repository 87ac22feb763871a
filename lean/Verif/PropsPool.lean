import Verif.Pool
import Verif.MatchSteps
import Verif.PropsFunds

/-!
C47, C48, C49: the pool library's fees, baskets and minting.
-/

namespace Serum.Pool
open Serum.Props (spl_shape)

/-! ### Specification -/

/-- `q` is `x / d` rounded up. -/
def IsCeil (x d q : Nat) : Prop := x ≤ q * d ∧ q * d < x + d

/-- `q` is `x / d` rounded down. -/
def IsFloor (x d q : Nat) : Prop := q * d ≤ x ∧ x < q * d + d

/-- What `a` gets from a list of payments. -/
def due (a : Nat) (l : List (Nat × Nat)) : Nat := (l.map fun p => if p.1 = a then p.2 else 0).sum

/-- The division of the fee on `n` pool tokens at `rate` millionths. -/
structure Split (rate n : Nat) (f : Fees) : Prop where
  /-- the whole fee is the rate, rounded up -/
  total : IsCeil (n * rate) 1000000 (f.lqd + f.initializer + f.referrer)
  /-- never more than the tokens -/
  atMost : f.lqd + f.initializer + f.referrer ≤ n
  /-- at least a basis point for the protocol -/
  basisPoint : n ≤ 10000 * f.lqd
  /-- and at least two fifths of the fee, less rounding -/
  fifths : 2 * (f.lqd + f.initializer + f.referrer) < 5 * f.lqd + 5
  /-- no more than the larger of the two -/
  lqd : 5 * f.lqd ≤ 2 * (f.lqd + f.initializer + f.referrer) ∨ 10000 * f.lqd < n + 10000
  /-- the referrer gets half of what the protocol gets, or all that is left -/
  referrer : f.referrer = f.lqd / 2 ∨ (f.referrer ≤ f.lqd / 2 ∧ f.initializer = 0)

/-! ### Token movements -/

theorem due_nil (a : Nat) : due a [] = 0 := rfl

theorem due_cons (a : Nat) (p : Nat × Nat) (l : List (Nat × Nat)) :
    due a (p :: l) = (if p.1 = a then p.2 else 0) + due a l := rfl

theorem transfer_ok {l l' : Ledger} {src dst auth n : Nat} {sg : Bool} (h : transfer l src dst auth n sg = .ok l') :
    sg = true ∧ splTransfer l src dst auth n = .ok l' := by
  unfold transfer at h
  split at h
  · cases h
  · rename_i hs
    split at h
    · rename_i l1 h1
      cases h
      exact ⟨by simpa using hs, h1⟩
    · cases h

/-- A list of transfers moves exactly its quantities. -/
theorem transfers_bal {auth : Nat} {sg : Bool} {ts : List (Nat × Nat × Nat)} {l l' : Ledger}
    (h : transfers l auth sg ts = .ok l') (a : Nat) :
    bal l' a + due a (ts.map fun t => (t.1, t.2.2)) = bal l a + due a (ts.map fun t => (t.2.1, t.2.2)) := by
  induction ts generalizing l with
  | nil => cases h; rfl
  | cons t ts ih =>
    obtain ⟨src, dst, n⟩ := t
    simp only [transfers] at h
    obtain ⟨l1, h1, h⟩ := bind_ok h
    have hm := splTransfer_moved (transfer_ok h1).2
    have := ih h
    have hb := hm.bal a
    have he := hm.enough
    simp only [List.map_cons, due_cons]
    by_cases e1 : src = dst
    · rw [if_pos e1] at hb
      subst e1
      omega
    · rw [if_neg e1] at hb
      by_cases e2 : a = dst
      · rw [if_pos e2] at hb
        subst e2
        rw [if_neg e1, if_pos rfl]
        omega
      · rw [if_neg e2] at hb
        rw [if_neg (show ¬ dst = a from fun e => e2 e.symm)]
        by_cases e3 : a = src
        · subst e3
          rw [if_pos rfl] at hb ⊢
          omega
        · rw [if_neg e3] at hb
          rw [if_neg (show ¬ src = a from fun e => e3 e.symm)]
          omega

theorem transfers_signed {auth : Nat} {sg : Bool} {ts : List (Nat × Nat × Nat)} {l l' : Ledger}
    (h : transfers l auth sg ts = .ok l') : ts = [] ∨ sg = true := by
  cases ts with
  | nil => exact .inl rfl
  | cons t ts =>
    obtain ⟨src, dst, n⟩ := t
    simp only [transfers] at h
    obtain ⟨l1, h1, h⟩ := bind_ok h
    exact .inr (transfer_ok h1).1

theorem transfers_held {auth : Nat} {sg : Bool} {ts : List (Nat × Nat × Nat)} {l l' : Ledger}
    (h : transfers l auth sg ts = .ok l') {vs a : Nat} (hh : Held vs l a) : Held vs l' a := by
  induction ts generalizing l with
  | nil => cases h; exact hh
  | cons t ts ih =>
    obtain ⟨src, dst, n⟩ := t
    simp only [transfers] at h
    obtain ⟨l1, h1, h⟩ := bind_ok h
    exact ih h ((splTransfer_moved (transfer_ok h1).2).held vs a hh)

/-- Transfers by somebody else take nothing from an account held by `vs`. -/
theorem transfers_src {auth : Nat} {sg : Bool} {ts : List (Nat × Nat × Nat)} {l l' : Ledger}
    (h : transfers l auth sg ts = .ok l') {vs a : Nat} (hh : Held vs l a) (hv : auth ≠ vs) :
    ∀ t ∈ ts, t.1 ≠ a := by
  induction ts generalizing l with
  | nil => simp
  | cons t ts ih =>
    obtain ⟨src, dst, n⟩ := t
    simp only [transfers] at h
    obtain ⟨l1, h1, h⟩ := bind_ok h
    have hm := splTransfer_moved (transfer_ok h1).2
    intro t ht
    simp only [List.mem_cons] at ht
    rcases ht with rfl | ht
    · rintro rfl
      exact hv (hm.auth vs hh)
    · exact ih h (hm.held vs a hh) t ht

/-- Transfers change only the accounts they name. -/
theorem transfers_other {auth : Nat} {sg : Bool} {ts : List (Nat × Nat × Nat)} {l l' : Ledger}
    (h : transfers l auth sg ts = .ok l') {a : Nat} (hs : ∀ t ∈ ts, t.1 ≠ a ∧ t.2.1 ≠ a) : l' a = l a := by
  induction ts generalizing l with
  | nil => cases h; rfl
  | cons t ts ih =>
    obtain ⟨src, dst, n⟩ := t
    simp only [transfers] at h
    obtain ⟨l1, h1, h⟩ := bind_ok h
    rw [ih h (fun t ht => hs t (List.mem_cons_of_mem _ ht))]
    have := hs _ List.mem_cons_self
    rcases spl_shape (transfer_ok h1).2 with ⟨e, _⟩ | ⟨_, d, s', _, e⟩
    · rw [e]
    · rw [e]
      simp [Ne.symm this.1, Ne.symm this.2]

theorem mintTo_ok {w w' : World} {mint a n : Nat} (h : mintTo w mint a n = .ok w') :
    ∃ t, w.toks a = some t ∧ t.frozen = false ∧ t.mint = mint ∧ t.amount + n < W64 ∧ w.supply + n < W64 ∧
      w' = { w with toks := w.toks.put a (some { t with amount := t.amount + n }), supply := w.supply + n } := by
  unfold mintTo at h
  split at h
  · cases h
  · rename_i t ht
    split at h
    · cases h
    · rename_i hc
      cases h
      simp at hc
      exact ⟨t, ht, hc.1.1.1, hc.1.1.2, by omega, by omega, rfl⟩

theorem mintAll_effect {mint : Nat} {ps : List (Nat × Nat)} {w w' : World} (h : mintAll w mint ps = .ok w') :
    (∀ a, bal w'.toks a = bal w.toks a + due a ps) ∧ w'.supply = w.supply + (ps.map (·.2)).sum ∧
    w'.minter = w.minter ∧ (∀ vs a, Held vs w.toks a → Held vs w'.toks a) ∧
    (∀ a, (∀ p ∈ ps, p.1 ≠ a) → w'.toks a = w.toks a) ∧ (w.supply < W64 → w'.supply < W64) := by
  induction ps generalizing w with
  | nil => cases h; simp [due_nil]
  | cons p ps ih =>
    obtain ⟨b, n⟩ := p
    simp only [mintAll] at h
    split at h
    · rename_i h0
      subst h0
      obtain ⟨i1, i2, i3, i4, i5, i6⟩ := ih h
      refine ⟨fun a => by rw [i1, due_cons]; simp, by rw [i2]; simp, i3, i4, fun a ha => i5 a fun p hp => ha p (by simp [hp]), i6⟩
    · obtain ⟨w1, h1, h⟩ := bind_ok h
      obtain ⟨t, ht, _, _, _, _, rfl⟩ := mintTo_ok h1
      obtain ⟨i1, i2, i3, i4, i5, i6⟩ := ih h
      refine ⟨fun a => ?_, ?_, i3, fun vs a hh => i4 vs a ?_, fun a ha => ?_, fun _ => i6 (by assumption)⟩
      · rw [i1, due_cons]
        simp only
        rw [bal_put]
        by_cases e : a = b
        · subst e
          simp only [if_true]
          unfold bal
          rw [ht]
          simp only
          omega
        · rw [if_neg e, if_neg (fun x => e x.symm)]
          omega
      · rw [i2]; simp only [List.map_cons, List.sum_cons]; omega
      · obtain ⟨u, e1, e2, e3, e4⟩ := hh
        unfold Held Ledger.put
        by_cases e : a = b
        · subst e
          rw [ht] at e1
          cases e1
          exact ⟨{ t with amount := t.amount + n }, by simp, e2, e3, e4⟩
        · exact ⟨u, by simp [e, e1], e2, e3, e4⟩
      · rw [i5 a fun p hp => ha p (by simp [hp])]
        have := ha _ List.mem_cons_self
        simp [Ledger.put, Ne.symm this]

theorem burnFrom_effect {w w' : World} {mint a auth n : Nat} (h : burnFrom w mint a auth n = .ok w') :
    n ≤ bal w.toks a ∧ n ≤ w.supply ∧ (∀ b, bal w'.toks b = bal w.toks b - (if b = a then n else 0)) ∧
    w'.supply = w.supply - n ∧ w'.minter = w.minter ∧ (∀ vs b, Held vs w.toks b → Held vs w'.toks b) ∧
    (∀ vs, Held vs w.toks a → auth = vs) ∧ (∀ b, b ≠ a → w'.toks b = w.toks b) := by
  unfold burnFrom at h
  split at h
  · cases h
  · rename_i t ht
    split at h
    · cases h
    · rename_i hc
      simp at hc
      split at h
      · cases h
      · rename_i t' hd
        cases h
        have hb : bal w.toks a = t.amount := by unfold bal; rw [ht]
        have key : t'.amount = t.amount - n ∧ (t.delegate = none → t'.delegate = none) ∧ t'.owner = t.owner ∧
            t'.closeAuth = t.closeAuth ∧ (t.delegate = none → auth = t.owner) := by
          unfold debitTok at hd
          split at hd
          · rename_i he
            split at hd
            · cases hd
            · cases hd; exact ⟨rfl, fun e => (by simp [e]), rfl, rfl, fun e => by rw [e] at he; cases he⟩
          · split at hd
            · cases hd
            · rename_i ho
              cases hd; exact ⟨rfl, fun e => e, rfl, rfl, fun _ => (Decidable.not_not.1 ho).symm⟩
        refine ⟨by omega, by omega, fun b => ?_, rfl, rfl, ?_, ?_, ?_⟩
        · simp only
          rw [bal_put]
          by_cases e : b = a
          · subst e; simp [key.1, hb]
          · simp [e]
        · rintro vs b ⟨u, e1, e2, e3, e4⟩
          unfold Held Ledger.put
          by_cases e : b = a
          · subst e
            rw [ht] at e1
            cases e1
            exact ⟨t', by simp, by rw [key.2.2.1, e2], key.2.1 e3, by rw [key.2.2.2.1, e4]⟩
          · exact ⟨u, by simp [e, e1], e2, e3, e4⟩
        · rintro vs ⟨u, e1, e2, e3, e4⟩
          rw [ht] at e1
          cases e1
          rw [key.2.2.2.2 e3, e2]
        · intro b e
          simp [Ledger.put, e]

/-! ### The accounts of a request -/

/-- A token account of a mint. -/
def OfMint (l : Ledger) (mint a : Nat) : Prop := ∃ t, l a = some t ∧ t.mint = mint

/-- A token account of a mint that `k` can spend from. -/
def Spends (l : Ledger) (mint k a : Nat) : Prop :=
  ∃ t, l a = some t ∧ t.mint = mint ∧ (t.owner = k ∨ t.delegate = some k)

/-- The accounts a request must come with. -/
structure Parsed (E : PoolEnv) (st : PoolState) (w : World) (accts : List AccMeta) (A : Accts) : Prop where
  listed : ∃ pool rest, accts = pool :: A.mint :: A.vaults ++ A.authority :: A.userPool :: A.userAssets ++
    [A.userAuth, A.lqd, A.initializer, A.referrer, A.splToken] ++ A.params ++ rest
  mint : A.mint.key = st.mint
  minter : w.minter = some st.signer
  vaults : A.vaults.map (·.key) = st.assets.map (·.vault)
  vaultToks : ∀ x ∈ st.assets, Spends w.toks x.mint st.signer x.vault
  authority : A.authority.key = st.signer
  userPool : OfMint w.toks st.mint A.userPool.key
  assets : A.userAssets.length = st.assets.length
  assetToks : ∀ p ∈ A.userAssets.zip st.assets, OfMint w.toks p.2.mint p.1.key
  lqd : A.lqd.key = st.lqdVault
  initializer : A.initializer.key = st.initVault
  lqdTok : Spends w.toks st.mint E.feeOwner st.lqdVault
  initTok : OfMint w.toks st.mint st.initVault
  referrer : OfMint w.toks st.mint A.referrer.key
  spl : A.splToken.key = E.splToken
  params : A.params.map (·.key) = st.params

theorem next_ok {l : List AccMeta} {p : AccMeta × List AccMeta} : next l = .ok p ↔ l = p.1 :: p.2 := by
  cases l <;> simp [next, Prod.ext_iff]

theorem nextN_ok {n : Nat} {l : List AccMeta} {p : List AccMeta × List AccMeta} :
    nextN n l = .ok p ↔ p.1.length = n ∧ l = p.1 ++ p.2 := by
  unfold nextN
  constructor
  · intro h
    split at h
    · cases h
    · cases h
      exact ⟨by simp; omega, (List.take_append_drop _ _).symm⟩
  · rintro ⟨h1, h2⟩
    subst h2
    rw [if_neg (by simp; omega)]
    simp [← h1]

theorem checkAddr_ok {a : AccMeta} {k : Nat} {u : Unit} : checkAddr a k = .ok u ↔ a.key = k := by
  unfold checkAddr; split <;> simp_all

theorem checkTok_none {l : Ledger} {a : AccMeta} {m : Nat} {u : Unit} :
    checkTok l a m none = .ok u ↔ OfMint l m a.key := by
  unfold checkTok OfMint
  split
  · simp_all
  · rename_i t ht
    rw [ht]
    split <;> simp_all

theorem checkTok_some {l : Ledger} {a : AccMeta} {m k : Nat} {u : Unit} :
    checkTok l a m (some k) = .ok u ↔ Spends l m k a.key := by
  unfold checkTok Spends
  split
  · simp_all
  · rename_i t ht
    rw [ht]
    split
    · simp_all
    · rename_i hm
      simp only
      split <;> simp_all

theorem checkAll_ok {α : Type} {f : AccMeta → α → Except Err Unit} {l : List (AccMeta × α)} {u : Unit} :
    checkAll f l = .ok u ↔ ∀ p ∈ l, f p.1 p.2 = .ok () := by
  induction l with
  | nil => simp [checkAll]
  | cons p l ih =>
    obtain ⟨a, x⟩ := p
    simp only [checkAll, List.mem_cons, forall_eq_or_imp]
    rw [← ih]
    cases h : f a x with
    | error e => simp [bind, Except.bind]
    | ok v => simp [bind, Except.bind]

theorem zip_keys {α : Type} {g : α → Nat} {as : List AccMeta} {xs : List α} (hl : as.length = xs.length)  :
    (∀ p ∈ as.zip xs, p.1.key = g p.2) ↔ as.map (·.key) = xs.map g := by
  induction as generalizing xs with
  | nil => cases xs <;> simp_all
  | cons a as ih =>
    cases xs with
    | nil => cases hl
    | cons x xs =>
      simp only [List.zip_cons_cons, List.mem_cons, forall_eq_or_imp, List.map_cons, List.cons.injEq]
      rw [ih (by simpa using hl)]

theorem bind_ok_iff {α β : Type} {x : Except Err α} {f : α → Except Err β} {b : β} :
    (x >>= f) = .ok b ↔ ∃ a, x = .ok a ∧ f a = .ok b := by
  cases x <;> simp [bind, Except.bind]

theorem baseContext_ok {st : PoolState} {w : World} {accts : List AccMeta} {pool mint auth vaults rest} :
    baseContext st w accts = .ok (pool, mint, vaults, auth, rest) ↔
      accts = pool :: mint :: vaults ++ auth :: rest ∧ mint.key = st.mint ∧ w.minter = some st.signer ∧
      vaults.map (·.key) = st.assets.map (·.vault) ∧ (∀ x ∈ st.assets, Spends w.toks x.mint st.signer x.vault) ∧
      auth.key = st.signer := by
  have zipped : ∀ vaults : List AccMeta, vaults.length = st.assets.length →
      ((∀ p ∈ vaults.zip st.assets, p.1.key = p.2.vault ∧ Spends w.toks p.2.mint st.signer p.1.key) ↔
      (vaults.map (·.key) = st.assets.map (·.vault) ∧ ∀ x ∈ st.assets, Spends w.toks x.mint st.signer x.vault)) := by
    intro vaults hl
    rw [← zip_keys hl]
    generalize st.assets = xs at *
    induction vaults generalizing xs with
    | nil => cases xs <;> simp_all
    | cons a as ih =>
      cases xs with
      | nil => cases hl
      | cons x xs =>
        simp only [List.zip_cons_cons, List.mem_cons, forall_eq_or_imp]
        rw [ih xs (by simpa using hl)]
        constructor
        · rintro ⟨⟨e1, e2⟩, e3, e4⟩
          exact ⟨⟨e1, e3⟩, e1 ▸ e2, e4⟩
        · rintro ⟨⟨e1, e3⟩, e2, e4⟩
          exact ⟨⟨e1, e1 ▸ e2⟩, e3, e4⟩
  constructor
  · intro h
    unfold baseContext at h
    obtain ⟨⟨p, l1⟩, h1, h⟩ := bind_ok h
    obtain ⟨⟨m, l2⟩, h2, h⟩ := bind_ok h
    obtain ⟨⟨vs, l3⟩, h3, h⟩ := bind_ok h
    obtain ⟨⟨au, l4⟩, h4, h⟩ := bind_ok h
    obtain ⟨_, h5, h⟩ := bind_ok h
    split at h
    · cases h
    · rename_i hm
      obtain ⟨_, h6, h⟩ := bind_ok h
      obtain ⟨_, h7, h⟩ := bind_ok h
      cases h
      rw [next_ok] at h1 h2 h4
      rw [nextN_ok] at h3
      rw [checkAll_ok] at h6
      simp only at h1 h2 h3 h4 h6
      have h8 := (zipped vaults h3.1).1 fun p hp => by
        obtain ⟨_, q1, q2⟩ := bind_ok (h6 p hp)
        exact ⟨checkAddr_ok.1 q1, checkTok_some.1 q2⟩
      refine ⟨by simp [h1, h2, h3.2, h4], checkAddr_ok.1 h5, Decidable.not_not.1 hm, h8.1, h8.2, checkAddr_ok.1 h7⟩
  · rintro ⟨rfl, h1, h2, h3, h4, h5⟩
    have hl : vaults.length = st.assets.length := by simpa using congrArg List.length h3
    have h8 := (zipped vaults hl).2 ⟨h3, h4⟩
    unfold baseContext
    simp only [bind_ok_iff, next_ok, nextN_ok, checkAddr_ok, Prod.exists]
    refine ⟨pool, _, rfl, mint, _, rfl, vaults, auth :: rest, ⟨hl, rfl⟩, auth, rest, rfl, (), h1, ?_⟩
    rw [if_neg (by simp [h2])]
    simp only [bind_ok_iff, checkAll_ok, checkAddr_ok]
    exact ⟨(), fun p hp => ⟨(), (h8 p hp).1, checkTok_some.2 (h8 p hp).2⟩, (), h5, rfl⟩

/-- The context is built exactly from the right accounts. -/
theorem execContext_ok {E : PoolEnv} {st : PoolState} {w : World} {accts : List AccMeta} {A : Accts} :
    execContext E st w accts = .ok A ↔ Parsed E st w accts A := by
  constructor
  · intro h
    unfold execContext at h
    obtain ⟨⟨pool, mint, vaults, auth, l⟩, h1, h⟩ := bind_ok h
    obtain ⟨⟨up, l1⟩, h2, h⟩ := bind_ok h
    obtain ⟨⟨ua, l2⟩, h3, h⟩ := bind_ok h
    obtain ⟨⟨uk, l3⟩, h4, h⟩ := bind_ok h
    obtain ⟨⟨lq, l4⟩, h5, h⟩ := bind_ok h
    obtain ⟨⟨ini, l5⟩, h6, h⟩ := bind_ok h
    obtain ⟨⟨ref, l6⟩, h7, h⟩ := bind_ok h
    obtain ⟨_, h8, h⟩ := bind_ok h
    obtain ⟨_, h9, h⟩ := bind_ok h
    obtain ⟨_, h10, h⟩ := bind_ok h
    obtain ⟨⟨spl, l7⟩, h11, h⟩ := bind_ok h
    obtain ⟨⟨ps, l8⟩, h12, h⟩ := bind_ok h
    obtain ⟨_, h13, h⟩ := bind_ok h
    obtain ⟨_, h14, h⟩ := bind_ok h
    cases h
    obtain ⟨b1, b2, b3, b4, b5, b6⟩ := baseContext_ok.1 h1
    rw [next_ok] at h2 h4 h5 h6 h7 h11
    rw [nextN_ok] at h3 h12
    unfold checkFeeAccts at h10
    obtain ⟨_, f1, h10⟩ := bind_ok h10
    obtain ⟨_, f2, h10⟩ := bind_ok h10
    obtain ⟨_, f3, h10⟩ := bind_ok h10
    obtain ⟨_, f4, h10⟩ := bind_ok h10
    rw [checkAddr_ok] at f1 f2
    rw [checkTok_some, f1] at f3
    rw [checkTok_none, f2] at f4
    rw [checkAll_ok] at h9 h14
    simp only [checkAddr_ok] at h14
    have hp := (zip_keys (g := id) h12.1).1 h14
    simp only at h2 h3 h4 h5 h6 h7 h11 h12
    refine ⟨⟨pool, l8, ?_⟩, b2, b3, b4, b5, b6, checkTok_none.1 h8, h3.1, fun p hp => checkTok_none.1 (h9 p hp), f1, f2,
      f3, f4, checkTok_none.1 h10, checkAddr_ok.1 h13, by simpa using hp⟩
    simp [b1, h2, h3.2, h4, h5, h6, h7, h11, h12.2]
  · intro h
    obtain ⟨⟨pool, rest, hl⟩, p1, p2, p3, p4, p5, p6, p7, p8, p9, p10, p11, p12, p13, p14, p15⟩ := h
    have hbase : baseContext st w accts = .ok (pool, A.mint, A.vaults, A.authority, A.userPool :: A.userAssets ++
        [A.userAuth, A.lqd, A.initializer, A.referrer, A.splToken] ++ A.params ++ rest) :=
      baseContext_ok.2 ⟨by simp [hl], p1, p2, p3, p4, p5⟩
    have hpl : A.params.length = st.params.length := by simpa using congrArg List.length p15
    unfold execContext
    rw [hbase]
    simp only [bind_ok_iff, next_ok, nextN_ok, checkAddr_ok, Prod.exists, Except.ok.injEq, Prod.mk.injEq]
    refine ⟨_, _, _, _, _, ⟨rfl, rfl, rfl, rfl, rfl⟩, A.userPool, _, rfl, A.userAssets, _, ⟨p7, by simp⟩,
      A.userAuth, _, rfl, A.lqd, _, rfl, A.initializer, _, rfl, A.referrer, _, rfl, (), checkTok_none.2 p6, (),
      checkAll_ok.2 fun p hp => checkTok_none.2 (p8 p hp), (), ?_, A.splToken, _, rfl, A.params, rest, ⟨hpl, rfl⟩, (),
      p14, (), checkAll_ok.2 ?_, rfl⟩
    · unfold checkFeeAccts
      simp only [bind_ok_iff, checkAddr_ok, checkTok_none, checkTok_some]
      exact ⟨(), p9, (), p10, (), by rw [p9]; exact p11, (), by rw [p10]; exact p12, p13⟩
    · simp only [checkAddr_ok]
      exact (zip_keys (g := id) hpl).2 (by simpa using p15)

end Serum.Pool

namespace Serum.Props
open Serum.Pool

/-- C47 -/
theorem pool_fees {rate n : Nat} (hn : n < W64) :
    ((150 ≤ rate ∧ rate < 1000000) → n * rate ≤ 1000000 * (2 ^ 63 - 1) → ∃ f, feesFor rate n = .ok f ∧ Split rate n f) ∧
    (rate < 150 ∨ 1000000 ≤ rate → feesFor rate n = .error .programError) ∧
    (∀ f, feesFor rate n = .ok f → 150 ≤ rate ∧ rate < 1000000 ∧ n * rate ≤ 1000000 * (2 ^ 63 - 1) ∧ Split rate n f) := by
  have key : (150 ≤ rate ∧ rate < 1000000) → ∀ r, feesFor rate n = r →
      if n * rate ≤ 1000000 * (2 ^ 63 - 1) then ∃ f, r = .ok f ∧ Split rate n f else r = .error .panic := by
    rintro ⟨h1, h2⟩ r hr
    unfold feesFor at hr
    rw [if_neg (show ¬ (rate < minFeeRate ∨ rate ≥ feeRateDenominator) by unfold minFeeRate feeRateDenominator; omega)] at hr
    simp only [feeRateDenominator] at hr
    by_cases h0 : n = 0
    · rw [if_pos h0] at hr
      subst h0
      simp
      exact ⟨_, hr.symm, by simp [IsCeil], by simp, by simp, by simp, by simp, by simp⟩
    · rw [if_neg h0] at hr
      obtain ⟨x, hx⟩ : ∃ x, n * rate = x := ⟨_, rfl⟩
      simp only [hx] at hr ⊢
      have hx1 : x ≤ n * 999999 := by rw [← hx]; exact Nat.mul_le_mul_left _ (by omega)
      have hx2 : n * 150 ≤ x := by rw [← hx]; exact Nat.mul_le_mul_left _ (by omega)
      obtain ⟨T, hT⟩ : ∃ T, (x - 1) / 1000000 + 1 = T := ⟨_, rfl⟩
      have ht : T % W64 = T := by apply Nat.mod_eq_of_lt; unfold W64 at *; omega
      simp only [hT, ht] at hr
      have hTn : T ≤ n := by omega
      simp only [rustAssert, hTn, decide_true, if_true] at hr
      by_cases hb : x ≤ 1000000 * (2 ^ 63 - 1)
      · rw [if_pos hb]
        have hd : checkedMul T 2 = some (T * 2) := checkedMul_some.2 ⟨by unfold W64; omega, rfl⟩
        simp only [hd, unwrap, bind, Except.bind] at hr
        obtain ⟨L, hL⟩ : ∃ L, max (T * 2 / 5) ((n - 1) / 10000 + 1) = L := ⟨_, rfl⟩
        simp only [hL] at hr
        have hLT : L ≤ T := by omega
        simp only [hLT, decide_true, if_true] at hr
        obtain ⟨R, hR⟩ : ∃ R, min (L / 2) (T - L) = R := ⟨_, rfl⟩
        simp only [hR] at hr
        have h3 : checkedAdd L R = some (L + R) := checkedAdd_some.2 ⟨by unfold W64 at *; omega, rfl⟩
        have h4 : checkedSub T L = some (T - L) := checkedSub_some.2 ⟨hLT, rfl⟩
        have h5 : checkedSub (T - L) R = some (T - L - R) := checkedSub_some.2 ⟨by omega, rfl⟩
        have h6 : checkedAdd (L + R) (T - L - R) = some T := checkedAdd_some.2 ⟨by unfold W64 at *; omega, by omega⟩
        simp only [h3, show L + R ≤ T by omega, decide_true, if_true, h4, h5, h6, hTn, pure, Except.pure] at hr
        refine ⟨_, hr.symm, ?_, ?_, ?_, ?_, ?_, ?_⟩ <;> simp only [IsCeil] <;> omega
      · rw [if_neg hb]
        have hd : checkedMul T 2 = none := by
          unfold checkedMul; rw [if_neg]; unfold W64; omega
        simp only [hd, unwrap, bind, Except.bind] at hr
        exact hr.symm
  refine ⟨fun h hb => ?_, fun h => ?_, fun f h => ?_⟩
  · have := key h _ rfl
    rwa [if_pos hb] at this
  · unfold feesFor
    rw [if_pos (by unfold minFeeRate feeRateDenominator; omega)]
  · have h1 : 150 ≤ rate ∧ rate < 1000000 := by
      refine Decidable.byContradiction fun hc => ?_
      unfold feesFor at h
      rw [if_pos (by unfold minFeeRate feeRateDenominator; omega)] at h
      cases h
    have := key h1 _ h
    split at this
    · rename_i hb
      obtain ⟨g, hg, hs⟩ := this
      cases hg
      exact ⟨h1.1, h1.2, hb, hs⟩
    · cases this

/-- The division is determined by its description. -/
theorem Split.unique {rate n : Nat} {f g : Fees} (hf : Split rate n f) (hg : Split rate n g) : f = g := by
  obtain ⟨⟨a1, a2⟩, a3, a4, a5, a6, a7⟩ := hf
  obtain ⟨⟨b1, b2⟩, b3, b4, b5, b6, b7⟩ := hg
  generalize n * rate = x at *
  obtain ⟨p, q, r⟩ := f
  obtain ⟨p', q', r'⟩ := g
  simp only at *
  have : p + q + r = p' + q' + r' := by omega
  have hp : p = p' := by omega
  subst hp
  have hr : r = r' := by omega
  subst hr
  have : q = q' := by omega
  subst this
  rfl

example : ∃ f, feesFor 2500 100000 = .ok f ∧ f = ⟨100, 100, 50⟩ := ⟨_, rfl, by decide⟩

end Serum.Props

namespace Serum.Pool
open Serum.Props

/-! ### Effects of creations and redemptions -/

/-- The fees charged to the user's account: a fee that the account itself would receive is waived, and the
protocol's own account pays none at all. -/
structure Charged (st : PoolState) (A : Accts) (n : Nat) (f : Fees) : Prop where
  fee : ∃ g, Split st.feeRate n g ∧
    f.lqd = (if A.userPool.key = st.lqdVault then 0 else g.lqd) ∧
    f.initializer = (if A.userPool.key = st.lqdVault ∨ A.userPool.key = st.initVault then 0 else g.initializer) ∧
    f.referrer = (if A.userPool.key = st.lqdVault ∨ A.userPool.key = A.referrer.key then 0 else g.referrer)
  rate : 150 ≤ st.feeRate ∧ st.feeRate < 1000000

/-- The fees by receiving account. -/
def feeList (st : PoolState) (A : Accts) (f : Fees) : List (Nat × Nat) :=
  [(st.lqdVault, f.lqd), (st.initVault, f.initializer), (A.referrer.key, f.referrer)]

/-- The whole fee. -/
def Fees.sum (f : Fees) : Nat := f.lqd + f.initializer + f.referrer

/-- The basket, by the user's asset accounts, and by vault. -/
def userSide (A : Accts) (qs : List Nat) : List (Nat × Nat) := (A.userAssets.map (·.key)).zip qs
def vaultSide (st : PoolState) (qs : List Nat) : List (Nat × Nat) := (st.assets.map (·.vault)).zip qs

/-- A creation of `n` pool tokens for the basket `qs` with fees `f`. -/
structure Creates (k : PoolKind) (st : PoolState) (w : World) (A : Accts) (n : Nat) (qs : List Nat) (f : Fees)
    (w' : World) : Prop where
  running : k = .admin → st.custom = some false
  alive : 0 < w.supply
  signed : st.assets ≠ [] → A.userAuth.signer = true
  basket : qs.length = st.assets.length
  /-- the exact share of every asset, rounded up -/
  price : ∀ p ∈ vaultSide st qs, IsCeil (bal w.toks p.1 * n) w.supply p.2
  fees : Charged st A n f
  atMost : f.sum ≤ n
  /-- the basket moves from the user to the vaults; the fees and the rest of the `n` tokens are minted -/
  bal : ∀ a, bal w'.toks a + due a (userSide A qs) = bal w.toks a + due a (vaultSide st qs) +
    due a (feeList st A f) + due a [(A.userPool.key, n - f.sum)]
  supply : w'.supply = w.supply + n
  minter : w'.minter = w.minter
  others : ∀ a, a ∉ A.userAssets.map (·.key) → a ∉ st.assets.map (·.vault) →
    a ∉ [st.lqdVault, st.initVault, A.referrer.key, A.userPool.key] → w'.toks a = w.toks a

/-- A redemption of `n` pool tokens for the basket `qs` with fees `f`. -/
structure Redeems (k : PoolKind) (st : PoolState) (w : World) (A : Accts) (n : Nat) (qs : List Nat) (f : Fees)
    (w' : World) : Prop where
  running : k = .admin → st.custom = some false
  alive : 0 < w.supply
  signed : A.userAuth.signer = true
  basket : qs.length = st.assets.length
  fees : Charged st A n f
  atMost : f.sum ≤ n
  /-- the exact share of every asset for the tokens burnt, rounded down -/
  price : ∀ p ∈ vaultSide st qs, IsFloor (bal w.toks p.1 * (n - f.sum)) w.supply p.2
  /-- the fees are paid out of, and the rest burnt from, the user's pool tokens; the basket moves to the user -/
  bal : ∀ a, bal w'.toks a + due a (vaultSide st qs) + due a [(A.userPool.key, n)] = bal w.toks a +
    due a (userSide A qs) + due a (feeList st A f)
  supply : w'.supply + (n - f.sum) = w.supply
  minter : w'.minter = w.minter
  others : ∀ a, a ∉ A.userAssets.map (·.key) → a ∉ st.assets.map (·.vault) →
    a ∉ [st.lqdVault, st.initVault, A.referrer.key, A.userPool.key] → w'.toks a = w.toks a

theorem share_up {amount n s q : Nat} (hs : s ≠ 0) (h : share amount n s true = .ok q) : IsCeil (amount * n) s q := by
  unfold share at h
  simp only [if_true] at h
  split at h
  · cases h
    have h1 := Nat.div_add_mod (amount * n + (s - 1)) s
    have h2 := Nat.mod_lt (amount * n + (s - 1)) (Nat.pos_of_ne_zero hs)
    rw [Nat.mul_comm s] at h1
    unfold IsCeil
    omega
  · cases h

theorem share_down {amount n s q : Nat} (hs : s ≠ 0) (h : share amount n s false = .ok q) :
    IsFloor (amount * n) s q := by
  unfold share at h
  simp only [Bool.false_eq_true, if_false, Nat.add_zero] at h
  split at h
  · cases h
    have h1 := Nat.div_add_mod (amount * n) s
    have h2 := Nat.mod_lt (amount * n) (Nat.pos_of_ne_zero hs)
    rw [Nat.mul_comm s] at h1
    unfold IsFloor
    omega
  · cases h

theorem basket_ok {w : World} {n : Nat} {up : Bool} {vs : List AccMeta} {qs : List Nat}
    (h : simpleBasket w n up vs = .ok qs) :
    w.supply ≠ 0 ∧ qs.length = vs.length ∧
      ∀ p ∈ (vs.map (·.key)).zip qs, share (bal w.toks p.1) n w.supply up = .ok p.2 := by
  induction vs generalizing qs with
  | nil =>
    unfold simpleBasket at h
    split at h
    · cases h
    · cases h; simp_all
  | cons v vs ih =>
    unfold simpleBasket at h
    split at h
    · cases h
    split at h
    · cases h
    · rename_i t ht
      obtain ⟨q, h1, h⟩ := bind_ok h
      obtain ⟨qs', h2, h⟩ := bind_ok h
      cases h
      obtain ⟨i1, i2, i3⟩ := ih h2
      refine ⟨i1, by simp [i2], ?_⟩
      simp only [List.map_cons, List.zip_cons_cons, List.mem_cons, forall_eq_or_imp]
      exact ⟨by unfold bal; rw [ht]; exact h1, i3⟩

theorem kind_basket_ok {k : PoolKind} {st : PoolState} {w : World} {n : Nat} {up : Bool} {vs : List AccMeta} {qs : List Nat}
    (h : k.basket st w n up vs = .ok qs) :
    (k = .admin → st.custom = some false) ∧ simpleBasket w n up vs = .ok qs := by
  unfold PoolKind.basket at h
  split at h
  · rename_i ho
    refine ⟨?_, h⟩
    rintro rfl
    simpa [PoolKind.open] using ho
  · cases h

theorem getFees_ok {st : PoolState} {A : Accts} {n : Nat} {f : Fees} (hn : n < W64) (hl : A.lqd.key = st.lqdVault)
    (hi : A.initializer.key = st.initVault) (h : getFees st A n = .ok f) :
    Charged st A n f ∧ f.sum ≤ n ∧ f.total = f.sum := by
  unfold getFees at h
  obtain ⟨g, h1, h⟩ := bind_ok h
  obtain ⟨r1, r2, _, hs⟩ := (pool_fees hn).2.2 g h1
  have hsum : f.lqd = (if A.userPool.key = st.lqdVault then 0 else g.lqd) ∧
    f.initializer = (if A.userPool.key = st.lqdVault ∨ A.userPool.key = st.initVault then 0 else g.initializer) ∧
    f.referrer = (if A.userPool.key = st.lqdVault ∨ A.userPool.key = A.referrer.key then 0 else g.referrer) := by
    rw [hl, hi] at h
    cases h
    grind
  have hle : f.sum ≤ n := by
    have := hs.atMost
    unfold Fees.sum
    rw [hsum.1, hsum.2.1, hsum.2.2]
    split <;> split <;> split <;> omega
  refine ⟨⟨⟨g, hs, hsum⟩, r1, r2⟩, hle, ?_⟩
  unfold Fees.total Fees.sum at *
  have e : wadd f.lqd f.initializer = f.lqd + f.initializer := wadd_eq (by omega)
  rw [e, wadd_eq (by omega)]

theorem due_append (a : Nat) (l m : List (Nat × Nat)) : due a (l ++ m) = due a l + due a m := by
  simp [due]

theorem due_zero {a : Nat} {l : List (Nat × Nat)} (h : ∀ p ∈ l, p.1 = a → p.2 = 0) : due a l = 0 := by
  induction l with
  | nil => rfl
  | cons p l ih =>
    rw [due_cons, ih fun q hq => h q (List.mem_cons_of_mem _ hq)]
    have := h p List.mem_cons_self
    split <;> simp_all

theorem due_filter (a : Nat) (l : List (Nat × Nat)) : due a (l.filter (0 < ·.2)) = due a l := by
  induction l with
  | nil => rfl
  | cons p l ih =>
    rw [List.filter_cons]
    split
    · rw [due_cons, due_cons, ih]
    · rename_i h
      rw [due_cons, ih]
      simp at h
      simp [h]

theorem triples_user {qs : List Nat} {as vs : List AccMeta} (hv : as.length ≤ vs.length) :
    (((qs.zip as).zip vs).map fun p => (p.1.2.key, p.1.1)) = (as.map (·.key)).zip qs := by
  induction qs generalizing as vs with
  | nil => simp
  | cons q qs ih =>
    cases as with
    | nil => simp
    | cons a as =>
      cases vs with
      | nil => simp at hv
      | cons v vs => simp [ih (by simpa using hv)]

theorem triples_vault {qs : List Nat} {as vs : List AccMeta} (hv : vs.length ≤ as.length) :
    (((qs.zip as).zip vs).map fun p => (p.2.key, p.1.1)) = (vs.map (·.key)).zip qs := by
  induction qs generalizing as vs with
  | nil => simp
  | cons q qs ih =>
    cases as with
    | nil => cases vs <;> simp_all
    | cons a as =>
      cases vs with
      | nil => simp
      | cons v vs => simp [ih (by simpa using hv)]

theorem triples_mem {qs : List Nat} {as vs : List AccMeta} {p : (Nat × AccMeta) × AccMeta} (h : p ∈ (qs.zip as).zip vs) :
    p.1.2.key ∈ as.map (·.key) ∧ p.2.key ∈ vs.map (·.key) := by
  have h1 := List.of_mem_zip h
  have h2 := List.of_mem_zip h1.1
  exact ⟨List.mem_map.2 ⟨_, h2.2, rfl⟩, List.mem_map.2 ⟨_, h1.2, rfl⟩⟩

theorem creation_ok {E : PoolEnv} {k : PoolKind} {st : PoolState} {w w' : World} {accts : List AccMeta} {A : Accts} {n : Nat}
    (hn : n < W64) (hp : Parsed E st w accts A) (h : processCreation k st w A n = .ok w') :
    ∃ qs f, k.basket st w n true A.vaults = .ok qs ∧ Creates k st w A n qs f w' ∧
      (∀ vs a, Held vs w.toks a → Held vs w'.toks a) ∧
      (∀ vs a, Held vs w.toks a → A.userAuth.key ≠ vs → a ∉ (A.userAssets.map (·.key))) ∧
      (w.supply < W64 → w'.supply < W64) := by
  unfold processCreation at h
  obtain ⟨qs, h1, h⟩ := bind_ok h
  obtain ⟨l, h2, h⟩ := bind_ok h
  unfold mintTokens at h
  obtain ⟨f, h3, h⟩ := bind_ok h
  obtain ⟨hf, hle, htot⟩ := getFees_ok hn hp.lqd hp.initializer h3
  rw [htot, wsub_eq hle hn, hp.lqd, hp.initializer] at h
  obtain ⟨m1, m2, m3, m4, m5, m6⟩ := mintAll_effect h
  obtain ⟨hrun, hb⟩ := kind_basket_ok h1
  obtain ⟨b1, b2, b3⟩ := basket_ok hb
  have hvl : A.vaults.length = st.assets.length := by simpa using congrArg List.length hp.vaults
  have hlen := hp.assets
  have hbal := transfers_bal h2
  simp only [List.map_map, Function.comp_def] at hbal
  rw [triples_user (by omega), triples_vault (by omega), hp.vaults] at hbal
  rw [hp.vaults] at b3
  refine ⟨qs, f, h1, ⟨hrun, by omega, fun he => ?_, by omega, fun p hp => share_up b1 (b3 p hp), hf, hle, fun a => ?_, ?_, m3,
    fun a n1 n2 n3 => ?_⟩, fun vs a hh => m4 vs a (transfers_held h2 hh), fun vs a hh hne hmem => ?_, m6⟩
  · rcases transfers_signed h2 with e | e
    · have := congrArg List.length e
      rw [List.length_map, List.length_zip, List.length_zip, List.length_nil] at this
      have : st.assets.length ≠ 0 := by simpa using he
      omega
    · exact e
  · have e1 := m1 a
    have e2 := hbal a
    simp only at e1
    unfold vaultSide userSide feeList
    rw [show due a [(st.lqdVault, f.lqd), (st.initVault, f.initializer), (A.referrer.key, f.referrer), (A.userPool.key, n - f.sum)] =
      due a [(st.lqdVault, f.lqd), (st.initVault, f.initializer), (A.referrer.key, f.referrer)] +
      due a [(A.userPool.key, n - f.sum)] from due_append a [_, _, _] [_]] at e1
    omega
  · rw [m2]
    simp only [List.map_cons, List.map_nil, List.sum_cons, List.sum_nil]
    unfold Fees.sum at *
    omega
  · rw [m5 a (by
      simp only [List.mem_cons, List.not_mem_nil, or_false, not_or] at n3
      intro p hp
      simp only [List.mem_cons, List.not_mem_nil, or_false] at hp
      rcases hp with rfl | rfl | rfl | rfl <;> simp only <;> first
        | exact Ne.symm n3.1 | exact Ne.symm n3.2.1 | exact Ne.symm n3.2.2.1 | exact Ne.symm n3.2.2.2)]
    refine transfers_other h2 fun t ht => ?_
    obtain ⟨p, hpm, rfl⟩ := List.mem_map.1 ht
    have := triples_mem hpm
    rw [hp.vaults] at this
    exact ⟨fun e => n1 (e ▸ this.1), fun e => n2 (e ▸ this.2)⟩
  · obtain ⟨i, hi, e⟩ := List.getElem_of_mem hmem
    simp at hi
    have := transfers_src h2 hh hne ((A.userAssets[i]).key, (A.vaults[i]'(by omega)).key, qs[i]'(by omega)) (by
      refine List.mem_map.2 ⟨((qs[i]'(by omega), A.userAssets[i]), A.vaults[i]'(by omega)), ?_, rfl⟩
      refine List.mem_iff_getElem.2 ⟨i, by simp; omega, by simp⟩)
    simp at e
    exact this e

theorem redemption_ok {E : PoolEnv} {k : PoolKind} {st : PoolState} {w w' : World} {accts : List AccMeta} {A : Accts} {n : Nat}
    (hn : n < W64) (hp : Parsed E st w accts A) (h : processRedemption k st w A n = .ok w') :
    ∃ qs f, k.basket st w (n - f.sum) false A.vaults = .ok qs ∧ Redeems k st w A n qs f w' ∧
      (∀ vs a, Held vs w.toks a → Held vs w'.toks a) ∧
      (∀ vs, Held vs w.toks A.userPool.key → A.userAuth.key = vs) := by
  unfold processRedemption at h
  obtain ⟨f, h3, h⟩ := bind_ok h
  obtain ⟨hf, hle, htot⟩ := getFees_ok hn hp.lqd hp.initializer h3
  simp only [htot, wsub_eq hle hn] at h
  obtain ⟨qs, h1, h⟩ := bind_ok h
  obtain ⟨w1, h2, h⟩ := bind_ok h
  obtain ⟨l, h4, h⟩ := bind_ok h
  cases h
  unfold burnTokens at h2
  obtain ⟨l1, h5, h2⟩ := bind_ok h2
  split at h2
  · cases h2
  rename_i hsig
  simp at hsig
  rw [hp.lqd, hp.initializer] at h5
  obtain ⟨u1, u2, u3, u4, u5, u6, u7, u8⟩ := burnFrom_effect h2
  obtain ⟨hrun, hb⟩ := kind_basket_ok h1
  obtain ⟨b1, b2, b3⟩ := basket_ok hb
  have hvl : A.vaults.length = st.assets.length := by simpa using congrArg List.length hp.vaults
  have hlen := hp.assets
  have hbal := transfers_bal h4
  have hbal5 := transfers_bal h5
  simp only [List.map_map, Function.comp_def] at hbal hbal5
  rw [triples_user (by omega), triples_vault (by omega), hp.vaults] at hbal
  rw [hp.vaults] at b3
  refine ⟨qs, f, h1, ⟨hrun, by omega, hsig, by omega, hf, hle, fun p hp => share_down b1 (b3 p hp), fun a => ?_, ?_, u5,
    fun a n1 n2 n3 => ?_⟩, fun vs a hh => transfers_held h4 (u6 vs a (transfers_held h5 hh)), fun vs hh => ?_⟩
  · have e1 := hbal a
    have e2 := hbal5 a
    have e3 := u3 a
    simp only at e1 e2 e3 u1
    rw [show (fun x : Nat × Nat => (x.fst, x.snd)) = id from rfl, List.map_id, due_filter] at e2
    have e4 : due a (List.map (fun x : Nat × Nat => (A.userPool.key, x.2)) (List.filter (fun x => decide (0 < x.2))
        [(st.lqdVault, f.lqd), (st.initVault, f.initializer), (A.referrer.key, f.referrer)])) =
        if a = A.userPool.key then f.sum else 0 := by
      have : ∀ l : List (Nat × Nat), due a (l.map fun x => (A.userPool.key, x.2)) =
          if a = A.userPool.key then (l.map (·.2)).sum else 0 := by
        intro l
        induction l with
        | nil => simp [due_nil]
        | cons p l ih =>
          rw [List.map_cons, due_cons, ih]
          by_cases e : a = A.userPool.key
          · simp [e]
          · have e' : ¬ A.userPool.key = a := fun x => e x.symm
            simp [e, e']
      rw [this]
      have hsum : ∀ l : List (Nat × Nat), ((l.filter fun x => decide (0 < x.2)).map (·.2)).sum = (l.map (·.2)).sum := by
        intro l
        induction l with
        | nil => rfl
        | cons p l ih =>
          rw [List.filter_cons]
          split
          · simp [ih]
          · rename_i h0
            simp at h0
            simp [ih, h0]
      rw [hsum]
      simp [Fees.sum, Nat.add_assoc]
    rw [e4] at e2
    unfold vaultSide userSide feeList
    rw [due_cons a (A.userPool.key, n), due_nil]
    by_cases e : a = A.userPool.key
    · subst e
      simp only [if_true] at e2 e3 ⊢
      omega
    · have e' : ¬ A.userPool.key = a := fun x => e x.symm
      simp only [e, e', if_false] at e2 e3 ⊢
      omega
  · simp only at u2 u4 ⊢
    omega
  · simp only [List.mem_cons, List.not_mem_nil, or_false, not_or] at n3
    simp only
    rw [transfers_other h4 (fun t ht => ?_), u8 a n3.2.2.2]
    · refine transfers_other h5 fun t ht => ?_
      obtain ⟨p, hpm, rfl⟩ := List.mem_map.1 ht
      have hpm := (List.mem_filter.1 hpm).1
      simp only [List.mem_cons, List.not_mem_nil, or_false] at hpm
      refine ⟨Ne.symm n3.2.2.2, ?_⟩
      rcases hpm with rfl | rfl | rfl <;> simp only <;> first
        | exact Ne.symm n3.1 | exact Ne.symm n3.2.1 | exact Ne.symm n3.2.2.1
    · obtain ⟨p, hpm, rfl⟩ := List.mem_map.1 ht
      have := triples_mem hpm
      rw [hp.vaults] at this
      exact ⟨fun e => n2 (e ▸ this.2), fun e => n1 (e ▸ this.1)⟩
  · exact u7 vs (transfers_held h5 hh)

end Serum.Pool
