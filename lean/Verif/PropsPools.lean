import Verif.PoolHist
import Verif.PropsPoolBytes
import Verif.PropsPoolVaults

/-
C73: any number of pools on bytes. Each pool account leads the life of one pool as described in C55-C57; pools do not
interfere.
-/

namespace Serum.Pool

open Props

/-- Any number of token instructions with the given signatures. -/
inductive Run (signs : Nat → Bool) : PoolChain → PoolChain → Prop where
  | refl (c : PoolChain) : Run signs c c
  | step {c c' c'' : PoolChain} {ix : MintIx} (h : Run signs c c') (hx : tokChain signs c' ix = some c'')
      (hk : ∀ a m o, ix ≠ .tok (.openAcct a m o)) : Run signs c c''

theorem Run.trans {signs : Nat → Bool} {a b c : PoolChain} (h : Run signs a b) (g : Run signs b c) : Run signs a c := by
  induction g with
  | refl => exact h
  | step _ hx hk ih => exact .step ih hx hk

theorem Run.one {signs : Nat → Bool} {a b : PoolChain} {ix : MintIx} (hx : tokChain signs a ix = some b)
    (hk : ∀ a m o, ix ≠ .tok (.openAcct a m o)) : Run signs a b := .step (.refl _) hx hk

/-! ### Seen from one mint -/

/-- A token instruction seen from a mint whose authority does not sign. -/
theorem tokChain_view {signs : Nat → Bool} {c c' : PoolChain} {ix : MintIx} {m vs : Nat} (hm : c.minter m = some vs)
    (h : tokChain signs c ix = some c') : TokRun m signs (c.world m) (c'.world m) := by
  have one : ∀ {ix : WorldIx}, tokenExec m signs (c.world m) ix = some (c'.world m) →
      TokRun m signs (c.world m) (c'.world m) := fun h => .step (.refl _) h
  have plain : ∀ {ix' : TokIx}, (tokExec signs c.toks ix').map (fun l => ({ c with toks := l } : PoolChain)) = some c' →
      (tokExec signs c.toks ix').map (fun l => ({ c.world m with toks := l } : World)) = some (c'.world m) := by
    intro ix' h
    obtain ⟨l, h1, h2⟩ := Option.map_eq_some_iff.1 h
    cases h2
    rw [h1]; rfl
  cases ix with
  | setMinter m' new =>
    simp only [tokChain] at h
    split at h
    · rename_i ha
      cases h
      by_cases e : m = m'
      · subst e
        refine one (ix := .setMinter new) ?_
        simp only [tokenExec, PoolChain.world, ha, if_true]
      · have : (PoolChain.world { c with minter := fun x => if x = m' then new else c.minter x } m) = c.world m := by
          unfold PoolChain.world; simp only [if_neg e]
        rw [this]
        exact .refl _
    · cases h
  | newMint m' auth =>
    simp only [tokChain] at h
    split at h
    · rename_i ha
      cases h
      have e : m ≠ m' := by rintro rfl; rw [hm] at ha; cases ha
      have : (PoolChain.world { c with minter := fun x => if x = m' then auth else c.minter x } m) = c.world m := by
        unfold PoolChain.world; simp only [if_neg e]
      rw [this]
      exact .refl _
    · cases h
  | tok ix =>
    refine one (ix := .tok ix) ?_
    cases ix with
    | mint a n =>
      simp only [tokChain] at h
      split at h
      · cases h
      rename_i t ht
      split at h
      · rename_i hc
        obtain ⟨l, h1, h2⟩ := Option.map_eq_some_iff.1 h
        cases h2
        simp only [tokenExec, PoolChain.world, ht, h1, Option.map_some]
        by_cases e : t.mint = m
        · subst e
          simp only [if_true]
          exact if_pos hc
        · rw [if_neg e, if_neg (fun h => e h.symm)]
      · cases h
    | burn a auth n =>
      simp only [tokChain] at h
      split at h
      · cases h
      rename_i t ht
      split at h
      · rename_i hc
        obtain ⟨l, h1, h2⟩ := Option.map_eq_some_iff.1 h
        cases h2
        simp only [tokenExec, PoolChain.world, ht, h1, Option.map_some]
        by_cases e : t.mint = m
        · subst e
          simp only [if_true]
          exact if_pos hc
        · rw [if_neg e, if_neg (fun h => e h.symm)]
      · cases h
    | _ => exact plain h

theorem TokRun.trans {m : Nat} {signs : Nat → Bool} {a b c : World} (h : TokRun m signs a b) (g : TokRun m signs b c) :
    TokRun m signs a c := by
  induction g with
  | refl => exact h
  | step _ hx ih => exact .step ih hx

theorem Run.view {signs : Nat → Bool} {c c' : PoolChain} {m vs : Nat} (h : Run signs c c') (hm : c.minter m = some vs)
    (hs : signs vs = false) : TokRun m signs (c.world m) (c'.world m) := by
  induction h with
  | refl => exact .refl _
  | step _ hx _ ih =>
    have : _ = some vs := (TokRun.effect ih hm hs).2.2.trans hm
    exact ih.trans (tokChain_view this hx)

/-! ### What never changes -/

theorem debitTok_mint {t t' : Tok} {auth n : Nat} (h : debitTok t auth n = .ok t') : t'.mint = t.mint := by
  unfold debitTok at h
  split at h
  · split at h
    · cases h
    · cases h; rfl
  · split at h
    · cases h
    · cases h; rfl

theorem splTransfer_mints {l l' : Ledger} {src dst auth n : Nat} (h : splTransfer l src dst auth n = .ok l')
    (hl : ∀ a t, l a = some t → t.mint < 256 ^ 32) : ∀ a t, l' a = some t → t.mint < 256 ^ 32 := by
  unfold splTransfer at h
  split at h
  · rename_i s d hs hd
    split at h
    · cases h
    split at h
    · cases h
    split at h
    · cases h
    split at h
    · cases h
    rename_i s' hs'
    split at h
    · cases h; exact hl
    split at h
    · cases h
    cases h
    intro a t ht
    simp only at ht
    split at ht
    · cases ht; exact (hl _ _ hd : d.mint < 256 ^ 32)
    · split at ht
      · cases ht; exact debitTok_mint hs' ▸ hl _ _ hs
      · exact hl _ _ ht
  · cases h

theorem tokExec_mints {signs : Nat → Bool} {l l' : Ledger} {ix : TokIx} (h : tokExec signs l ix = some l')
    (hk : ∀ a m o, ix = .openAcct a m o → m < 256 ^ 32) (hl : ∀ a t, l a = some t → t.mint < 256 ^ 32) :
    ∀ a t, l' a = some t → t.mint < 256 ^ 32 := by
  have put : ∀ {b : Nat} {u : Tok}, u.mint < 256 ^ 32 → ∀ a t, (l.put b (some u)) a = some t → t.mint < 256 ^ 32 := by
    intro b u hu a t ht
    unfold Ledger.put at ht
    split at ht
    · cases ht; exact hu
    · exact hl a t ht
  cases ix with
  | openAcct a m o =>
    simp only [tokExec] at h
    split at h
    · cases h
    · cases h; exact put (hk _ _ _ rfl)
  | transfer src dst auth n =>
    simp only [tokExec] at h
    split at h
    · split at h
      · rename_i l1 h1
        cases h
        exact splTransfer_mints h1 hl
      · cases h
    · cases h
  | approve a d auth n =>
    simp only [tokExec] at h
    split at h
    · rename_i t ht
      split at h
      · cases h; exact put (u := _) (show t.mint < 256 ^ 32 from hl _ _ ht)
      · cases h
    · cases h
  | revoke a auth =>
    simp only [tokExec] at h
    split at h
    · rename_i t ht
      split at h
      · cases h; exact put (u := _) (show t.mint < 256 ^ 32 from hl _ _ ht)
      · cases h
    · cases h
  | setOwner a new auth =>
    simp only [tokExec] at h
    split at h
    · rename_i t ht
      split at h
      · cases h; exact put (u := _) (show t.mint < 256 ^ 32 from hl _ _ ht)
      · cases h
    · cases h
  | setCloseAuthority a new auth =>
    simp only [tokExec] at h
    split at h
    · rename_i t ht
      split at h
      · cases h; exact put (u := _) (show t.mint < 256 ^ 32 from hl _ _ ht)
      · cases h
    · cases h
  | mint a n =>
    simp only [tokExec] at h
    split at h
    · rename_i t ht
      split at h
      · cases h; exact put (u := _) (show t.mint < 256 ^ 32 from hl _ _ ht)
      · cases h
    · cases h
  | burn a auth n =>
    simp only [tokExec] at h
    split at h
    · rename_i t ht
      split at h
      · split at h
        · rename_i t' ht'
          cases h
          have et : t'.mint = t.mint := debitTok_mint ht'
          exact put (et ▸ hl _ _ ht)
        · cases h
      · cases h
    · cases h
  | close a auth =>
    simp only [tokExec] at h
    split at h
    · split at h
      · cases h
        intro b u hu
        unfold Ledger.put at hu
        split at hu
        · cases hu
        · exact hl b u hu
      · cases h
    · cases h
  | freeze a =>
    simp only [tokExec] at h
    split at h
    · rename_i t ht; cases h; exact put (u := _) (show t.mint < 256 ^ 32 from hl _ _ ht)
    · cases h
  | thaw a =>
    simp only [tokExec] at h
    split at h
    · rename_i t ht; cases h; exact put (u := _) (show t.mint < 256 ^ 32 from hl _ _ ht)
    · cases h

/-- A token instruction changes no account of the pool program. -/
theorem tokChain_keeps {signs : Nat → Bool} {c c' : PoolChain} {ix : MintIx} (h : tokChain signs c ix = some c') :
    c'.accs = c.accs ∧ ((∃ ix', ix = .tok ix' ∧ tokExec signs c.toks ix' = some c'.toks) ∨ c'.toks = c.toks) := by
  have plain : ∀ {ix' : TokIx} {f : Ledger → PoolChain}, (tokExec signs c.toks ix').map f = some c' →
      (∀ l, (f l).accs = c.accs ∧ (f l).toks = l) → c'.accs = c.accs ∧ tokExec signs c.toks ix' = some c'.toks := by
    intro ix' f h hf
    obtain ⟨l, h1, h2⟩ := Option.map_eq_some_iff.1 h
    cases h2
    exact ⟨(hf l).1, by rw [(hf l).2]; exact h1⟩
  cases ix with
  | setMinter m' new =>
    simp only [tokChain] at h
    split at h
    · cases h; exact ⟨rfl, .inr rfl⟩
    · cases h
  | newMint m' auth =>
    simp only [tokChain] at h
    split at h
    · cases h; exact ⟨rfl, .inr rfl⟩
    · cases h
  | tok ix =>
    suffices c'.accs = c.accs ∧ tokExec signs c.toks ix = some c'.toks from ⟨this.1, .inl ⟨ix, rfl, this.2⟩⟩
    cases ix with
    | mint a n =>
      simp only [tokChain] at h
      split at h
      · cases h
      split at h
      · exact plain h fun _ => ⟨rfl, rfl⟩
      · cases h
    | burn a auth n =>
      simp only [tokChain] at h
      split at h
      · cases h
      split at h
      · exact plain h fun _ => ⟨rfl, rfl⟩
      · cases h
    | _ => exact plain h fun _ => ⟨rfl, rfl⟩

theorem Run.keeps {signs : Nat → Bool} {c c' : PoolChain} (h : Run signs c c') :
    c'.accs = c.accs ∧ ((∀ a t, c.toks a = some t → t.mint < 256 ^ 32) → ∀ a t, c'.toks a = some t → t.mint < 256 ^ 32) := by
  induction h with
  | refl => exact ⟨rfl, fun h => h⟩
  | step _ hx hk ih =>
    obtain ⟨h1, h2⟩ := tokChain_keeps hx
    refine ⟨h1.trans ih.1, fun hl => ?_⟩
    rcases h2 with ⟨ix', rfl, h2⟩ | h2
    · exact tokExec_mints h2 (fun a m o e => absurd (congrArg MintIx.tok e) (hk a m o)) (ih.2 hl)
    · rw [h2]; exact ih.2 hl

/-! ### A request is a run of token instructions -/

theorem put_world (c : PoolChain) (m : Nat) (w : World) : (c.putWorld m w).world m = w := by
  unfold PoolChain.putWorld PoolChain.world
  simp

theorem put_put (c : PoolChain) (m : Nat) (w w' : World) : (c.putWorld m w).putWorld m w' = c.putWorld m w' := by
  unfold PoolChain.putWorld
  simp only [PoolChain.mk.injEq, true_and]
  constructor <;> (funext x; split <;> rfl)

theorem put_toks (c : PoolChain) (m : Nat) (l : Ledger) : c.putWorld m { c.world m with toks := l } = { c with toks := l } := by
  have := put_same c m
  unfold PoolChain.putWorld PoolChain.world at this ⊢
  simp only [PoolChain.mk.injEq] at this ⊢
  rcases c with ⟨a, t, s, mi⟩
  simp only [PoolChain.mk.injEq, true_and] at this ⊢
  exact this

theorem transfers_run {signs : Nat → Bool} {c : PoolChain} {auth : Nat} {sg : Bool} {ts : List (Nat × Nat × Nat)} {l : Ledger}
    (h : transfers c.toks auth sg ts = .ok l) (hs : sg = true → signs auth = true) : Run signs c { c with toks := l } := by
  induction ts generalizing c with
  | nil => cases h; exact .refl _
  | cons t ts ih =>
    obtain ⟨src, dst, n⟩ := t
    simp only [transfers] at h
    obtain ⟨l1, h1, h⟩ := bind_ok h
    unfold transfer at h1
    split at h1
    · cases h1
    rename_i hsg
    have hsg : sg = true := by simpa using hsg
    split at h1
    · rename_i l2 h2
      cases h1
      refine Run.trans (b := { c with toks := l1 }) (.one (ix := .tok (.transfer src dst auth n)) ?_ (fun _ _ _ h => by cases h)) (ih h)
      simp only [tokChain, tokExec, hs hsg, if_true, h2, Option.map_some]
    · cases h1

theorem mintTo_run {signs : Nat → Bool} {c : PoolChain} {m a n vs : Nat} {w : World} (h : mintTo (c.world m) m a n = .ok w)
    (hm : c.minter m = some vs) (hs : signs vs = true) : Run signs c (c.putWorld m w) := by
  refine .one (ix := .tok (.mint a n)) ?_ (fun _ _ _ h => by cases h)
  unfold mintTo at h
  split at h
  · cases h
  rename_i t ht0
  split at h
  · cases h
  rename_i hc
  simp only [Bool.or_eq_true, bne_iff_ne, ne_eq, decide_eq_true_eq, not_or, Decidable.not_not, Nat.not_le] at hc
  obtain ⟨⟨⟨h1, h2⟩, h3⟩, h4⟩ := hc
  cases h
  subst h2
  have ht : c.toks a = some t := ht0
  have hf : t.frozen = false := by simpa using h1
  have h4 : c.supply t.mint + n < W64 := by simpa [PoolChain.world] using h4
  have h3 : t.amount + n < W64 := by simpa using h3
  have hmi : (c.minter t.mint).any signs = true := by rw [hm]; simpa using hs
  simp only [tokChain, ht, hmi, h4, Bool.true_and, decide_true, if_true, tokExec, hf, h3, and_self, Option.map_some, Option.some.injEq]
  unfold PoolChain.putWorld PoolChain.world
  simp only [PoolChain.mk.injEq, true_and]
  funext x
  split
  · rename_i e; rw [e]
  · rfl

theorem mintAll_run {signs : Nat → Bool} {c : PoolChain} {m vs : Nat} {ps : List (Nat × Nat)} {w : World}
    (h : mintAll (c.world m) m ps = .ok w) (hm : c.minter m = some vs) (hs : signs vs = true) : Run signs c (c.putWorld m w) := by
  induction ps generalizing c with
  | nil => cases h; rw [put_same]; exact .refl _
  | cons p ps ih =>
    obtain ⟨a, n⟩ := p
    simp only [mintAll] at h
    split at h
    · exact ih h hm
    · obtain ⟨w1, h1, h⟩ := bind_ok h
      have r := mintTo_run h1 hm hs
      have hw := put_world c m w1
      have hm1 : (c.putWorld m w1).minter m = some vs := by
        have e : (c.putWorld m w1).minter m = w1.minter := by simp [PoolChain.putWorld]
        rw [e]
        unfold mintTo at h1
        split at h1
        · cases h1
        split at h1
        · cases h1
        · cases h1; exact hm
      have := ih (c := c.putWorld m w1) (by rw [hw]; exact h) hm1
      rw [put_put] at this
      exact r.trans this

theorem burn_run {signs : Nat → Bool} {c : PoolChain} {m a auth n : Nat} {w : World} (h : burnFrom (c.world m) m a auth n = .ok w)
    (hs : signs auth = true) : Run signs c (c.putWorld m w) := by
  refine .one (ix := .tok (.burn a auth n)) ?_ (fun _ _ _ h => by cases h)
  unfold burnFrom at h
  split at h
  · cases h
  rename_i t ht0
  split at h
  · cases h
  rename_i hc
  simp only [Bool.or_eq_true, bne_iff_ne, ne_eq, decide_eq_true_eq, not_or, Decidable.not_not, Nat.not_lt] at hc
  obtain ⟨⟨⟨h1, h2⟩, h3⟩, h4⟩ := hc
  subst h2
  have ht : c.toks a = some t := ht0
  have hf : t.frozen = false := by simpa using h1
  have h4 : n ≤ c.supply t.mint := h4
  split at h
  · cases h
  rename_i t' ht'
  cases h
  simp only [tokChain, ht, h4, if_true, tokExec, hs, hf, h3, and_self, ht', Option.map_some, Option.some.injEq]
  unfold PoolChain.putWorld PoolChain.world
  simp only [PoolChain.mk.injEq, true_and]
  funext x
  split
  · rename_i e; rw [e]
  · rfl

theorem execute_run {E : PoolEnv} {k : PoolKind} {st : PoolState} {c : PoolChain} {w : World} {accts : List AccMeta} {act : Action}
    {signs : Nat → Bool} (h : execute E k st (c.world st.mint) accts act = .ok w)
    (hs : ∀ a ∈ accts, a.signer = true → signs a.key = true) (hv : signs st.signer = true) :
    Run signs c (c.putWorld st.mint w) := by
  unfold execute at h
  obtain ⟨A, h1, h⟩ := bind_ok h
  have hp := execContext_ok.1 h1
  have hu : A.userAuth.signer = true → signs A.userAuth.key = true := by
    intro e
    obtain ⟨pool, rest, hl⟩ := hp.listed
    exact hs A.userAuth (by rw [hl]; simp) e
  cases act with
  | create n =>
    unfold processCreation at h
    obtain ⟨qs, h2, h⟩ := bind_ok h
    obtain ⟨l, h3, h⟩ := bind_ok h
    have r1 := transfers_run (c := c) (signs := signs) h3 hu
    unfold mintTokens at h
    obtain ⟨f, h4, h⟩ := bind_ok h
    have r2 := mintAll_run (signs := signs) (c := { c with toks := l }) (m := st.mint) h hp.minter hv
    have e : ({ c with toks := l } : PoolChain).putWorld st.mint w = c.putWorld st.mint w := rfl
    rw [e] at r2
    exact r1.trans r2
  | redeem n =>
    unfold processRedemption at h
    obtain ⟨f, h2, h⟩ := bind_ok h
    obtain ⟨qs, h3, h⟩ := bind_ok h
    obtain ⟨w1, h4, h⟩ := bind_ok h
    obtain ⟨l, h5, h⟩ := bind_ok h
    cases h
    unfold burnTokens at h4
    obtain ⟨l1, h6, h4⟩ := bind_ok h4
    have r1 := transfers_run (c := c) (signs := signs) h6 hu
    split at h4
    · cases h4
    rename_i hsg
    have hsg : A.userAuth.signer = true := by simpa using hsg
    have r2 := burn_run (signs := signs) (c := { c with toks := l1 }) (m := st.mint) h4 (hu hsg)
    have e : ({ c with toks := l1 } : PoolChain).putWorld st.mint w1 = c.putWorld st.mint w1 := rfl
    rw [e] at r2
    have ha : A.authority.key = st.signer := hp.authority
    rw [ha] at h5
    have r3 := transfers_run (c := c.putWorld st.mint w1) (signs := signs) h5 (fun _ => hv)
    have e3 : ({ c.putWorld st.mint w1 with toks := l } : PoolChain) = c.putWorld st.mint { w1 with toks := l } := rfl
    rw [e3] at r3
    exact (r1.trans r2).trans r3
  | swap l => cases h

theorem admin_run {E : PoolEnv} {st st' : PoolState} {c : PoolChain} {w : World} {accts : List AccMeta} {ix : AdminIx}
    {signs : Nat → Bool} {m : Nat} (h : Administers E st (c.world m) accts ix st' w) (hv : signs st.signer = true) :
    Run signs c (c.putWorld m w) := by
  cases h with
  | approve v d s p l n t hvv hsi hp ht ho hf =>
    rw [put_toks]
    refine .one (ix := .tok (.approve v.key d.key st.signer n)) ?_ (fun _ _ _ h => by cases h)
    have ht : c.toks v.key = some t := ht
    simp only [tokChain, tokExec, ht, hv, ho, hf, and_self, if_true, Option.map_some]
    rfl
  | _ => rw [put_same]; exact .refl _

end Serum.Pool

namespace Serum.Props

open Pool Borsh

/-! ### Specification -/

/-- No two accounts have the same derived address. -/
def DeriveInj (E : PoolEnv) : Prop := ∀ p n p' n' a, E.derive p n = some a → E.derive p' n' = some a → p = p'

/-- The account holds this pool. -/
def PoolAt (c : PoolChain) (k : Nat) (p : Record) : Prop := (c.accs k).owned = true ∧ Pool.getState (c.accs k).data = .ok (some p)

/-- What a pool sees of the chain. -/
def poolView (c : PoolChain) (p : Record) : PoolState × World := (p.view, c.world p.mint)

theorem PoolAt.unique {c : PoolChain} {k : Nat} {p q : Record} (h : PoolAt c k p) (h' : PoolAt c k q) : p = q := by
  have := h.2.symm.trans h'.2
  cases this
  rfl

/-! ### Records and decoded pools -/

theorem counted_length {α : Type} (f : α → List UInt8) (l : List α) (h : ∀ a ∈ l, 1 ≤ (f a).length) :
    l.length ≤ (counted f l).length := by
  unfold counted
  rw [List.length_append]
  have : l.length ≤ (l.flatMap f).length := by
    induction l with
    | nil => simp
    | cons a l ih =>
      have h1 := h a (by simp)
      have h2 := ih fun b hb => h b (by simp [hb])
      simp only [List.flatMap_cons, List.length_append, List.length_cons]
      omega
  omega

theorem assets_length (p : Record) : p.assets.length ≤ (recordBytes p).length := by
  have h := counted_length (fun a : Asset => leBytes 32 a.mint ++ leBytes 32 a.vault) p.assets (fun a _ => by simp)
  unfold recordBytes
  simp only [List.length_append] at h ⊢
  omega

theorem custom_none : customCodec.all [] = none := by decide

theorem custom_some (b : Bool) : customCodec.all (pausedBytes b) = some b := custom_all.2 rfl

/-- The record of a pool after a successful message decodes to the decoded pool after it. -/
theorem record_view {E : PoolEnv} {kd : PoolKind} {m : PoolMsg} {old : Option Record} {w w' : World} {accts : List AccMeta}
    {st : PoolState} (h : Pool.process E kd (old.map Record.view) w accts m.req = .ok (some st, w')) :
    (m.record old st).view = st := by
  cases old with
  | none =>
    obtain ⟨q, hq⟩ := pool_once.2 _ _ h
    rw [hq] at h
    obtain ⟨_, B, hB⟩ := pool_init.1 h
    have hk := hB.kind
    obtain ⟨s1, s2, s3, s4, s5, s6, s7, s8, s9, s10⟩ := st
    have hp : s5 = [] := hB.params
    subst hp
    cases kd with
    | simple =>
      obtain ⟨rfl, rfl⟩ : s9 = none ∧ s10 = none := hk
      rfl
    | admin =>
      obtain ⟨_, e⟩ := hk
      have e : s10 = some false := e
      subst e
      rfl
  | some p =>
    rcases pool_state h with ⟨e, _⟩ | ⟨rfl, ix, st', pool, a, l, hr, e, hl, ha, hs, hA, _⟩
    · cases e
      rw [record_same]
    · cases e
      rw [hr] at h
      obtain ⟨_, _, _, _, _, _, hc, _⟩ := pool_admin.1 h
      have key : st.mint = p.mint ∧ st.signer = p.signer ∧ st.nonce = p.nonce ∧ st.params = p.params.map (·.1) ∧
          st.lqdVault = p.lqdVault ∧ st.initVault = p.initVault ∧ st.custom.isSome = true := by
        cases hA <;> exact ⟨rfl, rfl, rfl, rfl, rfl, rfl, by first | rfl | exact hc⟩
      obtain ⟨k1, k2, k3, k4, k5, k6, k7⟩ := key
      obtain ⟨s1, s2, s3, s4, s5, s6, s7, s8, s9, s10⟩ := st
      simp only at k1 k2 k3 k4 k5 k6 k7
      subst k1 k2 k3 k4 k5 k6
      cases s10 with
      | none => cases k7
      | some b =>
        show ({ p.view with assets := s2, feeRate := s8, admin := s9, custom := customCodec.all (pausedBytes b) } : PoolState) = _
        rw [custom_some]
        rfl

/-- The record of a pool after a successful message fits. -/
theorem record_fits {E : PoolEnv} {kd : PoolKind} {m : PoolMsg} {old : Option Record} {w w' : World} {accts : List AccMeta}
    {st : PoolState} (h : Pool.process E kd (old.map Record.view) w accts m.req = .ok (some st, w'))
    (hf : m.Fits) (ho : ∀ p, old = some p → RecordFits p) (hk : ∀ a ∈ accts, a.key < 256 ^ 32)
    (ht : ∀ a t, w.toks a = some t → t.mint < 256 ^ 32) (hl : (recordBytes (m.record old st)).length ≤ maxLen) :
    RecordFits (m.record old st) := by
  have hal : (m.record old st).assets.length < 2 ^ 32 :=
    Nat.lt_of_le_of_lt (Nat.le_trans (assets_length _) hl) (by decide)
  cases old with
  | none =>
    obtain ⟨q, hq⟩ := pool_once.2 _ _ h
    rw [hq] at h
    obtain ⟨_, B, hB⟩ := pool_init.1 h
    have hm : ∃ r, m = .request (.init r) ∧ q = ⟨r.nonce, r.assets, r.feeRate⟩ := by
      rcases m with (r | a | a) | ix
      · exact ⟨r, rfl, by cases hq; rfl⟩
      all_goals cases hq
    obtain ⟨r, rfl, rfl⟩ := hm
    obtain ⟨f1, f2, f3, f4, f5⟩ := hf
    have mem : ∀ a, a ∈ B.pool :: B.mint :: B.vaults ++ [B.signer, B.lqd, B.initializer, B.rent] ++ B.rest → a.key < 256 ^ 32 :=
      fun a ha => hk a (by rw [hB.listed]; exact ha)
    have hass : ∀ x ∈ st.assets, x.mint < 256 ^ 32 ∧ x.vault < 256 ^ 32 := by
      intro x hx
      obtain ⟨t, t1, t2, _⟩ := hB.vaultToks x hx
      refine ⟨t2 ▸ ht _ _ t1, ?_⟩
      have : x.vault ∈ B.vaults.map (·.key) := by rw [← hB.vaults]; exact List.mem_map.2 ⟨x, hx, rfl⟩
      obtain ⟨a, ha, e⟩ := List.mem_map.1 this
      rw [← e]
      exact mem a (by simp [ha])
    have hadm : ∀ a, st.admin = some a → a < 256 ^ 32 := by
      intro a e
      have hk := hB.kind
      cases kd with
      | simple => rw [hk.1] at e; cases e
      | admin =>
        obtain ⟨⟨b, l, e1, e2⟩, _⟩ := hk
        rw [e2] at e
        cases e
        exact mem b (by simp [e1])
    have hcus : ((match st.custom with | some b => pausedBytes b | none => []) : List UInt8).length < 2 ^ 32 := by
      cases st.custom with
      | none => decide
      | some b => cases b <;> decide
    exact {
      mint := (by show st.mint < _; rw [hB.mint]; exact mem _ (by simp))
      assets := ⟨hal, hass⟩
      signer := (by show st.signer < _; rw [hB.signer]; exact mem _ (by simp))
      nonce := (by show st.nonce < _; rw [hB.nonce]; exact f1)
      params := ⟨(by decide : 0 < 2 ^ 32), fun a ha => (by cases ha)⟩
      name := f3
      lqdVault := (by show st.lqdVault < _; rw [hB.lqd]; exact mem _ (by simp))
      initVault := (by show st.initVault < _; rw [hB.initializer]; exact mem _ (by simp))
      feeRate := (by show st.feeRate < _; rw [hB.rate]; exact f4)
      admin := hadm
      custom := hcus }
  | some p =>
    have fp := ho p rfl
    rcases pool_state h with ⟨e, _⟩ | ⟨rfl, ix, st', pool, a, l, hr, e, hl', ha, hs, hA, _⟩
    · cases e
      rw [record_same]
      exact fp
    · cases e
      have mem : ∀ b ∈ l, b.key < 256 ^ 32 := fun b hb => hk b (by rw [hl']; simp [hb])
      have hass : ∀ x ∈ st.assets, x.mint < 256 ^ 32 ∧ x.vault < 256 ^ 32 := by
        cases hA with
        | add v l t hv ho' h1 h2 =>
          intro x hx
          simp only [List.mem_append, List.mem_singleton] at hx
          rcases hx with hx | rfl
          · exact fp.assets.2 x hx
          · exact ⟨ht _ _ hv, mem v (by simp)⟩
        | remove v l h1 h2 h3 => exact fun x hx => fp.assets.2 x (List.mem_filter.1 hx).1
        | _ => exact fp.assets.2
      have hfee : st.feeRate < 2 ^ 32 := by
        cases hA with
        | fee l rate hrate => exact Nat.lt_trans hrate.2 (by decide)
        | _ => exact fp.feeRate
      have hadm : ∀ a, st.admin = some a → a < 256 ^ 32 := by
        cases hA with
        | handOver b l hb => intro a e; cases e; exact mem b (by simp)
        | _ => exact fp.admin
      have hcus : ((match st.custom with | some b => pausedBytes b | none => p.custom) : List UInt8).length < 2 ^ 32 := by
        cases st.custom with
        | none => exact fp.custom
        | some b => exact (by cases b <;> decide : (pausedBytes b).length < 2 ^ 32)
      exact { fp with assets := ⟨hal, hass⟩, feeRate := hfee, admin := hadm, custom := hcus }

/-! ### The invariant -/

structure PInv (E : PoolEnv) (kd : PoolKind) (c : PoolChain) : Prop where
  lens : ∀ a, (c.accs a).data.length ≤ maxLen
  mints : ∀ a t, c.toks a = some t → t.mint < 256 ^ 32
  /-- an account of the program is blank or holds a pool -/
  clean : ∀ a, (c.accs a).owned = true → (∃ n, (c.accs a).data = zeros n) ∨ ∃ p, PoolAt c a p
  /-- every pool has been initialised and has led the life of a pool since -/
  life : ∀ a p, PoolAt c a p → ∃ s0, Born E kd a s0 ∧ Calls E kd (fun _ _ => True) s0 (poolView c p)

theorem PInv.derived {E : PoolEnv} {kd : PoolKind} {c : PoolChain} (h : PInv E kd c) {a : Nat} {p : Record} (hp : PoolAt c a p) :
    E.derive a p.nonce = some p.signer ∧ c.minter p.mint = some p.signer := by
  obtain ⟨s0, h1, h2⟩ := h.life a p hp
  obtain ⟨h3, _, _, h4⟩ := pool_life h1 h2
  exact ⟨h3, h4⟩

/-- Seen from a pool, a successful message to another account is a number of token instructions. -/
theorem msg_elsewhere {E : PoolEnv} {kd : PoolKind} {c : PoolChain} {m : PoolMsg} {old : Option Record} {w : World}
    {accts : List AccMeta} {st : PoolState} {signs : Nat → Bool}
    (h : Pool.process E kd (old.map Record.view) (c.world (mintOf old accts)) accts m.req = .ok (some st, w))
    (hs : ∀ a ∈ accts, a.signer = true → signs a.key = true) (hv : ∀ p, old = some p → signs p.signer = true) :
    Run signs c (c.putWorld (mintOf old accts) w) := by
  cases old with
  | none =>
    obtain ⟨q, hq⟩ := pool_once.2 _ _ h
    rw [hq] at h
    obtain ⟨e, _⟩ := pool_init.1 h
    rw [e, put_same]
    exact .refl _
  | some p =>
    rcases pool_state h with ⟨e, ⟨_, e2⟩ | ⟨act, _, e2⟩⟩ | ⟨rfl, ix, st', pool, a, l, hr, e, hl', ha, hs', hA, _⟩
    · rw [e2, put_same]
      exact .refl _
    · exact execute_run (st := p.view) e2 hs (hv p rfl)
    · exact admin_run hA (hv p rfl)

/-- What a step means to a pool. -/
theorem pool_step {E : PoolEnv} {kd : PoolKind} (hE : DeriveInj E) {c c' : PoolChain} (hi : PInv E kd c) (hs : PStep E kd c c')
    {k : Nat} {p : Record} (hp : PoolAt c k p) : ∃ p', PoolAt c' k p' ∧ Call E kd (poolView c p) (poolView c' p') := by
  obtain ⟨d1, d2⟩ := hi.derived hp
  cases hs with
  | @call _ accts data hk hsg h =>
    obtain ⟨a, l, m, old, st, w, rfl, ho, f1, f2, hg, hpr, hlen, rfl⟩ := pool_entry.1 h
    by_cases e : a.key = k
    · subst e
      have : old = some p := by
        have := hg.symm.trans hp.2
        cases this; rfl
      subst this
      have hl : (recordBytes (m.record (some p) st)).length ≤ maxLen := Nat.le_trans hlen (hi.lens _)
      have fits := record_fits hpr f1 (fun q hq => by cases hq; exact ((pool_read.2 _).1 hp.2).1) hk hi.mints hl
      have view := record_view hpr
      have hm : (m.record (some p) st).mint = p.mint := rfl
      refine ⟨m.record (some p) st, ⟨?_, ?_⟩, ?_⟩
      · simp only [PoolChain.after, setData, if_true]; exact ho
      · simp only [PoolChain.after, setData, if_true]
        exact (pool_read.2 _).2 ⟨fits, _, rfl⟩
      · unfold poolView
        rw [view, hm]
        have hw : (PoolChain.after c a.key (mintOf (some p) (a :: l)) w (m.record (some p) st)).world p.mint = w := by
          simp [PoolChain.after, PoolChain.world, mintOf]
        rw [hw]
        refine .request (accts := a :: l) (r := m.req) (fun b hb hbs e => hsg b hb hbs a.key p.nonce ?_) (fun n hn => ?_) hpr
        · rw [d1]; exact congrArg some e.symm
        · rcases m with (r | act | act) | ix
          · rcases hn with h | h <;> cases h
          · rcases hn with h | h <;> cases h
          · rcases hn with h | h <;> (cases h; exact f1)
          · rcases hn with h | h <;> cases h
    · have hne : ∀ q, old = some q → q.signer ≠ p.signer := by
        intro q hq e'
        have hq : PoolAt c a.key q := ⟨ho, by rw [hg, hq]⟩
        have h1 := (hi.derived hq).1
        rw [e'] at h1
        exact e (hE _ _ _ _ _ h1 d1)
      let signs : Nat → Bool := fun x => decide (x ≠ p.signer)
      have r := msg_elsewhere (signs := signs) hpr
        (fun b hb hbs => by simpa [signs] using fun e' => hsg b hb hbs k p.nonce (by rw [d1, e']))
        (fun q hq => by simpa [signs] using hne q hq)
      have v := r.view d2 (by simp [signs])
      refine ⟨p, ⟨?_, ?_⟩, ?_⟩
      · simp only [PoolChain.after, setData, if_neg (fun e' : k = a.key => e e'.symm)]; exact hp.1
      · simp only [PoolChain.after, setData, if_neg (fun e' : k = a.key => e e'.symm)]; exact hp.2
      · exact .token (by simp [signs, Record.view]) v
  | @token _ signs ix hsg hk h =>
    refine ⟨p, ?_, .token (hsg _ _ _ d1) (tokChain_view d2 h)⟩
    have := (tokChain_keeps h).1
    unfold PoolAt
    rw [this]
    exact hp
  | lamports a e =>
    refine ⟨p, ?_, .token (signs := fun _ => false) rfl (.refl _)⟩
    unfold PoolAt at hp ⊢
    by_cases h : k = a
    · subst h; simp only [if_true]; exact hp
    · simp only [if_neg h]; exact hp
  | @other a r h hz hl =>
    refine ⟨p, ?_, .token (signs := fun _ => false) rfl (.refl _)⟩
    have hka : k ≠ a := by rintro rfl; rw [hp.1] at h; cases h
    unfold PoolAt at hp ⊢
    simp only [if_neg hka]
    exact hp

theorem run_call {E : PoolEnv} {kd : PoolKind} {c c' : PoolChain} {accts : List AccMeta} {data : List UInt8}
    (h : poolEntry E kd c accts data = .ok c') :
    ∃ a l m old st w, accts = a :: l ∧ (c.accs a.key).owned = true ∧ Pool.getState (c.accs a.key).data = .ok old ∧ PoolMsg.Fits m ∧
      Pool.process E kd (old.map Record.view) (c.world (mintOf old accts)) accts m.req = .ok (some st, w) ∧
      (recordBytes (m.record old st)).length ≤ (c.accs a.key).data.length ∧
      c' = PoolChain.after c a.key (mintOf old accts) w (m.record old st) ∧
      (∀ x, x ≠ a.key → c'.accs x = c.accs x) ∧ (∀ x, (c'.accs x).owned = (c.accs x).owned) ∧
      (∀ x, (c'.accs x).data.length = (c.accs x).data.length) ∧
      ((∀ a t, c.toks a = some t → t.mint < 256 ^ 32) → ∀ a t, c'.toks a = some t → t.mint < 256 ^ 32) := by
  obtain ⟨a, l, m, old, st, w, e1, ho, f1, f2, hg, hpr, hlen, rfl⟩ := pool_entry.1 h
  refine ⟨a, l, m, old, st, w, e1, ho, hg, f1, hpr, hlen, rfl, fun x hx => ?_, fun x => ?_, fun x => ?_, fun hm => ?_⟩
  · simp only [PoolChain.after, setData, if_neg hx]
  · simp only [PoolChain.after, setData]
    split
    · rename_i e; rw [e]
    · rfl
  · simp only [PoolChain.after, setData]
    split
    · rename_i e; subst e; simp only [List.length_append, List.length_drop]; omega
    · rfl
  · exact (msg_elsewhere (signs := fun _ => true) hpr (fun _ _ _ => rfl) (fun _ _ => rfl)).keeps.2 hm

theorem blank_read {d : List UInt8} (h : Pool.getState d = .ok none) : ∃ n, d = zeros n := by
  have := pool_read.1.1 h
  refine ⟨d.length, ?_⟩
  exact List.eq_replicate_iff.2 ⟨rfl, this⟩

theorem zeros_read (n : Nat) : Pool.getState (zeros n) = .ok none :=
  pool_read.1.2 fun _ hb => (List.mem_replicate.1 hb).2

/-- The invariant of all histories. -/
theorem pinv {E : PoolEnv} {kd : PoolKind} (hE : DeriveInj E) {c : PoolChain} (h : PReach E kd c) : PInv E kd c := by
  induction h with
  | start h =>
    exact ⟨h.lens, h.mints, fun a ho => (by rw [h.owned] at ho; cases ho), fun a p hp => (by have := hp.1; rw [h.owned] at this; cases this)⟩
  | @step c c' hr hs hi =>
    -- pools that were there before
    have old : ∀ a p', PoolAt c' a p' → (∃ p, PoolAt c a p) →
        ∃ s0, Born E kd a s0 ∧ Calls E kd (fun _ _ => True) s0 (poolView c' p') := by
      rintro a p' hp' ⟨p, hp⟩
      obtain ⟨q, hq, hc⟩ := pool_step hE hi hs hp
      rw [hp'.unique hq]
      obtain ⟨s0, h1, h2⟩ := hi.life a p hp
      exact ⟨s0, h1, .step h2 hc trivial⟩
    have keep : ∀ a p, PoolAt c a p → ∃ p, PoolAt c' a p := fun a p hp => by
      obtain ⟨q, hq, _⟩ := pool_step hE hi hs hp; exact ⟨q, hq⟩
    have hs' := hs
    cases hs with
    | @call _ accts data hk hsg h =>
      obtain ⟨a, l, m, o, st, w, e1, ho, hg, f1, hpr, hlen, hc', g1, g2, g3, g4⟩ := run_call h
      have new : o = none → PoolAt c' a.key (m.record o st) ∧ Born E kd a.key (poolView c' (m.record o st)) := by
        rintro rfl
        have hl : (recordBytes (m.record none st)).length ≤ maxLen := Nat.le_trans hlen (hi.lens _)
        have fits := record_fits hpr f1 (fun q hq => by cases hq) hk hi.mints hl
        have view := record_view hpr
        refine ⟨⟨by rw [g2]; exact ho, ?_⟩, ?_⟩
        · rw [hc']
          simp only [PoolChain.after, setData, if_true]
          exact (pool_read.2 _).2 ⟨fits, _, rfl⟩
        · obtain ⟨q, hq⟩ := pool_once.2 _ _ hpr
          have hpr' := hpr
          rw [hq] at hpr'
          obtain ⟨e, B, hB⟩ := pool_init.1 hpr'
          have hm : (m.record none st).mint = mintOf none accts := by
            show st.mint = _
            rw [hB.mint, hB.listed]
            simp [mintOf]
          have hw : c'.world (m.record none st).mint = w := by
            rw [hm, hc']
            simp [PoolChain.after, PoolChain.world]
          unfold poolView
          rw [view, hw]
          subst e
          refine ⟨accts, q, B, hpr', hB, ?_⟩
          have := hB.listed
          rw [e1] at this
          simp only [List.cons_append, List.cons.injEq] at this
          rw [← this.1]
      refine ⟨fun x => by rw [g3]; exact hi.lens x, g4 hi.mints, fun x hx => ?_, fun x p hp => ?_⟩
      · by_cases e : x = a.key
        · subst e
          cases o with
          | none => exact .inr ⟨_, (new rfl).1⟩
          | some q => exact .inr (keep a.key q ⟨ho, hg⟩)
        · rw [g2] at hx
          rcases hi.clean x hx with ⟨n, h1⟩ | ⟨q, h1⟩
          · exact .inl ⟨n, by rw [g1 x e]; exact h1⟩
          · exact .inr (keep x q h1)
      · by_cases e : x = a.key
        · subst e
          cases o with
          | none =>
            obtain ⟨n1, n2⟩ := new rfl
            rw [hp.unique n1]
            exact ⟨_, n2, .refl _⟩
          | some q => exact old _ p hp ⟨q, ho, hg⟩
        · refine old x p hp ⟨p, ?_⟩
          unfold PoolAt at hp ⊢
          rw [g1 x e] at hp
          exact hp
    | @token _ signs ix hsg hk h =>
      obtain ⟨e, e2⟩ := tokChain_keeps h
      have at' : ∀ x p, PoolAt c' x p ↔ PoolAt c x p := fun x p => by unfold PoolAt; rw [e]
      refine ⟨fun x => by rw [e]; exact hi.lens x, ?_, fun x hx => ?_, fun x p hp => old x p hp ⟨p, (at' x p).1 hp⟩⟩
      · rcases e2 with ⟨ix', rfl, h2⟩ | h2
        · exact tokExec_mints h2 (fun a m o e => hk a m o (congrArg MintIx.tok e)) hi.mints
        · rw [h2]; exact hi.mints
      · rw [e] at hx ⊢
        rcases hi.clean x hx with h1 | ⟨q, h1⟩
        · exact .inl h1
        · exact .inr (keep x q h1)
    | lamports a e =>
      have at' : ∀ x, ((fun x => if x = a then { c.accs a with exempt := e } else c.accs x) x).data = (c.accs x).data ∧
          ((fun x => if x = a then { c.accs a with exempt := e } else c.accs x) x).owned = (c.accs x).owned := by
        intro x
        simp only
        split
        · rename_i h; subst h; exact ⟨rfl, rfl⟩
        · exact ⟨rfl, rfl⟩
      refine ⟨fun x => by rw [(at' x).1]; exact hi.lens x, hi.mints, fun x hx => ?_, fun x p hp => old x p hp ⟨p, ?_⟩⟩
      · rw [(at' x).2] at hx
        rcases hi.clean x hx with ⟨n, h1⟩ | ⟨q, h1⟩
        · exact .inl ⟨n, by rw [(at' x).1]; exact h1⟩
        · exact .inr (keep x q h1)
      · exact ⟨by rw [← (at' x).2]; exact hp.1, by rw [← (at' x).1]; exact hp.2⟩
    | @other a r h hz hl =>
      refine ⟨fun x => ?_, hi.mints, fun x hx => ?_, fun x p hp => old x p hp ⟨p, ?_⟩⟩
      · simp only
        split
        · exact hl
        · exact hi.lens x
      · by_cases e : x = a
        · subst e
          simp only [if_true] at hx ⊢
          exact .inl (hz hx)
        · simp only [if_neg e] at hx ⊢
          rcases hi.clean x hx with h1 | ⟨q, h1⟩
          · exact .inl h1
          · exact .inr (keep x q h1)
      · by_cases e : x = a
        · subst e
          exfalso
          unfold PoolAt at hp
          simp only [if_true] at hp
          obtain ⟨n, hn⟩ := hz hp.1
          rw [hn, zeros_read] at hp
          cases hp.2
        · unfold PoolAt at hp ⊢
          simp only [if_neg e] at hp
          exact hp

/-! ### C73 -/

/-- C73. At every moment of every history each account of the program is blank or holds a pool that has once been initialised
as in C55 and has since led the life of a pool as in C55-C57. -/
theorem pools_alive {E : PoolEnv} {kd : PoolKind} (hE : DeriveInj E) {c : PoolChain} (h : PReach E kd c) {a : Nat}
    (ho : (c.accs a).owned = true) :
    (∃ n, (c.accs a).data = zeros n) ∨
    ∃ p, PoolAt c a p ∧ E.derive a p.nonce = some p.signer ∧ c.minter p.mint = some p.signer ∧
      ∃ s0, Born E kd a s0 ∧ Calls E kd (fun _ _ => True) s0 (poolView c p) := by
  have hi := pinv hE h
  rcases hi.clean a ho with h1 | ⟨p, h1⟩
  · exact .inl h1
  · exact .inr ⟨p, h1, (hi.derived h1).1, (hi.derived h1).2, hi.life a p h1⟩

/-- C73. Once a pool, always the same pool, and what happens to it is the life of a pool. Conditions on the steps of the chain
carry over to its life. -/
theorem pool_continues {E : PoolEnv} {kd : PoolKind} (hE : DeriveInj E) {c c' : PoolChain} {k : Nat} {p : Record}
    {ok : PoolState × World → PoolState × World → Prop} (h : PReach E kd c) (hp : PoolAt c k p)
    (hl : PLater E kd (fun c1 c2 => ∀ p1 p2, PoolAt c1 k p1 → PoolAt c2 k p2 → ok (poolView c1 p1) (poolView c2 p2)) c c') :
    ∃ p', PoolAt c' k p' ∧ Calls E kd ok (poolView c p) (poolView c' p') := by
  suffices PReach E kd c' ∧ ∃ p', PoolAt c' k p' ∧ Calls E kd ok (poolView c p) (poolView c' p') from this.2
  induction hl with
  | refl => exact ⟨h, p, hp, .refl _⟩
  | step _ hs ho ih =>
    obtain ⟨hr, p1, h1, h2⟩ := ih
    obtain ⟨p2, h3, h4⟩ := pool_step hE (pinv hE hr) hs h1
    exact ⟨.step hr hs, p2, h3, .step h2 h4 (ho p1 p2 h1 h3)⟩

/-- C73. Pools have their own authorities and their own tokens. -/
theorem pools_differ {E : PoolEnv} {kd : PoolKind} (hE : DeriveInj E) {c : PoolChain} (h : PReach E kd c) {a b : Nat} {p q : Record}
    (hp : PoolAt c a p) (hq : PoolAt c b q) (hab : a ≠ b) : p.signer ≠ q.signer ∧ p.mint ≠ q.mint := by
  have hi := pinv hE h
  obtain ⟨p1, p2⟩ := hi.derived hp
  obtain ⟨q1, q2⟩ := hi.derived hq
  have hs : p.signer ≠ q.signer := fun e => hab (hE _ _ _ _ _ (e ▸ p1) q1)
  refine ⟨hs, fun e => hs ?_⟩
  rw [e, q2] at p2
  exact (Option.some.inj p2).symm

/-- C73. A call that names one pool leaves every other pool alone: its record and its mint authority stay, its supply can only
be burnt by holders, and its vaults lose nothing. -/
theorem pools_isolated {E : PoolEnv} {kd : PoolKind} (hE : DeriveInj E) {c c' : PoolChain} (h : PReach E kd c)
    {accts : List AccMeta} {data : List UInt8} (hk : ∀ a ∈ accts, a.key < 256 ^ 32)
    (hs : ∀ a ∈ accts, a.signer = true → ∀ p n, E.derive p n ≠ some a.key) (hc : poolEntry E kd c accts data = .ok c')
    {k : Nat} {p : Record} (hp : PoolAt c k p) (hn : (accts.map (·.key)).head? ≠ some k) :
    c'.accs k = c.accs k ∧ c'.minter p.mint = c.minter p.mint ∧ c'.supply p.mint ≤ c.supply p.mint ∧
    ∀ v, Safe p.signer c.toks v → Safe p.signer c'.toks v ∧ bal c.toks v ≤ bal c'.toks v := by
  have hi := pinv hE h
  obtain ⟨d1, d2⟩ := hi.derived hp
  obtain ⟨a, l, m, old, st, w, rfl, ho, hg, f1, hpr, hlen, hc', g1, _⟩ := run_call hc
  have e : a.key ≠ k := fun e => hn (by simp [e])
  have hne : ∀ q, old = some q → q.signer ≠ p.signer := by
    intro q hq
    exact (pools_differ hE h (a := a.key) (b := k) ⟨ho, by rw [hg, hq]⟩ hp e).1
  let signs : Nat → Bool := fun x => decide (x ≠ p.signer)
  have r := msg_elsewhere (signs := signs) hpr
    (fun b hb hbs => by simpa [signs] using fun e' => hs b hb hbs k p.nonce (by rw [d1, e']))
    (fun q hq => by simpa [signs] using hne q hq)
  have v := r.view d2 (by simp [signs])
  have hsig : signs p.signer = false := by simp [signs]
  obtain ⟨_, v2, v3⟩ := v.effect (vs := p.signer) d2 hsig
  subst hc'
  refine ⟨g1 k fun e' => e e'.symm, v3, v2, fun x hx => ?_⟩
  obtain ⟨t, t1, t2, t3, t4⟩ := hx
  obtain ⟨t', u1, u2, u3⟩ := v.tame hsig t1 t2 t3
  refine ⟨⟨t', u1, u2.owner.trans t2, u2.close.trans t3, u2.idle t4⟩, ?_⟩
  have e1 : bal c.toks x = t.amount := by unfold bal; rw [show c.toks x = some t from t1]
  have e2 : bal w.toks x = t'.amount := by unfold bal; rw [show w.toks x = some t' from u1]
  show bal c.toks x ≤ bal w.toks x
  rw [e1, e2]
  exact u3 t4

/-- C73. Over whole histories with any number of pools: as long as an asset stays in the pool and its vault is not delegated, the
assets per pool token do not fall. -/
theorem pools_never_dilute {E : PoolEnv} {kd : PoolKind} (hE : DeriveInj E) {c c' : PoolChain} {k : Nat} {p : Record} {x : Asset}
    (h : PReach E kd c) (hp : PoolAt c k p) (hn : (p.assets.map (·.vault)).Nodup) (hx : x ∈ p.assets)
    (hh : Held p.signer c.toks x.vault)
    (hl : PLater E kd (fun _ c2 => ∀ p2, PoolAt c2 k p2 → x ∈ p2.assets ∧ ∀ t, c2.toks x.vault = some t → t.delegate = none) c c') :
    ∃ p', PoolAt c' k p' ∧ p'.mint = p.mint ∧ p'.signer = p.signer ∧ Held p.signer c'.toks x.vault ∧
      bal c.toks x.vault * c'.supply p.mint ≤ bal c'.toks x.vault * c.supply p.mint := by
  have hl' : PLater E kd (fun c1 c2 => ∀ p1 p2, PoolAt c1 k p1 → PoolAt c2 k p2 → Stays x (poolView c1 p1) (poolView c2 p2)) c c' := by
    clear hh hx hn hp h
    induction hl with
    | refl => exact .refl
    | step _ hs ho ih => exact .step ih hs fun p1 p2 _ h2 => ho p2 h2
  obtain ⟨p', h1, h2⟩ := pool_continues hE h hp hl'
  obtain ⟨s0, b1, b2⟩ := (pinv hE h).life k p hp
  obtain ⟨i1, i2, _⟩ := pool_identity h2
  have i1 : p'.mint = p.mint := i1
  have i2 : p'.signer = p.signer := i2
  obtain ⟨g1, g2⟩ := admin_never_dilutes b1 b2 hn hx hh h2
  refine ⟨p', h1, i1, i2, ?_, ?_⟩
  · rw [← i2]; exact g1
  · have g2 : bal c.toks x.vault * c'.supply p'.mint ≤ bal c'.toks x.vault * c.supply p.mint := g2
    rw [i1] at g2
    exact g2

/-! ### Two pools on one chain -/

namespace PoolsDemo

def E : PoolEnv := ⟨7, 8, 6, fun p n => if n = 0 then some (p + 1000) else none, fun _ => true, fun _ => 5⟩

theorem inj : DeriveInj E := by
  intro p n p' n' a h h'
  simp only [E] at h h'
  split at h
  · split at h'
    · cases h; injection h' with h'; omega
    · cases h'
  · cases h

/-- Tokens for a pool in account 4 with mint 1 and a pool in account 5 with mint 11; both hold the assets 2 and 3. -/
def c0 : PoolChain where
  accs := fun _ => ⟨false, true, []⟩
  toks := fun a =>
    if a = 20 then some (PoolDemo.tok 2 1004 1000) else if a = 21 then some (PoolDemo.tok 3 1004 777)
    else if a = 22 then some (PoolDemo.tok 2 1005 50) else if a = 23 then some (PoolDemo.tok 3 1005 60)
    else if a = 30 then some (PoolDemo.tok 2 50 5000) else if a = 31 then some (PoolDemo.tok 3 50 5000)
    else if a = 32 then some (PoolDemo.tok 1 50 10) else if a = 40 then some (PoolDemo.tok 1 8 0)
    else if a = 41 then some (PoolDemo.tok 1 51 90) else if a = 42 then some (PoolDemo.tok 1 52 0)
    else if a = 43 then some (PoolDemo.tok 11 8 0) else if a = 44 then some (PoolDemo.tok 11 51 10) else none
  supply := fun m => if m = 1 then 100 else if m = 11 then 10 else 0
  minter := fun m => if m = 1 then some 1004 else if m = 11 then some 1005 else none

def give (a : Nat) (c : PoolChain) : PoolChain :=
  { c with accs := fun x => if x = a then ⟨true, true, zeros 500⟩ else c.accs x }

def init1 : List AccMeta :=
  [⟨4, false⟩, ⟨1, false⟩, ⟨20, false⟩, ⟨21, false⟩, ⟨1004, false⟩, ⟨40, false⟩, ⟨41, false⟩, ⟨6, false⟩]
def init2 : List AccMeta :=
  [⟨5, false⟩, ⟨11, false⟩, ⟨22, false⟩, ⟨23, false⟩, ⟨1005, false⟩, ⟨43, false⟩, ⟨44, false⟩, ⟨6, false⟩]
def use1 : List AccMeta :=
  [⟨4, false⟩, ⟨1, false⟩, ⟨20, false⟩, ⟨21, false⟩, ⟨1004, false⟩, ⟨32, false⟩, ⟨30, false⟩, ⟨31, false⟩, ⟨50, true⟩,
    ⟨40, false⟩, ⟨41, false⟩, ⟨42, false⟩, ⟨7, false⟩]

def init : PoolMsg := .request (.init ⟨0, 2, [112], 2500, []⟩)
def create : PoolMsg := .request (.exec (.create 33))

def run (accts : List AccMeta) (m : PoolMsg) (c : PoolChain) : PoolChain :=
  match poolEntry E .simple c accts m.bytes with
  | .ok c' => c'
  | .error _ => c

def works (accts : List AccMeta) (m : PoolMsg) (c : PoolChain) : Bool :=
  match poolEntry E .simple c accts m.bytes with
  | .ok _ => true
  | .error _ => false

theorem ran {accts : List AccMeta} {m : PoolMsg} {c : PoolChain} (h : works accts m c = true) :
    poolEntry E .simple c accts m.bytes = .ok (run accts m c) := by
  unfold works at h
  unfold run
  split at h
  · rename_i c' e; rw [e]
  · cases h

def c2 : PoolChain := give 5 (give 4 c0)
def c3 : PoolChain := run init1 init c2
def c4 : PoolChain := run init2 init c3
def c5 : PoolChain := run use1 create c4

theorem unsigned {accts : List AccMeta} (h : ∀ a ∈ accts, a.signer = true → a.key < 1000) :
    ∀ a ∈ accts, a.signer = true → ∀ p n, E.derive p n ≠ some a.key := by
  intro a ha hs p n e
  have := h a ha hs
  simp only [E] at e
  split at e
  · injection e with e; omega
  · cases e

theorem small (a : Nat) (t : Tok) (h : c0.toks a = some t) : t.mint ≤ 11 := by
  have one : ∀ {q : Prop} [Decidable q] {u : Tok} {x : Option Tok}, u.mint ≤ 11 → (∀ t, x = some t → t.mint ≤ 11) →
      ∀ t, (if q then some u else x) = some t → t.mint ≤ 11 := by
    intro q _ u x hu hx t ht
    split at ht
    · cases ht; exact hu
    · exact hx t ht
  refine one (by decide) (one (by decide) (one (by decide) (one (by decide) (one (by decide) (one (by decide)
    (one (by decide) (one (by decide) (one (by decide) (one (by decide) (one (by decide) (one (by decide) ?_))))))))))) t h
  intro t h
  cases h

theorem room : (zeros 500).length ≤ maxLen := by
  rw [zeros, List.length_replicate]; decide

theorem reach4 : PReach E .simple c4 := by
  have s0 : PStart c0 := ⟨fun _ => rfl, fun _ => Nat.zero_le _, fun a t h => Nat.lt_of_le_of_lt (small a t h) (by decide)⟩
  have s1 : PReach E .simple (give 4 c0) := .step (.start s0) (.other rfl (fun _ => ⟨500, rfl⟩) room)
  have s2 : PReach E .simple c2 := .step s1 (.other rfl (fun _ => ⟨500, rfl⟩) room)
  have s3 : PReach E .simple c3 := .step s2 (.call (accts := init1) (by decide) (unsigned (by decide)) (ran (by decide +kernel)))
  exact .step s3 (.call (accts := init2) (by decide) (unsigned (by decide)) (ran (by decide +kernel)))

theorem step5 : PStep E .simple c4 c5 :=
  .call (accts := use1) (by decide) (unsigned (by decide)) (ran (by decide +kernel))

/-- Two pools with the same assets; tokens of the first are created, the second is unmoved. -/
example : DeriveInj E ∧ PReach E .simple c4 ∧ PStep E .simple c4 c5 ∧
    PoolAt c5 4 ⟨1, [⟨2, 20⟩, ⟨3, 21⟩], 1004, 0, [], [112], 40, 41, 2500, none, []⟩ ∧
    PoolAt c5 5 ⟨11, [⟨2, 22⟩, ⟨3, 23⟩], 1005, 0, [], [112], 43, 44, 2500, none, []⟩ ∧
    (bal c4.toks 20, c4.supply 1, bal c5.toks 20, c5.supply 1) = (1000, 100, 1330, 133) ∧
    (bal c5.toks 22, bal c5.toks 23, c5.supply 11) = (50, 60, 10) := by
  have at' : ∀ {k : Nat} {p : Record}, (Pool.getState (c5.accs k).data).toOption = some (some p) → (c5.accs k).owned = true →
      PoolAt c5 k p := by
    intro k p h ho
    refine ⟨ho, ?_⟩
    cases e : Pool.getState (c5.accs k).data with
    | error _ => rw [e] at h; cases h
    | ok x => rw [e] at h; cases h; rfl
  refine ⟨inj, reach4, step5, at' ?_ ?_, at' ?_ ?_, ?_, ?_⟩ <;> decide +kernel

end PoolsDemo

end Serum.Props
