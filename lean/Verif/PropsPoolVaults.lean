import Verif.PropsPoolHist

/-!
C56, C57: the vaults of an admin-controlled pool: delegates while it is running, outflows, and dilution.
-/

namespace Serum.Pool

/-- Nobody but the owner can spend from the account. -/
def Tok.idle (t : Tok) : Prop := t.delegate = none ∨ t.delegated = 0

/-- A vault that is the pool's own, with no spendable delegate. -/
def Safe (vs : Nat) (l : Ledger) (a : Nat) : Prop :=
  ∃ t, l a = some t ∧ t.owner = vs ∧ t.closeAuth = none ∧ Tok.idle t

/-- A vault that is the pool's own, perhaps with a delegate. -/
def Own (vs : Nat) (l : Ledger) (a : Nat) : Prop := ∃ t, l a = some t ∧ t.owner = vs ∧ t.closeAuth = none

/-- `t'` belongs to the same owner, and its delegate can spend no more. -/
structure Less (t t' : Tok) : Prop where
  owner : t'.owner = t.owner
  close : t'.closeAuth = t.closeAuth
  delegate : t'.delegate = t.delegate ∨ t'.delegate = none
  delegated : t'.delegated ≤ t.delegated

theorem Less.refl (t : Tok) : Less t t := ⟨rfl, rfl, .inl rfl, Nat.le_refl _⟩

theorem Less.trans {t t' t'' : Tok} (h : Less t t') (h' : Less t' t'') : Less t t'' :=
  ⟨h'.owner.trans h.owner, h'.close.trans h.close, by
    rcases h'.delegate with e | e
    · rw [e]; exact h.delegate
    · exact .inr e, Nat.le_trans h'.delegated h.delegated⟩

theorem Less.idle {t t' : Tok} (h : Less t t') (hi : Tok.idle t) : Tok.idle t' := by
  rcases hi with e | e
  · rcases h.delegate with e' | e'
    · exact .inl (e'.trans e)
    · exact .inl e'
  · exact .inr (by have := h.delegated; omega)

/-- What a change of the ledger signed by `auth` leaves to the owner of an account. -/
def Tame (auth : Nat) (l l' : Ledger) : Prop :=
  ∀ a t, l a = some t → ∃ t', l' a = some t' ∧ Less t t' ∧ (t.owner ≠ auth → Tok.idle t → t.amount ≤ t'.amount)

theorem Tame.refl (auth : Nat) (l : Ledger) : Tame auth l l :=
  fun _ t h => ⟨t, h, .refl t, fun _ _ => Nat.le_refl _⟩

theorem Tame.trans {auth : Nat} {l l' l'' : Ledger} (h : Tame auth l l') (h' : Tame auth l' l'') : Tame auth l l'' := by
  intro a t ht
  obtain ⟨t1, e1, e2, e3⟩ := h a t ht
  obtain ⟨t2, g1, g2, g3⟩ := h' a t1 e1
  exact ⟨t2, g1, e2.trans g2, fun ho hi => Nat.le_trans (e3 ho hi) (g3 (by rw [e2.owner]; exact ho) (e2.idle hi))⟩

theorem debit_less {t t' : Tok} {auth n : Nat} (hn : n ≤ t.amount) (h : debitTok t auth n = .ok t') :
    Less t t' ∧ (t.owner ≠ auth → Tok.idle t → t.amount ≤ t'.amount) := by
  unfold debitTok at h
  split at h
  · rename_i hd
    split at h
    · cases h
    · rename_i hlt
      cases h
      refine ⟨⟨rfl, rfl, ?_, by simp⟩, fun _ hi => ?_⟩
      · simp only
        split
        · exact .inr rfl
        · exact .inl rfl
      · rcases hi with e | e
        · rw [e] at hd; cases hd
        · simp only; omega
  · split at h
    · cases h
    · rename_i ho
      cases h
      exact ⟨⟨rfl, rfl, .inl rfl, Nat.le_refl _⟩, fun e => absurd (Decidable.not_not.1 ho) e⟩

theorem splTransfer_tame {l l' : Ledger} {src dst auth n : Nat} (h : splTransfer l src dst auth n = .ok l') :
    Tame auth l l' := by
  unfold splTransfer at h
  split at h
  · rename_i s d hs hd
    split at h
    · cases h
    split at h
    · cases h
    rename_i hlt
    split at h
    · cases h
    split at h
    · cases h
    rename_i s' hdeb
    split at h
    · cases h; exact .refl _ _
    rename_i hne
    split at h
    · cases h
    cases h
    intro a t ht
    simp only
    by_cases h1 : a = dst
    · subst h1
      rw [hd] at ht
      cases ht
      refine ⟨{ d with amount := d.amount + n }, by simp, ⟨rfl, rfl, .inl rfl, Nat.le_refl _⟩, fun _ _ => by simp⟩
    · by_cases h2 : a = src
      · subst h2
        rw [hs] at ht
        cases ht
        obtain ⟨e1, e2⟩ := debit_less (by omega) hdeb
        exact ⟨s', by simp [h1], e1, e2⟩
      · exact ⟨t, by simp [h1, h2, ht], .refl t, fun _ _ => Nat.le_refl _⟩
  · cases h

theorem transfers_tame {auth : Nat} {sg : Bool} {ts : List (Nat × Nat × Nat)} {l l' : Ledger}
    (h : transfers l auth sg ts = .ok l') : Tame auth l l' := by
  induction ts generalizing l with
  | nil => cases h; exact .refl _ _
  | cons t ts ih =>
    obtain ⟨src, dst, n⟩ := t
    simp only [transfers] at h
    obtain ⟨l1, h1, h⟩ := bind_ok h
    exact (splTransfer_tame (transfer_ok h1).2).trans (ih h)

theorem put_tame {auth : Nat} {l : Ledger} {a : Nat} {t t' : Tok} (ht : l a = some t) (hl : Less t t')
    (hb : t.owner ≠ auth → Tok.idle t → t.amount ≤ t'.amount) : Tame auth l (l.put a (some t')) := by
  intro b u hu
  unfold Ledger.put
  by_cases e : b = a
  · subst e
    rw [ht] at hu
    cases hu
    exact ⟨t', by simp, hl, hb⟩
  · exact ⟨u, by simp [e, hu], .refl u, fun _ _ => Nat.le_refl _⟩

theorem mintAll_tame {auth mint : Nat} {ps : List (Nat × Nat)} {w w' : World} (h : mintAll w mint ps = .ok w') :
    Tame auth w.toks w'.toks := by
  induction ps generalizing w with
  | nil => cases h; exact .refl _ _
  | cons p ps ih =>
    obtain ⟨a, n⟩ := p
    simp only [mintAll] at h
    split at h
    · exact ih h
    · obtain ⟨w1, h1, h⟩ := bind_ok h
      refine Tame.trans ?_ (ih h)
      unfold mintTo at h1
      split at h1
      · cases h1
      rename_i t ht
      split at h1
      · cases h1
      cases h1
      exact put_tame ht ⟨rfl, rfl, .inl rfl, Nat.le_refl _⟩ (fun _ _ => by simp)

theorem burnFrom_tame {w w' : World} {mint a auth n : Nat} (h : burnFrom w mint a auth n = .ok w') :
    Tame auth w.toks w'.toks := by
  unfold burnFrom at h
  split at h
  · cases h
  rename_i t ht
  split at h
  · cases h
  rename_i hc
  simp only [Bool.or_eq_true, decide_eq_true_eq, not_or] at hc
  split at h
  · cases h
  rename_i t' hd
  cases h
  obtain ⟨e1, e2⟩ := debit_less (by omega) hd
  exact put_tame ht e1 e2

/-- A creation takes nothing from, and gives nobody else a hold on, an account of anyone but the user. -/
theorem creation_tame {k : PoolKind} {st : PoolState} {w w' : World} {A : Accts} {n : Nat}
    (h : processCreation k st w A n = .ok w') : Tame A.userAuth.key w.toks w'.toks := by
  unfold processCreation at h
  obtain ⟨qs, h1, h⟩ := bind_ok h
  obtain ⟨l, h2, h⟩ := bind_ok h
  unfold mintTokens at h
  obtain ⟨f, h3, h⟩ := bind_ok h
  exact (transfers_tame h2).trans (mintAll_tame h)

/-- A redemption gives nobody else a hold on any account. -/
theorem redemption_tame {k : PoolKind} {st : PoolState} {w w' : World} {A : Accts} {n : Nat}
    (h : processRedemption k st w A n = .ok w') :
    ∀ a t, w.toks a = some t → ∃ t', w'.toks a = some t' ∧ Less t t' := by
  unfold processRedemption at h
  obtain ⟨f, h3, h⟩ := bind_ok h
  obtain ⟨qs, h1, h⟩ := bind_ok h
  obtain ⟨w1, h2, h⟩ := bind_ok h
  obtain ⟨l, h4, h⟩ := bind_ok h
  cases h
  unfold burnTokens at h2
  obtain ⟨l1, h5, h2⟩ := bind_ok h2
  split at h2
  · cases h2
  intro a t ht
  obtain ⟨t1, e1, e2, _⟩ := transfers_tame h5 a t ht
  obtain ⟨t2, g1, g2, _⟩ := burnFrom_tame h2 a t1 e1
  obtain ⟨t3, k1, k2, _⟩ := transfers_tame h4 a t2 g1
  exact ⟨t3, k1, (e2.trans g2).trans k2⟩

/-- Token instructions not signed by the owner leave an account without close authority to its owner. -/
theorem tokExec_tame {vs : Nat} {signs : Nat → Bool} {l l' : Ledger} {ix : TokIx} (hs : signs vs = false)
    (h : tokExec signs l ix = some l') {a : Nat} {t : Tok} (ht : l a = some t) (ho : t.owner = vs)
    (hc : t.closeAuth = none) :
    ∃ t', l' a = some t' ∧ Less t t' ∧ (Tok.idle t → t.amount ≤ t'.amount) := by
  have hne : ∀ {x : Nat}, signs x = true → x ≠ vs := by
    rintro x h1 rfl; rw [hs] at h1; cases h1
  have put : ∀ (b : Nat) (u : Tok) (u' : Option Tok), l b = some u → (b = a → False) →
      ∃ t', (l.put b u') a = some t' ∧ Less t t' ∧ (Tok.idle t → t.amount ≤ t'.amount) := by
    intro b u u' _ hb
    exact ⟨t, by simp [Ledger.put, show ¬ a = b from fun e => hb e.symm, ht], .refl t, fun _ => Nat.le_refl _⟩
  have own : ∀ {b auth : Nat} {u : Tok}, l b = some u → signs auth = true → u.owner = auth → b = a → False := by
    rintro b auth u hu h1 h2 rfl
    rw [ht] at hu
    cases hu
    exact hne h1 (h2.symm.trans ho)
  have keep : ∀ (b : Nat) (u u' : Tok), l b = some u → (u = t → Less u u' ∧ u.amount ≤ u'.amount) →
      ∃ t', (l.put b (some u')) a = some t' ∧ Less t t' ∧ (Tok.idle t → t.amount ≤ t'.amount) := by
    intro b u u' hu hk
    by_cases e : b = a
    · subst e
      rw [ht] at hu
      cases hu
      exact ⟨u', by simp [Ledger.put], (hk rfl).1, fun _ => (hk rfl).2⟩
    · exact put b u _ hu e
  cases ix with
  | openAcct b mint owner =>
    simp only [tokExec] at h
    split at h
    · cases h
    · rename_i hn
      cases h
      have : ¬ a = b := by rintro rfl; rw [hn] at ht; cases ht
      exact ⟨t, by simp [Ledger.put, this, ht], .refl t, fun _ => Nat.le_refl _⟩
  | transfer src dst auth n =>
    simp only [tokExec] at h
    split at h
    · rename_i ha
      split at h
      · rename_i l1 h1
        cases h
        obtain ⟨t', e1, e2, e3⟩ := splTransfer_tame h1 a t ht
        exact ⟨t', e1, e2, e3 (by rw [ho]; exact (hne ha).symm)⟩
      · cases h
    · cases h
  | approve b d auth n =>
    simp only [tokExec] at h
    split at h
    · rename_i u hu
      split at h
      · rename_i hx
        cases h
        exact put b u _ hu (own hu hx.1 hx.2.1)
      · cases h
    · cases h
  | revoke b auth =>
    simp only [tokExec] at h
    split at h
    · rename_i u hu
      split at h
      · rename_i hx
        cases h
        exact put b u _ hu (own hu hx.1 hx.2.1)
      · cases h
    · cases h
  | setOwner b new auth =>
    simp only [tokExec] at h
    split at h
    · rename_i u hu
      split at h
      · rename_i hx
        cases h
        exact put b u _ hu (own hu hx.1 hx.2.1)
      · cases h
    · cases h
  | setCloseAuthority b new auth =>
    simp only [tokExec] at h
    split at h
    · rename_i u hu
      split at h
      · rename_i hx
        cases h
        refine put b u _ hu ?_
        rintro rfl
        rw [ht] at hu
        cases hu
        have := hx.2.1
        rw [Tok.closer, hc] at this
        exact hne hx.1 (this.symm.trans ho)
      · cases h
    · cases h
  | mint b n =>
    simp only [tokExec] at h
    split at h
    · rename_i u hu
      split at h
      · cases h
        exact keep b u _ hu fun _ => ⟨⟨rfl, rfl, .inl rfl, Nat.le_refl _⟩, Nat.le_add_right _ _⟩
      · cases h
    · cases h
  | burn b auth n =>
    simp only [tokExec] at h
    split at h
    · rename_i u hu
      split at h
      · rename_i hx
        split at h
        · rename_i u' hd
          cases h
          obtain ⟨e1, e2⟩ := debit_less hx.2.2 hd
          obtain ⟨t', f1, f2, f3⟩ := put_tame hu e1 e2 a t ht
          exact ⟨t', f1, f2, f3 (by rw [ho]; exact (hne hx.1).symm)⟩
        · cases h
      · cases h
    · cases h
  | close b auth =>
    simp only [tokExec] at h
    split at h
    · rename_i u hu
      split at h
      · rename_i hx
        cases h
        refine put b u _ hu ?_
        rintro rfl
        rw [ht] at hu
        cases hu
        have := hx.2
        rw [Tok.closer, hc] at this
        exact hne hx.1 (this.symm.trans ho)
      · cases h
    · cases h
  | freeze b =>
    simp only [tokExec] at h
    split at h
    · rename_i u hu
      cases h
      exact keep b u _ hu fun _ => ⟨⟨rfl, rfl, .inl rfl, Nat.le_refl _⟩, Nat.le_refl _⟩
    · cases h
  | thaw b =>
    simp only [tokExec] at h
    split at h
    · rename_i u hu
      cases h
      exact keep b u _ hu fun _ => ⟨⟨rfl, rfl, .inl rfl, Nat.le_refl _⟩, Nat.le_refl _⟩
    · cases h

theorem tokenExec_tame {mint vs : Nat} {signs : Nat → Bool} {w w' : World} {ix : WorldIx} (hs : signs vs = false)
    (h : tokenExec mint signs w ix = some w') {a : Nat} {t : Tok} (ht : w.toks a = some t) (ho : t.owner = vs)
    (hc : t.closeAuth = none) :
    ∃ t', w'.toks a = some t' ∧ Less t t' ∧ (Tok.idle t → t.amount ≤ t'.amount) := by
  have plain : ∀ (ix' : TokIx) (g : Ledger → World), (∀ l, (g l).toks = l) → (tokExec signs w.toks ix').map g = some w' →
      ∃ t', w'.toks a = some t' ∧ Less t t' ∧ (Tok.idle t → t.amount ≤ t'.amount) := by
    intro ix' g hg h
    obtain ⟨l, h1, h2⟩ := Option.map_eq_some_iff.1 h
    subst h2
    rw [hg]
    exact tokExec_tame hs h1 ht ho hc
  cases ix with
  | setMinter new =>
    simp only [tokenExec] at h
    split at h
    · cases h; exact ⟨t, ht, .refl t, fun _ => Nat.le_refl _⟩
    · cases h
  | tok ix =>
    cases ix with
    | mint b n =>
      simp only [tokenExec] at h
      split at h
      · cases h
      · split at h
        · split at h
          · exact plain _ _ (fun _ => rfl) h
          · cases h
        · exact plain _ _ (fun _ => rfl) h
    | burn b auth n =>
      simp only [tokenExec] at h
      split at h
      · cases h
      · split at h
        · split at h
          · exact plain _ _ (fun _ => rfl) h
          · cases h
        · exact plain _ _ (fun _ => rfl) h
    | _ => exact plain _ _ (fun _ => rfl) h

theorem safe_of {vs : Nat} {l l' : Ledger} {a : Nat} (hs : Safe vs l a)
    (h : ∀ t, l a = some t → ∃ t', l' a = some t' ∧ Less t t') : Safe vs l' a := by
  obtain ⟨t, e1, e2, e3, e4⟩ := hs
  obtain ⟨t', g1, g2⟩ := h t e1
  exact ⟨t', g1, g2.owner.trans e2, g2.close.trans e3, g2.idle e4⟩

theorem own_of {vs : Nat} {l l' : Ledger} {a : Nat} (hs : Own vs l a)
    (h : ∀ t, l a = some t → ∃ t', l' a = some t' ∧ Less t t') : Own vs l' a := by
  obtain ⟨t, e1, e2, e3⟩ := hs
  obtain ⟨t', g1, g2⟩ := h t e1
  exact ⟨t', g1, g2.owner.trans e2, g2.close.trans e3⟩

/-- A request other than the admin's leaves every token account with its owner and gives no new delegate. -/
theorem execute_tame {E : PoolEnv} {k : PoolKind} {st : PoolState} {w w' : World} {accts : List AccMeta} {act : Action}
    (h : execute E k st w accts act = .ok w') : ∀ a t, w.toks a = some t → ∃ t', w'.toks a = some t' ∧ Less t t' := by
  unfold execute at h
  obtain ⟨A, h1, h⟩ := bind_ok h
  cases act with
  | create n =>
    intro a t ht
    obtain ⟨t', e1, e2, _⟩ := creation_tame h a t ht
    exact ⟨t', e1, e2⟩
  | redeem n => exact redemption_tame h
  | swap l => cases h

/-- The vaults are the pool's own, and have no spendable delegate while it runs. -/
def Guarded (s : PoolState × World) : Prop :=
  (∀ x ∈ s.1.assets, Own s.1.signer s.2.toks x.vault) ∧
  (s.1.custom = some false → ∀ x ∈ s.1.assets, Safe s.1.signer s.2.toks x.vault)

/-- Vaults added meanwhile are the pool's own and have no spendable delegate. -/
def AddsSafe (s s' : PoolState × World) : Prop :=
  ∀ x ∈ s'.1.assets, x ∉ s.1.assets → Safe s.1.signer s.2.toks x.vault

theorem TokRun.tame {mint vs : Nat} {signs : Nat → Bool} {w w' : World} (h : TokRun mint signs w w') (hs : signs vs = false)
    {a : Nat} {t : Tok} (ht : w.toks a = some t) (ho : t.owner = vs) (hc : t.closeAuth = none) :
    ∃ t', w'.toks a = some t' ∧ Less t t' ∧ (Tok.idle t → t.amount ≤ t'.amount) := by
  induction h with
  | refl => exact ⟨t, ht, .refl t, fun _ => Nat.le_refl _⟩
  | step _ hx ih =>
    obtain ⟨t1, e1, l1, g1⟩ := ih
    obtain ⟨t2, e2, l2, g2⟩ := tokenExec_tame hs hx e1 (l1.owner.trans ho) (l1.close.trans hc)
    exact ⟨t2, e2, l1.trans l2, fun hi => Nat.le_trans (g1 hi) (g2 (l1.idle hi))⟩

theorem guarded_step {E : PoolEnv} {k : PoolKind} {s s' : PoolState × World}
    (hg : Guarded s) (hc : Call E k s s') (ha : AddsSafe s s') : Guarded s' := by
  cases hc with
  | token hs h =>
    refine ⟨fun x hx => ?_, fun hr x hx => ?_⟩
    · obtain ⟨t, e1, e2, e3⟩ := hg.1 x hx
      obtain ⟨t', g1, g2, _⟩ := h.tame hs e1 e2 e3
      exact ⟨t', g1, g2.owner.trans e2, g2.close.trans e3⟩
    · obtain ⟨t, e1, e2, e3, e4⟩ := hg.2 hr x hx
      obtain ⟨t', g1, g2, _⟩ := h.tame hs e1 e2 e3
      exact ⟨t', g1, g2.owner.trans e2, g2.close.trans e3, g2.idle e4⟩
  | request hk hn h =>
    rcases Props.pool_state h with ⟨e, ⟨_, e2⟩ | ⟨act, e2, e3⟩⟩ | ⟨rfl, ix, st1, pool, a, l, _, e, _, _, _, hA, _⟩
    · cases e
      subst e2
      exact hg
    · cases e
      exact ⟨fun x hx => own_of (hg.1 x hx) (execute_tame e3 x.vault), fun hr x hx =>
        safe_of (hg.2 hr x hx) (execute_tame e3 x.vault)⟩
    · cases e
      cases hA with
      | pause => exact ⟨hg.1, fun hr => by cases hr⟩
      | unpause vs l hv hdel =>
        refine ⟨hg.1, fun _ x hx => ?_⟩
        obtain ⟨t, e1, e2, e3⟩ := hg.1 x hx
        obtain ⟨u, u1, u2⟩ := hdel x hx
        rw [e1] at u1
        cases u1
        exact ⟨t, e1, e2, e3, u2⟩
      | approve v d s p l n t hv hs hp ht ho hf =>
        refine ⟨fun x hx => ?_, fun hr => by cases hr⟩
        obtain ⟨u, u1, u2, u3⟩ := hg.1 x hx
        simp only at u1 ⊢
        unfold Own Ledger.put
        by_cases e : x.vault = v.key
        · rw [e] at u1
          rw [ht] at u1
          cases u1
          exact ⟨{ t with delegate := some d.key, delegated := n }, by simp [e], ho, u3⟩
        · exact ⟨u, by simp [e, u1], u2, u3⟩
      | add v l t ht ho hv hm =>
        have hadd : ∀ x ∈ _, _ := ha
        simp only at hadd
        have hx0 : (⟨t.mint, v.key⟩ : Asset) ∉ _ := fun hmem => hv (List.mem_map.2 ⟨_, hmem, rfl⟩)
        have hnew := hadd ⟨t.mint, v.key⟩ (by simp) hx0
        refine ⟨fun x hx => ?_, fun hr x hx => ?_⟩
        · simp only [List.mem_append, List.mem_singleton] at hx
          rcases hx with hx | rfl
          · exact hg.1 x hx
          · obtain ⟨u, u1, u2, u3, _⟩ := hnew
            exact ⟨u, u1, u2, u3⟩
        · simp only [List.mem_append, List.mem_singleton] at hx
          rcases hx with hx | rfl
          · exact hg.2 hr x hx
          · exact hnew
      | remove v l hv he hb =>
        exact ⟨fun x hx => hg.1 x (List.mem_filter.1 hx).1, fun hr x hx => hg.2 hr x (List.mem_filter.1 hx).1⟩
      | fee l rate hr => exact hg
      | handOver a l hs => exact hg

end Serum.Pool

namespace Serum.Props
open Serum.Pool

/-- C56: as long as clean vaults are added, a running pool has no vault with a delegate that can spend. -/
theorem running_undelegated {E : PoolEnv} {k : PoolKind} {s s' : PoolState × World}
    (hs : ∀ x ∈ s.1.assets, Safe s.1.signer s.2.toks x.vault) (h : Calls E k AddsSafe s s') :
    (∀ x ∈ s'.1.assets, Own s'.1.signer s'.2.toks x.vault) ∧
    (s'.1.custom = some false → ∀ x ∈ s'.1.assets, Safe s'.1.signer s'.2.toks x.vault) := by
  have hg : Guarded s := ⟨fun x hx => by obtain ⟨t, a, b, c, _⟩ := hs x hx; exact ⟨t, a, b, c⟩, fun _ => hs⟩
  have : Guarded s' := by
    clear hs
    induction h with
    | refl => exact hg
    | step hpre hc ha ih => exact guarded_step ih hc ha
  exact this

/-- C56: out of such a vault, tokens go only to users redeeming. -/
theorem outflow_redeem {E : PoolEnv} {k : PoolKind} {st st' : PoolState} {w w' : World} {x : Asset}
    (hs : Safe st.signer w.toks x.vault)
    (hc : Call E k (st, w) (st', w')) (hlt : bal w'.toks x.vault < bal w.toks x.vault) :
    st' = st ∧ ∃ accts n, n < W64 ∧ execute E k st w accts (.redeem n) = .ok w' ∧ x.vault ∈ st.assets.map (·.vault) := by
  obtain ⟨t, t1, t2, t3, t4⟩ := hs
  have low : ∀ t', w'.toks x.vault = some t' → t.amount ≤ t'.amount → False := by
    intro t' h1 h2
    unfold bal at hlt
    rw [t1, h1] at hlt
    simp only at hlt
    omega
  cases hc with
  | token hs h =>
    obtain ⟨t', g1, _, g3⟩ := h.tame hs t1 t2 t3
    exact (low t' g1 (g3 t4)).elim
  | request hk hn h =>
    rename_i accts r
    rcases pool_state h with ⟨e, ⟨_, e2⟩ | ⟨act, e2, e3⟩⟩ | ⟨rfl, ix, st1, pool, a, l, _, e, _, _, _, hA, e4, _⟩
    · subst e2
      omega
    · cases e
      cases act with
      | create n =>
        unfold execute at e3
        obtain ⟨A, h1, e3⟩ := bind_ok e3
        have hp := execContext_ok.1 h1
        obtain ⟨t', g1, _, g3⟩ := creation_tame e3 x.vault t t1
        by_cases hsg : A.userAuth.signer = true
        · refine (low t' g1 (g3 ?_ t4)).elim
          rintro e
          obtain ⟨pool, rest, hl⟩ := hp.listed
          exact hk A.userAuth (by rw [hl]; simp) hsg (by rw [← e, t2])
        · exfalso
          obtain ⟨qs, f, _, hcr, _⟩ := creation_ok (hn n (.inl e2)) hp e3
          have hnil : st.assets = [] := Decidable.byContradiction fun hne => hsg (hcr.signed hne)
          have := hcr.bal x.vault
          have hl := hp.assets
          rw [hnil] at hl
          have : A.userAssets = [] := by simpa using hl
          have hu : due x.vault (userSide A qs) = 0 := by rw [userSide, this]; rfl
          omega
      | redeem n =>
        refine ⟨rfl, accts, n, hn n (.inr e2), e3, ?_⟩
        refine Decidable.byContradiction fun hx => ?_
        unfold execute at e3
        obtain ⟨A, h1, e3⟩ := bind_ok e3
        have hp := execContext_ok.1 h1
        obtain ⟨qs, f, _, hcr, _⟩ := redemption_ok (hn n (.inr e2)) hp e3
        have hb := hcr.bal x.vault
        have hv : due x.vault (vaultSide st qs) = 0 :=
          due_zero fun p hp e => absurd (e ▸ (List.of_mem_zip hp).1) hx
        have hne : st.signer ≠ A.userAuth.key := by
          intro e
          obtain ⟨pool, rest, hl⟩ := hp.listed
          exact hk A.userAuth (by rw [hl]; simp) hcr.signed e.symm
        -- the vault could only be the account the pool tokens are burnt from
        have hup : x.vault = A.userPool.key := by
          refine Decidable.byContradiction fun e => ?_
          rw [due_cons, due_nil, if_neg (fun h => e h.symm)] at hb
          omega
        unfold processRedemption at e3
        obtain ⟨f3, q3, e3⟩ := bind_ok e3
        obtain ⟨qs3, q1, e3⟩ := bind_ok e3
        obtain ⟨w1, q2, e3⟩ := bind_ok e3
        obtain ⟨l, q4, e3⟩ := bind_ok e3
        cases e3
        unfold burnTokens at q2
        obtain ⟨l1, q5, q2⟩ := bind_ok q2
        split at q2
        · cases q2
        obtain ⟨t5, k1, k2, k3⟩ := transfers_tame q5 x.vault t t1
        obtain ⟨t6, m1, m2, m3⟩ := burnFrom_tame q2 x.vault t5 k1
        have a1 := k3 (by rw [t2]; exact hne) t4
        have a2 := m3 (by rw [k2.owner, t2]; exact hne) (k2.idle t4)
        -- and the basket is not taken from it
        have hb2 := transfers_bal q4 x.vault
        simp only [List.map_map, Function.comp_def] at hb2
        have hvl : A.vaults.length = st.assets.length := by simpa using congrArg List.length hp.vaults
        rw [triples_user (by rw [hp.assets]; omega), triples_vault (by rw [hp.assets]; omega), hp.vaults] at hb2
        rw [due_zero (a := x.vault) (l := (st.assets.map (·.vault)).zip qs3) fun p hp e => absurd (e ▸ (List.of_mem_zip hp).1) hx] at hb2
        unfold bal at hb2 hlt
        rw [m1] at hb2
        rw [t1] at hlt
        simp only at hb2 hlt
        omega
      | swap l =>
        unfold execute at e3
        obtain ⟨A, h1, e3⟩ := bind_ok e3
        cases e3
    · rw [e4] at hlt
      omega

end Serum.Props

namespace Serum.Pool
open Serum.Props

/-- The asset stays in the pool and its vault without a delegate. -/
def Stays (x : Asset) (_ s' : PoolState × World) : Prop :=
  x ∈ s'.1.assets ∧ ∀ t, s'.2.toks x.vault = some t → t.delegate = none

theorem stays_step {E : PoolEnv} {k : PoolKind} {s s' : PoolState × World} {x : Asset}
    (hm : s.2.minter = some s.1.signer)
    (hn : (s.1.assets.map (·.vault)).Nodup) (hx : x ∈ s.1.assets)
    (hh : Held s.1.signer s.2.toks x.vault) (hc : Call E k s s') (hs : Stays x s s') :
    (s'.1.assets.map (·.vault)).Nodup ∧ Held s'.1.signer s'.2.toks x.vault ∧
    bal s.2.toks x.vault * s'.2.supply ≤ bal s'.2.toks x.vault * s.2.supply ∧ (s.2.supply = 0 → s'.2.supply = 0) := by
  cases hc with
  | token hsg h =>
    obtain ⟨ho, hsup, _⟩ := h.effect hm hsg
    obtain ⟨h1, h2⟩ := ho.held _ hh
    exact ⟨hn, h1, Nat.mul_le_mul h2 hsup, fun e => Nat.le_zero.1 (Nat.le_trans hsup (Nat.le_of_eq e))⟩
  | request hk hw h =>
    rcases pool_state h with ⟨e, ⟨_, e2⟩ | ⟨act, e2, e3⟩⟩ | ⟨rfl, ix, st1, pool, a, l, _, e, _, _, _, hA, e4, e5, _⟩
    · cases e
      subst e2
      exact ⟨hn, hh, Nat.le_refl _, fun e => e⟩
    · cases e
      obtain ⟨_, g2, g3, g4⟩ := exec_asset hn (fun a ha e => by
        cases hsg : a.signer with
        | false => rfl
        | true => exact absurd e (hk a ha hsg)) (fun n hn' => hw n (by rcases hn' with h | h <;> simp [e2, h])) e3
      exact ⟨hn, g3 _ hh, g4 x hx hh, fun e => absurd g2 (by simp only at e; omega)⟩
    · cases e
      have hbal := e4 x.vault
      cases hA with
      | approve v d s p l n t hv hsi hp ht ho hf =>
        refine ⟨hn, ?_, Nat.le_of_eq (congrArg (· * _) hbal.symm), fun e => e⟩
        obtain ⟨u, u1, u2, u3, u4⟩ := hh
        have hdel := hs.2
        simp only at u1 hdel ⊢
        unfold Held
        by_cases e : x.vault = v.key
        · rw [e] at u1
          rw [ht] at u1
          cases u1
          have := hdel { t with delegate := some d.key, delegated := n } (by simp [Ledger.put, e])
          cases this
        · exact ⟨u, by simp [Ledger.put, e, u1], u2, u3, u4⟩
      | add v l t ht ho hv hmm =>
        refine ⟨?_, hh, Nat.le_refl _, fun e => e⟩
        simp only [List.map_append, List.map_cons, List.map_nil]
        exact List.nodup_append.2 ⟨hn, by simp, fun a ha b hb e => hv (by
          simp only [List.mem_singleton] at hb
          rw [← hb, ← e]; exact ha)⟩
      | remove v l hv he hb =>
        exact ⟨hn.sublist (List.filter_sublist.map _), hh, Nat.le_refl _, fun e => e⟩
      | pause => exact ⟨hn, hh, Nat.le_refl _, fun e => e⟩
      | unpause => exact ⟨hn, hh, Nat.le_refl _, fun e => e⟩
      | fee => exact ⟨hn, hh, Nat.le_refl _, fun e => e⟩
      | handOver => exact ⟨hn, hh, Nat.le_refl _, fun e => e⟩

end Serum.Pool

namespace Serum.Props
open Serum.Pool

/-- C57: whatever users and the admin do, as long as the admin neither removes the asset nor delegates its vault,
the assets per pool token do not fall. -/
theorem admin_never_dilutes {E : PoolEnv} {k : PoolKind} {pk : Nat} {s0 s s' : PoolState × World} {x : Asset} {ok}
    (hb : Born E k pk s0) (h0 : Calls E k ok s0 s) (hn : (s.1.assets.map (·.vault)).Nodup) (hx : x ∈ s.1.assets)
    (hh : Held s.1.signer s.2.toks x.vault) (h : Calls E k (Stays x) s s') :
    Held s'.1.signer s'.2.toks x.vault ∧
    bal s.2.toks x.vault * s'.2.supply ≤ bal s'.2.toks x.vault * s.2.supply := by
  have life := pool_life hb h0
  have key : E.derive pk s'.1.nonce = some s'.1.signer ∧ s'.2.minter = some s'.1.signer ∧
      (s'.1.assets.map (·.vault)).Nodup ∧ x ∈ s'.1.assets ∧ Held s'.1.signer s'.2.toks x.vault ∧
      bal s.2.toks x.vault * s'.2.supply ≤ bal s'.2.toks x.vault * s.2.supply ∧ (s.2.supply = 0 → s'.2.supply = 0) := by
    have glue : ∀ {s1 s2}, Calls E k (Stays x) s1 s2 → Calls E k (fun _ _ => True) s1 s2 := by
      intro s1 s2 h
      induction h with
      | refl => exact .refl _
      | step _ hc _ ih => exact .step ih hc trivial
    have glue0 : ∀ {s1 s2 ok}, Calls E k ok s1 s2 → Calls E k (fun _ _ => True) s1 s2 := by
      intro s1 s2 ok h
      induction h with
      | refl => exact .refl _
      | step _ hc _ ih => exact .step ih hc trivial
    have app : ∀ {s1 s2 s3}, Calls E k (fun _ _ => True) s1 s2 → Calls E k (fun _ _ => True) s2 s3 →
        Calls E k (fun _ _ => True) s1 s3 := by
      intro s1 s2 s3 h h'
      induction h' with
      | refl => exact h
      | step _ hc ho ih => exact .step ih hc ho
    induction h with
    | refl => exact ⟨life.1, life.2.2.2, hn, hx, hh, Nat.le_refl _, fun e => e⟩
    | step hpre hc hs ih =>
      rename_i s1 s2
      obtain ⟨i1, i2, i3, i4, i5, i6, i7⟩ := ih
      obtain ⟨j1, j2, j3, j4⟩ := stays_step i2 i3 i4 i5 hc hs
      have l2 := pool_life hb (.step (app (glue0 h0) (glue hpre)) hc trivial)
      refine ⟨l2.1, l2.2.2.2, j1, hs.1, j2, ?_, fun e => j4 (i7 e)⟩
      by_cases hz : s1.2.supply = 0
      · rw [j4 hz]; simp
      · refine Nat.le_of_mul_le_mul_right ?_ (Nat.pos_of_ne_zero hz)
        calc bal s.2.toks x.vault * s2.2.supply * s1.2.supply
            = bal s.2.toks x.vault * s1.2.supply * s2.2.supply := by rw [Nat.mul_right_comm]
          _ ≤ bal s1.2.toks x.vault * s.2.supply * s2.2.supply := Nat.mul_le_mul_right _ i6
          _ = bal s1.2.toks x.vault * s2.2.supply * s.2.supply := by rw [Nat.mul_right_comm]
          _ ≤ bal s2.2.toks x.vault * s1.2.supply * s.2.supply := Nat.mul_le_mul_right _ j3
          _ = bal s2.2.toks x.vault * s.2.supply * s1.2.supply := by rw [Nat.mul_right_comm]
  exact ⟨key.2.2.2.2.1, key.2.2.2.2.2.1⟩

/-! ### A pool with an admin -/

namespace AdminDemo

def E : PoolEnv := PoolDemo.E

/-- A running pool of the admin 60 with an empty second vault. -/
def w : World := { PoolDemo.w with toks := PoolDemo.w.toks.put 21 (some (PoolDemo.tok 3 9 0)) }

def st : PoolState := { PoolDemo.st with admin := some 60, custom := some false }

def req : InitReq := ⟨0, 2, 2500⟩

def initAccts : List AccMeta :=
  [⟨4, false⟩, ⟨1, false⟩, ⟨20, false⟩, ⟨21, false⟩, ⟨9, false⟩, ⟨40, false⟩, ⟨41, false⟩, ⟨6, false⟩, ⟨60, false⟩]

def B : InitAccts := ⟨⟨4, false⟩, ⟨1, false⟩, [⟨20, false⟩, ⟨21, false⟩], ⟨9, false⟩, ⟨40, false⟩, ⟨41, false⟩, ⟨6, false⟩, [⟨60, false⟩]⟩

/-- The admin's request with further accounts. -/
def by60 (l : List AccMeta) : List AccMeta := ⟨4, false⟩ :: ⟨60, true⟩ :: l

theorem safe20 : ∃ t, w.toks 20 = some t ∧ t.owner = 9 ∧ t.closeAuth = none ∧ Tok.idle t := ⟨PoolDemo.tok 2 9 1000, rfl, rfl, rfl, .inl rfl⟩
theorem safe21 : ∃ t, w.toks 21 = some t ∧ t.owner = 9 ∧ t.closeAuth = none ∧ Tok.idle t := ⟨PoolDemo.tok 3 9 0, rfl, rfl, rfl, .inl rfl⟩

theorem inits : Inits E .admin w initAccts req B st where
  listed := rfl
  count := rfl
  derived := rfl
  minter := rfl
  vaultToks := by
    intro x hx
    simp only [st, PoolDemo.st, List.mem_cons, List.not_mem_nil, or_false] at hx
    rcases hx with rfl | rfl
    · exact ⟨PoolDemo.tok 2 9 1000, rfl, rfl, .inl rfl⟩
    · exact ⟨PoolDemo.tok 3 9 0, rfl, rfl, .inl rfl⟩
  lqdTok := ⟨PoolDemo.tok 1 8 0, rfl, rfl, rfl, rfl, .inl rfl⟩
  initTok := ⟨PoolDemo.tok 1 51 90, rfl, rfl⟩
  rent := rfl
  exempt := fun _ _ => rfl
  bounds := by decide
  mint := rfl
  vaults := rfl
  signer := rfl
  nonce := rfl
  params := rfl
  lqd := rfl
  initializer := rfl
  rate := rfl
  kind := ⟨⟨⟨60, false⟩, [], rfl, rfl⟩, rfl⟩

theorem born : Born E .admin 4 (st, w) := ⟨initAccts, req, B, pool_init.2 ⟨rfl, B, inits⟩, inits, rfl⟩

theorem clean : ∀ x ∈ (st, w).1.assets, Safe (st, w).1.signer (st, w).2.toks x.vault := by
  intro x hx
  simp only [st, PoolDemo.st, List.mem_cons, List.not_mem_nil, or_false] at hx
  rcases hx with rfl | rfl
  · exact safe20
  · exact safe21

/-- States after: delegate 70 approved for the empty vault, vault removed, pool unpaused, vault added again. -/
def st1 : PoolState := { st with custom := some true }
def w1 : World := { w with toks := w.toks.put 21 (some { PoolDemo.tok 3 9 0 with delegate := some 70, delegated := 500 }) }
def st2 : PoolState := { st1 with assets := [⟨2, 20⟩] }
def st3 : PoolState := { st2 with custom := some false }
def st4 : PoolState := { st3 with assets := [⟨2, 20⟩, ⟨3, 21⟩] }

theorem call {st st' : PoolState} {w w' : World} {l : List AccMeta} {ix : AdminIx} (ha : st.admin = some 60)
    (hc : st.custom.isSome) (hg : st.signer = 9) (hl : ∀ b ∈ l, b.signer = false) (h : Administers E st w l ix st' w') :
    Call E .admin (st, w) (st', w') := by
  refine .request (accts := by60 l) (r := .admin ix) (fun a h1 h2 e => ?_) (fun n hn => by rcases hn with h | h <;> cases h)
    (pool_admin.2 ⟨_, ⟨60, true⟩, l, rfl, ha, rfl, hc, h⟩)
  simp only [by60, List.mem_cons] at h1
  have e9 : a.key = 9 := e.trans hg
  rcases h1 with rfl | rfl | h1
  · cases h2
  · cases e9
  · rw [hl a h1] at h2; cases h2

theorem c1 : Call E .admin (st, w) (st1, w1) :=
  call rfl rfl rfl (l := [⟨21, false⟩, ⟨70, false⟩, ⟨9, false⟩, ⟨7, false⟩]) (by decide)
    (.approve ⟨21, false⟩ ⟨70, false⟩ ⟨9, false⟩ ⟨7, false⟩ [] 500 (PoolDemo.tok 3 9 0) (by decide) rfl rfl rfl rfl rfl)

theorem c2 : Call E .admin (st1, w1) (st2, w1) :=
  call rfl rfl rfl (l := [⟨21, false⟩]) (by decide) (.remove ⟨21, false⟩ [] (by decide) (by simp [w1, Ledger.put]) (by decide))

theorem c3 : Call E .admin (st2, w1) (st3, w1) :=
  call rfl rfl rfl (l := [⟨20, false⟩]) (by decide) (.unpause [⟨20, false⟩] [] rfl (by
    intro x hx
    simp only [st2, List.mem_cons, List.not_mem_nil, or_false] at hx
    subst hx
    exact ⟨PoolDemo.tok 2 9 1000, rfl, .inl rfl⟩))

theorem c4 : Call E .admin (st3, w1) (st4, w1) :=
  call rfl rfl rfl (l := [⟨21, false⟩]) (by decide)
    (.add ⟨21, false⟩ [] { PoolDemo.tok 3 9 0 with delegate := some 70, delegated := 500 } rfl rfl (by decide) (by decide))

end AdminDemo

/-- The condition on added vaults in `running_undelegated` is needed: the program does not check them, and a pool
born clean can run with a delegate able to spend from a vault. -/
theorem delegate_slips_in : ∃ (E : PoolEnv) (pk : Nat) (s s' : PoolState × World), Born E .admin pk s ∧
    (∀ x ∈ s.1.assets, Safe s.1.signer s.2.toks x.vault) ∧ Calls E .admin (fun _ _ => True) s s' ∧
    s'.1.custom = some false ∧ ∃ x ∈ s'.1.assets, ∃ t d, s'.2.toks x.vault = some t ∧ t.delegate = some d ∧ 0 < t.delegated :=
  ⟨AdminDemo.E, 4, (AdminDemo.st, AdminDemo.w), (AdminDemo.st4, AdminDemo.w1), AdminDemo.born, AdminDemo.clean,
    .step (.step (.step (.step (.refl _) AdminDemo.c1 trivial) AdminDemo.c2 trivial) AdminDemo.c3 trivial) AdminDemo.c4 trivial,
    rfl, ⟨3, 21⟩, by decide, { PoolDemo.tok 3 9 0 with delegate := some 70, delegated := 500 }, 70, rfl, rfl, by decide⟩

/-- The first two steps keep the conditions of `running_undelegated` and, for the other asset, of
`admin_never_dilutes`. -/
example : Calls AdminDemo.E .admin AddsSafe (AdminDemo.st, AdminDemo.w) (AdminDemo.st3, AdminDemo.w1) ∧
    Calls AdminDemo.E .admin (Stays ⟨2, 20⟩) (AdminDemo.st, AdminDemo.w) (AdminDemo.st3, AdminDemo.w1) := by
  refine ⟨.step (.step (.step (.refl _) AdminDemo.c1 ?_) AdminDemo.c2 ?_) AdminDemo.c3 ?_,
    .step (.step (.step (.refl _) AdminDemo.c1 ?_) AdminDemo.c2 ?_) AdminDemo.c3 ?_⟩
  all_goals first
    | (intro x hx hn; exact absurd hx hn)
    | (intro x hx hn
       simp only [AdminDemo.st2, List.mem_cons, List.not_mem_nil, or_false] at hx
       subst hx
       exact absurd (by decide) hn)
    | exact ⟨by decide, fun t ht => by cases ht; rfl⟩

/-- The pool of the example sells pool tokens while running, and not while paused. -/
example : (match execute AdminDemo.E .admin AdminDemo.st AdminDemo.w PoolDemo.accts (.create 33) with
      | .ok w => bal w.toks 20
      | .error _ => 0) = 1330 ∧
    (match execute AdminDemo.E .admin AdminDemo.st1 AdminDemo.w PoolDemo.accts (.create 33) with
      | .ok _ => false
      | .error _ => true) = true := by
  decide +kernel

end Serum.Props
