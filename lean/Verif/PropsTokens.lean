import Verif.Chain
import Verif.Runs
import Verif.PropsHist
import Verif.DemoChain

/-!
C122: the exchange neither makes nor destroys tokens, and takes them only from accounts whose owner or delegate signed.
Any state of the accounts, reachable or not.
-/

namespace Serum.Props

/-! ### Spec -/

/-- What an account holds of the token `mint`. -/
def holding (l : Ledger) (mint a : Nat) : Nat :=
  match l a with
  | some t => if t.mint = mint then t.amount else 0
  | none => 0

/-- What may happen to a token account when those in `may` sign. -/
structure SameAccount (may : Nat → Prop) (t t' : Tok) : Prop where
  mint : t'.mint = t.mint
  owner : t'.owner = t.owner
  frozen : t'.frozen = t.frozen
  closeAuth : t'.closeAuth = t.closeAuth
  /-- An approval is used up or shrinks, it is never raised or passed on. -/
  delegated : t'.delegated ≤ t.delegated
  delegate : t'.delegate = t.delegate ∨ t'.delegate = none ∧ t'.delegated = 0
  /-- Tokens go only if the owner or the delegate signed, -/
  signed : t'.amount < t.amount → ∃ k, may k ∧ (t.owner = k ∨ t.delegate = some k)
  /-- and without the owner never more than the delegate was approved for. -/
  approved : ¬ may t.owner → t.amount + t'.delegated ≤ t'.amount + t.delegated

/-- Tokens changed hands and nothing else, signed by those in `may`. -/
structure Exchanged (may : Nat → Prop) (l l' : Ledger) : Prop where
  none_ : ∀ a, l a = none → l' a = none
  acct : ∀ a t, l a = some t → ∃ t', l' a = some t' ∧ SameAccount may t t'
  /-- Finitely many accounts changed, -/
  finite : ∃ L : List Nat, ∀ a, a ∉ L → l' a = l a
  /-- and together they hold as much of every token as before. -/
  total : ∀ mint (L : List Nat), L.Nodup → (∀ a, l' a ≠ l a → a ∈ L) →
    total (holding l' mint) L = total (holding l mint) L

/-! ### One transfer -/

theorem total_moved {f g : Nat → Nat} {x y n : Nat} (hxy : x ≠ y) (hx : g x + n = f x) (hy : g y = f y + n)
    (ho : ∀ a, a ≠ x → a ≠ y → g a = f a) : ∀ {L : List Nat}, L.Nodup →
    total g L + (if x ∈ L then n else 0) = total f L + if y ∈ L then n else 0
  | [], _ => rfl
  | a :: L, h => by
    obtain ⟨h1, h2⟩ := List.nodup_cons.1 h
    have ih := total_moved hxy hx hy ho h2
    have e : ∀ k : Nat → Nat, total k (a :: L) = k a + total k L := fun k => by simp [total]
    rw [e, e]
    by_cases g1 : a = x
    · subst g1
      have : (y = a ∨ y ∈ L) ↔ y ∈ L := by simp [Ne.symm hxy]
      simp only [List.mem_cons, true_or, if_true, this]
      rw [if_neg h1] at ih
      omega
    · by_cases g2 : a = y
      · subst g2
        have : (x = a ∨ x ∈ L) ↔ x ∈ L := by simp [hxy]
        simp only [List.mem_cons, true_or, if_true, this]
        rw [if_neg h1] at ih
        omega
      · have e1 : (x = a ∨ x ∈ L) ↔ x ∈ L := by simp [Ne.symm g1]
        have e2 : (y = a ∨ y ∈ L) ↔ y ∈ L := by simp [Ne.symm g2]
        simp only [List.mem_cons, e1, e2, ho a g1 g2]
        omega

theorem SameAccount.refl {may : Nat → Prop} (t : Tok) : SameAccount may t t :=
  ⟨rfl, rfl, rfl, rfl, Nat.le_refl _, .inl rfl, fun h => absurd h (Nat.lt_irrefl _), fun _ => Nat.le_refl _⟩

theorem SameAccount.trans {may : Nat → Prop} {t u v : Tok} (h : SameAccount may t u) (g : SameAccount may u v) :
    SameAccount may t v := by
  refine ⟨g.mint.trans h.mint, g.owner.trans h.owner, g.frozen.trans h.frozen, g.closeAuth.trans h.closeAuth,
    Nat.le_trans g.delegated h.delegated, ?_, fun hl => ?_, fun hn => ?_⟩
  · rcases g.delegate with e | e
    · rcases h.delegate with e' | ⟨e', e''⟩
      · exact .inl (e.trans e')
      · exact .inr ⟨e.trans e', by have := g.delegated; omega⟩
    · exact .inr e
  · by_cases hc : u.amount < t.amount
    · exact h.signed hc
    · obtain ⟨k, hk, ho⟩ := g.signed (by omega)
      refine ⟨k, hk, ?_⟩
      rcases ho with ho | ho
      · exact .inl (h.owner.symm.trans ho)
      · rcases h.delegate with e | ⟨e, _⟩
        · exact .inr (e.symm.trans ho)
        · rw [e] at ho; cases ho
  · have h1 := h.approved hn
    have h2 := g.approved (by rw [h.owner]; exact hn)
    omega

theorem debit_same {may : Nat → Prop} {t t' : Tok} {auth n : Nat} (hm : may auth) (hn : n ≤ t.amount)
    (h : debitTok t auth n = .ok t') : SameAccount may t t' ∧ t'.amount + n = t.amount := by
  unfold debitTok at h
  split at h
  · rename_i hd
    split at h
    · cases h
    · rename_i hle
      cases h
      refine ⟨⟨rfl, rfl, rfl, rfl, Nat.sub_le _ _, ?_, fun _ => ⟨auth, hm, .inr hd⟩, fun _ => ?_⟩, ?_⟩
      · simp only
        split
        · exact .inr ⟨rfl, by assumption⟩
        · exact .inl rfl
      · simp only; omega
      · simp only; omega
  · split at h
    · cases h
    · rename_i ho
      cases h
      have ho : t.owner = auth := by simpa using ho
      refine ⟨⟨rfl, rfl, rfl, rfl, Nat.le_refl _, .inl rfl, fun _ => ⟨auth, hm, .inl ho⟩, fun hn => ?_⟩, ?_⟩
      · exact absurd (ho ▸ hm) hn
      · simp only; omega

/-- Like `Exchanged`, with the accounts counted that were touched on the way. -/
structure Carried (may : Nat → Prop) (l l' : Ledger) : Prop where
  none_ : ∀ a, l a = none → l' a = none
  acct : ∀ a t, l a = some t → ∃ t', l' a = some t' ∧ SameAccount may t t'
  touched : ∃ T : List Nat, (∀ a, a ∉ T → l' a = l a) ∧ ∀ mint (L : List Nat), L.Nodup → (∀ a ∈ T, a ∈ L) →
    Props.total (holding l' mint) L = Props.total (holding l mint) L

theorem Carried.refl {may : Nat → Prop} (l : Ledger) : Carried may l l :=
  ⟨fun _ h => h, fun _ t h => ⟨t, h, .refl t⟩, [], fun _ _ => rfl, fun _ _ _ _ => rfl⟩

theorem Carried.trans {may : Nat → Prop} {l l1 l2 : Ledger} (h : Carried may l l1) (g : Carried may l1 l2) : Carried may l l2 := by
  obtain ⟨T, t1, t2⟩ := h.touched
  obtain ⟨U, u1, u2⟩ := g.touched
  refine ⟨fun a ha => g.none_ a (h.none_ a ha), fun a t ha => ?_, T ++ U, fun a ha => ?_, fun mint L hL hT => ?_⟩
  · obtain ⟨t', h1, h2⟩ := h.acct a t ha
    obtain ⟨t'', h3, h4⟩ := g.acct a t' h1
    exact ⟨t'', h3, h2.trans h4⟩
  · rw [List.mem_append, not_or] at ha
    rw [u1 a ha.2, t1 a ha.1]
  · rw [u2 mint L hL fun a ha => hT a (List.mem_append_right _ ha), t2 mint L hL fun a ha => hT a (List.mem_append_left _ ha)]

theorem transfer_carried {may : Nat → Prop} {l l' : Ledger} {src dst auth n : Nat} (hm : may auth)
    (h : splTransfer l src dst auth n = .ok l') : Carried may l l' := by
  unfold splTransfer at h
  split at h
  · rename_i s d hs hd
    split at h
    · cases h
    split at h
    · cases h
    rename_i hn
    split at h
    · cases h
    rename_i hmint
    split at h
    · cases h
    rename_i s' hdt
    split at h
    · cases h; exact .refl _
    rename_i hne
    split at h
    · cases h
    cases h
    obtain ⟨hsame, hamt⟩ := debit_same hm (Nat.le_of_not_lt hn) hdt
    have hmint : s.mint = d.mint := by simpa using hmint
    refine ⟨fun a ha => ?_, fun a t ha => ?_, [src, dst], fun a ha => ?_, fun mint L hL hT => ?_⟩
    · have h1 : a ≠ dst := by rintro rfl; rw [hd] at ha; cases ha
      have h2 : a ≠ src := by rintro rfl; rw [hs] at ha; cases ha
      simp only [if_neg h1, if_neg h2, ha]
    · by_cases h1 : a = dst
      · subst h1
        rw [hd] at ha
        cases ha
        refine ⟨{ d with amount := d.amount + n }, by simp only [if_true], rfl, rfl, rfl, rfl, Nat.le_refl _, .inl rfl,
          fun h => ?_, fun _ => ?_⟩
        · have h : d.amount + n < d.amount := h
          omega
        · show d.amount + d.delegated ≤ d.amount + n + d.delegated
          omega
      · by_cases h2 : a = src
        · subst h2
          rw [hs] at ha
          cases ha
          exact ⟨s', by simp only [if_neg h1, if_true], hsame⟩
        · exact ⟨t, by simp only [if_neg h1, if_neg h2, ha], .refl t⟩
    · simp only [List.mem_cons, List.not_mem_nil, or_false, not_or] at ha
      simp only [if_neg ha.1, if_neg ha.2]
    · have i1 : src ∈ L := hT _ (by simp)
      have i2 : dst ∈ L := hT _ (by simp)
      by_cases hmm : d.mint = mint
      · have := total_moved (f := holding l mint)
          (g := holding (fun a => if a = dst then some { d with amount := d.amount + n } else if a = src then some s' else l a) mint)
          (x := src) (y := dst) (n := n) hne
          (by simp only [holding, if_neg hne, if_true, hs, hsame.mint, hmint, hmm]; exact hamt)
          (by simp only [holding, if_true, hd, hmm])
          (fun a g1 g2 => by simp only [holding, if_neg g1, if_neg g2]) hL
        rw [if_pos i1, if_pos i2] at this
        omega
      · refine congrArg List.sum (List.map_congr_left fun a _ => ?_)
        simp only [holding]
        by_cases g2 : a = dst
        · subst g2; simp only [if_true, hd, if_neg hmm]
        · by_cases g1 : a = src
          · subst g1
            simp only [if_neg g2, if_true, hs, hsame.mint, hmint, if_neg hmm]
          · simp only [if_neg g2, if_neg g1]
  · cases h

theorem nodup_cover : ∀ (T L : List Nat), L.Nodup → ∃ M, (L ++ M).Nodup ∧ ∀ a ∈ T, a ∈ L ++ M
  | [], L, h => ⟨[], by simpa using h, by simp⟩
  | x :: T, L, h => by
    obtain ⟨M, h1, h2⟩ := nodup_cover T L h
    by_cases hx : x ∈ L ++ M
    · exact ⟨M, h1, fun a ha => (List.mem_cons.1 ha).elim (fun e => e ▸ hx) (h2 a)⟩
    · refine ⟨M ++ [x], ?_, fun a ha => ?_⟩
      · rw [← List.append_assoc, List.nodup_append]
        refine ⟨h1, by simp, fun a ha b hb => ?_⟩
        rw [List.mem_singleton] at hb
        rintro rfl
        exact hx (hb ▸ ha)
      · rw [← List.append_assoc, List.mem_append, List.mem_singleton]
        rcases List.mem_cons.1 ha with rfl | ha
        · exact .inr rfl
        · exact .inl (h2 a ha)

theorem Carried.exchanged {may : Nat → Prop} {l l' : Ledger} (h : Carried may l l') : Exchanged may l l' := by
  obtain ⟨T, h1, h2⟩ := h.touched
  refine ⟨h.none_, h.acct, ⟨T, h1⟩, fun mint L hL hc => ?_⟩
  obtain ⟨M, hM, hT⟩ := nodup_cover T L hL
  have := h2 mint _ hM hT
  have e : ∀ k : Nat → Nat, Props.total k (L ++ M) = Props.total k L + Props.total k M := fun k => by
    simp [Props.total]
  rw [e, e] at this
  have e' : Props.total (holding l' mint) M = Props.total (holding l mint) M := by
    refine congrArg List.sum (List.map_congr_left fun a ha => ?_)
    have hn : a ∉ L := fun hl => (List.nodup_append.1 hM).2.2 a hl a ha rfl
    have : l' a = l a := Classical.byContradiction fun hne => hn (hc a hne)
    unfold holding
    rw [this]
  omega

/-! ### One instruction -/

/-- Who can sign for tokens in an instruction: who signed it, and the vault signer of the market. -/
def CanSign (P : Params) (m : Market) (accts : List AccMeta) (k : Nat) : Prop :=
  (∃ a ∈ accts, a.signer = true ∧ a.key = k) ∨ P.vaultSigner m.ownAddress m.vaultSignerNonce = some k

theorem deposit_carried {may : Nat → Prop} {l l' : Ledger} {src v auth n : Nat} (hm : may auth)
    (h : depositIn l src v auth n = .ok l') : Carried may l l' := by
  unfold depositIn at h
  split at h
  · cases h; exact .refl _
  · split at h
    · cases h
    · cases h
    · rename_i e
      split at h
      · cases h; exact transfer_carried hm e
      · cases h

theorem send_carried {may : Nat → Prop} {P : Params} {m m' : Market} {l l' : Ledger} {v d n : Nat}
    (he : m'.ownAddress = m.ownAddress ∧ m'.vaultSignerNonce = m.vaultSignerNonce)
    (hm : ∀ k, P.vaultSigner m.ownAddress m.vaultSignerNonce = some k → may k)
    (h : sendFromVault P m' l v d n = .ok l') : Carried may l l' := by
  unfold sendFromVault at h
  rw [he.1, he.2] at h
  split at h
  · cases h
  · rename_i e
    split at h
    · rename_i e'; cases h; exact transfer_carried (hm _ e) e'
    · cases h

variable {I : Impl}

theorem place_carried {P : Params} {env : Env} {s s' : State I} {accts : List AccMeta} {ix : NewOrderIx}
    (h : newOrderV3 I P env s accts ix = .ok s') : Carried (CanSign P s.mkt accts) s.toks s'.toks := by
  unfold newOrderV3 at h
  obtain ⟨a, hp, h⟩ := bind_ok h
  obtain ⟨⟨tier, oo⟩, hargs, h⟩ := bind_ok h
  have hmem : a.owner ∈ accts := by
    unfold parseNewOrder at hp
    split at hp
    · split at hp
      · cases hp; simp
      · cases hp
    · cases hp
  have hsig : a.owner.signer = true := (newOrderArgs_inv hp hargs).signed
  unfold newOrderExec at h
  obtain ⟨_, _, h⟩ := bind_ok h
  obtain ⟨_, _, h⟩ := bind_ok h
  obtain ⟨⟨m1, o1, d⟩, hlk, h⟩ := bind_ok h
  simp only at h
  obtain ⟨⟨slot, o2⟩, hadd, h⟩ := bind_ok h
  simp only at h
  obtain ⟨⟨ob', rem, lim'⟩, hno, h⟩ := bind_ok h
  simp only at h
  obtain ⟨_, _, h⟩ := bind_ok h
  obtain ⟨o', hpr, h⟩ := bind_ok h
  obtain ⟨l', hdep, h⟩ := bind_ok h
  cases h
  exact deposit_carried (.inl ⟨_, hmem, hsig, rfl⟩) hdep

theorem CanSign.keeps {P : Params} {s s' : State I} {accts : List AccMeta} (h : Keeps s s') {k : Nat}
    (hc : CanSign P s'.mkt accts k) : CanSign P s.mkt accts k := by
  unfold CanSign at hc ⊢
  rw [h.eq] at hc
  exact hc

theorem Carried.weaken {may may' : Nat → Prop} {l l' : Ledger} (hm : ∀ k, may k → may' k) (h : Carried may l l') :
    Carried may' l l' := by
  refine ⟨h.none_, fun a t ha => ?_, h.touched⟩
  obtain ⟨t', h1, h2⟩ := h.acct a t ha
  refine ⟨t', h1, h2.mint, h2.owner, h2.frozen, h2.closeAuth, h2.delegated, h2.delegate, fun hl => ?_,
    fun hn => h2.approved fun g => hn (hm _ g)⟩
  obtain ⟨k, hk, ho⟩ := h2.signed hl
  exact ⟨k, hm _ hk, ho⟩

theorem orders_carried {P : Params} {env : Env} {accts : List AccMeta} {ixs : List NewOrderIx} : ∀ {s s' : State I},
    newOrders I P env s accts ixs = .ok s' → Carried (CanSign P s.mkt accts) s.toks s'.toks := by
  induction ixs with
  | nil => intro s s' h; cases h; exact .refl _
  | cons ix ixs ih =>
    intro s s' h
    unfold newOrders at h
    obtain ⟨s1, h1, h⟩ := bind_ok h
    exact (place_carried h1).trans ((ih h).weaken fun k hk => hk.keeps (newOrderV3_keeps h1).1)

theorem take_carried {P : Params} {s s' : State I} {accts : List AccMeta} {ix : SendTakeIx}
    (h : sendTake I P s accts ix = .ok s') : Carried (CanSign P s.mkt accts) s.toks s'.toks := by
  have hk := (sendTake_keeps h).1.eq
  unfold sendTake at h
  obtain ⟨a, hp, h⟩ := bind_ok h
  obtain ⟨tier, hargs, h⟩ := bind_ok h
  have hA := sendTakeArgs_inv hp hargs
  have hmem : a.signer ∈ accts := by
    unfold parseSendTake at hp
    split at hp
    · split at hp
      · cases hp; simp
      · cases hp
    · cases hp
  unfold sendTakeExec at h
  simp only at h
  obtain ⟨⟨ob', rem, lim'⟩, hno, h⟩ := bind_ok h
  simp only at h
  obtain ⟨_, _, h⟩ := bind_ok h
  obtain ⟨⟨m', D, w⟩, htot, h⟩ := bind_ok h
  simp only at h
  obtain ⟨l', htr, h⟩ := bind_ok h
  cases h
  have hm : CanSign P s.mkt accts a.signer.key := .inl ⟨_, hmem, hA.signed, rfl⟩
  have he : m'.ownAddress = s.mkt.ownAddress ∧ m'.vaultSignerNonce = s.mkt.vaultSignerNonce := by
    have hk : m' = _ := hk
    rw [hk]
    exact ⟨rfl, rfl⟩
  show Carried _ s.toks l'
  unfold sendTakeTransfers at htr
  split at htr
  all_goals
    obtain ⟨l1, h1, h2⟩ := bind_ok htr
    refine (deposit_carried hm h1).trans ?_
    split at h2
    · cases h2; exact .refl _
    · exact send_carried he (fun k hk => .inr hk) h2

theorem settle_carried {P : Params} {env : Env} {s s' : State I} {accts : List AccMeta}
    (h : settleFunds I P env s accts = .ok s') : Carried (CanSign P s.mkt accts) s.toks s'.toks := by
  unfold settleFunds at h
  obtain ⟨a, _, h⟩ := bind_ok h
  obtain ⟨oo, _, h⟩ := bind_ok h
  unfold settleExec at h
  simp only at h
  obtain ⟨_, _, h⟩ := bind_ok h
  obtain ⟨_, _, h⟩ := bind_ok h
  obtain ⟨l1, h1, h⟩ := bind_ok h
  obtain ⟨l2, h2, h⟩ := bind_ok h
  obtain ⟨⟨m, l⟩, hr, h⟩ := bind_ok h
  cases h
  have c1 : Carried (CanSign P s.mkt accts) s.toks l1 := send_carried (m := s.mkt) ⟨rfl, rfl⟩ (fun k hk => .inr hk) h1
  have c2 : Carried (CanSign P s.mkt accts) l1 l2 := send_carried (m := s.mkt) ⟨rfl, rfl⟩ (fun k hk => .inr hk) h2
  refine (c1.trans c2).trans ?_
  show Carried _ l2 l
  unfold settleRebates at hr
  split at hr
  · split at hr
    · obtain ⟨l3, h3, hr⟩ := bind_ok hr
      cases hr
      exact send_carried (m := s.mkt) ⟨rfl, rfl⟩ (fun k hk => .inr hk) h3
    · cases hr; exact .refl _
  · cases hr; exact .refl _

theorem sweep_carried {P : Params} {s s' : State I} {accts : List AccMeta}
    (h : sweepFees I P s accts = .ok s') : Carried (CanSign P s.mkt accts) s.toks s'.toks := by
  unfold sweepFees at h
  split at h
  · iterate 7 obtain ⟨_, _, h⟩ := bind_ok h
    obtain ⟨l1, h1, h⟩ := bind_ok h
    cases h
    exact send_carried (m := s.mkt) ⟨rfl, rfl⟩ (fun k hk => .inr hk) h1
  · cases h

theorem Carried.of_eq {may : Nat → Prop} {l l' : Ledger} (h : l' = l) : Carried may l l' := h ▸ .refl _

theorem replace_carried {P : Params} {env : Env} {s s' : State I} {accts : List AccMeta} {ixs : List NewOrderIx}
    (h : replaceOrders I P env s accts ixs = .ok s') : Carried (CanSign P s.mkt accts) s.toks s'.toks := by
  unfold replaceOrders at h
  obtain ⟨_, _, h⟩ := bind_ok h
  obtain ⟨s1, h1, h⟩ := bind_ok h
  obtain ⟨k1, _, _, e⟩ := cancelByClientIds_keeps h1
  have := orders_carried h
  rw [e] at this
  exact this.weaken fun k hk => hk.keeps k1

theorem process_carried {P : Params} {env : Env} {s s' : State I} {accts : List AccMeta} {ix : Instruction}
    (h : process I P env s accts ix = .ok s') : Carried (CanSign P s.mkt accts) s.toks s'.toks := by
  unfold process at h
  split at h
  · cases h
  · cases h
  · cases h; exact .refl _
  · exact .of_eq (consumeEvents_keeps h).2.2.2.1
  · cases h
  · exact settle_carried h
  · cases h
  · unfold disableMarket at h
    split at h
    · iterate 3 obtain ⟨_, _, h⟩ := bind_ok h
      cases h
      exact .refl _
    · cases h
  · exact sweep_carried h
  · cases h
  · exact place_carried h
  · exact .of_eq (cancelV2_keeps h).2.2.2
  · exact .of_eq (cancelByClientIdV2_keeps h).2.2.2
  · exact take_carried h
  · unfold closeOpenOrders at h
    split at h
    · iterate 4 obtain ⟨_, _, h⟩ := bind_ok h
      cases h
      exact .refl _
    · cases h
  · unfold initOpenOrders at h
    split at h
    · split at h
      · iterate 4 obtain ⟨_, _, h⟩ := bind_ok h
        cases h
        exact .refl _
      · cases h
    · cases h
  · exact .of_eq (prune_keeps h).2.2.2
  · exact .of_eq (consumePermissioned_keeps h).2.2.2.1
  · exact .of_eq (cancelByClientIds_keeps h).2.2.2
  · exact replace_carried h
  · exact replace_carried h

end Serum.Props

namespace Serum.Demo

/-- 11 lets 14 spend 800 units of wallet 21. -/
def lent : State conc := { s0 with toks := (tokExec (· == 11) s0.toks (.approve 21 14 11 800)).getD s0.toks }
/-- 14 asks 5 lots with them. -/
def spent : State conc := run lent (orderAccts 43 21 14) i1
theorem e_spent : process conc P env lent (orderAccts 43 21 14) i1 = .ok spent := run_eq (by decide +kernel)

end Serum.Demo

namespace Serum.Props

/-! ### C122 -/

/-- C122. An instruction moves tokens and does nothing else to token accounts: none appears or disappears or changes its token,
its owner or its authorities; the accounts that changed hold together as much of every token as before; an account lost tokens
only if its owner or its delegate signed, or is the vault signer of the market. This needs nothing of the state. -/
theorem tokens_kept {P : Params} {env : Env} {s s' : State I} {accts : List AccMeta} {data : List UInt8}
    (h : processRaw I P env s accts data = .ok s') : Exchanged (CanSign P s.mkt accts) s.toks s'.toks := by
  unfold processRaw at h
  split at h
  · exact (process_carried h).exchanged
  · cases h

-- a take moves both tokens between the wallets of 12 and the vaults
example : processRaw conc Demo.P Demo.env Demo.s1 Demo.takeAccts (Instruction.sendTake Demo.takeIx).pack = .ok Demo.sT ∧
    (∀ a ∈ [22, 32, 51, 52], Demo.sT.toks a ≠ Demo.s1.toks a) ∧
    total (holding Demo.s1.toks 80) [22, 32, 51, 52] = 100500 ∧ total (holding Demo.sT.toks 80) [22, 32, 51, 52] = 100500 ∧
    holding Demo.sT.toks 80 22 = 100200 ∧ holding Demo.sT.toks 81 32 < holding Demo.s1.toks 81 32 ∧
    total (holding Demo.s1.toks 81) [22, 32, 51, 52] = 10000000 ∧ total (holding Demo.sT.toks 81) [22, 32, 51, 52] = 10000000 :=
  ⟨by unfold processRaw; rw [instruction_round_trip _ Demo.takeValid]; exact Demo.eT, by decide +kernel, by decide +kernel,
    by decide +kernel, by decide +kernel, by decide +kernel, by decide +kernel, by decide +kernel⟩

-- a delegate spends 500 of the 800 units it was approved for, without the owner's signature
example : processRaw conc Demo.P Demo.env Demo.lent (Demo.orderAccts 43 21 14) Demo.i1.pack = .ok Demo.spent ∧
    (Demo.lent.toks 21).map (fun t => (t.owner, t.amount, t.delegate, t.delegated)) = some (11, 100000, some 14, 800) ∧
    (Demo.spent.toks 21).map (fun t => (t.owner, t.amount, t.delegate, t.delegated)) = some (11, 99500, some 14, 300) ∧
    ¬ CanSign Demo.P Demo.lent.mkt (Demo.orderAccts 43 21 14) 11 :=
  ⟨by
    unfold processRaw
    rw [instruction_round_trip Demo.i1 (Demo.valid (by decide))]
    exact Demo.e_spent, by decide +kernel, by decide +kernel, by
    rintro (⟨a, ha, h1, h2⟩ | h)
    · have : ∀ a ∈ Demo.orderAccts 43 21 14, a.signer = true → a.key ≠ 11 := by decide
      exact this a ha h1 h2
    · simp [Demo.P] at h⟩

/-- Who can sign for tokens in an instruction on the chain: who signed it, and the vault signer of a market it names. -/
def CanSignOn (P : Params) (c : Chain) (accts : List AccMeta) (k : Nat) : Prop :=
  (∃ a ∈ accts, a.signer = true ∧ a.key = k) ∨
  ∃ a ∈ accts, ∃ m, IsMarket c a.key m ∧ P.vaultSigner m.ownAddress m.vaultSignerNonce = some k

theorem marketAt_mem {ix : Instruction} {accts : List AccMeta} {k : Nat} (h : marketAt ix accts = some k) :
    ∃ a ∈ accts, a.key = k := by
  have key : ∀ i : Nat, (accts[i]?).map (fun a : AccMeta => a.key) = some k → ∃ a ∈ accts, a.key = k := by
    intro i hi
    obtain ⟨a, ha, e⟩ := Option.map_eq_some_iff.1 hi
    exact ⟨a, List.mem_of_getElem? ha, e⟩
  unfold marketAt at h
  cases ix <;> simp only at h <;> first | cases h; done | exact key _ h | (split at h; exact key _ h; cases h)

theorem bytes_carried {P : Params} {mints : Nat → Bool} {now : Int} {c c' : Chain} {accts : List AccMeta} {data : List UInt8}
    (h : execBytes P mints now c accts data = .ok c') : Carried (CanSignOn P c accts) c.toks c'.toks := by
  unfold execBytes at h
  split at h
  · cases h
  · obtain ⟨W, _, h⟩ := bind_ok h
    cases h
    exact .refl _
  · cases h; exact .refl _
  · split at h
    · cases h
    · rename_i k hk
      simp only at h
      obtain ⟨s, hs, h⟩ := bind_ok h
      obtain ⟨s', hp, h⟩ := bind_ok h
      cases h
      show Carried _ c.toks s'.toks
      unfold loadState at hs
      obtain ⟨m, hm, hs⟩ := bind_ok hs
      obtain ⟨⟨_, count, seq, _⟩, _, hs⟩ := bind_ok hs
      obtain ⟨q, _, hs⟩ := bind_ok hs
      obtain ⟨asks, _, hs⟩ := bind_ok hs
      have e : s.toks = c.toks ∧ s.mkt = m := by
        simp only at hs
        split at hs <;> (obtain ⟨bids, _, hs⟩ := bind_ok hs; cases hs; exact ⟨rfl, rfl⟩)
      have := process_carried hp
      rw [e.1, e.2] at this
      refine this.weaken fun x hx => ?_
      rcases hx with hx | hx
      · exact .inl hx
      · obtain ⟨a, ha, e⟩ := marketAt_mem hk
        subst e
        exact .inr ⟨a, ha, m, hm, hx⟩

/-- C122, on bytes: whatever the accounts contain. -/
theorem tokens_kept_bytes {P : Params} {mints : Nat → Bool} {now : Int} {c c' : Chain} {accts : List AccMeta} {data : List UInt8}
    (h : execBytes P mints now c accts data = .ok c') : Exchanged (CanSignOn P c accts) c.toks c'.toks :=
  (bytes_carried h).exchanged

/-- A history in which tokens are only sent: instructions of the exchange, token transfers, and anything at all done to other
accounts; those in `may` sign, and vault signers are among them. -/
inductive Trading (P : Params) (may : Nat → Prop) : Chain → Chain → Prop where
  | refl {c : Chain} : Trading P may c c
  | instr {c c1 c2 : Chain} {mints : Nat → Bool} {now : Int} {accts : List AccMeta} {data : List UInt8} (h : Trading P may c c1)
      (hs : ∀ a ∈ accts, a.signer = true → may a.key) (hx : execBytes P mints now c1 accts data = .ok c2) : Trading P may c c2
  | send {c c1 : Chain} {src dst auth n : Nat} {l : Ledger} (h : Trading P may c c1) (ha : may auth)
      (hx : splTransfer c1.toks src dst auth n = .ok l) : Trading P may c { c1 with toks := l }
  | other {c c1 : Chain} {W : Accs} (h : Trading P may c c1) : Trading P may c { c1 with accs := W }

/-- C122, for good. However long people trade, on any markets, the tokens in existence are those there were, account by account of
the same owner, and nobody lost any without a signature of theirs or of their delegate. -/
theorem tokens_last {P : Params} {may : Nat → Prop} (hm : ∀ m n k, P.vaultSigner m n = some k → may k) {c c' : Chain}
    (h : Trading P may c c') : Exchanged may c.toks c'.toks := by
  refine Carried.exchanged ?_
  induction h with
  | refl => exact .refl _
  | instr _ hs hx ih =>
    refine ih.trans ((bytes_carried hx).weaken fun k hk => ?_)
    rcases hk with ⟨a, ha, h1, rfl⟩ | ⟨_, _, m, _, hv⟩
    · exact hs a ha h1
    · exact hm _ _ _ hv
  | send _ ha hx ih => exact ih.trans (transfer_carried ha hx)
  | other _ ih => exact ih

-- an order on one of two markets: 500 units leave wallet 21 of 11, who signed, for the vault of market 50
example : ∃ c, execBytes DemoChain.P (fun _ => true) 0 DemoChain.c3 DemoChain.orderAccts DemoChain.order.pack = .ok c ∧
    Trading DemoChain.P (fun k => k = 11 ∨ 1000 ≤ k) DemoChain.c3 c ∧
    (∀ m n k, DemoChain.P.vaultSigner m n = some k → (k = 11 ∨ 1000 ≤ k)) ∧
    holding DemoChain.c3.toks 80 21 = 100000 ∧ holding c.toks 80 21 = 99500 ∧
    holding DemoChain.c3.toks 80 51 = 0 ∧ holding c.toks 80 51 = 500 := by
  have hk := DemoChain.keys_small (l := DemoChain.orderAccts) (by decide)
  have hu : Instruction.unpack DemoChain.order.pack = some DemoChain.order := instruction_round_trip _ (by
    refine ⟨?_, ?_, ?_, ?_, ?_, ?_⟩ <;> decide)
  obtain ⟨c, hc, r⟩ := (chain_exec DemoChain.differ DemoChain.r3 (by decide) hk.1 hk.2 hu
    (by constructor <;> intro _ h <;> cases h) rfl DemoChain.reps.1 (fun _ => true) 0).1 _ DemoChain.goes
  refine ⟨c, hc, .instr .refl (fun a ha hs => ?_) hc, fun m n k h => ?_, by decide +kernel, ?_, by decide +kernel, ?_⟩
  · have : ∀ a ∈ DemoChain.orderAccts, a.signer = true → a.key = 11 := by decide
    exact .inl (this a ha hs)
  · simp only [DemoChain.P] at h
    split at h
    · have := Option.some.inj h; omega
    · cases h
  · rw [← r.toks]; decide +kernel
  · rw [← r.toks]; decide +kernel

end Serum.Props
