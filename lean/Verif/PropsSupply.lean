import Verif.PropsTokens
import Verif.PropsPools

/-!
C123: a pool makes and destroys only its own token, exactly as the supply records; the supply of a token is what its holders
have together.
-/

namespace Serum.Props

open Pool

/-! ### Spec -/

/-- The supply of the token is what all accounts hold of it together. -/
def SupplyHeld (c : PoolChain) (mint : Nat) : Prop :=
  ∃ L : List Nat, L.Nodup ∧ (∀ a, holding c.toks mint a ≠ 0 → a ∈ L) ∧ total (holding c.toks mint) L = c.supply mint

/-- Finitely many accounts changed, and of every token they gained together what its supply grew by, or lost what it shrank by. -/
def InBalance (c c' : PoolChain) : Prop :=
  ∃ T : List Nat, (∀ a, a ∉ T → c'.toks a = c.toks a) ∧ ∀ mint (L : List Nat), L.Nodup → (∀ a ∈ T, a ∈ L) →
    total (holding c'.toks mint) L + c.supply mint = total (holding c.toks mint) L + c'.supply mint

/-! ### Balances and supply -/

theorem InBalance.refl (c : PoolChain) : InBalance c c := ⟨[], fun _ _ => rfl, fun _ _ _ _ => rfl⟩

theorem InBalance.trans {a b c : PoolChain} (h : InBalance a b) (g : InBalance b c) : InBalance a c := by
  obtain ⟨T, t1, t2⟩ := h
  obtain ⟨U, u1, u2⟩ := g
  refine ⟨T ++ U, fun x hx => ?_, fun mint L hL hT => ?_⟩
  · rw [List.mem_append, not_or] at hx
    rw [u1 x hx.2, t1 x hx.1]
  · have h1 := t2 mint L hL fun x hx => hT x (List.mem_append_left _ hx)
    have h2 := u2 mint L hL fun x hx => hT x (List.mem_append_right _ hx)
    omega

theorem SupplyHeld.change {c c' : PoolChain} {mint : Nat} (h : SupplyHeld c mint) {T : List Nat} (t1 : ∀ a, a ∉ T → c'.toks a = c.toks a)
    (t2 : ∀ L : List Nat, L.Nodup → (∀ a ∈ T, a ∈ L) →
      total (holding c'.toks mint) L + c.supply mint = total (holding c.toks mint) L + c'.supply mint) : SupplyHeld c' mint := by
  obtain ⟨L, h1, h2, h3⟩ := h
  obtain ⟨M, hM, hT⟩ := nodup_cover T L h1
  refine ⟨L ++ M, hM, fun a ha => ?_, ?_⟩
  · by_cases hx : a ∈ T
    · exact hT a hx
    · refine List.mem_append_left _ (h2 a ?_)
      unfold holding at ha ⊢
      rw [t1 a hx] at ha
      exact ha
  · have e : total (holding c.toks mint) (L ++ M) = total (holding c.toks mint) L + total (holding c.toks mint) M := by
      simp [total]
    have z : total (holding c.toks mint) M = 0 := by
      have : ∀ a ∈ M, holding c.toks mint a = 0 := fun a ha => by
        refine Classical.byContradiction fun hne => ?_
        exact (List.nodup_append.1 hM).2.2 a (h2 a hne) a ha rfl
      clear e hM hT
      induction M with
      | nil => rfl
      | cons a M ih =>
        have h1 := this a (by simp)
        have h2 := ih fun b hb => this b (by simp [hb])
        unfold total at h2 ⊢
        rw [List.map_cons, List.sum_cons, h1, h2]
    have := t2 _ hM hT
    omega

theorem SupplyHeld.matched {c c' : PoolChain} {mint : Nat} (h : SupplyHeld c mint) (hb : InBalance c c') : SupplyHeld c' mint := by
  obtain ⟨T, t1, t2⟩ := hb
  exact h.change t1 (t2 mint)

/-- The supply is what any list with all holders holds. -/
theorem SupplyHeld.all {c : PoolChain} {mint : Nat} (h : SupplyHeld c mint) {L : List Nat} (hL : L.Nodup)
    (hc : ∀ a, holding c.toks mint a ≠ 0 → a ∈ L) : total (holding c.toks mint) L = c.supply mint := by
  obtain ⟨K, k1, k2, k3⟩ := h
  have key : ∀ (f : Nat → Nat) (A B : List Nat), A.Nodup → B.Nodup → (∀ a ∈ A, f a ≠ 0 → a ∈ B) → total f A ≤ total f B := by
    intro f A
    induction A with
    | nil => intro B _ _ _; exact Nat.zero_le _
    | cons x A ih =>
      intro B hA hB hc
      obtain ⟨h1, h2⟩ := List.nodup_cons.1 hA
      have e : total f (x :: A) = f x + total f A := by simp [total]
      rw [e]
      by_cases hx : f x = 0
      · have := ih B h2 hB fun a ha => hc a (by simp [ha])
        omega
      · have hm := hc x (by simp) hx
        have hp := ((List.perm_cons_erase hm).map f).sum_nat
        have h3 := ih (B.erase x) h2 (hB.erase x) fun a ha hn =>
          (List.mem_erase_of_ne (fun e : a = x => h1 (e ▸ ha))).2 (hc a (by simp [ha]) hn)
        rw [List.map_cons, List.sum_cons] at hp
        unfold total at h3 ⊢
        omega
  have := key _ L K hL k1 fun a _ => k2 a
  have := key _ K L k1 hL fun a _ => hc a
  omega

theorem total_one_changed {f g : Nat → Nat} {x : Nat} (ho : ∀ a, a ≠ x → g a = f a) : ∀ {L : List Nat}, L.Nodup → x ∈ L →
    total g L + f x = total f L + g x
  | [], _, h => by cases h
  | a :: L, h, hx => by
    obtain ⟨h1, h2⟩ := List.nodup_cons.1 h
    have e : ∀ k : Nat → Nat, total k (a :: L) = k a + total k L := fun k => by simp [total]
    rw [e, e]
    by_cases g1 : a = x
    · subst g1
      have : total g L = total f L := congrArg List.sum (List.map_congr_left fun b hb => ho b fun e => h1 (e ▸ hb))
      omega
    · have ih := total_one_changed ho h2 ((List.mem_cons.1 hx).resolve_left (Ne.symm g1))
      rw [ho a g1]
      omega

/-- One account changed its amount, and the supply of its token accordingly. -/
theorem matched_put {c c' : PoolChain} {a : Nat} {t' : Option Tok} (hl : c'.toks = c.toks.put a t')
    (hs : ∀ mint, holding c'.toks mint a + c.supply mint = holding c.toks mint a + c'.supply mint) : InBalance c c' := by
  refine ⟨[a], fun b hb => ?_, fun mint L hL hT => ?_⟩
  · rw [List.mem_singleton] at hb
    rw [hl]
    simp only [Ledger.put, if_neg hb]
  · have := total_one_changed (f := holding c.toks mint) (g := holding c'.toks mint) (x := a)
      (fun b hb => by rw [hl]; simp only [holding, Ledger.put, if_neg hb]) hL (hT a (by simp))
    have := hs mint
    omega

theorem carried_matched {may : Nat → Prop} {c : PoolChain} {l : Ledger} (h : Carried may c.toks l) :
    InBalance c { c with toks := l } := by
  obtain ⟨T, h1, h2⟩ := h.touched
  exact ⟨T, h1, fun mint L hL hT => by rw [h2 mint L hL hT]⟩

/-! ### The requests of a pool -/

/-- Tokens changed hands, pool tokens were made or destroyed as the supplies say, and nothing else. -/
structure Minted (may : Nat → Prop) (c c' : PoolChain) : Prop where
  none_ : ∀ a, c.toks a = none → c'.toks a = none
  acct : ∀ a t, c.toks a = some t → ∃ t', c'.toks a = some t' ∧ SameAccount may t t'
  sums : InBalance c c'

theorem Minted.refl {may : Nat → Prop} (c : PoolChain) : Minted may c c := ⟨fun _ h => h, fun _ t h => ⟨t, h, .refl t⟩, .refl c⟩

theorem Minted.trans {may : Nat → Prop} {a b c : PoolChain} (h : Minted may a b) (g : Minted may b c) : Minted may a c := by
  refine ⟨fun x hx => g.none_ x (h.none_ x hx), fun x t hx => ?_, h.sums.trans g.sums⟩
  obtain ⟨t', h1, h2⟩ := h.acct x t hx
  obtain ⟨t'', h3, h4⟩ := g.acct x t' h1
  exact ⟨t'', h3, h2.trans h4⟩

theorem Carried.minted {may : Nat → Prop} {c : PoolChain} {l : Ledger} (h : Carried may c.toks l) :
    Minted may c { c with toks := l } := ⟨h.none_, h.acct, carried_matched h⟩

theorem put_minted {may : Nat → Prop} {c c' : PoolChain} {a : Nat} {t t' : Tok} (ht : c.toks a = some t)
    (hl : c'.toks = c.toks.put a (some t')) (hs : SameAccount may t t')
    (hq : ∀ mint, (if t.mint = mint then t'.amount else 0) + c.supply mint = (if t.mint = mint then t.amount else 0) + c'.supply mint) :
    Minted may c c' := by
  refine ⟨fun x hx => ?_, fun x u hx => ?_, matched_put hl fun mint => ?_⟩
  · have : x ≠ a := by rintro rfl; rw [ht] at hx; cases hx
    rw [hl]
    simp only [Ledger.put, if_neg this, hx]
  · by_cases e : x = a
    · subst e
      rw [ht] at hx
      cases hx
      exact ⟨t', by rw [hl]; simp only [Ledger.put, if_true], hs⟩
    · exact ⟨u, by rw [hl]; simp only [Ledger.put, if_neg e, hx], .refl u⟩
  · have := hq mint
    rw [hl]
    simp only [holding, Ledger.put, if_true, ht, hs.mint]
    exact this

theorem transfers_carried {may : Nat → Prop} {auth : Nat} {sg : Bool} (hm : sg = true → may auth) {ts : List (Nat × Nat × Nat)} :
    ∀ {l l' : Ledger}, transfers l auth sg ts = .ok l' → Carried may l l' := by
  induction ts with
  | nil => intro l l' h; cases h; exact .refl _
  | cons t ts ih =>
    intro l l' h
    obtain ⟨src, dst, n⟩ := t
    simp only [transfers] at h
    obtain ⟨l1, h1, h⟩ := bind_ok h
    refine Carried.trans ?_ (ih h)
    unfold transfer at h1
    split at h1
    · cases h1
    rename_i hsg
    have hsg : sg = true := by simpa using hsg
    split at h1
    · rename_i e; cases h1; exact transfer_carried (hm hsg) e
    · cases h1

theorem SameAccount.more {may : Nat → Prop} (t : Tok) (n : Nat) : SameAccount may t { t with amount := t.amount + n } :=
  ⟨rfl, rfl, rfl, rfl, Nat.le_refl _, .inl rfl, fun h => absurd h (by simp only; omega), fun _ => by simp only; omega⟩

theorem mintTo_minted {may : Nat → Prop} {c : PoolChain} {m a n : Nat} {w : World} (h : mintTo (c.world m) m a n = .ok w) :
    Minted may c (c.putWorld m w) := by
  unfold mintTo at h
  split at h
  · cases h
  rename_i t ht
  split at h
  · cases h
  rename_i hc
  simp only [Bool.or_eq_true, bne_iff_ne, ne_eq, decide_eq_true_eq, not_or, Decidable.not_not, Nat.not_le] at hc
  cases h
  refine put_minted (t := t) (t' := { t with amount := t.amount + n }) ht rfl (.more t n) fun mint => ?_
  have h2 : t.mint = m := hc.1.1.2
  simp only [PoolChain.putWorld, PoolChain.world, h2]
  by_cases e : m = mint
  · subst e; simp only [if_true]; omega
  · simp only [if_neg e, if_neg (Ne.symm e)]

theorem mintAll_minted {may : Nat → Prop} {c : PoolChain} {m : Nat} {ps : List (Nat × Nat)} {w : World}
    (h : mintAll (c.world m) m ps = .ok w) : Minted may c (c.putWorld m w) := by
  induction ps generalizing c with
  | nil => cases h; rw [put_same]; exact .refl _
  | cons p ps ih =>
    obtain ⟨a, n⟩ := p
    simp only [mintAll] at h
    split at h
    · exact ih h
    · obtain ⟨w1, h1, h⟩ := bind_ok h
      have := ih (c := c.putWorld m w1) (by rw [put_world c m w1]; exact h)
      rw [put_put] at this
      exact (mintTo_minted h1).trans this

theorem burn_minted {may : Nat → Prop} {c : PoolChain} {m a auth n : Nat} {w : World} (hm : may auth)
    (h : burnFrom (c.world m) m a auth n = .ok w) : Minted may c (c.putWorld m w) := by
  unfold burnFrom at h
  split at h
  · cases h
  rename_i t ht
  split at h
  · cases h
  rename_i hc
  simp only [Bool.or_eq_true, bne_iff_ne, ne_eq, decide_eq_true_eq, not_or, Decidable.not_not, Nat.not_lt] at hc
  obtain ⟨⟨⟨_, h2⟩, h3⟩, h4⟩ := hc
  have h4 : n ≤ c.supply m := h4
  split at h
  · cases h
  rename_i t' hd
  cases h
  obtain ⟨hs, ha⟩ := debit_same hm h3 hd
  refine put_minted (t := t) (t' := t') ht rfl hs fun mint => ?_
  simp only [PoolChain.putWorld, PoolChain.world, h2]
  by_cases e : m = mint
  · subst e; simp only [if_true]; omega
  · simp only [if_neg e, if_neg (Ne.symm e)]

/-- Who can sign for tokens in a request: who signed it, and the pool. -/
def SignsFor (signer : Nat) (accts : List AccMeta) (k : Nat) : Prop := (∃ a ∈ accts, a.signer = true ∧ a.key = k) ∨ k = signer

theorem execute_minted {E : PoolEnv} {k : PoolKind} {st : PoolState} {c : PoolChain} {w : World} {accts : List AccMeta} {act : Action}
    (h : execute E k st (c.world st.mint) accts act = .ok w) : Minted (SignsFor st.signer accts) c (c.putWorld st.mint w) := by
  unfold execute at h
  obtain ⟨A, h1, h⟩ := bind_ok h
  have hp := execContext_ok.1 h1
  have hu : A.userAuth.signer = true → SignsFor st.signer accts A.userAuth.key := by
    intro e
    obtain ⟨pool, rest, hl⟩ := hp.listed
    exact .inl ⟨A.userAuth, by rw [hl]; simp, e, rfl⟩
  cases act with
  | create n =>
    unfold processCreation at h
    obtain ⟨qs, h2, h⟩ := bind_ok h
    obtain ⟨l, h3, h⟩ := bind_ok h
    have r1 := (transfers_carried hu h3).minted (c := c)
    unfold mintTokens at h
    obtain ⟨f, h4, h⟩ := bind_ok h
    have r2 := mintAll_minted (may := SignsFor st.signer accts) (c := { c with toks := l }) (m := st.mint) h
    have e : ({ c with toks := l } : PoolChain).putWorld st.mint w = c.putWorld st.mint w := rfl
    rw [e] at r2
    exact r1.trans r2
  | redeem n =>
    unfold processRedemption at h
    obtain ⟨f, h2, h⟩ := bind_ok h
    obtain ⟨qs, h3, h⟩ := bind_ok h
    obtain ⟨w1, h4, h⟩ := bind_ok h
    obtain ⟨l, h5, h⟩ := bind_ok h
    cases h
    unfold burnTokens at h4
    obtain ⟨l1, h6, h4⟩ := bind_ok h4
    have r1 := (transfers_carried hu h6).minted (c := c)
    split at h4
    · cases h4
    rename_i hsg
    have hsg : A.userAuth.signer = true := by simpa using hsg
    have r2 := burn_minted (c := { c with toks := l1 }) (m := st.mint) (hu hsg) h4
    have e : ({ c with toks := l1 } : PoolChain).putWorld st.mint w1 = c.putWorld st.mint w1 := rfl
    rw [e] at r2
    have ha : A.authority.key = st.signer := hp.authority
    rw [ha] at h5
    have r3 := (transfers_carried (may := SignsFor st.signer accts) (fun _ => .inr rfl) h5).minted (c := c.putWorld st.mint w1)
    have e3 : ({ c.putWorld st.mint w1 with toks := l } : PoolChain) = c.putWorld st.mint { w1 with toks := l } := rfl
    rw [e3] at r3
    exact (r1.trans r2).trans r3
  | swap l => cases h

/-- Nothing happened to the tokens but that the admin approved a delegate for a vault. -/
structure Approved (signer : Nat) (c c' : PoolChain) : Prop where
  supply : c'.supply = c.supply
  acct : ∀ a, c'.toks a = c.toks a ∨ ∃ t d n, c.toks a = some t ∧ t.owner = signer ∧
    c'.toks a = some { t with delegate := some d, delegated := n }
  sums : InBalance c c'

theorem admin_approved {E : PoolEnv} {st st' : PoolState} {c : PoolChain} {w : World} {accts : List AccMeta} {ix : AdminIx}
    {m : Nat} (h : Administers E st (c.world m) accts ix st' w) : Approved st.signer c (c.putWorld m w) := by
  have same : ∀ {c' : PoolChain}, c' = c → Approved st.signer c c' := fun e => e ▸ ⟨rfl, fun _ => .inl rfl, .refl _⟩
  cases h with
  | approve v d s p l n t hvv hsi hp ht ho hf =>
    rw [put_toks]
    have ht : c.toks v.key = some t := ht
    refine ⟨rfl, fun a => ?_, matched_put (a := v.key) rfl fun mint => ?_⟩
    · by_cases e : a = v.key
      · subst e
        exact .inr ⟨t, d.key, n, ht, ho, by simp only [Ledger.put, if_true]⟩
      · exact .inl (by simp only [PoolChain.world, Ledger.put, if_neg e])
    · simp only [holding, PoolChain.world, Ledger.put, if_true, ht]
  | _ => exact same (put_same _ _)

theorem SameAccount.weaken {may may' : Nat → Prop} {t t' : Tok} (h : SameAccount may t t') (hm : ∀ k, may k → may' k) :
    SameAccount may' t t' :=
  ⟨h.mint, h.owner, h.frozen, h.closeAuth, h.delegated, h.delegate,
    fun hl => (h.signed hl).imp fun k hk => ⟨hm k hk.1, hk.2⟩, fun hn => h.approved fun g => hn (hm _ g)⟩

/-! ### Calls -/

/-- What a call of the pool program with these accounts, the first of them `pool`, can do to tokens. -/
structure PoolCall (c : PoolChain) (pool : Nat) (accts : List AccMeta) (c' : PoolChain) : Prop where
  /-- what the accounts gained together is what the supply grew by -/
  sums : InBalance c c'
  /-- a supply that changed is that of the pool's own token -/
  own : ∀ mint, c'.supply mint ≠ c.supply mint → ∃ p, PoolAt c pool p ∧ p.mint = mint
  none_ : ∀ x, c.toks x = none → c'.toks x = none
  /-- accounts stay what they are; who loses has signed or is the pool; only the admin approves, and only for the pool's accounts -/
  acct : ∀ x t, c.toks x = some t → ∃ t', c'.toks x = some t' ∧
    (SameAccount (fun k => (∃ b ∈ accts, b.signer = true ∧ b.key = k) ∨ ∃ p, PoolAt c pool p ∧ k = p.signer) t t' ∨
      ∃ p b d n, PoolAt c pool p ∧ t.owner = p.signer ∧ p.admin = some b.key ∧ b ∈ accts ∧ b.signer = true ∧
        t' = { t with delegate := some d, delegated := n })

theorem InBalance.of_eq {c c' d : PoolChain} (h : InBalance c c') (e1 : d.toks = c'.toks) (e2 : d.supply = c'.supply) : InBalance c d := by
  obtain ⟨T, t1, t2⟩ := h
  refine ⟨T, fun a ha => by rw [e1]; exact t1 a ha, fun mint L hL hT => ?_⟩
  rw [e1, e2]
  exact t2 mint L hL hT

/-- C123: a call of the pool program, whatever the bytes and whatever the pool: of every token, all accounts together gain
exactly what the supply grows by; only the supply of the pool's own token changes; nobody loses tokens who has not signed. -/
theorem pool_tokens {E : PoolEnv} {k : PoolKind} {c c' : PoolChain} {accts : List AccMeta} {data : List UInt8}
    (h : poolEntry E k c accts data = .ok c') : ∃ a l, accts = a :: l ∧ PoolCall c a.key accts c' := by
  obtain ⟨a, l, m, old, st, w, e1, ho, hg, _, hpr, _, hc', _⟩ := run_call h
  refine ⟨a, l, e1, ?_⟩
  have f1 : c'.toks = w.toks := by rw [hc']; rfl
  have f2 : c'.supply = fun x => if x = mintOf old accts then w.supply else c.supply x := by rw [hc']; rfl
  clear hc' h
  have idle : w = c.world (mintOf old accts) → PoolCall c a.key accts c' := by
    rintro rfl
    have g1 : c'.toks = c.toks := f1
    have g2 : c'.supply = c.supply := by
      rw [f2]; funext x
      by_cases e : x = mintOf old accts
      · subst e; simp only [if_true]; rfl
      · simp only [if_neg e]
    exact ⟨(InBalance.refl c).of_eq g1 g2, fun mint hm => absurd (by rw [g2]) hm, fun x hx => by rw [g1]; exact hx,
      fun x t hx => ⟨t, by rw [g1]; exact hx, .inl (.refl t)⟩⟩
  cases old with
  | none =>
    simp only [Option.map_none] at hpr
    unfold Pool.process at hpr
    split at hpr
    · obtain ⟨s1, _, h2⟩ := bind_ok hpr
      cases h2
      exact idle rfl
    · cases hpr
    all_goals (rename_i e _; cases e)
  | some p =>
    have hat : PoolAt c a.key p := ⟨ho, hg⟩
    have own : ∀ mint, c'.supply mint ≠ c.supply mint → ∃ p, PoolAt c a.key p ∧ p.mint = mint := by
      intro mint hm
      refine ⟨p, hat, Classical.byContradiction fun hne => hm ?_⟩
      rw [f2]
      exact if_neg (Ne.symm hne)
    simp only [Option.map_some] at hpr
    cases hr : m.req with
    | init r => rw [hr] at hpr; cases hpr
    | getBasket act =>
      rw [hr] at hpr
      obtain ⟨_, _, h2⟩ := bind_ok hpr
      cases h2
      exact idle rfl
    | exec act =>
      rw [hr] at hpr
      obtain ⟨w1, h1, h2⟩ := bind_ok hpr
      cases h2
      have hm := execute_minted (st := p.view) (c := c) h1
      refine ⟨hm.sums.of_eq f1 f2, own, fun x hx => ?_, fun x t hx => ?_⟩
      · rw [f1]; exact hm.none_ x hx
      · obtain ⟨t', h3, h4⟩ := hm.acct x t hx
        exact ⟨t', by rw [f1]; exact h3, .inl (h4.weaken fun q hq => hq.imp id fun e => ⟨p, hat, e⟩)⟩
    | admin ix =>
      rw [hr] at hpr
      cases k with
      | simple => cases hpr
      | admin =>
        obtain ⟨pool, b, l', hl, hb, hbs, _, had⟩ := pool_admin.1 hpr
        have ha := admin_approved (c := c) (m := p.mint) had
        refine ⟨ha.sums.of_eq f1 f2, own, fun x hx => ?_, fun x t hx => ?_⟩
        · rw [f1]
          rcases ha.acct x with e | ⟨t, _, _, e, _⟩
          · exact e.trans hx
          · rw [hx] at e; cases e
        · rw [f1]
          rcases ha.acct x with e | ⟨u, d, n, e, h1, h2⟩
          · exact ⟨t, e.trans hx, .inl (.refl t)⟩
          · rw [hx] at e
            cases e
            exact ⟨_, h2, .inr ⟨p, b, d, n, hat, h1, hb, by rw [hl]; simp, hbs, rfl⟩⟩

/-! ### Histories -/

/-- No account with tokens of this kind is closed; the token program closes one only if it holds wrapped lamports. -/
def KeepsHolders (mint : Nat) (c c' : PoolChain) : Prop :=
  ∀ a t, c.toks a = some t → t.mint = mint → 0 < t.amount → c'.toks a ≠ none

theorem held_put {c c' : PoolChain} {mint a : Nat} {t' : Option Tok} (h : SupplyHeld c mint) (hl : c'.toks = c.toks.put a t')
    (hs : holding c'.toks mint a + c.supply mint = holding c.toks mint a + c'.supply mint) : SupplyHeld c' mint := by
  refine h.change (T := [a]) (fun b hb => ?_) fun L hL hT => ?_
  · rw [List.mem_singleton] at hb
    rw [hl]
    simp only [Ledger.put, if_neg hb]
  · have := total_one_changed (f := holding c.toks mint) (g := holding c'.toks mint) (x := a)
      (fun b hb => by rw [hl]; simp only [holding, Ledger.put, if_neg hb]) hL (hT a (by simp))
    omega

/-- An account of the same token with the same amount in the place of another. -/
theorem held_same {c c' : PoolChain} {mint a : Nat} {t t' : Tok} (h : SupplyHeld c mint) (ht : c.toks a = some t)
    (hl : c'.toks = c.toks.put a (some t')) (hs : c'.supply = c.supply) (h1 : t'.mint = t.mint) (h2 : t'.amount = t.amount) :
    SupplyHeld c' mint := by
  refine held_put h hl ?_
  rw [hl, hs]
  simp only [holding, Ledger.put, if_true, ht, h1, h2]

theorem token_held {signs : Nat → Bool} {c c' : PoolChain} {ix : MintIx} {mint : Nat} (h : tokChain signs c ix = some c')
    (ho : KeepsHolders mint c c') (hs : SupplyHeld c mint) : SupplyHeld c' mint := by
  cases ix with
  | setMinter m new =>
    simp only [tokChain] at h
    split at h
    · cases h; exact hs
    · cases h
  | newMint m auth =>
    simp only [tokChain] at h
    split at h
    · cases h; exact hs
    · cases h
  | tok ix =>
    cases ix with
    | mint a n =>
      simp only [tokChain] at h
      cases ht : c.toks a with
      | none => rw [ht] at h; cases h
      | some t =>
        rw [ht] at h
        simp only at h
        split at h
        · simp only [tokExec, ht] at h
          split at h
          · cases h
            refine held_put hs (a := a) rfl ?_
            simp only [holding, Ledger.put, if_true, ht]
            by_cases e : t.mint = mint
            · subst e; simp only [if_true]; omega
            · simp only [if_neg e, if_neg (Ne.symm e)]
          · cases h
        · cases h
    | burn a auth n =>
      simp only [tokChain] at h
      cases ht : c.toks a with
      | none => rw [ht] at h; cases h
      | some t =>
        rw [ht] at h
        simp only at h
        split at h
        · rename_i hn
          simp only [tokExec, ht] at h
          split at h
          · rename_i hc
            cases hd : debitTok t auth n with
            | error _ => rw [hd] at h; cases h
            | ok t' =>
              rw [hd] at h
              cases h
              obtain ⟨h1, h2⟩ := debit_same (may := fun _ => True) trivial hc.2.2 hd
              refine held_put hs (a := a) rfl ?_
              simp only [holding, Ledger.put, if_true, ht, h1.mint]
              by_cases e : t.mint = mint
              · subst e; simp only [if_true]; omega
              · simp only [if_neg e, if_neg (Ne.symm e)]
          · cases h
        · cases h
    | openAcct a m o =>
      simp only [tokChain, tokExec] at h
      cases ht : c.toks a with
      | some t => rw [ht] at h; cases h
      | none =>
        rw [ht] at h
        cases h
        refine held_put hs (a := a) rfl ?_
        simp only [holding, Ledger.put, if_true, ht, ite_self]
    | transfer src dst auth n =>
      simp only [tokChain, tokExec] at h
      split at h
      · cases hd : splTransfer c.toks src dst auth n with
        | error _ => rw [hd] at h; cases h
        | ok l =>
          rw [hd] at h
          cases h
          exact hs.matched (carried_matched (transfer_carried (may := fun _ => True) trivial hd))
      · cases h
    | close a auth =>
      simp only [tokChain, tokExec] at h
      cases ht : c.toks a with
      | none => rw [ht] at h; cases h
      | some t =>
        rw [ht] at h
        simp only at h
        split at h
        · cases h
          refine held_put hs (a := a) rfl ?_
          have := ho a t ht
          simp only [Ledger.put, if_true, ne_eq, not_true_eq_false, imp_false] at this
          simp only [holding, Ledger.put, if_true, ht]
          by_cases e : t.mint = mint
          · have := this e; simp only [if_pos e]; omega
          · simp only [if_neg e]
        · cases h
    | approve a d auth n | revoke a auth | setOwner a new auth | setCloseAuthority a new auth =>
      simp only [tokChain, tokExec] at h
      cases ht : c.toks a with
      | none => rw [ht] at h; cases h
      | some t =>
        rw [ht] at h
        simp only at h
        split at h
        · cases h
          exact held_same hs ht rfl rfl rfl rfl
        · cases h
    | freeze a | thaw a =>
      simp only [tokChain, tokExec] at h
      cases ht : c.toks a with
      | none => rw [ht] at h; cases h
      | some t =>
        rw [ht] at h
        cases h
        exact held_same hs ht rfl rfl rfl rfl

/-- The pool program closes no accounts. -/
theorem call_keeps {E : PoolEnv} {k : PoolKind} {c c' : PoolChain} {accts : List AccMeta} {data : List UInt8}
    (h : poolEntry E k c accts data = .ok c') (mint : Nat) : KeepsHolders mint c c' := by
  obtain ⟨a, l, _, hc⟩ := pool_tokens h
  intro x t hx _ _ hn
  obtain ⟨t', h1, _⟩ := hc.acct x t hx
  rw [h1] at hn
  cases hn

theorem step_held {E : PoolEnv} {k : PoolKind} {c c' : PoolChain} {mint : Nat} (h : PStep E k c c') (ho : KeepsHolders mint c c')
    (hs : SupplyHeld c mint) : SupplyHeld c' mint := by
  cases h with
  | call _ _ h =>
    obtain ⟨a, l, _, hc⟩ := pool_tokens h
    exact hs.matched hc.sums
  | lamports a e => exact hs
  | other h hz hl => exact hs
  | token _ _ h => exact token_held h ho hs

/-- C123: if a token's supply is what its holders have, it stays so, whatever anybody does. -/
theorem supply_held {E : PoolEnv} {k : PoolKind} {c c' : PoolChain} {mint : Nat} (h : PLater E k (KeepsHolders mint) c c')
    (hs : SupplyHeld c mint) : SupplyHeld c' mint := by
  induction h with
  | refl => exact hs
  | step _ h ho ih => exact step_held h ho ih

namespace SupplyDemo

open PoolsDemo

theorem held0 : SupplyHeld c0 1 := by
  refine ⟨[32, 41], by decide, fun a ha => ?_, by decide +kernel⟩
  refine Classical.byContradiction fun hn => ha ?_
  simp only [List.mem_cons, List.not_mem_nil, or_false, not_or] at hn
  have one : ∀ {q : Prop} [Decidable q] {u : Tok} {x : Option Tok}, (u.mint = 1 → u.amount = 0) →
      (match x with | some t => if t.mint = 1 then t.amount else 0 | none => 0) = 0 →
      (match (if q then some u else x) with | some t => if t.mint = 1 then t.amount else 0 | none => 0) = 0 := by
    intro q _ u x hu hx
    split
    · rename_i t e
      split at e
      · cases e
        by_cases e1 : u.mint = 1
        · rw [if_pos e1, hu e1]
        · rw [if_neg e1]
      · rw [e] at hx; exact hx
    · rfl
  simp only [holding, c0, if_neg hn.1, if_neg hn.2]
  refine one (by decide) (one (by decide) (one (by decide) (one (by decide) (one (by decide) (one (by decide)
    (one (by decide) (one (by decide) (one (by decide) (one (by decide) rfl)))))))))

/-- The ten and ninety tokens of the first pool are its supply of a hundred, -/
theorem held4 : SupplyHeld c4 1 := by
  have h2 : SupplyHeld c2 1 := held0
  have h3 : SupplyHeld c3 1 := h2.matched (pool_tokens (ran (accts := init1) (m := init) (c := c2) (by decide +kernel))).choose_spec.choose_spec.2.sums
  exact h3.matched (pool_tokens (ran (accts := init2) (m := init) (c := c3) (by decide +kernel))).choose_spec.choose_spec.2.sums

theorem ran5 : poolEntry E .simple c4 use1 create.bytes = .ok c5 := ran (by decide +kernel)

/-- and so are the 42, the 90 and the fee of one after 33 were created. -/
example : poolEntry E .simple c4 use1 create.bytes = .ok c5 ∧ SupplyHeld c4 1 ∧ PLater E .simple (KeepsHolders 1) c4 c5 ∧
    (c4.supply 1, holding c4.toks 1 32, holding c4.toks 1 41) = (100, 10, 90) ∧
    (c5.supply 1, holding c5.toks 1 32, holding c5.toks 1 40, holding c5.toks 1 41, c5.supply 11) = (133, 42, 1, 90, 10) ∧ SupplyHeld c5 1 := by
  have k : PLater E .simple (KeepsHolders 1) c4 c5 := .step .refl step5 (call_keeps ran5 1)
  exact ⟨ran5, held4, k, by decide +kernel, by decide +kernel, supply_held k held4⟩

end SupplyDemo

end Serum.Props
