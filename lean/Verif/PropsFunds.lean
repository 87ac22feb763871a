import Verif.PropsCancel

/-!
Settlement (C34) and fee sweep (C38).
-/

namespace Serum.Props

/-- Between two token ledgers `n` tokens moved from `src` to `dst` and nothing else happened. -/
structure Paid (l l' : Ledger) (src dst n : Nat) : Prop where
  enough : n ≤ bal l src
  from_ : src ≠ dst → bal l' src = bal l src - n
  to_ : src ≠ dst → bal l' dst = bal l dst + n
  self : src = dst → l' = l
  others : ∀ a, a ≠ src → a ≠ dst → l' a = l a
  /-- The receiving account only grows: same mint, owner and delegation. -/
  grows : src ≠ dst → ∀ t, l dst = some t → l' dst = some { t with amount := t.amount + n }
  /-- No account disappears, changes its mint or is frozen. -/
  keeps : ∀ a t, l a = some t → ∃ t', l' a = some t' ∧ t'.mint = t.mint ∧ t'.frozen = t.frozen

theorem debitTok_keeps {t t' : Tok} {auth n : Nat} (h : debitTok t auth n = .ok t') : t'.mint = t.mint ∧ t'.frozen = t.frozen := by
  unfold debitTok at h
  split at h
  · split at h
    · cases h
    · cases h; exact ⟨rfl, rfl⟩
  · split at h
    · cases h
    · cases h; exact ⟨rfl, rfl⟩

theorem spl_keeps {l l' : Ledger} {src dst auth n : Nat} (h : splTransfer l src dst auth n = .ok l') (a : Nat) (t : Tok)
    (ht : l a = some t) : ∃ t', l' a = some t' ∧ t'.mint = t.mint ∧ t'.frozen = t.frozen := by
  unfold splTransfer at h
  cases hs : l src with
  | none => rw [hs] at h; cases h
  | some s =>
    cases hd : l dst with
    | none => rw [hs, hd] at h; cases h
    | some d =>
      rw [hs, hd] at h
      simp only at h
      split at h
      · cases h
      · split at h
        · cases h
        · split at h
          · cases h
          · cases hb : debitTok s auth n with
            | error e => rw [hb] at h; cases h
            | ok s' =>
              rw [hb] at h
              simp only at h
              split at h
              · cases h
                exact ⟨t, ht, rfl, rfl⟩
              · split at h
                · cases h
                · cases h
                  by_cases h1 : a = dst
                  · subst h1
                    rw [hd] at ht; cases ht
                    exact ⟨_, if_pos rfl, rfl, rfl⟩
                  · by_cases h2 : a = src
                    · subst h2
                      rw [hs] at ht; cases ht
                      exact ⟨s', by simp [h1], debitTok_keeps hb⟩
                    · exact ⟨t, by simp [h1, h2, ht], rfl, rfl⟩

theorem spl_shape {l l' : Ledger} {src dst auth n : Nat} (h : splTransfer l src dst auth n = .ok l') :
    l' = l ∧ src = dst ∨ (src ≠ dst ∧ ∃ d s' : Tok, l dst = some d ∧ l' = fun a => if a = dst then some { d with amount := d.amount + n }
      else if a = src then some s' else l a) := by
  unfold splTransfer at h
  cases hs : l src with
  | none => rw [hs] at h; cases h
  | some s =>
    cases hd : l dst with
    | none => rw [hs, hd] at h; cases h
    | some d =>
      rw [hs, hd] at h
      simp only at h
      split at h
      · cases h
      · split at h
        · cases h
        · split at h
          · cases h
          · cases hb : debitTok s auth n with
            | error e => rw [hb] at h; cases h
            | ok s' =>
              rw [hb] at h
              simp only at h
              by_cases e : src = dst
              · rw [if_pos e] at h
                cases h
                exact .inl ⟨rfl, e⟩
              · rw [if_neg e] at h
                split at h
                · cases h
                · cases h
                  exact .inr ⟨e, d, s', rfl, rfl⟩

theorem spl_paid {l l' : Ledger} {src dst auth n : Nat} (h : splTransfer l src dst auth n = .ok l') :
    Paid l l' src dst n := by
  have hm := splTransfer_moved h
  refine ⟨hm.enough, fun hne => ?_, fun hne => ?_, fun he => ?_, fun a h1 h2 => ?_, fun hne t ht => ?_, spl_keeps h⟩
  · rw [hm.bal, if_neg hne, if_neg hne, if_pos rfl]
  · rw [hm.bal, if_neg hne, if_pos rfl]
  · rcases spl_shape h with ⟨h, _⟩ | ⟨hne, _⟩
    · exact h
    · exact absurd he hne
  · rcases spl_shape h with ⟨h, _⟩ | ⟨_, d, s', _, h⟩
    · rw [h]
    · rw [h]
      simp [h1, h2]
  · rcases spl_shape h with ⟨_, h⟩ | ⟨_, d, s', hd, h⟩
    · exact absurd h hne
    · rw [h]
      rw [hd] at ht
      cases ht
      simp

/-- Transfers of nothing out of an account without delegate change nothing. -/
theorem spl_zero {l l' : Ledger} {src dst auth : Nat} {t : Tok} (ht : l src = some t) (hd : t.delegate = none)
    (h : splTransfer l src dst auth 0 = .ok l') : l' = l := by
  unfold splTransfer at h
  cases hdst : l dst with
  | none => rw [ht, hdst] at h; simp at h
  | some d =>
    rw [ht, hdst] at h
    simp only at h
    split at h
    · cases h
    · split at h
      · cases h
      · split at h
        · cases h
        · have hb : debitTok t auth 0 = .error .other ∨ debitTok t auth 0 = .ok t := by
            unfold debitTok
            rw [if_neg (by rw [hd]; simp)]
            split
            · exact .inl rfl
            · exact .inr (by simp)
          rcases hb with hb | hb
          · rw [hb] at h; cases h
          · rw [hb] at h
            simp only at h
            split at h
            · cases h; rfl
            · split at h
              · cases h
              · cases h
                funext a
                by_cases h1 : a = dst
                · subst h1; simp [hdst]
                · by_cases h2 : a = src
                  · subst h2; simp [h1, ht]
                  · simp [h1, h2]

/-- A valid instruction takes a reachable state to a reachable one. -/
theorem _root_.Serum.Reach.act {P : Params} {s s' : State conc} (h : Reach P s) {env : Env} {accts : List AccMeta}
    {ix : Instruction} (hv : IxValid ix) (hn : NotVault P s.mkt accts)
    (hp : process conc P env s accts ix = .ok s') : Reach P s' := by
  refine h.step (.instr (env := env) (accts := accts) (data := ix.pack) hn ?_)
  unfold processRaw
  rw [instruction_round_trip ix hv]
  exact hp

/-! ### Settlement -/

/-- What a settlement of account `a` does, `refer` being the referrer's wallet if one is named. -/
structure Settled (s s' : State conc) (a : Nat) (coinDst pcDst : Nat) (refer : Option Nat) (o : OpenOrders) : Prop where
  account : ooAt s.oos a = some o
  open_ : o.closed = false
  /-- Exactly the free balances are paid out; the rebates go to the referrer, if any, else to the fees. -/
  paid : ∃ l1 l2, Paid s.toks l1 s.mkt.coinVault coinDst o.coinFree ∧ Paid l1 l2 s.mkt.pcVault pcDst o.pcFree ∧
    match refer with
    | some r => Paid l2 s'.toks s.mkt.pcVault r o.rebates
    | none => s'.toks = l2
  /-- No subtraction below is truncated. -/
  enough : o.coinFree ≤ o.coinTotal ∧ o.pcFree ≤ o.pcTotal ∧ o.coinFree ≤ s.mkt.coinDeposits ∧
    o.pcFree ≤ s.mkt.pcDeposits ∧ o.rebates ≤ s.mkt.referrerRebates
  after : ooAt s'.oos a = some { o with
    coinFree := 0
    pcFree := 0
    coinTotal := o.coinTotal - o.coinFree
    pcTotal := o.pcTotal - o.pcFree
    rebates := 0 }
  others : ∀ b, b ≠ a → ooAt s'.oos b = ooAt s.oos b
  mkt : s'.mkt = { s.mkt with
    coinDeposits := s.mkt.coinDeposits - o.coinFree
    pcDeposits := s.mkt.pcDeposits - o.pcFree
    pcFees := s.mkt.pcFees + if refer = none then o.rebates else 0
    referrerRebates := s.mkt.referrerRebates - o.rebates }
  rest : s'.bids = s.bids ∧ s'.asks = s.asks ∧ s'.q = s.q ∧ s'.seq = s.seq ∧ s'.reqCount = s.reqCount

theorem orAssert_ok {α : Type} {x : Except Err α} {a : α} (h : orAssert x = .ok a) : x = .ok a := by
  unfold orAssert at h
  split at h
  · exact h
  · cases h

theorem settleArgs_inv {P : Params} {env : Env} {c : Core} {a : SettleAccts} {o : OpenOrders}
    (h : settleArgs P env c a = .ok o) :
    a.owner.signer = true ∧ ooAt c.oos a.oo.key = some o ∧ o.closed = false ∧ o.owner = a.owner.key := by
  unfold settleArgs at h
  obtain ⟨_, _, h⟩ := bind_ok h
  obtain ⟨_, _, h⟩ := bind_ok h
  obtain ⟨_, hs, h⟩ := bind_ok h
  obtain ⟨_, _, h⟩ := bind_ok h
  obtain ⟨_, _, h⟩ := bind_ok h
  obtain ⟨_, _, h⟩ := bind_ok h
  obtain ⟨_, _, h⟩ := bind_ok h
  obtain ⟨_, _, h⟩ := bind_ok h
  obtain ⟨_, _, h⟩ := bind_ok h
  have hsig : a.owner.signer = true := checkAssert_ok.1 (orAssert_ok hs)
  rcases loadOrders_inv h with ⟨h1, h2, h3⟩ | ⟨_, _, h3, _⟩
  · refine ⟨hsig, h1, h2, ?_⟩
    rcases h3 with h3 | h3
    · cases h3
    · injection h3 with h3; exact h3.symm
  · cases h3

theorem settleExec_effect {P : Params} {s s' : State conc} (h : Reach P s) (hq : s.seq ≤ W64) {a : SettleAccts}
    {o : OpenOrders} (ho : ooAt s.oos a.oo.key = some o) (hcl : o.closed = false)
    (hx : settleExec conc P s a o = .ok s') :
    Settled s s' a.oo.key a.coinWallet.key a.pcWallet.key
      (if 0 < o.rebates then a.referrer.map (·.key) else none) o := by
  obtain ⟨vs, hv, hqi, hi⟩ := h.view hq
  have hd := hi.deposits_lt
  have hm := hi.money
  have c1 := hm.coin
  have c2 := hm.pc
  have c3 := hm.rebates
  have g1 := accSum_ge (g := (·.coinFree)) ho
  have g2 := accSum_ge (g := (·.pcFree)) ho
  have g3 := accSum_ge (g := (·.rebates)) ho
  unfold settleExec at hx
  simp only at hx
  obtain ⟨ct, hct, hx⟩ := bind_ok hx
  rw [unwrap_ok, checkedSub_some] at hct
  obtain ⟨pt, hpt, hx⟩ := bind_ok hx
  rw [unwrap_ok, checkedSub_some] at hpt
  obtain ⟨l1, h1, hx⟩ := bind_ok hx
  obtain ⟨l2, h2, hx⟩ := bind_ok hx
  obtain ⟨⟨m3, l3⟩, h3, hx⟩ := bind_ok hx
  simp only [pure, Except.pure, Except.ok.injEq] at hx
  have t1 := spl_paid (sendFromVault_ok (vs := vs) (by exact hv) h1)
  have t2 := spl_paid (sendFromVault_ok (vs := vs) (by exact hv) h2)
  have e1 : wsub s.mkt.coinDeposits o.coinFree = s.mkt.coinDeposits - o.coinFree := wsub_eq (by omega) (by omega)
  have e2 : wsub s.mkt.pcDeposits o.pcFree = s.mkt.pcDeposits - o.pcFree := wsub_eq (by omega) (by omega)
  have e3 : wsub s.mkt.referrerRebates o.rebates = s.mkt.referrerRebates - o.rebates := wsub_eq (by omega) (by omega)
  have e4 : wadd s.mkt.pcFees o.rebates = s.mkt.pcFees + o.rebates := wadd_eq (by omega)
  obtain ⟨rfl, hct'⟩ : ct = o.coinTotal - o.coinFree ∧ o.coinFree ≤ o.coinTotal := by omega
  obtain ⟨rfl, hpt'⟩ : pt = o.pcTotal - o.pcFree ∧ o.pcFree ≤ o.pcTotal := by omega
  have main : ∀ refer : Option Nat,
      m3 = { s.mkt with
        coinDeposits := s.mkt.coinDeposits - o.coinFree
        pcDeposits := s.mkt.pcDeposits - o.pcFree
        pcFees := s.mkt.pcFees + if refer = none then o.rebates else 0 } →
      (match refer with | some r => Paid l2 l3 s.mkt.pcVault r o.rebates | none => l3 = l2) →
      Settled s s' a.oo.key a.coinWallet.key a.pcWallet.key refer o := by
    intro refer hm3 hl3
    subst hm3
    subst hx
    refine ⟨ho, hcl, ⟨l1, l2, t1, t2, hl3⟩, ⟨hct', hpt', by omega, by omega, by omega⟩, ?_, ?_, ?_, rfl, rfl, rfl, rfl, rfl⟩
    · show ooAt (setOo _ _ _) _ = _
      rw [ooAt_setOo, if_pos rfl]
    · intro b hb
      show ooAt (setOo _ _ _) _ = _
      rw [ooAt_setOo, if_neg hb]
    · cases refer <;> simp only [e3]
  unfold settleRebates at h3
  split at h3
  · rename_i r hr
    split at h3
    · rename_i hpos
      obtain ⟨l4, h4, h3⟩ := bind_ok h3
      cases h3
      rw [if_pos hpos, hr]
      refine main (some r.key) ?_ (spl_paid (sendFromVault_ok (vs := vs) (by exact hv) h4))
      simp only [e1, e2, Nat.add_zero, reduceCtorEq, if_false]
    · rename_i hpos
      cases h3
      rw [if_neg hpos]
      exact main none (by simp only [e1, e2, e4, if_true]) rfl
  · rename_i hr
    cases h3
    have : (if 0 < o.rebates then a.referrer.map (·.key) else none) = none := by rw [hr]; split <;> rfl
    rw [this]
    exact main none (by simp only [e1, e2, e4, if_true]) rfl

/-- C34, safety. A successful settle was signed by the account's owner and does exactly what `Settled` says. -/
theorem settle_effect {P : Params} {s s' : State conc} (h : Reach P s) (hq : s.seq ≤ W64) {env : Env}
    {accts : List AccMeta} (hx : settleFunds conc P env s accts = .ok s') :
    ∃ m oo owner cv pv cw pw vsA tp refer o, accts = m :: oo :: owner :: cv :: pv :: cw :: pw :: vsA :: tp :: refer ∧
      refer.length ≤ 1 ∧ owner.signer = true ∧ o.owner = owner.key ∧
      Settled s s' oo.key cw.key pw.key (if 0 < o.rebates then (refer.map (·.key)).head? else none) o := by
  unfold settleFunds at hx
  obtain ⟨a, hp, hx⟩ := bind_ok hx
  obtain ⟨o, ha, hx⟩ := bind_ok hx
  obtain ⟨k1, k2, k3, k4⟩ := settleArgs_inv ha
  have hs := settleExec_effect h hq k2 k3 hx
  unfold parseSettle at hp
  split at hp
  · cases hp
    exact ⟨_, _, _, _, _, _, _, _, _, [], o, rfl, by simp, k1, k4, hs⟩
  · rename_i r
    cases hp
    exact ⟨_, _, _, _, _, _, _, _, _, [r], o, rfl, by simp, k1, k4, hs⟩
  · cases hp

/-- C34, once. Settling again right away changes nothing at all. -/
theorem settle_twice {P : Params} {s s1 s2 : State conc} (h : Reach P s) (hq : s.seq ≤ W64) {env env' : Env}
    {accts accts' : List AccMeta} (hn : NotVault P s.mkt accts)
    (h1 : settleFunds conc P env s accts = .ok s1) (h2 : settleFunds conc P env' s1 accts' = .ok s2)
    (hsame : accts'[1]?.map (·.key) = accts[1]?.map (·.key)) : s2 = s1 := by
  obtain ⟨m, oo, owner, cv, pv, cw, pw, vsA, tp, refer, o, rfl, _, _, _, hS⟩ := settle_effect h hq h1
  have hr1 : Reach P s1 := h.act (ix := .settleFunds) trivial hn h1
  have hq1 : s1.seq ≤ W64 := by rw [hS.rest.2.2.2.1]; exact hq
  obtain ⟨vs, hv, hqi, hi⟩ := hr1.view hq1
  unfold settleFunds at h2
  obtain ⟨a, hp, h2⟩ := bind_ok h2
  obtain ⟨o1, ha, h2⟩ := bind_ok h2
  obtain ⟨_, k2, k3, _⟩ := settleArgs_inv ha
  have hkey : a.oo.key = oo.key := by
    unfold parseSettle at hp
    split at hp
    · cases hp; simpa using hsame
    · cases hp; simpa using hsame
    · cases hp
  rw [hkey, show ooAt s1.toCore.oos oo.key = _ from hS.after] at k2
  cases k2
  have hd := hi.deposits_lt
  unfold settleExec at h2
  simp only at h2
  obtain ⟨ct, hct, h2⟩ := bind_ok h2
  rw [unwrap_ok, checkedSub_some] at hct
  obtain ⟨pt, hpt, h2⟩ := bind_ok h2
  rw [unwrap_ok, checkedSub_some] at hpt
  obtain ⟨l1, g1, h2⟩ := bind_ok h2
  obtain ⟨l2, g2, h2⟩ := bind_ok h2
  obtain ⟨⟨m3, l3⟩, g3, h2⟩ := bind_ok h2
  simp only [pure, Except.pure, Except.ok.injEq] at h2
  obtain ⟨tc, tc1, _, tc2, _⟩ := hi.funds.coin
  obtain ⟨tp', tp1, _, tp2, _⟩ := hi.funds.pc
  have e1 : l1 = s1.toks := spl_zero tc1 tc2 (sendFromVault_ok (vs := vs) (by exact hv) g1)
  subst e1
  have e2 : l2 = s1.toks := spl_zero tp1 tp2 (sendFromVault_ok (vs := vs) (by exact hv) g2)
  subst e2
  have w0 : ∀ n, n < W64 → wsub n 0 = n := by intro n hn; rw [wsub_eq (by omega) hn]; omega
  have a0 : ∀ n, n < W64 → wadd n 0 = n := by intro n hn; rw [wadd_eq (by omega)]; omega
  have m1 := hi.shape.mkt
  have hm3 : m3 = s1.mkt ∧ l3 = s1.toks := by
    have hno : ∀ r, settleRebates P { s1.mkt with
        coinDeposits := wsub s1.mkt.coinDeposits 0
        pcDeposits := wsub s1.mkt.pcDeposits 0 } s1.toks { o with
          coinFree := 0
          pcFree := 0
          coinTotal := o.coinTotal - o.coinFree
          pcTotal := o.pcTotal - o.pcFree
          rebates := 0 } r = .ok (m3, l3) → m3 = s1.mkt ∧ l3 = s1.toks := by
      intro r hr
      unfold settleRebates at hr
      cases r with
      | none =>
        simp only [Except.ok.injEq, Prod.mk.injEq] at hr
        obtain ⟨rfl, rfl⟩ := hr
        refine ⟨?_, rfl⟩
        rw [w0 _ m1.coinDeposits, w0 _ m1.pcDeposits, a0 _ m1.pcFees]
      | some r =>
        simp only [Nat.lt_irrefl, gt_iff_lt, if_false, Except.ok.injEq, Prod.mk.injEq] at hr
        obtain ⟨rfl, rfl⟩ := hr
        refine ⟨?_, rfl⟩
        rw [w0 _ m1.coinDeposits, w0 _ m1.pcDeposits, a0 _ m1.pcFees]
    exact hno _ g3
  obtain ⟨rfl, rfl⟩ := hm3
  have hset : setOo s1.oos a.oo.key { o with
      coinFree := 0
      pcFree := 0
      coinTotal := ct
      pcTotal := pt
      rebates := 0 } = s1.oos := by
    rw [hkey]
    apply setOo_same
    rw [hS.after]
    have c1 : ct = o.coinTotal - o.coinFree := by omega
    have c2 : pt = o.pcTotal - o.pcFree := by omega
    rw [c1, c2]
  rw [hset, w0 _ m1.rebates] at h2
  exact h2.symm

/-! ### Settlement cannot fail for lack of funds -/

/-- A token account of a mint that is not frozen. -/
def Usable (l : Ledger) (a mint : Nat) : Prop := ∃ t, l a = some t ∧ t.mint = mint ∧ t.frozen = false

/-- A usable token account of a mint with room for `n` more tokens. -/
def Ready (l : Ledger) (a mint n : Nat) : Prop :=
  ∃ t, l a = some t ∧ t.mint = mint ∧ t.frozen = false ∧ t.amount + n < 2 ^ 64

theorem spl_ready {l : Ledger} {vs src dst n mint : Nat} (hh : Held vs l src) (hs : Usable l src mint)
    (hd : Ready l dst mint n) (he : n ≤ bal l src) :
    ∃ l', splTransfer l src dst vs n = .ok l' ∧ (∀ a mint' k, Ready l a mint' (n + k) → Ready l' a mint' k) ∧
      ∀ a mint', Usable l a mint' → Usable l' a mint' := by
  obtain ⟨t, t1, t2, t3, _⟩ := hh
  obtain ⟨t', s1, s2, s3⟩ := hs
  obtain ⟨d, d1, d2, d3, d4⟩ := hd
  rw [t1] at s1
  cases s1
  have hbal : bal l src = t.amount := by unfold bal; rw [t1]
  have hdeb : debitTok t vs n = .ok { t with amount := t.amount - n } := by
    unfold debitTok
    rw [if_neg (by rw [t3]; simp), if_neg (by simp [t2])]
  unfold splTransfer
  rw [t1, d1]
  simp only
  rw [if_neg (by simp [s3, d3]), if_neg (by omega), if_neg (by rw [s2, d2]; simp), hdeb]
  simp only
  by_cases e : src = dst
  · rw [if_pos e]
    refine ⟨l, rfl, ?_, fun _ _ h => h⟩
    rintro a m k ⟨x, h1, h2, h3, h4⟩
    exact ⟨x, h1, h2, h3, by omega⟩
  · rw [if_neg e, if_neg (by unfold W64; omega)]
    refine ⟨_, rfl, ?_, ?_⟩
    rotate_left
    · rintro a m ⟨x, h1, h2, h3⟩
      by_cases ea : a = dst
      · subst ea
        rw [d1] at h1
        cases h1
        exact ⟨_, if_pos rfl, h2, h3⟩
      · by_cases es : a = src
        · subst es
          rw [t1] at h1
          cases h1
          exact ⟨{ t with amount := t.amount - n }, by simp [ea], h2, h3⟩
        · exact ⟨x, by simp [ea, es, h1], h2, h3⟩
    rintro a m k ⟨x, h1, h2, h3, h4⟩
    by_cases ea : a = dst
    · subst ea
      rw [d1] at h1
      cases h1
      exact ⟨_, if_pos rfl, h2, h3, by show d.amount + n + k < _; omega⟩
    · by_cases es : a = src
      · subst es
        rw [t1] at h1
        cases h1
        exact ⟨{ t with amount := t.amount - n }, by simp [ea], h2, h3, by show t.amount - n + k < _; omega⟩
      · exact ⟨x, by simp [ea, es, h1], h2, h3, by omega⟩

/-- Accounts for settling, with an optional referrer. -/
def settleAccts (P : Params) (s : State conc) (a owner coinDst pcDst vs : Nat) (refer : Option Nat) : List AccMeta :=
  [⟨s.mkt.ownAddress, false⟩, ⟨a, false⟩, ⟨owner, true⟩, ⟨s.mkt.coinVault, false⟩, ⟨s.mkt.pcVault, false⟩,
    ⟨coinDst, false⟩, ⟨pcDst, false⟩, ⟨vs, false⟩, ⟨P.splToken, false⟩] ++
  match refer with
  | some r => [⟨r, false⟩]
  | none => []

theorem Ready.usable {l : Ledger} {a mint n : Nat} (h : Ready l a mint n) : Usable l a mint := by
  obtain ⟨t, h1, h2, h3, _⟩ := h
  exact ⟨t, h1, h2, h3⟩

theorem usable_tok {l : Ledger} {a mint : Nat} (h : Usable l a mint) : ∃ t, tokAcct l a = .ok t ∧ t.mint = mint := by
  obtain ⟨t, h1, h2, h3⟩ := h
  exact ⟨t, by unfold tokAcct; rw [h1]; simp [h3], h2⟩

/-- C34, liveness. In every reachable state, also of a disabled market, the owner of an account whose holdings
fit in 64 bits can settle it: if the token program accepts the accounts (right mints, not frozen, room in the
destinations), the vaults have the funds. -/
theorem settle_works {P : Params} {s : State conc} (h : Reach P s) (hq : s.seq ≤ W64) (env : Env) {a : Nat}
    {o : OpenOrders} (ho : ooAt s.oos a = some o) (hcl : o.closed = false) (hfit : HoldsFit s a o)
    {coinDst pcDst vs : Nat} {refer : Option Nat}
    (hvs : P.vaultSigner s.mkt.ownAddress s.mkt.vaultSignerNonce = some vs)
    (hcv : Usable s.toks s.mkt.coinVault s.mkt.coinMint) (hpv : Usable s.toks s.mkt.pcVault s.mkt.pcMint)
    (hcw : Ready s.toks coinDst s.mkt.coinMint (o.coinFree + (o.pcFree + o.rebates)))
    (hpw : Ready s.toks pcDst s.mkt.pcMint (o.coinFree + (o.pcFree + o.rebates)))
    (hrf : ∀ r, refer = some r → Ready s.toks r s.mkt.pcMint (o.coinFree + (o.pcFree + o.rebates))) :
    ∃ s', settleFunds conc P env s (settleAccts P s a o.owner coinDst pcDst vs refer) = .ok s' ∧
      Settled s s' a coinDst pcDst (if 0 < o.rebates then refer else none) o := by
  obtain ⟨vs', hv, hqi, hi⟩ := h.view hq
  rw [hvs] at hv
  cases hv
  have hd := hi.deposits_lt
  have hm := hi.money
  have c1 := hm.coin
  have c2 := hm.pc
  have c3 := hm.rebates
  have g1 := accSum_ge (g := (·.coinFree)) ho
  have g2 := accSum_ge (g := (·.pcFree)) ho
  have g3 := accSum_ge (g := (·.rebates)) ho
  obtain ⟨b1, b2, _, _⟩ := totals_are_backed h hq ho
  have f1 : o.coinFree ≤ o.coinTotal := by
    rw [b1, Nat.mod_eq_of_lt hfit.1]; unfold baseHeld; omega
  have f2 : o.pcFree ≤ o.pcTotal := by
    rw [b2, Nat.mod_eq_of_lt hfit.2]; unfold quoteHeld; omega
  have e1 : wsub s.mkt.coinDeposits o.coinFree = s.mkt.coinDeposits - o.coinFree := wsub_eq (by omega) (by omega)
  have e2 : wsub s.mkt.pcDeposits o.pcFree = s.mkt.pcDeposits - o.pcFree := wsub_eq (by omega) (by omega)
  have so : ∀ (m : Market) (l : Ledger), Funds vs m l → m.coinDeposits ≤ bal l m.coinVault ∧
      m.pcDeposits + m.pcFees + m.referrerRebates ≤ bal l m.pcVault := by
    intro m l hf
    have k1 := hf.solvent m.coinVault
    have k2 := hf.solvent m.pcVault
    unfold owed at k1 k2
    rw [if_pos rfl] at k1
    rw [if_pos (c := m.pcVault = m.pcVault) rfl] at k2
    exact ⟨by omega, by omega⟩
  -- the first transfer
  obtain ⟨l1, t1, r1, v1⟩ := spl_ready hi.funds.coin hcv
    (dst := coinDst) (n := o.coinFree) (by obtain ⟨t, x1, x2, x3, x4⟩ := hcw; exact ⟨t, x1, x2, x3, by omega⟩)
    (by have := (so _ _ hi.funds).1; omega)
  have F1 : Funds vs { s.mkt with coinDeposits := wsub s.mkt.coinDeposits o.coinFree } l1 := by
    refine hi.funds.send t1 rfl rfl ?_
    intro b
    simp only [owed, e1]
    split <;> split <;> omega
  -- the second
  obtain ⟨l2, t2, r2, v2⟩ := spl_ready F1.pc (v1 _ _ hpv)
    (dst := pcDst) (n := o.pcFree)
    (by obtain ⟨t, x1, x2, x3, x4⟩ := r1 _ _ _ hpw; exact ⟨t, x1, x2, x3, by omega⟩)
    (by have := (so _ _ F1).2; simp only at this ⊢; omega)
  have F2 : Funds vs { s.mkt with
      coinDeposits := wsub s.mkt.coinDeposits o.coinFree
      pcDeposits := wsub s.mkt.pcDeposits o.pcFree } l2 := by
    refine F1.send t2 rfl rfl ?_
    intro b
    simp only [owed, e2]
    split <;> split <;> omega
  have s1 : ∀ m : Market, m.ownAddress = s.mkt.ownAddress → m.vaultSignerNonce = s.mkt.vaultSignerNonce →
      ∀ l l' v d n, splTransfer l v d vs n = .ok l' → sendFromVault P m l v d n = .ok l' := by
    intro m k1 k2 l l' v d n ht
    unfold sendFromVault
    rw [k1, k2, hvs]
    simp only [ht]
  -- the rebates
  have hreb : ∃ y, settleRebates P { s.mkt with
      coinDeposits := wsub s.mkt.coinDeposits o.coinFree
      pcDeposits := wsub s.mkt.pcDeposits o.pcFree } l2 o (refer.map fun r => ⟨r, false⟩) = .ok y := by
    unfold settleRebates
    cases refer with
    | none => exact ⟨_, rfl⟩
    | some r =>
      simp only [Option.map_some]
      split
      · obtain ⟨l3, t3, _, _⟩ := spl_ready F2.pc (v2 _ _ (v1 _ _ hpv))
          (dst := r) (n := o.rebates)
          (by obtain ⟨t, x1, x2, x3, x4⟩ := r2 _ _ _ (r1 _ _ _ (hrf r rfl)); exact ⟨t, x1, x2, x3, by omega⟩)
          (by have := (so _ _ F2).2; simp only at this ⊢; omega)
        rw [s1 { s.mkt with
          coinDeposits := wsub s.mkt.coinDeposits o.coinFree
          pcDeposits := wsub s.mkt.pcDeposits o.pcFree } rfl rfl _ _ _ _ _ t3]
        exact ⟨_, rfl⟩
      · exact ⟨_, rfl⟩
  obtain ⟨y, hy⟩ := hreb
  let A : SettleAccts := ⟨⟨s.mkt.ownAddress, false⟩, ⟨a, false⟩, ⟨o.owner, true⟩, ⟨s.mkt.coinVault, false⟩,
    ⟨s.mkt.pcVault, false⟩, ⟨coinDst, false⟩, ⟨pcDst, false⟩, ⟨vs, false⟩, ⟨P.splToken, false⟩,
    refer.map fun r => ⟨r, false⟩⟩
  have hparse : parseSettle (settleAccts P s a o.owner coinDst pcDst vs refer) = .ok A := by
    cases refer <;> rfl
  have hargs : settleArgs P env s.toCore A = .ok o := by
    obtain ⟨q1, q2, q3⟩ := usable_tok hcv
    obtain ⟨u1, u2, u3⟩ := usable_tok hpv
    obtain ⟨v1, v2, v3⟩ := usable_tok hcw.usable
    obtain ⟨w1, w2, w3⟩ := usable_tok hpw.usable
    have hfl : loadMarket s.toCore A.market true = .ok () := by
      unfold loadMarket
      have hk : checkAssert (A.market.key == s.mkt.ownAddress) = .ok () := checkAssert_ok.2 (by simp [A])
      rw [hk]
      exact goodFlags_load h.flags
    have k1 : splProgram P A.splToken = .ok () := checkAssert_ok.2 (by simp [A])
    have k2 : orAssert (signed A.owner) = .ok () := rfl
    have k3 : orAssert (coinVault s.toCore A.coinVault) = .ok () := by
      unfold coinVault
      rw [show tokAcct s.toCore.toks A.coinVault.key = .ok q1 from q2]
      simp [A, orAssert, bind, Except.bind]
    have k4 : orAssert (pcVault s.toCore A.pcVault) = .ok () := by
      unfold pcVault
      rw [show tokAcct s.toCore.toks A.pcVault.key = .ok u1 from u2]
      simp [A, orAssert, bind, Except.bind]
    have k5 : orAssert (coinWallet s.toCore A.coinWallet) = .ok () := by
      unfold coinWallet
      rw [show tokAcct s.toCore.toks A.coinWallet.key = .ok v1 from v2]
      simp [orAssert, bind, Except.bind, v3]
    have k6 : orAssert (pcWallet s.toCore A.pcWallet) = .ok () := by
      unfold pcWallet
      rw [show tokAcct s.toCore.toks A.pcWallet.key = .ok w1 from w2]
      simp [orAssert, bind, Except.bind, w3]
    have k7 : checkReferrer s.toCore A.referrer = .ok () := by
      cases refer with
      | none => rfl
      | some r =>
        obtain ⟨x1, x2, x3⟩ := usable_tok (hrf r rfl).usable
        show orAssert (pcWallet s.toCore ⟨r, false⟩) = .ok ()
        unfold pcWallet
        rw [show tokAcct s.toCore.toks (AccMeta.mk r false).key = .ok x1 from x2]
        simp [orAssert, bind, Except.bind, x3]
    have k8 : vaultSignerAcct P s.toCore A.vaultSigner = .ok () := by
      unfold vaultSignerAcct
      rw [show P.vaultSigner s.toCore.mkt.ownAddress s.toCore.mkt.vaultSignerNonce = some vs from hvs]
      exact checkAssert_ok.2 (by simp [A])
    have k9 : loadOrders s.toCore env A.oo.key (some A.owner.key) false none = .ok o := by
      unfold loadOrders
      rw [show ooAt s.toCore.oos A.oo.key = some o from ho]
      simp [hcl, A]
    unfold settleArgs
    simp only [k1, hfl, k2, k3, k4, k5, k6, k7, k8, k9, bind, Except.bind]
  have hexec : ∃ s', settleExec conc P s A o = .ok s' := by
    unfold settleExec
    have x1 : unwrap (checkedSub o.coinTotal o.coinFree) = .ok (o.coinTotal - o.coinFree) := by
      rw [unwrap_ok, checkedSub_some]; omega
    have x2 : unwrap (checkedSub o.pcTotal o.pcFree) = .ok (o.pcTotal - o.pcFree) := by
      rw [unwrap_ok, checkedSub_some]; omega
    simp only [x1, x2, bind, Except.bind]
    rw [s1 { s.mkt with
      coinDeposits := wsub s.mkt.coinDeposits o.coinFree
      pcDeposits := wsub s.mkt.pcDeposits o.pcFree } rfl rfl _ _ _ _ _ t1]
    simp only
    rw [s1 { s.mkt with
      coinDeposits := wsub s.mkt.coinDeposits o.coinFree
      pcDeposits := wsub s.mkt.pcDeposits o.pcFree } rfl rfl _ _ _ _ _ t2]
    simp only
    rw [show settleRebates P _ l2 o A.referrer = .ok y from hy]
    exact ⟨_, rfl⟩
  obtain ⟨s', hs'⟩ := hexec
  refine ⟨s', ?_, ?_⟩
  · unfold settleFunds
    rw [hparse]
    simp only [bind, Except.bind, hargs]
    exact hs'
  · have := settleExec_effect h hq (a := A) ho hcl hs'
    have e : (A.referrer.map (·.key)) = refer := by
      show (refer.map fun r => AccMeta.mk r false).map (·.key) = refer
      cases refer <;> rfl
    rw [e] at this
    exact this

-- 12 settles account 42 with a referrer in a market where 41 still rests an order
example : Reach Demo.P Demo.s6 ∧ settleFunds conc Demo.P Demo.env Demo.s6 (Demo.settleAccts 42 12 22 32 [Demo.acc 33]) = .ok Demo.s7 ∧
    (ooAt Demo.s6.oos 42).map (fun o => (o.coinFree, o.pcFree, o.rebates, o.closed, decide (HoldsFit Demo.s6 42 o))) =
      some (200, 40000, 1, false, true) :=
  ⟨Demo.r6, Demo.e7, by decide +kernel⟩

/-! ### Fee sweep -/

/-- C38. A successful fee sweep was signed by the sweep authority, pays out exactly the accrued fees, zeroes
them and changes nothing else. -/
theorem sweep_effect {P : Params} {s s' : State conc} (h : Reach P s) (hq : s.seq ≤ W64) {accts : List AccMeta}
    (hx : sweepFees conc P s accts = .ok s') :
    ∃ m pv auth w vsA tp l, accts = [m, pv, auth, w, vsA, tp] ∧ auth.signer = true ∧ auth.key = P.feeSweeper ∧
      Paid s.toks l s.mkt.pcVault w.key s.mkt.pcFees ∧
      s' = { s with
        mkt := { s.mkt with pcFees := 0 }
        toks := l } := by
  obtain ⟨vs, hv, hqi, hi⟩ := h.view hq
  unfold sweepFees at hx
  split at hx
  · obtain ⟨_, _, hx⟩ := bind_ok hx
    obtain ⟨_, _, hx⟩ := bind_ok hx
    obtain ⟨_, _, hx⟩ := bind_ok hx
    obtain ⟨_, _, hx⟩ := bind_ok hx
    obtain ⟨_, _, hx⟩ := bind_ok hx
    obtain ⟨_, h1, hx⟩ := bind_ok hx
    obtain ⟨_, h2, hx⟩ := bind_ok hx
    obtain ⟨l, hl, hx⟩ := bind_ok hx
    cases hx
    exact ⟨_, _, _, _, _, _, l, rfl, checkAssert_ok.1 h1, by simpa using checkAssert_ok.1 h2,
      spl_paid (sendFromVault_ok hv hl), rfl⟩
  · cases hx

example : Reach Demo.P Demo.s8 ∧ sweepFees conc Demo.P Demo.s8 Demo.sweepAccts = .ok Demo.s9 ∧
    Demo.s8.mkt.pcFees = 7 ∧ bal Demo.s9.toks 33 = bal Demo.s8.toks 33 + 7 :=
  ⟨Demo.r8, Demo.e9, by decide +kernel, by decide +kernel⟩

end Serum.Props
