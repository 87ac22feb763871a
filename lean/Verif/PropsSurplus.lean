import Verif.PropsJournal

/-!
C121: the surplus of a vault. Tokens in a vault beyond what the market has recorded, sent there by mistake or as a gift,
can never be taken out again: no instruction of anybody, the sweep authority included, makes the surplus smaller.
-/

namespace Serum.Props

/-! ### Spec -/

/-- What the market has recorded as lying in a vault: deposits, and in the quote vault also fees and rebates. If one account
is both vaults, all of it. -/
def recorded (s : State conc) (v : Nat) : Nat :=
  (if v = s.mkt.coinVault then s.mkt.coinDeposits else 0) +
  (if v = s.mkt.pcVault then s.mkt.pcDeposits + s.mkt.pcFees + s.mkt.referrerRebates else 0)

/-- What lies in a vault beyond that. -/
def surplus (s : State conc) (v : Nat) : Nat := bal s.toks v - recorded s v

/-- The accounts an instruction names to be paid out of a vault. -/
def toBePaid (ix : Instruction) (accts : List AccMeta) : List Nat :=
  match ix with
  | .settleFunds => ((accts.drop 5).take 2 ++ accts.drop 9).map (·.key)
  | .sendTake _ => ((accts.drop 5).take 2).map (·.key)
  | .sweepFees => ((accts.drop 3).take 1).map (·.key)
  | _ => []

/-! ### A take, with the signature of its payment -/

/-- The payments of a take. -/
structure TakeBills (s s' : State conc) (ix : SendTakeIx) (a : SendTakeAccts) (tier : FeeTier) (ts : List Touch) : Prop where
  bid : ix.side = .bid →
    (∃ l, depositIn s.toks a.pcWallet.key s.mkt.pcVault a.signer.key (tradedQuote s.mkt ts + takerFees s.mkt tier ts) = .ok l ∧
      PaidOut l s'.toks s.mkt.coinVault a.coinWallet.key (tradedLots ts * s.mkt.coinLot)) ∧
    Moved s.mkt s'.mkt 0 (tradedLots ts * s.mkt.coinLot) (tradedQuote s.mkt ts) 0 (takerFees s.mkt tier ts)
      (referrerPart s.mkt tier ts)
  ask : ix.side = .ask → takerFees s.mkt tier ts ≤ tradedQuote s.mkt ts ∧
    (∃ l, depositIn s.toks a.coinWallet.key s.mkt.coinVault a.signer.key (tradedLots ts * s.mkt.coinLot) = .ok l ∧
      PaidOut l s'.toks s.mkt.pcVault a.pcWallet.key (tradedQuote s.mkt ts - takerFees s.mkt tier ts)) ∧
    Moved s.mkt s'.mkt (tradedLots ts * s.mkt.coinLot) 0 0 (tradedQuote s.mkt ts) (takerFees s.mkt tier ts)
      (referrerPart s.mkt tier ts)

theorem take_pays {P : Params} {s s' : State conc} (h : Reach P s) (hq : s.seq < W64)
    {accts : List AccMeta} {ix : SendTakeIx} (hv : TakeValid ix) (hn : NotVault P s.mkt accts)
    (hx : sendTake conc P s accts ix = .ok s') :
    ∃ a tier ts, TakeArgs P s.toCore accts a tier ∧ TakeBills s s' ix a tier ts := by
  obtain ⟨vs, hvs, hqi, hi⟩ := h.view (Nat.le_of_lt hq)
  have hg := h.good (Nat.le_of_lt hq)
  have hL := absState_q hg hqi
  obtain ⟨t, ht, hrs⟩ := Sim.ok_right (Refines.sim_sendTake hg.rs P accts ix hv.1.2) hx
  obtain ⟨a, tier, hA, ob', ts, f, evs', given, post, tail, m', D, w, l', hR⟩ :=
    sendTake_run (evs := pending s) ht hv hn hq hvs hL hi
  have hcore : s'.toCore = t.toCore := hrs.core
  have hst := hR.state
  have hmk : s'.mkt = m' := by rw [congrArg Core.mkt hcore, hst]
  have hoos : s'.oos = s.oos := by rw [congrArg Core.oos hcore, hst]; rfl
  have htoks : s'.toks = l' := by rw [congrArg Core.toks hcore, hst]
  have hseq : s'.seq = s.seq + 1 := by rw [congrArg Core.seq hcore, hst]; rfl
  have hsm := hR.ran.mkt.same
  have hok := sendTakeReq_ok (tier := tier) hv hq
  have hdep := hi.shape.mkt.pcDeposits
  have hMok := hR.ran.mktOk
  have hmoney := path_money hok hR.start (fun _ => hR.owners) hR.path
  have hown := path_own hok hR.start hR.path
  have hf : f = none := by
    cases f with
    | none => rfl
    | some f => exact absurd rfl hown.2.owner
  subst hf
  have hrun := hR.ran.run
  have hsum := runSums_eq s.mkt s.mkt rfl tier ts
  have hmr := hR.ran.mkt
  have hmr : MarketRun s.mkt ob'.mkt (runSums s.mkt tier ts) := hmr
  rw [hsum] at hmr
  have hrun' : match ix.side with
    | .bid => RunBid (sendTakeReq ix (genOrderId s.seq ix.limitPrice ix.side) tier) s.mkt s.bids.contents
        s.asks.contents ob'.bids.items ob'.asks.items evs' ob'.pr (runSums s.mkt tier ts) given post tail
    | .ask => RunAsk (sendTakeReq ix (genOrderId s.seq ix.limitPrice ix.side) tier) s.mkt s.bids.contents
        s.asks.contents ob'.bids.items ob'.asks.items evs' ob'.pr (runSums s.mkt tier ts) given post tail := hrun
  rw [hsum] at hrun'
  have hnv : a.signer.key ≠ vs := by
    intro e
    have := hn _ (parseSendTake_mem hA.parse) hA.signed
    rw [e] at this
    exact this hvs
  have htot := hR.totals
  have hmin := hR.min
  have htr := hR.transfers
  unfold sendTakeTotals at htot
  unfold checkMin at hmin
  unfold sendTakeTransfers at htr
  unfold PrReport at hmoney
  have e0 : (sendTakeReq ix (genOrderId s.seq ix.limitPrice ix.side) tier).side = ix.side := rfl
  rw [e0] at hmoney
  have hcl : ob'.mkt.coinLot = s.mkt.coinLot := hsm.coinLot
  have hob := hmr.same.eq
  obtain ⟨r1, r2, r3, r4, r5⟩ := hmr
  simp only at r2 r3 r4 r5
  have hmm : m' = { s.mkt with
      coinDeposits := m'.coinDeposits, pcDeposits := m'.pcDeposits, pcFees := ob'.mkt.pcFees,
      referrerRebates := ob'.mkt.referrerRebates } := by
    cases hs : ix.side with
    | bid =>
      rw [hs] at htot
      obtain ⟨w1, hw, htot⟩ := bind_ok htot
      obtain ⟨_, hle, htot⟩ := bind_ok htot
      simp only [pure, Except.pure, Except.ok.injEq, Prod.mk.injEq] at htot
      obtain ⟨rfl, rfl, rfl⟩ := htot
      rw [hob]
    | ask =>
      rw [hs] at htot
      obtain ⟨w1, hw, htot⟩ := bind_ok htot
      obtain ⟨_, hle, htot⟩ := bind_ok htot
      simp only [pure, Except.pure, Except.ok.injEq, Prod.mk.injEq] at htot
      obtain ⟨rfl, rfl, rfl⟩ := htot
      rw [hob]
  have hvs' : P.vaultSigner m'.ownAddress m'.vaultSignerNonce = some vs := hR.signer
  have v1 : m'.pcVault = s.mkt.pcVault := by rw [hmm]
  have v2 : m'.coinVault = s.mkt.coinVault := by rw [hmm]
  rw [v1, v2] at htr
  cases hs : ix.side with
  | bid =>
    rw [hs] at hmoney htot hmin htr hrun'
    simp only at hmoney hmin htr hrun'
    obtain ⟨tl, gv, m2, _, m4, _, m6⟩ := hmoney
    have hpr := hrun'.pr
    have hbud := hrun'.budget
    have hpl : (sendTakeReq ix (genOrderId s.seq ix.limitPrice .bid) tier).pcLocked = ix.maxPcQty := by
      show (match ix.side with | .bid => ix.maxPcQty | .ask => 0) = _
      rw [hs]
    rw [hpl] at hbud
    simp only at hbud
    have q1 : ob'.pr.coinCredit = tradedLots ts := by rw [hpr]
    have q2 : ob'.pr.pcDebit = tradedQuote s.mkt ts + takerFees s.mkt tier ts := by rw [hpr]
    obtain ⟨w1, hw, htot⟩ := bind_ok htot
    obtain ⟨_, hle, htot⟩ := bind_ok htot
    simp only [pure, Except.pure, Except.ok.injEq, Prod.mk.injEq] at htot
    obtain ⟨hm', rfl, rfl⟩ := htot
    rw [unwrap_ok, checkedMul_some, q1, hcl] at hw
    obtain ⟨hwlt, rfl⟩ := hw
    rw [checkAssert_ok, decide_eq_true_eq] at hle
    have hcd : ob'.mkt.coinDeposits = s.mkt.coinDeposits := by rw [hob]
    rw [hcd] at hle
    rw [q2] at htr
    obtain ⟨l1, hd, hout⟩ := bind_ok htr
    have hF := hi.funds.deposit hd hnv
      (m' := { s.mkt with pcDeposits := s.mkt.pcDeposits + (tradedQuote s.mkt ts + takerFees s.mkt tier ts) }) rfl rfl (by
        intro b
        simp only [owed]
        by_cases g1 : b = s.mkt.coinVault <;> by_cases g2 : b = s.mkt.pcVault <;>
          simp only [g1, g2, if_true, if_false] <;> first | omega | (split <;> omega) | (simp_all; omega))
    have hlt := pc_backed hF
    simp only at hlt
    have hcb := coin_backed hF
    simp only at hcb
    have hpd := hMok.pcDeposits
    refine ⟨a, tier, ts, hA, fun _ => ⟨⟨l1, hd, ?_⟩, ?_⟩, fun h => (by rw [hs] at h; cases h)⟩
    · rw [htoks]; exact sendOut_paid hvs' hout
    · rw [hmk]
      rw [Nat.mod_eq_of_lt (by omega)] at r2 r3
      have z1 : m'.coinDeposits = s.mkt.coinDeposits - tradedLots ts * s.mkt.coinLot := by
        rw [← hm']
        show wsub ob'.mkt.coinDeposits _ = _
        rw [hcd, wsub_eq hle hcb]
      have z2 : m'.pcDeposits = s.mkt.pcDeposits + tradedQuote s.mkt ts := by
        rw [← hm']
        show wadd ob'.mkt.pcDeposits ob'.pr.pcDebit = _
        rw [q2]
        unfold wadd
        unfold W64 at *
        omega
      refine ⟨?_, by omega, by omega, r5⟩
      rw [hmm, z1, z2, r2, r3]
      rfl
  | ask =>
    rw [hs] at hmoney htot hmin htr hrun'
    simp only at hmoney hmin htr hrun'
    obtain ⟨tl, m2, _, m6⟩ := hmoney
    have hpr := hrun'.pr
    have hfl := hrun'.feeLe
    have hfb := hrun'.freeBid
    simp only at hfl hfb
    have q1 : ob'.pr.coinDebit = tradedLots ts := by rw [hpr]
    have q2 : ob'.pr.pcCredit = tradedQuote s.mkt ts - takerFees s.mkt tier ts := by rw [hpr]
    obtain ⟨w1, hw, htot⟩ := bind_ok htot
    obtain ⟨_, hle, htot⟩ := bind_ok htot
    simp only [pure, Except.pure, Except.ok.injEq, Prod.mk.injEq] at htot
    obtain ⟨hm', rfl, rfl⟩ := htot
    rw [unwrap_ok, checkedMul_some, q1, hcl] at hw
    obtain ⟨hwlt, rfl⟩ := hw
    have hcd : ob'.mkt.coinDeposits = s.mkt.coinDeposits := by rw [hob]
    rw [q2] at htr
    obtain ⟨l1, hd, hout⟩ := bind_ok htr
    have hF := hi.funds.deposit hd hnv
      (m' := { s.mkt with coinDeposits := s.mkt.coinDeposits + tradedLots ts * s.mkt.coinLot }) rfl rfl (by
        intro b
        simp only [owed]
        by_cases g1 : b = s.mkt.coinVault <;> by_cases g2 : b = s.mkt.pcVault <;>
          simp only [g1, g2, if_true, if_false] <;> first | omega | (split <;> omega) | (simp_all; omega))
    have hlt := pc_backed hi.funds
    have hcb := coin_backed hF
    simp only at hcb
    have hpd := hMok.pcDeposits
    have hmp := hi.money.pc
    have m2' : ix.maxCoinQty = tradedLots ts + sumBy (Touch.given .abortTransaction) ts + 0 + tl + 0 := m2
    refine ⟨a, tier, ts, hA, fun h => (by rw [hs] at h; cases h), fun _ => ⟨hfl, ⟨l1, hd, ?_⟩, ?_⟩⟩
    · rw [htoks]; exact sendOut_paid hvs' hout
    · rw [hmk]
      rw [Nat.mod_eq_of_lt (by omega)] at r2 r3
      have z1 : m'.coinDeposits = s.mkt.coinDeposits + tradedLots ts * s.mkt.coinLot := by
        rw [← hm']
        show wadd ob'.mkt.coinDeposits _ = _
        rw [hcd, wadd_eq hcb]
      have z0 : ob'.mkt.pcDeposits = s.mkt.pcDeposits - takerFees s.mkt tier ts := by
        unfold W64 at *
        omega
      have z2 : m'.pcDeposits = s.mkt.pcDeposits - tradedQuote s.mkt ts := by
        rw [← hm']
        show wsub ob'.mkt.pcDeposits ob'.pr.pcCredit = _
        rw [q2, z0, wsub_eq (by omega) (by omega)]
        omega
      refine ⟨?_, by omega, by omega, r5⟩
      rw [hmm, z1, z2, r2, r3]
      rfl

/-! ### Payments and balances -/

def IsVault (s : State conc) (v : Nat) : Prop := v = s.mkt.coinVault ∨ v = s.mkt.pcVault

theorem paid_in_bal {P : Params} {s : State conc} (h : Reach P s) (hq : s.seq ≤ W64) {v : Nat} (hv : IsVault s v)
    {signer : Nat} (hn : P.vaultSigner s.mkt.ownAddress s.mkt.vaultSignerNonce ≠ some signer) {l : Ledger} {src w n : Nat}
    (hd : depositIn s.toks src w signer n = .ok l) : bal l v = bal s.toks v + if v = w then n else 0 := by
  obtain ⟨t, ht, h1, _, h3⟩ := (vault_solvency h hq).2.2.2 v hv
  rcases depositIn_paid hd with ⟨rfl, rfl⟩ | ⟨_, hne, hp⟩
  · split <;> rfl
  have hsrc : v ≠ src ∨ l = s.toks := by
    rcases depositIn_auth hd with e | ⟨t', ht', ho⟩
    · exact .inr e
    · left
      rintro rfl
      rw [ht] at ht'
      cases ht'
      rcases ho with e | e
      · exact hn (by rw [← e]; exact h3)
      · rw [h1] at e; cases e
  by_cases e : v = w
  · subst e
    rw [if_pos rfl]
    exact hp.to_ hne
  · rw [if_neg e]
    rcases hsrc with g | g
    · unfold bal; rw [hp.others v g e]; rfl
    · rw [g]; rfl

theorem paid_bal {l l' : Ledger} {w dst n : Nat} (h : Paid l l' w dst n) (v : Nat) :
    bal l v ≤ bal l' v + (if v = w then n else 0) ∧
    (dst ≠ v → bal l v = bal l' v + (if v = w then n else 0)) := by
  by_cases hs : w = dst
  · have := h.self hs
    rw [this]
    refine ⟨by omega, fun hd => ?_⟩
    rw [if_neg (fun e => hd (hs.symm.trans e.symm))]
    rfl
  · by_cases e : v = w
    · subst e
      have := h.from_ hs
      have := h.enough
      rw [if_pos rfl]
      exact ⟨by omega, fun _ => by omega⟩
    · rw [if_neg e]
      by_cases g : v = dst
      · subst g
        have := h.to_ hs
        exact ⟨by omega, fun hd => absurd rfl hd⟩
      · have : bal l' v = bal l v := by unfold bal; rw [h.others v e g]
        exact ⟨by omega, fun _ => by omega⟩

theorem paid_out_bal {l l' : Ledger} {w dst n : Nat} (h : PaidOut l l' w dst n) (v : Nat) :
    bal l v ≤ bal l' v + (if v = w then n else 0) ∧
    (dst ≠ v → bal l v = bal l' v + (if v = w then n else 0)) := by
  rcases h with ⟨rfl, rfl⟩ | ⟨_, h⟩
  · exact ⟨by omega, fun _ => by split <;> rfl⟩
  · exact paid_bal h v

/-- The surplus did not shrink, and is the same if `q` holds. -/
def Kept (s s' : State conc) (v : Nat) (q : Prop) : Prop :=
  bal s.toks v + recorded s' v ≤ bal s'.toks v + recorded s v ∧
  (q → bal s.toks v + recorded s' v = bal s'.toks v + recorded s v)

theorem Kept.same {s s' : State conc} {v : Nat} {q : Prop} (ht : s'.toks = s.toks) (hm : recorded s' v = recorded s v) :
    Kept s s' v q := by
  unfold Kept
  rw [ht, hm]
  exact ⟨Nat.le_refl _, fun _ => rfl⟩

theorem recorded_mkt {s s' : State conc} (h : s'.mkt = s.mkt) (v : Nat) : recorded s' v = recorded s v := by
  unfold recorded; rw [h]

theorem Moved.recorded {s s' : State conc} {a b c d f r : Nat} (h : Moved s.mkt s'.mkt a b c d f r) (v : Nat) :
    Props.recorded s' v + ((if v = s.mkt.coinVault then b else 0) + if v = s.mkt.pcVault then d else 0) =
      Props.recorded s v + ((if v = s.mkt.coinVault then a else 0) + if v = s.mkt.pcVault then c + f else 0) := by
  obtain ⟨h1, h2, h3, h4⟩ := h
  unfold Props.recorded
  rw [h1]
  simp only
  split <;> split <;> omega

/-! ### One act -/

theorem place_kept {P : Params} {env : Env} {l : List AccMeta} {s s' : State conc} {ix : NewOrderIx} (h : Reach P s)
    (hq : s'.seq ≤ W64) (hn : NotVault P s.mkt l) (hv : OrderValid ix) (hx : newOrderV3 conc P env s l ix = .ok s')
    {v : Nat} (hvt : IsVault s v) (q : Prop) : Kept s s' v q := by
  have hlt : s.seq < W64 := by have := (newOrderV3_keeps hx).2.1; omega
  obtain ⟨a, tier, o, o', slot, d, ts, f, evs, e⟩ := place_effect h hlt hv hn hx
  have hb := paid_in_bal h (Nat.le_of_lt hlt) hvt (hn _ (parse_order_owner e.args.parse) e.args.signed) e.signedPay
  have hr : recorded s' v = recorded s v + if v = s.mkt.depositVault ix.side then d else 0 := by
    cases hs : ix.side with
    | bid =>
      have := (e.bid hs).mkt.recorded v
      unfold Market.depositVault
      by_cases g1 : v = s.mkt.coinVault <;> by_cases g2 : v = s.mkt.pcVault <;> simp only [g1, g2, if_true, if_false] at this ⊢ <;>
        first | omega | (split at this <;> omega) | (simp_all; done) | (simp_all; omega)
    | ask =>
      have := (e.ask hs).mkt.recorded v
      unfold Market.depositVault
      by_cases g1 : v = s.mkt.coinVault <;> by_cases g2 : v = s.mkt.pcVault <;> simp only [g1, g2, if_true, if_false] at this ⊢ <;>
        first | omega | (split at this <;> omega) | (simp_all; done) | (simp_all; omega)
  unfold Kept
  rw [hb, hr]
  exact ⟨by omega, fun _ => by omega⟩

theorem take_kept {P : Params} {l : List AccMeta} {s s' : State conc} {ix : SendTakeIx} (h : Reach P s)
    (hq : s'.seq ≤ W64) (hn : NotVault P s.mkt l) (hv : TakeValid ix) (hx : sendTake conc P s l ix = .ok s')
    {v : Nat} (hvt : IsVault s v) : Kept s s' v (v ∉ toBePaid (.sendTake ix) l) := by
  have hlt : s.seq < W64 := by have := (sendTake_keeps hx).2.1; omega
  obtain ⟨a, tier, ts, hA, e⟩ := take_pays h hlt hv hn hx
  have hw : v ∉ toBePaid (.sendTake ix) l → a.coinWallet.key ≠ v ∧ a.pcWallet.key ≠ v := by
    have hp := hA.parse
    unfold parseSendTake at hp
    split at hp
    · split at hp
      · cases hp
        simp only [toBePaid, List.drop, List.take, List.map, List.mem_cons, List.not_mem_nil, or_false, not_or]
        exact fun g => ⟨fun e => g.1 e.symm, fun e => g.2 e.symm⟩
      · cases hp
    · cases hp
  have hsg := hn _ (parse_take_signer hA.parse) hA.signed
  cases hs : ix.side with
  | bid =>
    obtain ⟨⟨l1, hd, ho⟩, hm⟩ := e.bid hs
    have h1 := paid_in_bal h (Nat.le_of_lt hlt) hvt hsg hd
    have h2 := paid_out_bal ho v
    have h3 := hm.recorded v
    refine ⟨?_, fun g => ?_⟩
    · have := h2.1
      by_cases g1 : v = s.mkt.coinVault <;> by_cases g2 : v = s.mkt.pcVault <;>
        first
          | (simp only [if_pos g1, if_pos g2] at h1 h3 this; omega)
          | (simp only [if_neg g2] at h1 h3 this; simp only [if_pos g1] at h1 h3 this; omega)
          | (simp only [if_neg g1, if_pos g2] at h1 h3 this; omega)
          | (simp only [if_neg g1, if_neg g2] at h1 h3 this; omega)
    · have := h2.2 (hw g).1
      by_cases g1 : v = s.mkt.coinVault <;> by_cases g2 : v = s.mkt.pcVault <;>
        first
          | (simp only [if_pos g1, if_pos g2] at h1 h3 this; omega)
          | (simp only [if_pos g1, if_neg g2] at h1 h3 this; omega)
          | (simp only [if_neg g1, if_pos g2] at h1 h3 this; omega)
          | (simp only [if_neg g1, if_neg g2] at h1 h3 this; omega)
  | ask =>
    obtain ⟨hf, ⟨l1, hd, ho⟩, hm⟩ := e.ask hs
    have h1 := paid_in_bal h (Nat.le_of_lt hlt) hvt hsg hd
    have h2 := paid_out_bal ho v
    have h3 := hm.recorded v
    refine ⟨?_, fun g => ?_⟩
    · have := h2.1
      by_cases g1 : v = s.mkt.coinVault <;> by_cases g2 : v = s.mkt.pcVault <;>
        first
          | (simp only [if_pos g1, if_pos g2] at h1 h3 this; omega)
          | (simp only [if_pos g1, if_neg g2] at h1 h3 this; omega)
          | (simp only [if_neg g1, if_pos g2] at h1 h3 this; omega)
          | (simp only [if_neg g1, if_neg g2] at h1 h3 this; omega)
    · have := h2.2 (hw g).2
      by_cases g1 : v = s.mkt.coinVault <;> by_cases g2 : v = s.mkt.pcVault <;>
        first
          | (simp only [if_pos g1, if_pos g2] at h1 h3 this; omega)
          | (simp only [if_pos g1, if_neg g2] at h1 h3 this; omega)
          | (simp only [if_neg g1, if_pos g2] at h1 h3 this; omega)
          | (simp only [if_neg g1, if_neg g2] at h1 h3 this; omega)

theorem settle_kept {P : Params} {env : Env} {l : List AccMeta} {s s' : State conc} (h : Reach P s) (hq : s.seq ≤ W64)
    (hx : settleFunds conc P env s l = .ok s') {v : Nat} : Kept s s' v (v ∉ toBePaid .settleFunds l) := by
  obtain ⟨m, oo, owner, cv, pv, cw, pw, vsA, tp, refer, o, rfl, _, _, _, st⟩ := settle_effect h hq hx
  have hr : (if 0 < o.rebates then (refer.map (·.key)).head? else none) = none ∨
      ∃ r ∈ refer, (if 0 < o.rebates then (refer.map (·.key)).head? else none) = some r.key := by
    split
    · cases refer with
      | nil => exact .inl rfl
      | cons r _ => exact .inr ⟨r, by simp, rfl⟩
    · exact .inl rfl
  have hw : v ∉ toBePaid .settleFunds (m :: oo :: owner :: cv :: pv :: cw :: pw :: vsA :: tp :: refer) →
      cw.key ≠ v ∧ pw.key ≠ v ∧ ∀ r ∈ refer, r.key ≠ v := by
    simp only [toBePaid, List.drop, List.take, List.map_append, List.map, List.mem_append, List.mem_cons, List.not_mem_nil,
      or_false, not_or, List.mem_map, not_exists, not_and]
    exact fun g => ⟨fun e => g.1.1 e.symm, fun e => g.1.2 e.symm, fun r hr => g.2 r hr⟩
  obtain ⟨l1, l2, p1, p2, p3⟩ := st.paid
  have b1 := paid_bal p1 v
  have b2 := paid_bal p2 v
  obtain ⟨_, _, e3, e4, e5⟩ := st.enough
  have hm := st.mkt
  rcases hr with er | ⟨r, hrm, er⟩
  · rw [er] at p3 hm
    simp only at p3
    have h3 : recorded s' v + ((if v = s.mkt.coinVault then o.coinFree else 0) + if v = s.mkt.pcVault then o.pcFree else 0) =
        recorded s v := by
      unfold recorded
      rw [hm]
      simp only [if_true]
      split <;> split <;> omega
    unfold Kept
    rw [p3]
    refine ⟨by have := b1.1; have := b2.1; omega, fun g => ?_⟩
    have := b1.2 (hw g).1
    have := b2.2 (hw g).2.1
    omega
  · rw [er] at p3 hm
    simp only at p3
    have b3 := paid_bal p3 v
    have h3 : recorded s' v + ((if v = s.mkt.coinVault then o.coinFree else 0) + (if v = s.mkt.pcVault then o.pcFree else 0) +
        if v = s.mkt.pcVault then o.rebates else 0) = recorded s v := by
      unfold recorded
      rw [hm]
      simp only [reduceCtorEq, if_false]
      split <;> split <;> omega
    unfold Kept
    refine ⟨by have := b1.1; have := b2.1; have := b3.1; omega, fun g => ?_⟩
    have := b1.2 (hw g).1
    have := b2.2 (hw g).2.1
    have := b3.2 ((hw g).2.2 r hrm)
    omega

theorem sweep_kept {P : Params} {l : List AccMeta} {s s' : State conc} (h : Reach P s) (hq : s.seq ≤ W64)
    (hx : sweepFees conc P s l = .ok s') {v : Nat} : Kept s s' v (v ∉ toBePaid .sweepFees l) := by
  obtain ⟨m, pv, auth, w, vsA, tp, l', rfl, _, _, hp, e⟩ := sweep_effect h hq hx
  subst e
  have b := paid_bal hp v
  have h3 : recorded { s with mkt := { s.mkt with pcFees := 0 }, toks := l' } v + (if v = s.mkt.pcVault then s.mkt.pcFees else 0) =
      recorded s v := by
    unfold recorded
    simp only
    split <;> split <;> omega
  unfold Kept
  refine ⟨by have := b.1; show _ ≤ bal l' v + _; omega, fun g => ?_⟩
  have := b.2 (by
    simp only [toBePaid, List.drop, List.take, List.map, List.mem_cons, List.not_mem_nil, or_false] at g
    exact fun e => g e.symm)
  show _ = bal l' v + _
  omega

/-- Orders only pay in. -/
theorem newOrders_kept {P : Params} {env : Env} {accts : List AccMeta} {ixs : List NewOrderIx} {v : Nat} (q : Prop) :
    ∀ {s s' : State conc}, Reach P s → NotVault P s.mkt accts → (∀ ix ∈ ixs, OrderValid ix) → s'.seq ≤ W64 → IsVault s v →
    newOrders conc P env s accts ixs = .ok s' → Kept s s' v q := by
  induction ixs with
  | nil => intro s s' hr hn hv hq hvt h; cases h; exact .same rfl rfl
  | cons ix ixs ih =>
    intro s s' hr hn hv hq hvt h
    unfold newOrders at h
    obtain ⟨s1, h1, h⟩ := bind_ok h
    have hx := hv ix (by simp)
    have k := (newOrderV3_keeps h1).1
    have hq1 : s1.seq ≤ W64 := Nat.le_trans (newOrders_acts (place_reach hr hn hx h1) (hn.keeps k)
      (fun j hj => hv j (by simp [hj])) h).seq hq
    have a := place_kept hr hq1 hn hx h1 hvt q
    have b := ih (place_reach hr hn hx h1) (hn.keeps k) (fun j hj => hv j (by simp [hj])) hq
      (by unfold IsVault; rw [k.eq]; exact hvt) h
    exact ⟨by have := a.1; have := b.1; omega, fun g => by have := a.2 g; have := b.2 g; omega⟩

/-- One instruction. -/
theorem process_kept {P : Params} {env : Env} {s s' : State conc} {accts : List AccMeta} {ix : Instruction}
    (h : Reach P s) (hn : NotVault P s.mkt accts) (hv : IxValid ix) (hq : s'.seq ≤ W64)
    (hx : process conc P env s accts ix = .ok s') {v : Nat} (hvt : IsVault s v) : Kept s s' v (v ∉ toBePaid ix accts) := by
  have hs : s.seq ≤ W64 := Nat.le_trans (process_acts h hn hv hx).seq hq
  have wd : ∀ {a ls} {q : Prop}, Withdrawn s s' a ls → Kept s s' v q := fun w => .same w.toks (recorded_mkt w.mkt v)
  have repl : ∀ (ixs : List NewOrderIx) (q : Prop), ixs.length ≤ 8 → (∀ ix ∈ ixs, OrderValid ix) →
      replaceOrders conc P env s accts ixs = .ok s' → Kept s s' v q := by
    intro ixs q hl hv h0
    obtain ⟨ca, s1, _, hsub, h1, hr1, hn1, h2⟩ := replace_parts h hn hl hv h0
    obtain ⟨_, _, _, _, _, _, _, _, _, w⟩ := cancel_withdrawn h hs (.inr (.inr ⟨_, h1⟩))
    have a := newOrders_kept q hr1 hn1 hv hq (v := v) (by unfold IsVault; rw [w.mkt]; exact hvt) h2
    unfold Kept at a ⊢
    rw [w.toks, recorded_mkt w.mkt] at a
    exact a
  cases ix with
  | initializeMarket => cases hx
  | newOrder => cases hx
  | matchOrders => cases hx; exact .same rfl rfl
  | consumeEvents =>
    obtain ⟨_, _, _, _, _, _, _, hm, ht, _⟩ := crank_delivers h hs (.inl hx)
    exact .same ht (recorded_mkt hm v)
  | cancelOrder => cases hx
  | settleFunds => exact settle_kept h hs hx
  | cancelOrderByClientId => cases hx
  | disableMarket =>
    obtain ⟨_, _, _, _, _, _, e⟩ := disable_inv hx
    subst e
    exact .same rfl rfl
  | sweepFees => exact sweep_kept h hs hx
  | newOrderV2 => cases hx
  | newOrderV3 => exact place_kept h hq hn hv hx hvt _
  | cancelOrderV2 => obtain ⟨_, _, _, _, _, _, _, _, _, w⟩ := cancel_withdrawn h hs (.inl ⟨_, _, hx⟩); exact wd w
  | cancelOrderByClientIdV2 =>
    obtain ⟨_, _, _, _, _, _, _, _, _, w⟩ := cancel_withdrawn h hs (.inr (.inl ⟨_, hx⟩)); exact wd w
  | sendTake => exact take_kept h hq hn hv hx hvt
  | closeOpenOrders =>
    obtain ⟨oo, owner, dest, m, p, rfl, hsg, hp, _, how, _, _, _, e⟩ := (close_is_safe h hs).1 _ _ _ hx
    subst e
    exact .same rfl rfl
  | initOpenOrders =>
    obtain ⟨oo, owner, m, rent, rest, rfl, hsg, _, hcase⟩ := init_inv hx
    rcases hcase with ⟨e, _⟩ | ⟨e, hnone, _⟩ <;> subst e <;> exact .same rfl rfl
  | prune => obtain ⟨_, _, _, _, _, _, _, _, _, _, _, _, _, _, _, w, _⟩ := prune_effect h hs hx; exact wd w
  | consumeEventsPermissioned =>
    obtain ⟨_, _, _, _, _, _, _, hm, ht, _⟩ := crank_delivers h hs (.inr hx)
    exact .same ht (recorded_mkt hm v)
  | cancelOrdersByClientIds =>
    obtain ⟨_, _, _, _, _, _, _, _, _, w⟩ := cancel_withdrawn h hs (.inr (.inr ⟨_, hx⟩)); exact wd w
  | replaceOrderByClientId ix =>
    exact repl [ix] _ (by simp) (by intro j hj; rw [List.mem_singleton.1 hj]; exact hv) hx
  | replaceOrdersByClientIds ixs => exact repl ixs _ hv.1 hv.2 hx

end Serum.Props

namespace Serum.Demo

/-- Before account 42 is settled, its owner 12 sends 5 quote units to the quote vault by mistake. -/
def gift : State conc :=
  { s6 with toks := (tokExec (· == 12) s6.toks (.transfer 32 52 12 5)).getD s6.toks }

theorem gift_step : Step P s6 gift := by
  refine .token (signs := (· == 12)) (ix := .transfer 32 52 12 5) (fun k hk => ?_) ?_
  · simp only [beq_iff_eq] at hk
    subst hk
    decide
  · have h : (tokExec (· == 12) s6.toks (.transfer 32 52 12 5)).isSome = true := by decide +kernel
    obtain ⟨l, hl⟩ := Option.isSome_iff_exists.1 h
    rw [hl]; rfl

theorem gift_reach : Reach P gift := r6.step gift_step

/-- 12 settles to its own wallets. -/
def settled : State conc := run gift (settleAccts 42 12 22 32 [acc 33]) .settleFunds
/-- Or names the vaults as its wallets. -/
def given : State conc := run gift (settleAccts 42 12 51 52 [acc 33]) .settleFunds

end Serum.Demo

namespace Serum.Props

/-! ### C121 -/

/-- C121, what a vault holds: what is recorded, and its surplus. -/
theorem vault_holds {P : Params} {s : State conc} (h : Reach P s) (hq : s.seq ≤ W64) (v : Nat) :
    bal s.toks v = recorded s v + surplus s v := by
  obtain ⟨vs, _, _, hi⟩ := h.view hq
  have : recorded s v ≤ bal s.toks v := hi.funds.solvent v
  unfold surplus
  omega

/-- C121, one instruction. Whoever sends it, the surplus of a vault is not smaller afterwards; and it is exactly the same
unless the instruction is a settlement, take or sweep that names the vault itself as the account to be paid. -/
theorem surplus_instruction {P : Params} {env : Env} {s s' : State conc} {accts : List AccMeta} {data : List UInt8}
    {ix : Instruction} (h : Reach P s) (hn : NotVault P s.mkt accts) (hq : s'.seq ≤ W64)
    (hu : Instruction.unpack data = some ix) (hx : processRaw conc P env s accts data = .ok s') {v : Nat}
    (hv : IsVault s v) :
    surplus s v ≤ surplus s' v ∧ (v ∉ toBePaid ix accts → surplus s' v = surplus s v) := by
  have hr' : Reach P s' := h.step (.instr hn hx)
  obtain ⟨ix', hu', hiv, hp⟩ := step_instr hx
  rw [hu] at hu'
  cases hu'
  have k := process_kept h hn hiv hq hp hv
  have e1 := vault_holds h (Nat.le_trans (Step.instr hn hx).seq hq) v
  have e2 := vault_holds hr' hq v
  exact ⟨by have := k.1; omega, fun g => by have := k.2 g; omega⟩

-- 5 quote units sent to the vault stay there when the account is settled; naming the vault itself as the wallet adds the
-- free balance to the surplus
example : Reach Demo.P Demo.gift ∧ NotVault Demo.P Demo.gift.mkt (Demo.settleAccts 42 12 22 32 [Demo.acc 33]) ∧
    Demo.fine Demo.gift (Demo.settleAccts 42 12 22 32 [Demo.acc 33]) .settleFunds = true ∧
    (surplus Demo.s6 52, surplus Demo.gift 52, surplus Demo.settled 52) = (0, 5, 5) ∧
    recorded Demo.settled 52 < recorded Demo.gift 52 ∧
    Demo.fine Demo.gift (Demo.settleAccts 42 12 51 52 [Demo.acc 33]) .settleFunds = true ∧
    surplus Demo.gift 52 < surplus Demo.given 52 :=
  ⟨Demo.gift_reach, Demo.notVault _ (by decide), by decide +kernel, by decide +kernel, by decide +kernel, by decide +kernel,
    by decide +kernel⟩

/-- C121, for good. From any state of a market to any later one, whatever anybody does inside or outside the program, the
surplus of its vaults does not become smaller. -/
theorem surplus_lasts {P : Params} {s s' : State conc} (h : Reach P s) (hl : Later P s s') (hq : s'.seq ≤ W64) {v : Nat}
    (hv : IsVault s v) : surplus s v ≤ surplus s' v ∧ IsVault s' v := by
  induction hl with
  | refl => exact ⟨Nat.le_refl _, hv⟩
  | step hl hs ih =>
    have hr := hl.reach h
    have hq1 := Nat.le_trans hs.seq hq
    obtain ⟨h1, h2⟩ := ih hq1
    cases hs with
    | instr hn hx =>
      obtain ⟨ix, hu, _, _⟩ := step_instr hx
      refine ⟨Nat.le_trans h1 (surplus_instruction hr hn hq hu hx h2).1, ?_⟩
      unfold IsVault
      rw [(processRaw_keeps hx).eq]
      exact h2
    | purge ho hc => exact ⟨h1, h2⟩
    | @token signs ix l hn hx =>
      refine ⟨Nat.le_trans h1 ?_, h2⟩
      obtain ⟨vs, hvs, _, hi⟩ := hr.view hq1
      have hsg : signs vs = false := by
        cases e : signs vs with
        | false => rfl
        | true => exact absurd hvs (hn vs e)
      have ho := tokExec_outside hsg hx
      refine Nat.sub_le_sub_right (m := bal l v) ?_ _
      rcases h2 with e | e
      · rw [e]; exact (ho.held _ hi.funds.coin).2
      · rw [e]; exact (ho.held _ hi.funds.pc).2

-- the step in which the tokens are lost, and one after it
example : Later Demo.P Demo.s6 Demo.gift ∧ IsVault Demo.s6 52 ∧ surplus Demo.s6 52 = 0 ∧ surplus Demo.gift 52 = 5 :=
  ⟨.step .refl Demo.gift_step, .inr (by decide +kernel), by decide +kernel, by decide +kernel⟩

end Serum.Props
