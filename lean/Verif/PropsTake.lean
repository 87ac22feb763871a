import Verif.PropsPlace

/-
C66: a funded send-take on an enabled market goes through, unless it would give less than the stated minimum.
-/

namespace Serum

/-- The orders a send-take meets. -/
def takeMeets (s : State lst) (ix : SendTakeIx) (tier : FeeTier) : List Touch :=
  ({ side := ix.side, price := ix.limitPrice, owner := 0, stb := .abortTransaction, kind := .ioc, tier,
     pcLot := s.mkt.pcLot } : Want).takes ix.limit (opposite ix.side s.bids.items s.asks.items) ix.maxCoinQty
    (match ix.side with | .bid => ix.maxPcQty | .ask => 0)

/-- What a send-take needs of the market and the ledger in order to go through, given its accounts. -/
structure TakeFit (P : Params) (s : State lst) (a : SendTakeAccts) (ix : SendTakeIx) (tier : FeeTier) (vs : Nat) :
    Prop where
  room : s.q.items.length + (3 * (takeMeets s ix tier).length + 2) ≤ s.q.cap
  own : Roomy (match ix.side with | .bid => s.bids | .ask => s.asks)
  lots : ix.side = .ask → ix.maxCoinQty * s.mkt.coinLot < W64
  moved : ∀ m' D w, m'.coinVault = s.mkt.coinVault → m'.pcVault = s.mkt.pcVault →
    P.vaultSigner m'.ownAddress m'.vaultSignerNonce = some vs →
    (match ix.side with
      | .bid => D ≤ ix.maxPcQty ∧ w ≤ s.mkt.coinDeposits
      | .ask => D ≤ ix.maxCoinQty * s.mkt.coinLot ∧ w ≤ s.mkt.pcDeposits) →
    Runs (sendTakeTransfers P m' s.toks ix.side a D w)

/-- A send-take without the minimum check. -/
def sendTakeRest (P : Params) (s : State lst) (a : SendTakeAccts) (ix : SendTakeIx) (ob : Ob lst) :
    Except Err (State lst) := do
  let (mkt, deposit, withdraw) ← sendTakeTotals ob.mkt ix.side ob.pr
  let toks ← sendTakeTransfers P mkt s.toks ix.side a deposit withdraw
  return { s with
    mkt := mkt
    seq := s.seq + 1
    toks := toks
    bids := ob.bids
    asks := ob.asks
    q := ob.q }

theorem sendTakeExec_runs {P : Params} {s : State lst} {a : SendTakeAccts} {ix : SendTakeIx}
    {tier : FeeTier} (hv : TakeValid ix) (hseq : s.seq < W64) {vs : Nat} {evs : List EventView}
    (hvs : P.vaultSigner s.mkt.ownAddress s.mkt.vaultSignerNonce = some vs)
    (hq : s.q.items = evs.map Event.new)
    (hi : Inv vs s.mkt s.seq s.oos s.toks s.bids.items s.asks.items evs) (hf : TakeFit P s a ix tier vs) :
    ∃ (ob : Ob lst) (s' : State lst),
      (∀ c p, sendTakeExec lst P s a { ix with minCoinQty := c, minPcQty := p } tier =
        (do checkMin { ix with minCoinQty := c, minPcQty := p } ob.pr; .ok s')) ∧
      (ix.side = .bid → ob.pr.coinCredit * s.mkt.coinLot + s'.mkt.coinDeposits = s.mkt.coinDeposits) ∧
      (ix.side = .ask → ob.pr.pcCredit + (s'.mkt.pcDeposits + s'.mkt.pcFees + s'.mkt.referrerRebates) =
        s.mkt.pcDeposits + s.mkt.pcFees + s.mkt.referrerRebates) := by
  obtain ⟨hroom, hown, hlots, hmv⟩ := hf
  obtain ⟨⟨hp1, hp2⟩, ⟨hc1, hc2⟩, ⟨hpn, hpc⟩, _⟩ := hv
  replace hp1 : 0 < ix.limitPrice := Nat.pos_of_ne_zero hp1
  replace hc1 : 0 < ix.maxCoinQty := Nat.pos_of_ne_zero hc1
  replace hc2 : ix.maxCoinQty < W64 := hc2
  have hmod : s.seq % W64 = s.seq := Nat.mod_eq_of_lt hseq
  let req := sendTakeReq ix (genOrderId s.seq ix.limitPrice ix.side) tier
  have hreqside : req.side = ix.side := rfl
  have hdep := hi.deposits_lt
  have hco := hi.money.coin
  have hpc' := hi.money.pc
  have hstart : RoundIn req (s.ob lst s.mkt) ix.maxCoinQty req.pcLocked :=
    ⟨hi.shape.mkt, hi.shape.book, hc1, hc2, by
        show (match ix.side with | .bid => ix.maxPcQty | .ask => 0) < W64
        cases ix.side with
        | bid => exact hpc
        | ask => exact (by decide : 0 < W64),
      fun _ h0 => absurd rfl h0, by
        have := hi.shape.fresh (sd := ix.side) (p := ix.limitPrice) hseq
        show genOrderId s.seq ix.limitPrice ix.side ∉ ((s.ob lst s.mkt).own ix.side).items.map (·.key)
        cases hsd : ix.side <;> rw [hsd] at this <;> exact this⟩
  have hz : ∀ l ∈ opposite ix.side s.bids.items s.asks.items, l.owner ≠ 0 := by
    intro l hl'
    cases hsd : ix.side with
    | bid => rw [hsd] at hl'; exact hi.shape.owner_ne (sd := .ask) hl'
    | ask => rw [hsd] at hl'; exact hi.shape.owner_ne (sd := .bid) (List.mem_reverse.1 hl')
  have hook : OrderOk req := ⟨by
      show 0 < extractPrice (genOrderId s.seq ix.limitPrice ix.side)
      rw [extractPrice_genOrderId hseq hp2]; exact hp1, fun _ => rfl⟩
  have hgo : Runs (newOrderLoop lst req ix.limit (s.ob lst s.mkt) ix.maxCoinQty req.pcLocked) := by
    have hw : (Want.of req (s.ob lst s.mkt).mkt).takes ix.limit (opposite req.side (s.ob lst s.mkt).bids.items
        (s.ob lst s.mkt).asks.items) ix.maxCoinQty req.pcLocked = takeMeets s ix tier := by
      have e1 : extractPrice req.orderId = ix.limitPrice := extractPrice_genOrderId hseq hp2
      unfold takeMeets Want.of
      rw [e1]
      rfl
    refine loop_runs_met hook (genOrderId_lt hseq hp2) hstart ?_ ?_ ?_ (fun _ t ht => ?_) (by rw [hw]; exact hroom)
    · rw [hreqside]
      cases hs : ix.side with
      | bid =>
        show (match ix.side with | .bid => ix.maxPcQty | .ask => 0) ≠ 0
        rw [hs]; exact hpn
      | ask =>
        show (match ix.side with | .bid => ix.maxPcQty | .ask => 0) = 0
        rw [hs]
    · rw [hreqside]
      cases hs : ix.side <;> simp only [hs] at hown <;> exact hown
    · unfold PrFit
      rw [hreqside]
      cases hs : ix.side with
      | bid =>
        have : req.pcLocked < W64 := hstart.pcLt
        show 0 + req.pcLocked < W64 ∧ 0 + req.pcLocked < W64 ∧ 0 + ix.maxCoinQty < W64
        omega
      | ask =>
        show 0 + ix.maxCoinQty < W64 ∧ 0 + ix.maxCoinQty < W64 ∧ 0 + bookLock .bid s.mkt every s.bids.items < W64
        omega
    · obtain ⟨l, hl, e⟩ := Props.takes_owner _ _ _ _ _ t ht
      exact fun h0 => hz l hl (e.trans h0)
  obtain ⟨⟨ob', rem, lim'⟩, hno⟩ := hgo
  have hno' : newOrder lst (s.ob lst s.mkt) req ix.limit = .ok (ob', rem, lim') := hno
  obtain ⟨_, ts, f, evs', given, post, tail, hpath, hran⟩ :=
    newOrder_ran (σ := slotsOf s.oos) (evs := evs) (o := req) (ob := s.ob lst s.mkt) hook
      hstart rfl hq (fun h0 => absurd rfl h0) (fun _ => hz) (by exact hi.shape.slots) hno'
  have hsame := hran.mkt.same
  have hrun := hran.run
  have hmk : MarketRun s.mkt ob'.mkt (runSums s.mkt req.feeTier ts) := hran.mkt
  generalize hX : runSums (s.ob lst s.mkt).mkt req.feeTier ts = X at hrun
  have hX' : runSums s.mkt req.feeTier ts = X := hX
  rw [hX'] at hmk
  have hvs' : P.vaultSigner ob'.mkt.ownAddress ob'.mkt.vaultSignerNonce = some vs := by
    rw [hsame.eq]; exact hvs
  have hcl : ob'.mkt.coinLot = s.mkt.coinLot := hsame.coinLot
  have hcd : ob'.mkt.coinDeposits = s.mkt.coinDeposits := hsame.coinDeposits
  have hrest : ∃ s', sendTakeRest P s a ix ob' = .ok s' ∧
      (ix.side = .bid → ob'.pr.coinCredit * s.mkt.coinLot + s'.mkt.coinDeposits = s.mkt.coinDeposits) ∧
      (ix.side = .ask → ob'.pr.pcCredit + (s'.mkt.pcDeposits + s'.mkt.pcFees + s'.mkt.referrerRebates) =
        s.mkt.pcDeposits + s.mkt.pcFees + s.mkt.referrerRebates) := by
    unfold sendTakeRest
    rw [hreqside] at hrun
    cases hs : ix.side with
    | bid =>
      simp only [hs] at hrun hmv
      have hfa := hrun.freeAsk
      replace hfa : bookLock .ask s.mkt every s.asks.items = bookLock .ask s.mkt every ob'.asks.items +
        evSum (EventView.free .ask) every evs' + X.lots * s.mkt.coinLot := hfa
      have hlk' : req.pcLocked = ix.maxPcQty := by
        show (match ix.side with | .bid => ix.maxPcQty | .ask => 0) = _
        rw [hs]
      have hbud := hrun.budget
      have hlt : X.lots * s.mkt.coinLot < W64 := by omega
      rw [hrun.pr]
      unfold sendTakeTotals
      simp only
      rw [hcl, checkedMul_some.2 ⟨hlt, rfl⟩]
      simp only [unwrap, bind, Except.bind, pure, Except.pure]
      rw [(checkAssert_ok (u := ())).2 (by rw [hcd]; simp; omega)]
      simp only
      obtain ⟨l', hl'⟩ := hmv { ob'.mkt with
        coinLot := s.mkt.coinLot
        pcDeposits := wadd ob'.mkt.pcDeposits (X.pc + X.fee)
        coinDeposits := wsub ob'.mkt.coinDeposits (X.lots * s.mkt.coinLot) } (X.pc + X.fee) (X.lots * s.mkt.coinLot)
        hsame.coinVault hsame.pcVault hvs' (by omega)
      rw [hl']
      refine ⟨_, rfl, fun _ => ?_, fun h => by cases h⟩
      show X.lots * s.mkt.coinLot + wsub ob'.mkt.coinDeposits (X.lots * s.mkt.coinLot) = s.mkt.coinDeposits
      rw [wsub_eq (by omega) (by omega), hcd]
      omega
    | ask =>
      simp only [hs] at hrun hmv
      have hfb := hrun.freeBid
      replace hfb : bookLock .bid s.mkt every s.bids.items = bookLock .bid s.mkt every ob'.bids.items +
        evSum (EventView.free .bid) every evs' + X.pc := hfb
      have hfl := hrun.feeLe
      have hsz : ix.maxCoinQty = X.lots + given + post + tail := hrun.size
      have hle : X.lots * s.mkt.coinLot ≤ ix.maxCoinQty * s.mkt.coinLot := Nat.mul_le_mul_right _ (by omega)
      have hlt : X.lots * s.mkt.coinLot < W64 := by
        have := hlots hs
        omega
      have hmo := hran.mktOk.pcDeposits
      have hdp : ob'.mkt.pcDeposits + X.fee = s.mkt.pcDeposits := by
        obtain ⟨r1, r2, r3, r4, r5⟩ := hmk
        unfold W64 at *
        omega
      rw [hrun.pr]
      unfold sendTakeTotals
      simp only
      rw [hcl, checkedMul_some.2 ⟨hlt, rfl⟩]
      simp only [unwrap, bind, Except.bind, pure, Except.pure]
      rw [(checkAssert_ok (u := ())).2 (by simp; omega)]
      simp only
      obtain ⟨l', hl'⟩ := hmv { ob'.mkt with
        coinLot := s.mkt.coinLot
        coinDeposits := wadd ob'.mkt.coinDeposits (X.lots * s.mkt.coinLot)
        pcDeposits := wsub ob'.mkt.pcDeposits (X.pc - X.fee) } (X.lots * s.mkt.coinLot) (X.pc - X.fee)
        hsame.coinVault hsame.pcVault hvs' ⟨hle, by omega⟩
      rw [hl']
      refine ⟨_, rfl, (fun h => by cases h), fun _ => ?_⟩
      obtain ⟨r1, r2, r3, r4, r5⟩ := hmk
      rw [Nat.mod_eq_of_lt (by omega)] at r2 r3
      show X.pc - X.fee + (wsub ob'.mkt.pcDeposits (X.pc - X.fee) + ob'.mkt.pcFees + ob'.mkt.referrerRebates) = _
      rw [wsub_eq (by omega) (by omega)]
      omega
  obtain ⟨s', hs', hb, hk⟩ := hrest
  refine ⟨ob', s', ?_, hb, hk⟩
  intro c p
  unfold sendTakeExec
  simp only [hmod]
  have hno2 : newOrder lst (s.ob lst s.mkt)
      (sendTakeReq { ix with minCoinQty := c, minPcQty := p } (genOrderId s.seq ix.limitPrice ix.side) tier) ix.limit =
      .ok (ob', rem, lim') := hno'
  rw [hno2]
  simp only [bind, Except.bind]
  cases hmin : checkMin { ix with minCoinQty := c, minPcQty := p } ob'.pr with
  | error e => rfl
  | ok u => exact hs'

/-- The minimum does not change what a send-take does. -/
theorem sendTake_min {P : Params} {s s' : State conc} {accts : List AccMeta} {ix : SendTakeIx} {c p : Nat}
    (h : sendTake conc P s accts { ix with minCoinQty := c, minPcQty := p } = .ok s') :
    sendTake conc P s accts { ix with minCoinQty := 0, minPcQty := 0 } = .ok s' := by
  unfold sendTake at h ⊢
  obtain ⟨a, h1, h⟩ := bind_ok h
  obtain ⟨tier, h2, h⟩ := bind_ok h
  rw [h1]
  simp only [bind, Except.bind, h2]
  unfold sendTakeExec at h ⊢
  obtain ⟨r, h3, h⟩ := bind_ok h
  obtain ⟨_, h4, h⟩ := bind_ok h
  have h3' : newOrder conc (s.ob conc s.mkt) (sendTakeReq { ix with minCoinQty := 0, minPcQty := 0 }
    (genOrderId (s.seq % W64) ix.limitPrice ix.side) tier) ix.limit = .ok r := h3
  simp only [h3', bind, Except.bind]
  have h5 : checkMin { ix with minCoinQty := 0, minPcQty := 0 } r.1.pr = .ok () := by
    unfold checkMin
    cases ix.side <;> simp
  rw [h5]
  exact h

/-- A transfer by the owner of a wallet into a vault leaves all other accounts alone. -/
theorem depositIn_others {l l' : Ledger} {src vault auth n b : Nat} (h : depositIn l src vault auth n = .ok l')
    (h1 : b ≠ src) (h2 : b ≠ vault) : l' b = l b := by
  unfold depositIn at h
  split at h
  · cases h; rfl
  · split at h
    · cases h
    · cases h
    · rename_i l1 hl
      split at h
      · cases h
        unfold splTransfer at hl
        split at hl
        · split at hl
          · cases hl
          · split at hl
            · cases hl
            · split at hl
              · cases hl
              · split at hl
                · cases hl
                · split at hl
                  · cases hl; rfl
                  · split at hl
                    · cases hl
                    · cases hl
                      simp [h1, h2]
        · cases hl
      · cases h

/-- The vault signer pays out of a vault it holds. -/
theorem sendFromVault_go {P : Params} {m : Market} {l : Ledger} {vault dst n vs : Nat} {t d : Tok}
    (hvs : P.vaultSigner m.ownAddress m.vaultSignerNonce = some vs) (ht : l vault = some t) (hd : l dst = some d)
    (h1 : t.frozen = false) (h2 : d.frozen = false) (h3 : t.mint = d.mint) (h4 : t.owner = vs)
    (h5 : t.delegate = none) (h6 : n ≤ t.amount) (h8 : d.amount + n < W64) :
    Runs (sendFromVault P m l vault dst n) := by
  unfold sendFromVault
  rw [hvs]
  simp only
  have : ∃ x, (splTransfer l vault dst vs n) = .ok x := by
    unfold splTransfer debitTok
    rw [ht, hd]
    simp only [h1, h2]
    rw [if_neg (by decide), if_neg (by omega), if_neg (by simp [h3]), if_neg (by rw [h5]; simp), if_neg (by simp [h4])]
    simp only
    split
    · exact ⟨_, rfl⟩
    · rw [if_neg (by omega)]
      exact ⟨_, rfl⟩
  obtain ⟨x, hx⟩ := this
  rw [hx]
  exact ⟨_, rfl⟩

namespace Props

/-- What a trader needs in order to trade straight from a wallet. -/
structure CanTake (P : Params) (s : State conc) (accts : List AccMeta) (ix : SendTakeIx)
    (coinW pcW owner : Nat) (disc : List Nat) : Prop where
  keys : ∃ vs, P.vaultSigner s.mkt.ownAddress s.mkt.vaultSignerNonce = some vs ∧
    accts.map (·.key) = [s.mkt.ownAddress, s.mkt.reqQ, s.mkt.eventQ, s.mkt.bids, s.mkt.asks, coinW, pcW, owner,
      s.mkt.coinVault, s.mkt.pcVault, P.splToken, vs] ++ disc
  signed : (accts[7]?).any (·.signer) = true
  enabled : s.mkt.isDisabled = false
  books : s.mkt.bids ≠ s.mkt.asks
  discount : disc = [] ∨ ∃ d t, disc = [d] ∧ s.toks d = some t ∧ t.frozen = false ∧ t.owner = owner
  mints : s.mkt.coinMint ≠ s.mkt.pcMint
  coinVault : ∃ t, s.toks s.mkt.coinVault = some t ∧ t.frozen = false ∧ t.mint = s.mkt.coinMint ∧
    (ix.side = .ask → t.amount + ix.maxCoinQty * s.mkt.coinLot < 2 ^ 64)
  pcVault : ∃ t, s.toks s.mkt.pcVault = some t ∧ t.frozen = false ∧ t.mint = s.mkt.pcMint ∧
    (ix.side = .bid → t.amount + ix.maxPcQty < 2 ^ 64)
  /-- The base wallet can pay all of a sale, or take all of a purchase. -/
  coinWallet : ∃ t, s.toks coinW = some t ∧ t.frozen = false ∧ t.mint = s.mkt.coinMint ∧
    (ix.side = .bid → t.amount + s.mkt.coinDeposits < 2 ^ 64) ∧
    (ix.side = .ask → t.owner = owner ∧ t.delegate ≠ some owner ∧ ix.maxCoinQty * s.mkt.coinLot ≤ t.amount)
  pcWallet : ∃ t, s.toks pcW = some t ∧ t.frozen = false ∧ t.mint = s.mkt.pcMint ∧
    (ix.side = .ask → t.amount + s.mkt.pcDeposits < 2 ^ 64) ∧
    (ix.side = .bid → t.owner = owner ∧ t.delegate ≠ some owner ∧ ix.maxPcQty ≤ t.amount)
  space : match ix.side with
    | .bid => s.bids.nodes ≠ []
    | .ask => s.asks.nodes ≠ []
  room : ∀ tier, (pending s).length + 3 * (takeMet s ix tier).length + 2 ≤ s.q.buf.length

/-- The trade gives at least the stated minimum: lots bought, or quote received after fees. -/
def Enough (s : State conc) (ix : SendTakeIx) (tier : FeeTier) (ts : List Touch) : Prop :=
  match ix.side with
  | .bid => ix.minCoinQty ≤ tradedLots ts
  | .ask => ix.minPcQty ≤ tradedQuote s.mkt ts - takerFees s.mkt tier ts

theorem sendTakeArgs_go {P : Params} {s : State conc} {accts : List AccMeta} {ix : SendTakeIx}
    {coinW pcW owner : Nat} {disc : List Nat} (hf : goodFlags s.mkt.flags = true)
    (h : CanTake P s accts ix coinW pcW owner disc) :
    ∃ a tier, parseSendTake accts = .ok a ∧ sendTakeArgs P s.toCore a = .ok tier ∧ a.coinWallet.key = coinW ∧
      a.pcWallet.key = pcW ∧ a.signer.key = owner ∧ a.signer ∈ accts ∧ a.signer.signer = true := by
  obtain ⟨vs, hvs, hk⟩ := h.keys
  have hs := h.signed
  simp only [List.cons_append, List.nil_append] at hk
  obtain ⟨m, l0, rfl, k0, hk⟩ := List.map_eq_cons_iff.1 hk
  obtain ⟨rq, l1, rfl, k1, hk⟩ := List.map_eq_cons_iff.1 hk
  obtain ⟨eq, l2, rfl, k2, hk⟩ := List.map_eq_cons_iff.1 hk
  obtain ⟨b, l3, rfl, k3, hk⟩ := List.map_eq_cons_iff.1 hk
  obtain ⟨k, l4, rfl, k4, hk⟩ := List.map_eq_cons_iff.1 hk
  obtain ⟨cw, l5, rfl, k5, hk⟩ := List.map_eq_cons_iff.1 hk
  obtain ⟨pw, l6, rfl, k6, hk⟩ := List.map_eq_cons_iff.1 hk
  obtain ⟨w, l7, rfl, k7, hk⟩ := List.map_eq_cons_iff.1 hk
  obtain ⟨cv, l8, rfl, k8, hk⟩ := List.map_eq_cons_iff.1 hk
  obtain ⟨pv, l9, rfl, k9, hk⟩ := List.map_eq_cons_iff.1 hk
  obtain ⟨t, l10, rfl, k10, hk⟩ := List.map_eq_cons_iff.1 hk
  obtain ⟨r, rest, rfl, k11, hd⟩ := List.map_eq_cons_iff.1 hk
  have hsg : w.signer = true := by simpa using hs
  have hlen : rest.length ≤ 1 := by
    rw [← List.length_map (f := (·.key)), hd]
    rcases h.discount with e | ⟨d, _, e, _⟩ <;> rw [e] <;> simp
  have hdisc : ∃ od tier, discountAcct s.toCore rest = .ok od ∧ loadFeeTier P s.toCore w.key od = .ok tier := by
    rcases h.discount with e | ⟨d, td, e, d1, d2, d3⟩
    · rw [e, List.map_eq_nil_iff] at hd
      subst hd
      exact ⟨none, _, rfl, rfl⟩
    · rw [e] at hd
      match rest, hd with
      | [x], hd =>
        simp only [List.map_cons, List.map_nil, List.cons.injEq, and_true] at hd
        refine ⟨some td, ?_⟩
        unfold discountAcct loadFeeTier
        simp only
        rw [hd, tokAcct_go d1 d2]
        rw [if_neg (by rw [d3, k7]; simp)]
        split
        · exact ⟨_, rfl, rfl⟩
        · split <;> exact ⟨_, rfl, rfl⟩
  obtain ⟨od, tier, hd1, hd2⟩ := hdisc
  refine ⟨⟨m, rq, eq, b, k, cw, pw, w, cv, pv, t, r, rest⟩, tier, ?_, ?_, k5, k6, k7, by simp, hsg⟩
  · unfold parseSendTake
    simp only
    rw [if_pos hlen]
  · obtain ⟨vc, c1, c2, c3, _⟩ := h.coinVault
    obtain ⟨vp, p1, p2, p3, _⟩ := h.pcVault
    obtain ⟨wc, d1, d2, d3, _⟩ := h.coinWallet
    obtain ⟨wp, q1, q2, q3, _⟩ := h.pcWallet
    have e1 : loadMarket s.toCore m false = .ok () := by
      unfold loadMarket
      simp only [k0, beq_self_eq_true, checkAssert, if_true, bind, Except.bind, goodFlags_enabled hf h.enabled]
    have e2 : loadReqQ s.toCore rq = .ok () := by simp [loadReqQ, k1]
    have e3 : loadEventQ s.toCore eq = .ok () := by simp [loadEventQ, k2]
    have e4 : Serum.coinWallet s.toCore cw = .ok () := by
      unfold Serum.coinWallet
      rw [k5, tokAcct_go d1 d2]
      simp only [bind, Except.bind]
      rw [if_neg (by simp [d3])]
    have e5 : Serum.pcWallet s.toCore pw = .ok () := by
      unfold Serum.pcWallet
      rw [k6, tokAcct_go q1 q2]
      simp only [bind, Except.bind]
      rw [if_neg (by simp [q3])]
    have e6 : Serum.coinVault s.toCore cv = .ok () := by
      unfold Serum.coinVault
      rw [k8, tokAcct_go c1 c2]
      simp only [bind, Except.bind, ne_eq, not_true_eq_false, if_false]
    have e7 : Serum.pcVault s.toCore pv = .ok () := by
      unfold Serum.pcVault
      rw [k9, tokAcct_go p1 p2]
      simp only [bind, Except.bind, ne_eq, not_true_eq_false, if_false]
    have e8 : vaultSignerAcct P s.toCore r = .ok () := by
      unfold vaultSignerAcct
      rw [hvs]
      simp [k11, checkAssert]
    have e9 : splProgram P t = .ok () := by simp [splProgram, k10, checkAssert]
    have e10 : loadBids s.toCore b = .ok () := by
      unfold loadBids
      simp [k3, checkAssert, h.books]
    have e11 : loadAsks s.toCore k = .ok () := by simp [loadAsks, k4]
    unfold sendTakeArgs
    simp only [hd1, hd2, e1, e2, e3, e4, e5, e6, e7, e8, e9, e10, e11, orAssert, signed, checkAssert, hsg,
      bind, Except.bind, if_true]
    rfl

/-- C66. In every reachable state of an enabled market, whoever has what `CanTake` lists can trade against the book
straight from a wallet. What would be traded does not depend on the stated minimum, and the instruction, as sent,
succeeds with just that trade if it gives the minimum and is refused with that error if it does not. -/
theorem take_works {P : Params} {s : State conc} (h : Reach P s) (hq : s.seq < W64) {env : Env}
    {accts : List AccMeta} {ix : SendTakeIx} {coinW pcW owner : Nat} {disc : List Nat}
    (hv : TakeValid ix) (hn : NotVault P s.mkt accts) (hc : CanTake P s accts ix coinW pcW owner disc) :
    ∃ s' a tier ts evs, a.signer.key = owner ∧
      TakeEffect P s s' accts { ix with minCoinQty := 0, minPcQty := 0 } a tier ts evs ∧
      (Enough s ix tier ts → processRaw conc P env s accts (Instruction.sendTake ix).pack = .ok s') ∧
      (¬ Enough s ix tier ts →
        processRaw conc P env s accts (Instruction.sendTake ix).pack = .error .minAmountNotMet) := by
  obtain ⟨vs, hvs, hqi, hi⟩ := h.view (Nat.le_of_lt hq)
  have hg := h.good (Nat.le_of_lt hq)
  have hL := absState_q hg hqi
  obtain ⟨a, tier, hp, hA, kc, kp, ko, hmem, hsg⟩ := sendTakeArgs_go h.flags hc
  have hone : owner ≠ vs := by
    intro e
    exact hn a.signer hmem hsg (by rw [ko, e]; exact hvs)
  obtain ⟨vc, c1, c2, c3, c4⟩ := hc.coinVault
  obtain ⟨vp, p1, p2, p3, p4⟩ := hc.pcVault
  obtain ⟨wc, d1, d2, d3, d4, d5⟩ := hc.coinWallet
  obtain ⟨wp, q1, q2, q3, q4, q5⟩ := hc.pcWallet
  have hmn := hc.mints
  obtain ⟨vc', g1, g2, g3, _⟩ := hi.funds.coin
  obtain ⟨vp', i1, i2, i3, _⟩ := hi.funds.pc
  have ec : vc' = vc := by rw [c1] at g1; exact (Option.some.inj g1).symm
  have ep : vp' = vp := by rw [p1] at i1; exact (Option.some.inj i1).symm
  subst ec ep
  have sc := hi.funds.solvent s.mkt.coinVault
  have sp := hi.funds.solvent s.mkt.pcVault
  rw [show bal s.toks s.mkt.coinVault = vc'.amount by unfold bal; rw [c1]] at sc
  rw [show bal s.toks s.mkt.pcVault = vp'.amount by unfold bal; rw [p1]] at sp
  unfold owed at sc sp
  rw [if_pos rfl] at sc
  rw [if_pos (rfl : s.mkt.pcVault = s.mkt.pcVault)] at sp
  have ne1 : s.mkt.coinVault ≠ s.mkt.pcVault := fun e => by
    rw [e, p1] at c1; cases c1; exact hmn (c3.symm.trans p3)
  have ne2 : s.mkt.coinVault ≠ pcW := fun e => by
    rw [e, q1] at c1; cases c1; exact hmn (c3.symm.trans q3)
  have ne3 : coinW ≠ s.mkt.pcVault := fun e => by
    rw [e, p1] at d1; cases d1; exact hmn (d3.symm.trans p3)
  have ne4 : coinW ≠ pcW := fun e => by
    rw [e, q1] at d1; cases d1; exact hmn (d3.symm.trans q3)
  have hmeet : takeMeets (absState s) ix tier = takeMet s ix tier := by
    unfold takeMeets takeMet wantTake payable
    rw [← opposite_eq s ix.side]
    rfl
  have hfit : TakeFit P (absState s) a ix tier vs := by
    refine ⟨?_, ?_, ?_, ?_⟩
    · rw [hL, List.length_map]
      have := hc.room tier
      rw [hmeet]
      show (pending s).length + (3 * (takeMet s ix tier).length + 2) ≤ s.q.buf.length
      omega
    · have hsp := hc.space
      cases hs : ix.side <;> simp only [hs] at hsp ⊢
      · refine ⟨?_, hg.rs.bids.1.space⟩
        show 0 < min s.bids.nodes.length u32Max
        have := List.length_pos_iff.2 hsp
        have : 0 < u32Max := by decide
        omega
      · refine ⟨?_, hg.rs.asks.1.space⟩
        show 0 < min s.asks.nodes.length u32Max
        have := List.length_pos_iff.2 hsp
        have : 0 < u32Max := by decide
        omega
    · intro hs
      have := c4 hs
      show ix.maxCoinQty * s.mkt.coinLot < W64
      unfold W64
      omega
    · intro m' D w hm1 hm2 hm3 hDw
      show Runs (sendTakeTransfers P m' s.toks ix.side a D w)
      replace hm1 : m'.coinVault = s.mkt.coinVault := hm1
      replace hm2 : m'.pcVault = s.mkt.pcVault := hm2
      cases hs : ix.side with
      | bid =>
        simp only [hs] at hDw
        obtain ⟨hD, hw⟩ := hDw
        replace hw : w ≤ s.mkt.coinDeposits := hw
        obtain ⟨o1, o2, o3⟩ := q5 hs
        have o4 := d4 hs
        have o5 := p4 hs
        unfold sendTakeTransfers
        simp only
        rw [hm1, hm2, kc, kp, ko]
        refine Runs.bind (depositIn_go q1 p1 q2 p2 (q3.trans p3.symm) o1 o2 (by omega) ?_ (by unfold W64; omega))
          fun l1 hl1 => ?_
        · intro e
          rw [e, p1] at q1
          cases q1
          exact hone (o1.symm.trans i2)
        · split
          · exact ⟨_, rfl⟩
          · exact sendFromVault_go hm3 ((depositIn_others hl1 ne2 ne1).trans c1)
              ((depositIn_others hl1 ne4 ne3).trans d1) c2 d2 (c3.trans d3.symm) g2 g3 (by omega)
              (by unfold W64; omega)
      | ask =>
        simp only [hs] at hDw
        obtain ⟨hD, hw⟩ := hDw
        replace hw : w ≤ s.mkt.pcDeposits := hw
        replace hD : D ≤ ix.maxCoinQty * s.mkt.coinLot := hD
        obtain ⟨o1, o2, o3⟩ := d5 hs
        have o4 := q4 hs
        have o5 := c4 hs
        unfold sendTakeTransfers
        simp only
        rw [hm1, hm2, kc, kp, ko]
        refine Runs.bind (depositIn_go d1 c1 d2 c2 (d3.trans c3.symm) o1 o2 (by omega) ?_ (by unfold W64; omega))
          fun l1 hl1 => ?_
        · intro e
          rw [e, c1] at d1
          cases d1
          exact hone (o1.symm.trans g2)
        · split
          · exact ⟨_, rfl⟩
          · exact sendFromVault_go hm3 ((depositIn_others hl1 ne3.symm ne1.symm).trans p1)
              ((depositIn_others hl1 ne4.symm ne2.symm).trans q1) p2 q2 (p3.trans q3.symm) i2 i3 (by omega)
              (by unfold W64; omega)
  obtain ⟨ob, t, hex, hbid, hask⟩ := sendTakeExec_runs (tier := tier) hv hq hvs hL hi hfit
  have hlst : ∀ c p, sendTake lst P (absState s) accts { ix with minCoinQty := c, minPcQty := p } =
      (do checkMin { ix with minCoinQty := c, minPcQty := p } ob.pr; .ok t) := by
    intro c p
    unfold sendTake
    rw [hp]
    simp only [bind, Except.bind]
    rw [show (absState s).toCore = s.toCore from rfl, hA]
    exact hex c p
  have hmin0 : checkMin { ix with minCoinQty := 0, minPcQty := 0 } ob.pr = .ok () := by
    unfold checkMin
    cases ix.side <;> simp
  have h0 : sendTake lst P (absState s) accts { ix with minCoinQty := 0, minPcQty := 0 } = .ok t := by
    rw [hlst, hmin0]; rfl
  obtain ⟨s', hs', hrs⟩ := Sim.ok_left (Refines.sim_sendTake hg.rs P accts { ix with minCoinQty := 0, minPcQty := 0 } hv.1.2) h0
  have hv0 : TakeValid { ix with minCoinQty := 0, minPcQty := 0 } :=
    ⟨hv.1, hv.2.1, hv.2.2.1, (by decide : U64 0), (by decide : U64 0), hv.2.2.2.2.2⟩
  obtain ⟨a', tier', ts, evs, hE⟩ := take_effect h hq hv0 hn hs'
  have ea : a' = a := by
    have := hE.args.parse
    rw [hp] at this
    exact (Except.ok.inj this).symm
  subst ea
  have hmk : s'.mkt = t.mkt := congrArg Core.mkt hrs.core
  have hcl := hi.shape.mkt.coinLot
  have hgot : (ix.side = .bid → ob.pr.coinCredit = tradedLots ts) ∧
      (ix.side = .ask → ob.pr.pcCredit = tradedQuote s.mkt ts - takerFees s.mkt tier' ts) := by
    refine ⟨fun hs => ?_, fun hs => ?_⟩
    · have hm := (hE.bid hs).mkt
      have hb := hbid hs
      rw [← hmk, hm.mkt] at hb
      have := hm.coin
      replace hb : ob.pr.coinCredit * s.mkt.coinLot +
        (s.mkt.coinDeposits + 0 - tradedLots ts * s.mkt.coinLot) = s.mkt.coinDeposits := hb
      exact Nat.eq_of_mul_eq_mul_right hcl (by omega)
    · have hk := hE.ask hs
      have hm := hk.mkt
      have hb := hask hs
      rw [← hmk, hm.mkt] at hb
      have := hm.pc
      have := hm.ref
      have := hk.fees
      replace hb : ob.pr.pcCredit + (s.mkt.pcDeposits + 0 - tradedQuote s.mkt ts +
        (s.mkt.pcFees + (takerFees s.mkt tier' ts - referrerPart s.mkt tier' ts)) +
        (s.mkt.referrerRebates + referrerPart s.mkt tier' ts)) =
        s.mkt.pcDeposits + s.mkt.pcFees + s.mkt.referrerRebates := hb
      omega
  have hraw : processRaw conc P env s accts (Instruction.sendTake ix).pack = sendTake conc P s accts ix := by
    unfold processRaw
    rw [instruction_round_trip _ (by exact hv)]
    rfl
  have hsim := Refines.sim_sendTake hg.rs P accts ix hv.1.2
  have hl : sendTake lst P (absState s) accts ix = (do checkMin ix ob.pr; .ok t) := hlst ix.minCoinQty ix.minPcQty
  refine ⟨s', a', tier', ts, evs, ko, hE, fun he => ?_, fun he => ?_⟩
  · have hok : checkMin ix ob.pr = .ok () := by
      unfold checkMin
      unfold Enough at he
      cases hs : ix.side <;> simp only [hs] at he ⊢
      · rw [if_neg (by have := hgot.1 hs; omega)]
      · rw [if_neg (by have := hgot.2 hs; omega)]
    rw [hok] at hl
    obtain ⟨s1, h1, _⟩ := Sim.ok_left hsim hl
    have h2 := sendTake_min (c := ix.minCoinQty) (p := ix.minPcQty) h1
    rw [hs'] at h2
    rw [hraw, h1, Except.ok.inj h2]
  · have hbad : checkMin ix ob.pr = .error .minAmountNotMet := by
      unfold checkMin
      unfold Enough at he
      cases hs : ix.side <;> simp only [hs] at he ⊢
      · rw [if_pos (by have := hgot.1 hs; omega)]
      · rw [if_pos (by have := hgot.2 hs; omega)]
    rw [hbad] at hl
    rw [hraw]
    cases hx : sendTake conc P s accts ix with
    | error e =>
      rw [Sim.error_right hsim hx] at hl
      cases hl
      rfl
    | ok s1 =>
      obtain ⟨t1, h1, _⟩ := Sim.ok_right hsim hx
      rw [h1] at hl
      cases hl

/-- 12 has what it needs to buy up to 2 lots at 1100 against the resting ask, stopping after 3 rounds, and gets its
minimum of one lot. -/
example : CanTake Demo.P Demo.p3 Demo.takeAccts { Demo.takeIx with limit := 3 } 22 32 12 [] where
  keys := ⟨60, by decide +kernel, by decide +kernel⟩
  signed := rfl
  enabled := by decide +kernel
  books := by decide +kernel
  discount := .inl rfl
  mints := by decide +kernel
  coinVault := ⟨_, (by decide +kernel : Demo.p3.toks Demo.p3.mkt.coinVault = some (Demo.tok 80 60 500)), rfl, by decide +kernel,
    fun h => by cases h⟩
  pcVault := ⟨_, (by decide +kernel : Demo.p3.toks Demo.p3.mkt.pcVault = some (Demo.tok 81 60 0)), rfl, by decide +kernel,
    fun _ => by decide +kernel⟩
  coinWallet := ⟨_, (by decide +kernel : Demo.p3.toks 22 = some (Demo.tok 80 12 100000)), rfl, by decide +kernel,
    fun _ => by decide +kernel, fun h => by cases h⟩
  pcWallet := ⟨_, (by decide +kernel : Demo.p3.toks 32 = some (Demo.tok 81 12 10000000)), rfl, by decide +kernel,
    (fun h => by cases h), fun _ => by decide +kernel⟩
  space := (by decide +kernel : Demo.p3.bids.nodes ≠ [])
  room := fun tier => by cases tier <;> decide +kernel

/-- With a minimum of one lot it goes through, with a minimum of three lots it does not. -/
example : (processRaw conc Demo.P Demo.env Demo.p3 Demo.takeAccts
      (Instruction.sendTake { Demo.takeIx with limit := 3 }).pack).toBool = true ∧
    (processRaw conc Demo.P Demo.env Demo.p3 Demo.takeAccts
      (Instruction.sendTake { Demo.takeIx with limit := 3, minCoinQty := 3 }).pack).toBool = false := by
  decide +kernel

end Props
end Serum
