import Verif.PropsReasons
import Verif.PropsFunds

/-
C83, continued: the reasons of the instructions other than `NewOrderV3`.
-/

namespace Serum
namespace Props

theorem payout_raises {R : Err → Prop} {P : Params} {m : Market} {l : Ledger} {vault dst n vs : Nat}
    (hv : P.vaultSigner m.ownAddress m.vaultSignerNonce = some vs) (hh : Held vs l vault) (hb : n ≤ bal l vault)
    (h : Barred l vault dst vs n → R .transferFailed) : Raises R (sendFromVault P m l vault dst n) := by
  intro e he
  unfold sendFromVault at he
  rw [hv] at he
  simp only at he
  split at he
  · cases he
  · rename_i e' hs
    cases he
    rcases spl_error hs with ⟨_, hlt⟩ | ⟨_, hbar⟩
    · obtain ⟨t, t1, t2, t3, _⟩ := hh
      unfold spendable at hlt
      unfold bal at hb
      rw [t1] at hlt hb
      simp only at hlt hb
      rw [if_neg (by rw [t3]; simp)] at hlt
      omega
    · exact h hbar

/-! ### Send-takes -/

/-- What the taker of `ts` pays. -/
def takeCost (m : Market) (side : Side) (tier : FeeTier) (ts : List Touch) : Nat :=
  match side with
  | .bid => tradedQuote m ts + takerFees m tier ts
  | .ask => tradedLots ts * m.coinLot

/-- What the taker of `ts` gets. -/
def takeGain (m : Market) (side : Side) (tier : FeeTier) (ts : List Touch) : Nat :=
  match side with
  | .bid => tradedLots ts * m.coinLot
  | .ask => tradedQuote m ts - takerFees m tier ts

/-- The wallet a send-take pays from. -/
def takeFrom (accts : List AccMeta) : Side → Nat
  | .bid => given accts 6
  | .ask => given accts 5

/-- The wallet a send-take pays to. -/
def takeTo (accts : List AccMeta) : Side → Nat
  | .bid => given accts 5
  | .ask => given accts 6

/-- The trade a send-take is for, at the rate its sender is due. -/
structure Deal (P : Params) (s : State conc) (accts : List AccMeta) (ix : SendTakeIx) (tier : FeeTier)
    (ts : List Touch) : Prop where
  rate : Due P s.toCore (given accts 7) accts (advertised tier)
  trades : ts = takeMet s ix tier

/-- Why a send-take is refused. -/
inductive TakeRefused (P : Params) (s : State conc) (accts : List AccMeta) (ix : SendTakeIx) : Err → Prop
  | unnamed {e : Err} (h : Unnamed e) : TakeRefused P s accts ix e
  | disabled (h : s.mkt.isDisabled = true) : TakeRefused P s accts ix .invalidMarketFlags
  | requests (h : given accts 1 ≠ s.mkt.reqQ) : TakeRefused P s accts ix .wrongRequestQueueAccount
  | events (h : given accts 2 ≠ s.mkt.eventQ) : TakeRefused P s accts ix .wrongEventQueueAccount
  | coinMint {t : Tok} (ht : s.toks (given accts 5) = some t) (h : t.mint ≠ s.mkt.coinMint) :
      TakeRefused P s accts ix .wrongCoinMint
  | pcMint {t : Tok} (ht : s.toks (given accts 6) = some t) (h : t.mint ≠ s.mkt.pcMint) :
      TakeRefused P s accts ix .wrongPcMint
  | coinVault (h : given accts 8 ≠ s.mkt.coinVault) : TakeRefused P s accts ix .wrongCoinVault
  | pcVault (h : given accts 9 ≠ s.mkt.pcVault) : TakeRefused P s accts ix .wrongPcVault
  | minimum {tier : FeeTier} {ts : List Touch} (hd : Deal P s accts ix tier ts) (h : ¬ Enough s ix tier ts) :
      TakeRefused P s accts ix .minAmountNotMet
  | funds {tier : FeeTier} {ts : List Touch} (hd : Deal P s accts ix tier ts)
      (h : spendable s.toks (takeFrom accts ix.side) (given accts 7) < takeCost s.mkt ix.side tier ts) :
      TakeRefused P s accts ix .insufficientFunds
  | barred {tier : FeeTier} {ts : List Touch} (hd : Deal P s accts ix tier ts)
      (h : Barred s.toks (takeFrom accts ix.side) (payVault s.mkt ix.side) (given accts 7)
        (takeCost s.mkt ix.side tier ts)) : TakeRefused P s accts ix .transferFailed
  | payout {tier : FeeTier} {ts : List Touch} {l : Ledger} {vs : Nat} (hd : Deal P s accts ix tier ts)
      (hv : P.vaultSigner s.mkt.ownAddress s.mkt.vaultSignerNonce = some vs)
      (hl : depositIn s.toks (takeFrom accts ix.side) (payVault s.mkt ix.side) (given accts 7)
        (takeCost s.mkt ix.side tier ts) = .ok l)
      (h : Barred l (payVault s.mkt ix.side.other) (takeTo accts ix.side) vs (takeGain s.mkt ix.side tier ts)) :
      TakeRefused P s accts ix .transferFailed
  | room {tier : FeeTier} {ts : List Touch} (hd : Deal P s accts ix tier ts)
      (h : s.q.buf.length < (pending s).length + (3 * ts.length + 2)) :
      TakeRefused P s accts ix .eventQueueFull

theorem parse_take_given {accts : List AccMeta} {a : SendTakeAccts} (h : parseSendTake accts = .ok a) :
    given accts 1 = a.reqQ.key ∧ given accts 2 = a.eventQ.key ∧ given accts 5 = a.coinWallet.key ∧
    given accts 6 = a.pcWallet.key ∧ given accts 7 = a.signer.key ∧ given accts 8 = a.coinVault.key ∧
    given accts 9 = a.pcVault.key := by
  unfold parseSendTake at h
  split at h
  · split at h
    · cases h
      exact ⟨rfl, rfl, rfl, rfl, rfl, rfl, rfl⟩
    · cases h
  · cases h

theorem parse_take_raises {R : Err → Prop} (hu : ∀ e, Unnamed e → R e) (accts : List AccMeta) :
    Raises R (parseSendTake accts) := by
  intro e he
  unfold parseSendTake at he
  split at he
  · split at he
    · cases he
    · cases he; exact hu _ (.inl rfl)
  · cases he; exact hu _ (.inl rfl)

theorem coinWallet_raises {R : Err → Prop} (h : R .assertion) {c : Core} {a : AccMeta}
    (hm : ∀ t, c.toks a.key = some t → t.mint ≠ c.mkt.coinMint → R .wrongCoinMint) : Raises R (coinWallet c a) := by
  refine .bind (tokAcct_raises h _ _) fun t ht => ?_
  intro e he
  split at he
  · rename_i hn
    cases he
    refine hm t ?_ hn
    unfold tokAcct at ht
    split at ht
    · split at ht
      · cases ht
      · cases ht; assumption
    · cases ht
  · cases he

theorem pcWallet_raises {R : Err → Prop} (h : R .assertion) {c : Core} {a : AccMeta}
    (hm : ∀ t, c.toks a.key = some t → t.mint ≠ c.mkt.pcMint → R .wrongPcMint) : Raises R (pcWallet c a) := by
  refine .bind (tokAcct_raises h _ _) fun t ht => ?_
  intro e he
  split at he
  · rename_i hn
    cases he
    refine hm t ?_ hn
    unfold tokAcct at ht
    split at ht
    · split at ht
      · cases ht
      · cases ht; assumption
    · cases ht
  · cases he

theorem coinVault_raises {R : Err → Prop} (h : R .assertion) {c : Core} {a : AccMeta}
    (hm : a.key ≠ c.mkt.coinVault → R .wrongCoinVault) : Raises R (coinVault c a) :=
  .bind (tokAcct_raises h _ _) fun _ _ => key_raises hm

theorem pcVault_raises {R : Err → Prop} (h : R .assertion) {c : Core} {a : AccMeta}
    (hm : a.key ≠ c.mkt.pcVault → R .wrongPcVault) : Raises R (pcVault c a) :=
  .bind (tokAcct_raises h _ _) fun _ _ => key_raises hm

theorem vaultSigner_raises {R : Err → Prop} (h : R .assertion) {P : Params} {c : Core} {a : AccMeta} {vs : Nat}
    (hv : P.vaultSigner c.mkt.ownAddress c.mkt.vaultSignerNonce = some vs) : Raises R (vaultSignerAcct P c a) := by
  unfold vaultSignerAcct
  rw [hv]
  exact .check h

theorem take_args_raise {P : Params} {s : State conc} {accts : List AccMeta} {ix : SendTakeIx} {vs : Nat}
    (hf : goodFlags s.mkt.flags = true) (hv : P.vaultSigner s.mkt.ownAddress s.mkt.vaultSignerNonce = some vs)
    {a : SendTakeAccts} (hp : parseSendTake accts = .ok a) :
    Raises (TakeRefused P s accts ix) (sendTakeArgs P s.toCore a) := by
  obtain ⟨g1, g2, g5, g6, g7, g8, g9⟩ := parse_take_given hp
  have hu : ∀ e, Unnamed e → TakeRefused P s accts ix e := fun e h => .unnamed h
  have ha := hu .assertion (.inl rfl)
  unfold sendTakeArgs
  refine .bind (discount_raises ha _ _) fun disc _ => ?_
  refine .bind (flags_raise hf hu .disabled _) fun _ hm => ?_
  refine .bind (.check ha) fun _ _ => ?_
  refine .bind (.orAssert ha) fun tier _ => ?_
  refine .bind (key_raises fun h => .requests (by rw [g1]; exact h)) fun _ _ => ?_
  refine .bind (key_raises fun h => .events (by rw [g2]; exact h)) fun _ _ => ?_
  refine .bind (coinWallet_raises ha fun t ht h => .coinMint (by rw [g5]; exact ht) h) fun _ _ => ?_
  refine .bind (pcWallet_raises ha fun t ht h => .pcMint (by rw [g6]; exact ht) h) fun _ _ => ?_
  refine .bind (coinVault_raises ha fun h => .coinVault (by rw [g8]; exact h)) fun _ _ => ?_
  refine .bind (pcVault_raises ha fun h => .pcVault (by rw [g9]; exact h)) fun _ _ => ?_
  refine .bind (.check ha) fun _ _ => ?_
  refine .bind (vaultSigner_raises ha hv) fun _ _ => ?_
  exact .bind (.orAssert ha) fun _ _ => .bind (.orAssert ha) fun _ _ => .pure

theorem take_exec_raises {P : Params} {s : State conc} (h : Reach P s) (hq : s.seq < W64)
    {accts : List AccMeta} {ix : SendTakeIx} (hv : TakeValid ix) (hn : NotVault P s.mkt accts) {a : SendTakeAccts}
    {tier : FeeTier} (hA : TakeArgs P s.toCore accts a tier) :
    Raises (TakeRefused P s accts ix) (sendTakeExec lst P (absState s) a ix tier) := by
  obtain ⟨g1, g2, g5, g6, g7, g8, g9⟩ := parse_take_given hA.parse
  obtain ⟨vs, hvs, hqi, hi⟩ := h.view (Nat.le_of_lt hq)
  have hg := h.good (Nat.le_of_lt hq)
  have hL := absState_q hg hqi
  have hu : ∀ e, Unnamed e → TakeRefused P s accts ix e := fun e h => .unnamed h
  have hpn := hu .panic (.inr rfl)
  have ha := hu .assertion (.inl rfl)
  have hnv : a.signer.key ≠ vs := by
    intro e
    have := hn _ (parseSendTake_mem hA.parse) hA.signed
    rw [e] at this
    exact this hvs
  have hdue : Due P s.toCore (given accts 7) accts (advertised tier) := by rw [g7]; exact take_due hA
  obtain ⟨⟨hp1, hp2⟩, ⟨hc1, hc2⟩, ⟨hpn', hpc⟩, _⟩ := id hv
  replace hc1 : 0 < ix.maxCoinQty := Nat.pos_of_ne_zero hc1
  replace hc2 : ix.maxCoinQty < W64 := hc2
  have hmod : (absState s).seq % W64 = s.seq := Nat.mod_eq_of_lt hq
  let req := sendTakeReq ix (genOrderId s.seq ix.limitPrice ix.side) tier
  have hstart : RoundIn req ((absState s).ob lst s.mkt) ix.maxCoinQty req.pcLocked :=
    ⟨hi.shape.mkt, hi.shape.book, hc1, hc2, by
        show (match ix.side with | .bid => ix.maxPcQty | .ask => 0) < W64
        cases ix.side with
        | bid => exact hpc
        | ask => exact (by decide : 0 < W64),
      fun _ h0 => absurd rfl h0, by
        have := hi.shape.fresh (sd := ix.side) (p := ix.limitPrice) hq
        show genOrderId s.seq ix.limitPrice ix.side ∉ (((absState s).ob lst s.mkt).own ix.side).items.map (·.key)
        cases hsd : ix.side <;> rw [hsd] at this <;> exact this⟩
  have hz : ∀ l ∈ opposite ix.side (absState s).bids.items (absState s).asks.items, l.owner ≠ 0 := by
    intro l hl'
    cases hsd : ix.side with
    | bid => rw [hsd] at hl'; exact hi.shape.owner_ne (sd := .ask) hl'
    | ask => rw [hsd] at hl'; exact hi.shape.owner_ne (sd := .bid) (List.mem_reverse.1 hl')
  have hook : OrderOk req := sendTakeReq_ok hv hq
  have hside0 : req.side = .ask → req.pcLocked = 0 := fun hk => by
    show (match ix.side with | .bid => ix.maxPcQty | .ask => 0) = 0
    rw [show ix.side = .ask from hk]
  have hwant : Want.of req s.mkt = wantTake s.mkt ix tier := want_take hv hq tier
  unfold sendTakeExec
  simp only [hmod]
  refine .bind ?_ ?_
  · intro e he
    rcases loop_blame hook hstart hside0 he with hd | ⟨rfl, hs, t, ht, ho⟩ | ⟨rfl, hr⟩
    · rcases hd with rfl | rfl
      · exact hpn
      · exact ha
    · obtain ⟨l, hl, e⟩ := takes_owner _ _ _ _ _ t ht
      exact absurd (e.trans ho) (hz l hl)
    · refine .room (tier := tier) ⟨hdue, rfl⟩ ?_
      unfold takeMet
      rw [← hwant, ← opposite_eq s ix.side]
      have h1 : ((absState s).ob lst s.mkt).q.items.length = (pending s).length := by
        show (absState s).q.items.length = _
        rw [hL, List.length_map]
      rw [← h1]
      exact hr
  rintro ⟨ob', rem, lim'⟩ hno
  obtain ⟨_, ts, f, evs', given', post, tail, hpath, hran⟩ :=
    newOrder_ran (σ := slotsOf s.oos) (evs := pending s) (o := req) (ob := (absState s).ob lst s.mkt) hook
      hstart rfl hL (fun h0 => absurd rfl h0) (fun _ => hz) (by exact hi.shape.slots) hno
  have hts := (path_takes hook hstart hside0 hpath).1
  have hdeal : Deal P s accts ix tier ts := ⟨hdue, by
    unfold takeMet
    rw [← hwant, ← opposite_eq s ix.side]
    exact hts⟩
  have hsum := runSums_eq s.mkt s.mkt rfl tier ts
  have hrun := hran.run
  have hmk : MarketRun s.mkt ob'.mkt (runSums s.mkt tier ts) := hran.mkt
  have hsame := hmk.same
  have hrun' : match ix.side with
    | .bid => RunBid req s.mkt (absState s).bids.items (absState s).asks.items
        ob'.bids.items ob'.asks.items evs' ob'.pr (runSums s.mkt tier ts) given' post tail
    | .ask => RunAsk req s.mkt (absState s).bids.items (absState s).asks.items
        ob'.bids.items ob'.asks.items evs' ob'.pr (runSums s.mkt tier ts) given' post tail := hrun
  rw [hsum] at hrun'
  refine .bind ?_ fun _ _ => ?_
  · intro e he
    unfold checkMin at he
    cases hs : ix.side with
    | bid =>
      rw [hs] at he hrun'
      simp only at he hrun'
      have hc : ob'.pr.coinCredit = tradedLots ts := by rw [hrun'.pr]
      rw [hc] at he
      split at he
      · rename_i hlt
        cases he
        refine .minimum hdeal ?_
        unfold Enough
        rw [hs]
        simp only at hlt ⊢
        omega
      · cases he
    | ask =>
      rw [hs] at he hrun'
      simp only at he hrun'
      have hc : ob'.pr.pcCredit = tradedQuote s.mkt ts - takerFees s.mkt tier ts := by rw [hrun'.pr]
      rw [hc] at he
      split at he
      · rename_i hlt
        cases he
        refine .minimum hdeal ?_
        unfold Enough
        rw [hs]
        simp only at hlt ⊢
        omega
      · cases he
  have hvs' : P.vaultSigner ob'.mkt.ownAddress ob'.mkt.vaultSignerNonce = some vs := by
    rw [hsame.eq]; exact hvs
  have e1 : ob'.mkt.coinVault = s.mkt.coinVault := by rw [hsame.eq]
  have e2 : ob'.mkt.pcVault = s.mkt.pcVault := by rw [hsame.eq]
  have e3 := hsame.coinLot
  have e4 := hsame.coinDeposits
  refine .bind ?_ ?_
  · unfold sendTakeTotals
    cases ix.side <;> exact .bind (.unwrap hpn) fun _ _ => .bind (.check ha) fun _ _ => .pure
  rintro ⟨m', D, w⟩ htot
  refine .bind ?_ fun _ _ => .pure
  have hsol := hi.funds.solvent
  have hpcM := hi.money.pc
  cases hs : ix.side with
  | bid =>
    rw [hs] at hrun' htot
    simp only at hrun'
    unfold sendTakeTotals at htot
    simp only at htot
    obtain ⟨w1, hw, htot⟩ := bind_ok htot
    obtain ⟨_, hle, htot⟩ := bind_ok htot
    simp only [pure, Except.pure, Except.ok.injEq, Prod.mk.injEq] at htot
    obtain ⟨rfl, rfl, rfl⟩ := htot
    rw [unwrap_ok, checkedMul_some] at hw
    obtain ⟨_, rfl⟩ := hw
    rw [checkAssert_ok] at hle
    have hle : ob'.pr.coinCredit * ob'.mkt.coinLot ≤ ob'.mkt.coinDeposits := by simpa using hle
    have hD : ob'.pr.pcDebit = takeCost s.mkt ix.side tier ts := by
      rw [hrun'.pr]; unfold takeCost; rw [hs]
    have hw : ob'.pr.coinCredit * ob'.mkt.coinLot = takeGain s.mkt ix.side tier ts := by
      rw [hrun'.pr, e3]; unfold takeGain; rw [hs]
    have hF : takeFrom accts ix.side = a.pcWallet.key := by unfold takeFrom; rw [hs]; exact g6
    have hT : takeTo accts ix.side = a.coinWallet.key := by unfold takeTo; rw [hs]; exact g5
    have hV : payVault s.mkt ix.side = s.mkt.pcVault := by rw [hs]; rfl
    have hV' : payVault s.mkt ix.side.other = s.mkt.coinVault := by rw [hs]; rfl
    unfold sendTakeTransfers
    simp only
    rw [e1, e2, hw, hD]
    rw [hw, e4] at hle
    refine .bind (depositIn_raises hu (fun hf => .funds hdeal ?_) fun hb => .barred hdeal ?_) fun l hl => ?_
    · rw [hF, g7]; exact hf
    · rw [hF, g7, hV]; exact hb
    · intro e he
      split at he
      · cases he
      · have hfd := hi.funds.deposit (m' := s.mkt) hl hnv rfl rfl (fun b => Nat.le_add_right _ _)
        have := hfd.solvent s.mkt.coinVault
        unfold owed at this
        rw [if_pos rfl] at this
        refine payout_raises (by exact hvs') hfd.coin (by omega) (fun hb => ?_) e he
        exact .payout hdeal hvs (by rw [hF, g7, hV]; exact hl) (by rw [hV', hT]; exact hb)
  | ask =>
    rw [hs] at hrun' htot
    simp only at hrun'
    unfold sendTakeTotals at htot
    simp only at htot
    obtain ⟨w1, hw, htot⟩ := bind_ok htot
    obtain ⟨_, hle, htot⟩ := bind_ok htot
    simp only [pure, Except.pure, Except.ok.injEq, Prod.mk.injEq] at htot
    obtain ⟨rfl, rfl, rfl⟩ := htot
    rw [unwrap_ok, checkedMul_some] at hw
    obtain ⟨_, rfl⟩ := hw
    have hD : ob'.pr.coinDebit * ob'.mkt.coinLot = takeCost s.mkt ix.side tier ts := by
      rw [hrun'.pr, e3]; unfold takeCost; rw [hs]
    have hw : ob'.pr.pcCredit = takeGain s.mkt ix.side tier ts := by
      rw [hrun'.pr]; unfold takeGain; rw [hs]
    have hF : takeFrom accts ix.side = a.coinWallet.key := by unfold takeFrom; rw [hs]; exact g5
    have hT : takeTo accts ix.side = a.pcWallet.key := by unfold takeTo; rw [hs]; exact g6
    have hV : payVault s.mkt ix.side = s.mkt.coinVault := by rw [hs]; rfl
    have hV' : payVault s.mkt ix.side.other = s.mkt.pcVault := by rw [hs]; rfl
    have hle : takeGain s.mkt ix.side tier ts ≤ s.mkt.pcDeposits := by
      have hfb := hrun'.freeBid
      simp only at hfb
      have : bookLock .bid s.mkt every (absState s).bids.items ≤ s.mkt.pcDeposits := by
        have : bookLock .bid s.mkt every (absState s).bids.items = bookLock .bid s.mkt every s.bids.contents := rfl
        omega
      unfold takeGain
      rw [hs]
      simp only
      omega
    unfold sendTakeTransfers
    simp only
    rw [e1, e2, hw, hD]
    refine .bind (depositIn_raises hu (fun hf => .funds hdeal ?_) fun hb => .barred hdeal ?_) fun l hl => ?_
    · rw [hF, g7]; exact hf
    · rw [hF, g7, hV]; exact hb
    · intro e he
      split at he
      · cases he
      · have hfd := hi.funds.deposit (m' := s.mkt) hl hnv rfl rfl (fun b => Nat.le_add_right _ _)
        have := hfd.solvent s.mkt.pcVault
        unfold owed at this
        rw [if_pos (rfl : s.mkt.pcVault = s.mkt.pcVault)] at this
        refine payout_raises (by exact hvs') hfd.pc (by omega) (fun hb => ?_) e he
        exact .payout hdeal hvs (by rw [hF, g7, hV]; exact hl) (by rw [hV', hT]; exact hb)

/-- C83, send-takes. When `SendTake` fails, in any reachable state, the reason it gives is true. -/
theorem take_refused {P : Params} {s : State conc} (h : Reach P s) (hq : s.seq < W64) {accts : List AccMeta}
    {ix : SendTakeIx} {e : Err} (hv : TakeValid ix) (hn : NotVault P s.mkt accts)
    (hx : sendTake conc P s accts ix = .error e) : TakeRefused P s accts ix e := by
  have hg := h.good (Nat.le_of_lt hq)
  obtain ⟨vs, hvs, _⟩ := h.view (Nat.le_of_lt hq)
  have hx := Sim.error_right (Refines.sim_sendTake hg.rs P accts ix hv.1.2) hx
  refine Raises.use ?_ hx
  unfold sendTake
  refine .bind (parse_take_raises (fun e h => .unnamed h) accts) fun a hp => ?_
  refine .bind (take_args_raise h.flags hvs hp) ?_
  intro tier hA
  exact take_exec_raises h hq hv hn (sendTakeArgs_inv hp hA)

end Props
end Serum
