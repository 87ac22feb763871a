import Verif.InvOrder

/-
Send-takes and replacements preserve the invariant; so does every instruction.
-/

namespace Serum

theorem Shape.take {m m' seq oos bids asks evs bids' asks' evs'} (h : Shape m seq oos bids asks evs)
    (hm : MktOk m') (hb : BookOk m' bids' asks')
    (hs : SlotOk (slotsOf oos) none (tagged bids' asks') evs')
    (hn : (∀ x ∈ bids', x.key < W128) → (∀ x ∈ asks', x.key < W128) →
      ∀ b ∈ bids', ∀ k ∈ asks', b.price < k.price) :
    Shape m' (seq + 1) oos bids' asks' evs' := by
  have hids : ∀ b i sd' id, slotsOf oos b i = some (sd', id) →
      ∃ n p, n < seq + 1 ∧ n < W64 ∧ 0 < p ∧ p < W64 ∧ id = genOrderId n p sd' := by
    intro b i sd' id h1
    obtain ⟨n, p', g1, g2⟩ := h.ids b i sd' id h1
    exact ⟨n, p', by omega, g2⟩
  exact ⟨hm, hb, hs, h.keys, h.zero, h.accts, hids, h.uniq,
    hn (fun x hx => Shape.key_lt (sd := .bid) hs hids hb hx)
      (fun x hx => Shape.key_lt (sd := .ask) hs hids hb hx)⟩

/-- Money and vaults after a buying send-take. -/
theorem Inv.takeBuy {vs m seq oos l bids asks evs} (h : Inv vs m seq oos l bids asks evs)
    {req : OrderParams} {σ : SlotMap} {ob' : Ob lst}
    {evs' : List EventView} {X : RunSums} {given post tail : Nat}
    (hr : Ran req σ m bids asks evs ob' evs' X given post tail) (hside : req.side = .bid)
    (hown : req.owner = 0) {m' : Market} {D w : Nat}
    (ht : sendTakeTotals ob'.mkt .bid ob'.pr = .ok (m', D, w))
    {l1 l' : Ledger} {src auth dst : Nat} (hd : depositIn l src m'.pcVault auth D = .ok l1) (hauth : auth ≠ vs)
    (hw : (w = 0 ∧ l' = l1) ∨ splTransfer l1 m'.coinVault dst vs w = .ok l') :
    Money m' oos ob'.bids.items ob'.asks.items (evs ++ evs') ∧ Funds vs m' l' ∧ MktOk m' ∧
      BookOk m' ob'.bids.items ob'.asks.items ∧ m'.ownAddress = m.ownAddress ∧
      m'.vaultSignerNonce = m.vaultSignerNonce := by
  have hrun := hr.run
  rw [hside] at hrun
  have hm := h.money
  have hlt0 := h.deposits_lt
  have hmo := hr.mktOk
  have hbk := hr.book
  obtain ⟨r1, r2, r3, r4, r5⟩ := hr.mkt
  have hpost := hrun.noPost hown
  have hpr := hrun.pr
  rw [hpr] at ht
  simp only [sendTakeTotals] at ht
  obtain ⟨w', hw1, ht⟩ := bind_ok ht
  obtain ⟨_, hw2, ht⟩ := bind_ok ht
  simp only [pure, Except.pure, Except.ok.injEq, Prod.mk.injEq] at ht
  rw [unwrap_ok, checkedMul_some] at hw1
  obtain ⟨hw1, rfl⟩ := hw1
  rw [checkAssert_ok, decide_eq_true_eq] at hw2
  obtain ⟨hm', hD, hwe⟩ := ht
  rw [r1.coinLot] at hw1 hw2 hwe hm'
  rw [r1.coinDeposits] at hw2 hm'
  have hfa := hrun.freeAsk
  have hfb := hrun.freeBid
  have hco := hm.coin
  have hpc := hm.pc
  have c1 : m'.coinLot = m.coinLot := by rw [← hm']
  have c2 : m'.pcLot = m.pcLot := by rw [← hm']; exact r1.pcLot
  have c3 : m'.coinVault = m.coinVault := by rw [← hm']; exact r1.coinVault
  have c4 : m'.pcVault = m.pcVault := by rw [← hm']; exact r1.pcVault
  have c5 : m'.coinDeposits = m.coinDeposits - X.lots * m.coinLot := by
    rw [← hm']; exact wsub_eq hw2 hlt0.1
  have c6 : m'.pcDeposits = (m.pcDeposits + X.pc) % W64 := by
    rw [← hm']
    show wadd _ _ = _
    unfold wadd
    rw [← r4]
    have := hmo.pcDeposits
    unfold W64 at *
    omega
  have c7 : m'.pcFees = (m.pcFees + (X.fee - X.ref)) % W64 := by rw [← hm']; exact r3
  have c8 : m'.referrerRebates = (m.referrerRebates + X.ref) % W64 := by rw [← hm']; exact r2
  subst hD
  rw [c4] at hd
  -- after the deposit
  have f1 : Funds vs { m with pcDeposits := m.pcDeposits + (X.pc + X.fee) } l1 := by
    refine h.funds.deposit hd hauth rfl rfl ?_
    intro b
    simp only [owed]
    split <;> split <;> omega
  have hlt : m.pcDeposits + (X.pc + X.fee) + m.pcFees + m.referrerRebates < W64 := by
    obtain ⟨t2, e2, _⟩ := f1.pc
    have b2 := f1.solvent m.pcVault
    have a2 := f1.amounts _ _ e2
    simp only [owed, bal] at b2
    rw [e2] at b2
    simp only [if_true] at b2
    omega
  rw [Nat.mod_eq_of_lt (by omega)] at c6 c7 c8
  refine ⟨hm.noAcct c1 c2 ?_ ?_ ?_ ?_ ?_, ?_, ?_, ?_, ?_, ?_⟩
  · rw [evSum_append]; omega
  · rw [evSum_append]; omega
  · intro b
    have e := hrun.lockAsk (only b)
    rw [evSum_append]
    omega
  · intro b
    have e := hrun.lockBid (only b)
    rw [hpost] at e
    rw [evSum_append]
    simp only [ite_self, Nat.add_zero] at e
    omega
  · have e := hrun.rebate
    rw [if_neg (by rw [hown]; simp)] at e
    rw [evSum_append, e]
    omega
  · rcases hw with ⟨hw, rfl⟩ | hw
    · refine f1.mono c3 c4 ?_
      intro b
      simp only [owed, c3, c4]
      split <;> split <;> omega
    · rw [c3] at hw
      refine f1.send hw c3 c4 ?_
      intro b
      simp only [owed, c3, c4]
      split <;> split <;> omega
  · rw [← hm']
    refine ⟨h.shape.mkt.1, hmo.2, hmo.3, hmo.4, ?_, ?_⟩
    · show wadd _ _ < W64; exact wadd_lt _ _
    · show wsub _ _ < W64; exact wsub_lt _ _
  · obtain ⟨a1, a2, a3, a4, a5, a6, a7, a8⟩ := hbk
    rw [r1.coinLot] at a8
    rw [← hm']
    exact ⟨a1, a2, a3, a4, a5, a6, a7, a8⟩
  · rw [← hm', r1.eq]
  · rw [← hm', r1.eq]

/-- Money and vaults after a selling send-take. -/
theorem Inv.takeSell {vs m seq oos l bids asks evs} (h : Inv vs m seq oos l bids asks evs)
    {req : OrderParams} {σ : SlotMap} {ob' : Ob lst}
    {evs' : List EventView} {X : RunSums} {given post tail : Nat}
    (hr : Ran req σ m bids asks evs ob' evs' X given post tail) (hside : req.side = .ask)
    (hown : req.owner = 0) {m' : Market} {D w : Nat}
    (ht : sendTakeTotals ob'.mkt .ask ob'.pr = .ok (m', D, w))
    {l1 l' : Ledger} {src auth dst : Nat} (hd : depositIn l src m'.coinVault auth D = .ok l1) (hauth : auth ≠ vs)
    (hw : (w = 0 ∧ l' = l1) ∨ splTransfer l1 m'.pcVault dst vs w = .ok l') :
    Money m' oos ob'.bids.items ob'.asks.items (evs ++ evs') ∧ Funds vs m' l' ∧ MktOk m' ∧
      BookOk m' ob'.bids.items ob'.asks.items ∧ m'.ownAddress = m.ownAddress ∧
      m'.vaultSignerNonce = m.vaultSignerNonce := by
  have hrun := hr.run
  rw [hside] at hrun
  have hm := h.money
  have hlt0 := h.deposits_lt
  have hmo := hr.mktOk
  have hbk := hr.book
  obtain ⟨r1, r2, r3, r4, r5⟩ := hr.mkt
  have hpost := hrun.noPost hown
  have hpr := hrun.pr
  rw [hpr] at ht
  simp only [sendTakeTotals] at ht
  obtain ⟨w', hw1, ht⟩ := bind_ok ht
  obtain ⟨_, hw2, ht⟩ := bind_ok ht
  simp only [pure, Except.pure, Except.ok.injEq, Prod.mk.injEq] at ht
  rw [unwrap_ok, checkedMul_some] at hw1
  obtain ⟨hw1, rfl⟩ := hw1
  rw [checkAssert_ok, decide_eq_true_eq] at hw2
  obtain ⟨hm', hD, hwe⟩ := ht
  rw [r1.coinLot] at hw1 hD hm'
  have hfa := hrun.freeAsk hw1
  have hfb := hrun.freeBid
  have hfl := hrun.feeLe
  have hco := hm.coin
  have hpc := hm.pc
  have dep : ob'.mkt.pcDeposits + X.fee = m.pcDeposits := by
    have := hmo.pcDeposits
    unfold W64 at *
    omega
  have c1 : m'.coinLot = m.coinLot := by rw [← hm']
  have c2 : m'.pcLot = m.pcLot := by rw [← hm']; exact r1.pcLot
  have c3 : m'.coinVault = m.coinVault := by rw [← hm']; exact r1.coinVault
  have c4 : m'.pcVault = m.pcVault := by rw [← hm']; exact r1.pcVault
  have c6 : m'.pcDeposits = m.pcDeposits - X.pc := by
    rw [← hm']
    show wsub _ _ = _
    rw [wsub_eq hw2 hmo.pcDeposits]
    omega
  have c7 : m'.pcFees = (m.pcFees + (X.fee - X.ref)) % W64 := by rw [← hm']; exact r3
  have c8 : m'.referrerRebates = (m.referrerRebates + X.ref) % W64 := by rw [← hm']; exact r2
  rw [Nat.mod_eq_of_lt (by omega)] at c7 c8
  subst hD hwe
  rw [c3] at hd
  -- after the deposit
  have f1 : Funds vs { m with coinDeposits := m.coinDeposits + X.lots * m.coinLot } l1 := by
    refine h.funds.deposit hd hauth rfl rfl ?_
    intro b
    simp only [owed]
    split <;> split <;> omega
  have hlt : m.coinDeposits + X.lots * m.coinLot < W64 := by
    obtain ⟨t2, e2, _⟩ := f1.coin
    have b2 := f1.solvent m.coinVault
    have a2 := f1.amounts _ _ e2
    simp only [owed, bal] at b2
    rw [e2] at b2
    simp only [if_true] at b2
    omega
  have c5 : m'.coinDeposits = m.coinDeposits + X.lots * m.coinLot := by
    rw [← hm']
    show wadd _ _ = _
    unfold wadd
    rw [r1.coinDeposits]
    exact Nat.mod_eq_of_lt hlt
  refine ⟨hm.noAcct c1 c2 ?_ ?_ ?_ ?_ ?_, ?_, ?_, ?_, ?_, ?_⟩
  · rw [evSum_append]
    simp only [hpost, Nat.zero_mul] at hfa
    omega
  · rw [evSum_append]; omega
  · intro b
    have e := hrun.lockAsk (only b)
    rw [hpost] at e
    rw [evSum_append]
    simp only [Nat.zero_mul, ite_self, Nat.add_zero] at e
    omega
  · intro b
    have e := hrun.lockBid (only b)
    rw [evSum_append]
    omega
  · have e := hrun.rebate
    rw [if_neg (by rw [hown]; simp)] at e
    rw [evSum_append, e]
    omega
  · rcases hw with ⟨hw, rfl⟩ | hw
    · refine f1.mono c3 c4 ?_
      intro b
      simp only [owed, c3, c4]
      split <;> split <;> omega
    · rw [c4] at hw
      refine f1.send hw c3 c4 ?_
      intro b
      simp only [owed, c3, c4]
      split <;> split <;> omega
  · rw [← hm']
    refine ⟨h.shape.mkt.1, hmo.2, hmo.3, hmo.4, ?_, ?_⟩
    · show wsub _ _ < W64; exact wsub_lt _ _
    · show wadd _ _ < W64; exact wadd_lt _ _
  · obtain ⟨a1, a2, a3, a4, a5, a6, a7, a8⟩ := hbk
    rw [r1.coinLot] at a8
    rw [← hm']
    exact ⟨a1, a2, a3, a4, a5, a6, a7, a8⟩
  · rw [← hm', r1.eq]
  · rw [← hm', r1.eq]

/-- The values of a send-take instruction. -/
def TakeValid (i : SendTakeIx) : Prop :=
  Props.NZ i.limitPrice ∧ Props.NZ i.maxCoinQty ∧ Props.NZ i.maxPcQty ∧ Props.U64 i.minCoinQty ∧
    Props.U64 i.minPcQty ∧ Props.U16 i.limit

/-- Everything a successful send-take does. -/
structure TakeRun (P : Params) (s s' : State lst) (a : SendTakeAccts) (ix : SendTakeIx) (tier : FeeTier)
    (vs : Nat) (evs : List EventView) (ob' : Ob lst) (ts : List Touch) (f : Option Posting)
    (evs' : List EventView) (given post tail : Nat) (m' : Market) (D w : Nat) (l' : Ledger) : Prop where
  start : RoundIn (sendTakeReq ix (genOrderId s.seq ix.limitPrice ix.side) tier) (s.ob lst s.mkt) ix.maxCoinQty
    (sendTakeReq ix (genOrderId s.seq ix.limitPrice ix.side) tier).pcLocked
  owners : ∀ l ∈ opposite ix.side s.bids.items s.asks.items, l.owner ≠ 0
  path : Path (sendTakeReq ix (genOrderId s.seq ix.limitPrice ix.side) tier) ix.limit (s.ob lst s.mkt)
    ix.maxCoinQty (sendTakeReq ix (genOrderId s.seq ix.limitPrice ix.side) tier).pcLocked ob' ts f
  ran : Ran (sendTakeReq ix (genOrderId s.seq ix.limitPrice ix.side) tier) (slotsOf s.oos) s.mkt s.bids.items
    s.asks.items evs ob' evs' (runSums s.mkt tier ts) given post tail
  min : checkMin ix ob'.pr = .ok ()
  totals : sendTakeTotals ob'.mkt ix.side ob'.pr = .ok (m', D, w)
  transfers : sendTakeTransfers P m' s.toks ix.side a D w = .ok l'
  signer : P.vaultSigner m'.ownAddress m'.vaultSignerNonce = some vs
  state : s' = { s with
    mkt := m'
    seq := s.seq + 1
    toks := l'
    bids := ob'.bids
    asks := ob'.asks
    q := ob'.q }
  inv : Inv vs m' (s.seq + 1) s.oos l' ob'.bids.items ob'.asks.items (evs ++ evs')

theorem sendTakeExec_run {P : Params} {s s' : State lst} {a : SendTakeAccts} {ix : SendTakeIx}
    {tier : FeeTier} (h : sendTakeExec lst P s a ix tier = .ok s') (hv : TakeValid ix)
    (hsig : P.vaultSigner s.mkt.ownAddress s.mkt.vaultSignerNonce ≠ some a.signer.key)
    (hseq : s.seq < W64) {vs : Nat} {evs : List EventView}
    (hvs : P.vaultSigner s.mkt.ownAddress s.mkt.vaultSignerNonce = some vs)
    (hq : s.q.items = evs.map Event.new)
    (hi : Inv vs s.mkt s.seq s.oos s.toks s.bids.items s.asks.items evs) :
    ∃ ob' ts f evs' given post tail m' D w l',
      TakeRun P s s' a ix tier vs evs ob' ts f evs' given post tail m' D w l' := by
  have hne : a.signer.key ≠ vs := fun e => hsig (by rw [e]; exact hvs)
  unfold sendTakeExec at h
  simp only at h
  obtain ⟨⟨ob', rem, lim'⟩, hno, h⟩ := bind_ok h
  simp only at h
  obtain ⟨_, hmin, h⟩ := bind_ok h
  obtain ⟨⟨m', D, w⟩, htot, h⟩ := bind_ok h
  simp only at h
  obtain ⟨l', htr, h⟩ := bind_ok h
  simp only [pure, Except.pure, Except.ok.injEq] at h
  subst h
  obtain ⟨⟨hp1, hp2⟩, ⟨hc1, hc2⟩, ⟨_, hpc⟩, _⟩ := hv
  replace hp1 : 0 < ix.limitPrice := Nat.pos_of_ne_zero hp1
  replace hc1 : 0 < ix.maxCoinQty := Nat.pos_of_ne_zero hc1
  have hmod : s.seq % W64 = s.seq := Nat.mod_eq_of_lt hseq
  rw [hmod] at hno
  let req := sendTakeReq ix (genOrderId s.seq ix.limitPrice ix.side) tier
  have hstart : RoundIn req (s.ob lst s.mkt) ix.maxCoinQty req.pcLocked :=
    ⟨hi.shape.mkt, hi.shape.book, hc1, hc2, by
        show (match ix.side with | .bid => ix.maxPcQty | .ask => 0) < W64
        cases ix.side with
        | bid => exact hpc
        | ask => exact (by decide : 0 < W64),
      fun _ h0 => absurd rfl h0, by
        have := hi.shape.fresh (sd := ix.side) (p := ix.limitPrice) hseq
        show genOrderId s.seq ix.limitPrice ix.side ∉ ((s.ob lst s.mkt).own ix.side).items.map (·.key)
        cases hsd : ix.side <;> rw [hsd] at this <;> exact this⟩
  have hz : ∀ l ∈ opposite ix.side s.bids.items s.asks.items, l.owner ≠ 0 := by
    intro l hl'
    cases hsd : ix.side with
    | bid => rw [hsd] at hl'; exact hi.shape.owner_ne (sd := .ask) hl'
    | ask => rw [hsd] at hl'; exact hi.shape.owner_ne (sd := .bid) (List.mem_reverse.1 hl')
  have hran := newOrder_ran (σ := slotsOf s.oos) (evs := evs) (o := req) (ob := s.ob lst s.mkt)
    ⟨by
        show 0 < extractPrice (genOrderId s.seq ix.limitPrice ix.side)
        rw [extractPrice_genOrderId hseq hp2]; exact hp1,
      fun _ => rfl⟩
    hstart rfl hq (fun h0 => absurd rfl h0) (fun _ => hz) (by exact hi.shape.slots) hno
  obtain ⟨_, ts, f, evs', given, post, tail, hpath, hran⟩ := hran
  have hvs' : P.vaultSigner m'.ownAddress m'.vaultSignerNonce = some vs := by
    have hh : m'.ownAddress = ob'.mkt.ownAddress ∧ m'.vaultSignerNonce = ob'.mkt.vaultSignerNonce := by
      unfold sendTakeTotals at htot
      split at htot <;>
      · obtain ⟨_, _, htot⟩ := bind_ok htot
        obtain ⟨_, _, htot⟩ := bind_ok htot
        cases htot
        exact ⟨rfl, rfl⟩
    rw [hh.1, hh.2, hran.mkt.same.eq]
    exact hvs
  have htr0 := htr
  have htot0 := htot
  have key : Money m' s.oos ob'.bids.items ob'.asks.items (evs ++ evs') ∧ Funds vs m' l' ∧ MktOk m' ∧
      BookOk m' ob'.bids.items ob'.asks.items ∧ m'.ownAddress = s.mkt.ownAddress ∧
      m'.vaultSignerNonce = s.mkt.vaultSignerNonce := by
    cases hsd : ix.side with
    | bid =>
      rw [hsd] at htot htr
      unfold sendTakeTransfers at htr
      obtain ⟨l1, hd, htr⟩ := bind_ok htr
      refine hi.takeBuy hran (show req.side = .bid from hsd) rfl htot hd hne (dst := a.coinWallet.key) ?_
      split at htr
      · cases htr; exact .inl ⟨by assumption, rfl⟩
      · exact .inr (sendFromVault_ok hvs' htr)
    | ask =>
      rw [hsd] at htot htr
      unfold sendTakeTransfers at htr
      obtain ⟨l1, hd, htr⟩ := bind_ok htr
      refine hi.takeSell hran (show req.side = .ask from hsd) rfl htot hd hne (dst := a.pcWallet.key) ?_
      split at htr
      · cases htr; exact .inl ⟨by assumption, rfl⟩
      · exact .inr (sendFromVault_ok hvs' htr)
  obtain ⟨K1, K2, K3, K4, K5, K6⟩ := key
  exact ⟨ob', ts, f, evs', given, post, tail, m', D, w, l', hstart, hz, hpath, hran, hmin, htot0, htr0, hvs', rfl,
    hi.shape.take K3 K4 hran.slots (hran.noCross hi.shape.noCross), K1, K2⟩

theorem sendTakeExec_inv {P : Params} {s s' : State lst} {a : SendTakeAccts} {ix : SendTakeIx}
    {tier : FeeTier} (h : sendTakeExec lst P s a ix tier = .ok s') (hv : TakeValid ix)
    (hsig : P.vaultSigner s.mkt.ownAddress s.mkt.vaultSignerNonce ≠ some a.signer.key)
    (hseq : s.seq < W64) (hi : SInv P s) : SInv P s' := by
  obtain ⟨vs, evs, hvs, hq, hi⟩ := hi
  obtain ⟨_, _, _, evs', _, _, _, _, _, _, _, h⟩ := sendTakeExec_run h hv hsig hseq hvs hq hi
  have := h.state
  subst this
  exact ⟨vs, evs ++ evs', h.signer, h.ran.queue, h.inv⟩

theorem sendTake_inv {P : Params} {s s' : State lst} {accts : List AccMeta} {ix : SendTakeIx}
    (h : sendTake lst P s accts ix = .ok s') (hv : TakeValid ix)
    (hsig : ∀ a ∈ accts, a.signer = true →
      P.vaultSigner s.mkt.ownAddress s.mkt.vaultSignerNonce ≠ some a.key)
    (hseq : s.seq < W64) (hi : SInv P s) : SInv P s' := by
  unfold sendTake at h
  obtain ⟨a, ha, h⟩ := bind_ok h
  obtain ⟨tier, hargs, h⟩ := bind_ok h
  unfold sendTakeArgs at hargs
  obtain ⟨_, _, hargs⟩ := bind_ok hargs
  obtain ⟨_, _, hargs⟩ := bind_ok hargs
  obtain ⟨_, hs, hargs⟩ := bind_ok hargs
  have hmem : a.signer ∈ accts := by
    unfold parseSendTake at ha
    split at ha
    · split at ha
      · cases ha; simp
      · cases ha
    · cases ha
  have hsg : a.signer.signer = true := by
    unfold signed at hs
    exact checkAssert_ok.1 hs
  exact sendTakeExec_inv h hv (hsig _ hmem hsg) hseq hi

end Serum
