import Verif.PropsTextbook
import Verif.PropsWind
import Verif.PropsReasons

/-!
C104: a send-take is an immediate-or-cancel order settled at once. Whichever way one goes, the same trades happen, the same
tokens end in the same wallets, the market's books and totals and everybody else's accounts are the same, and the makers
find the same fills in the queue.
-/

namespace Serum.Props

/-- The two instructions ask for the same thing; the order is immediate-or-cancel. -/
structure SameAsk (ix : NewOrderIx) (tk : SendTakeIx) : Prop where
  ioc : ix.orderType = .ioc
  side : ix.side = tk.side
  price : ix.limitPrice = tk.limitPrice
  coin : ix.maxCoinQty = tk.maxCoinQty
  pc : ix.maxPcQty = tk.maxPcQty
  limit : ix.limit = tk.limit

/-- The accounts given to the order (`oa`), to the settlement (`sa`) and to the send-take (`ta`) fit together: the
settlement is of the order's account, both signers are the same and show the same discount account, and the wallets that
pay and receive are the same. -/
structure SameAccts (side : Side) (oa sa ta : List AccMeta) : Prop where
  account : given sa 1 = given oa 1
  signer : given oa 7 = given ta 7
  discount : (oa.drop 12).map (·.key) = (ta.drop 12).map (·.key)
  payer : given oa 6 = given ta (match side with | .bid => 6 | .ask => 5)
  coin : given sa 5 = given ta 5
  pc : given sa 6 = given ta 6

/-- The account `a` holds no money, and none of the orders on side `sd` is its own. -/
structure Blank (s : State conc) (a : Nat) (sd : Side) : Prop where
  empty : ∀ o, ooAt s.oos a = some o → o.coinFree = 0 ∧ o.pcFree = 0 ∧ o.rebates = 0
  none : ∀ l ∈ resting s sd, l.owner ≠ a

/-- Two markets that came from `s` in two ways have the same outcome, but for the account `a`, used only in the first: it
holds no free money. -/
structure EitherWay (s s' t : State conc) (a : Nat) : Prop where
  bids : resting s' .bid = resting t .bid
  asks : resting s' .ask = resting t .ask
  mkt : s'.mkt = t.mkt
  seq : s'.seq = t.seq
  tokens : ∀ w, bal s'.toks w = bal t.toks w
  accounts : ∀ b, b ≠ a → ooAt s'.oos b = ooAt t.oos b
  account : ∃ o, ooAt s'.oos a = some o ∧ o.coinFree = 0 ∧ o.pcFree = 0 ∧ o.rebates = 0 ∧
    (∀ p, ooAt s.oos a = some p → o.coinTotal = p.coinTotal ∧ o.pcTotal = p.pcTotal) ∧
    (ooAt s.oos a = none → o.coinTotal = 0 ∧ o.pcTotal = 0)
  /-- What is queued for others is the same: the fills in the same order and the releases in the same order. -/
  queue : ∃ evs evs', pending s' = pending s ++ evs ∧ pending t = pending s ++ evs' ∧
    evs.filter (fun v => v.isMakerFill) = evs'.filter (fun v => v.isMakerFill) ∧
    evs.filter (fun v => v.isRelease) = evs'.filter (fun v => v.isRelease) ∧
    (∀ v ∈ evs, v.owner = a ∨ v.isMakerFill = true ∨ v.isRelease = true) ∧
    (∀ v ∈ evs', v.owner ≠ a ∧ (v.isMakerFill = true ∨ v.isRelease = true))

/-! ### The same trades -/

theorem takes_same {w w' : Want} (h1 : w.side = w'.side) (h2 : w.price = w'.price) (h3 : w.tier = w'.tier)
    (h4 : w.pcLot = w'.pcLot) (k1 : w.kind ≠ .postOnly) (k2 : w'.kind ≠ .postOnly) (k : Nat) :
    ∀ (L : List Leaf) (coin pc : Nat), (∀ l ∈ L, l.owner ≠ w.owner ∧ l.owner ≠ w'.owner) →
      w.takes k L coin pc = w'.takes k L coin pc := by
  have ea : ∀ p, w.accepts p = w'.accepts p := fun p => by unfold Want.accepts; rw [h1, h2]
  have el : ∀ l c p, w.lots l c p = w'.lots l c p := fun l c p => by unfold Want.lots; rw [h1, h3, h4]
  induction k with
  | zero => intro L coin pc _; rfl
  | succ k ih =>
    intro L coin pc hL
    cases L with
    | nil => rfl
    | cons l L =>
      have hl := hL l (by simp)
      have e1 : w.meet l coin pc = ⟨l, w.lots l coin pc, true⟩ := by unfold Want.meet; rw [if_neg hl.1]
      have e2 : w'.meet l coin pc = ⟨l, w.lots l coin pc, true⟩ := by unfold Want.meet; rw [if_neg hl.2, el]
      have c1 : w.coinUsed ⟨l, w.lots l coin pc, true⟩ = w'.coinUsed ⟨l, w.lots l coin pc, true⟩ := by
        simp [Want.coinUsed]
      have c2 : w.pcUsed ⟨l, w.lots l coin pc, true⟩ = w'.pcUsed ⟨l, w.lots l coin pc, true⟩ := by
        simp [Want.pcUsed, h3, h4]
      unfold Want.takes
      rw [e1, e2, ← ea, ← el, c1, c2]
      simp only [ne_eq, k1, not_false_eq_true, k2, true_and]
      split
      · congr 1
        refine ih _ _ _ ?_
        intro x hx
        unfold cutFirst at hx
        split at hx
        · exact hL x (List.mem_cons_of_mem _ hx)
        · rcases List.mem_cons.1 hx with rfl | hx
          · exact hl
          · exact hL x (List.mem_cons_of_mem _ hx)
      · rfl

theorem bestFirst_mem {s : State conc} {sd : Side} {l : Leaf} : l ∈ bestFirst s sd ↔ l ∈ resting s sd := by
  cases sd
  · unfold bestFirst; simp
  · rfl

theorem bestFirst_inj {s t : State conc} {sd : Side} (h : bestFirst s sd = bestFirst t sd) : resting s sd = resting t sd := by
  cases sd
  · exact List.reverse_inj.1 h
  · exact h

theorem PaidIn.balance {l l' : Ledger} {src dst n : Nat} (h : PaidIn l l' src dst n) (x : Nat) :
    bal l' x + amountAt src x n = bal l x + amountAt dst x n := by
  rcases h with ⟨rfl, rfl⟩ | ⟨_, _, h⟩
  · unfold amountAt; split <;> split <;> rfl
  · exact h.balance x

theorem PaidOut.balance {l l' : Ledger} {src dst n : Nat} (h : PaidOut l l' src dst n) (x : Nat) :
    bal l' x + amountAt src x n = bal l x + amountAt dst x n := by
  rcases h with ⟨rfl, rfl⟩ | ⟨_, h⟩
  · unfold amountAt; split <;> split <;> rfl
  · exact h.balance x

theorem amountAt_add (a x n k : Nat) : amountAt a x (n + k) = amountAt a x n + amountAt a x k := by
  unfold amountAt; split <;> omega

theorem amountAt_zero (a x : Nat) : amountAt a x 0 = 0 := by
  unfold amountAt; split <;> rfl

theorem parseNewOrder_inv {accts : List AccMeta} {a : NewOrderAccts} (h : parseNewOrder accts = .ok a) :
    given accts 1 = a.oo.key ∧ given accts 6 = a.payer.key ∧ given accts 7 = a.owner.key ∧ accts.drop 12 = a.discount := by
  unfold parseNewOrder at h
  split at h
  · split at h
    · cases h; exact ⟨rfl, rfl, rfl, rfl⟩
    · cases h
  · cases h

theorem parseSendTake_inv {accts : List AccMeta} {a : SendTakeAccts} (h : parseSendTake accts = .ok a) :
    given accts 5 = a.coinWallet.key ∧ given accts 6 = a.pcWallet.key ∧ given accts 7 = a.signer.key ∧
      accts.drop 12 = a.discount := by
  unfold parseSendTake at h
  split at h
  · split at h
    · cases h; exact ⟨rfl, rfl, rfl, rfl⟩
    · cases h
  · cases h

theorem discountAcct_keys {c : Core} : ∀ {l l' : List AccMeta}, l.map (·.key) = l'.map (·.key) →
    discountAcct c l = discountAcct c l'
  | [], [], _ => rfl
  | [a], [b], h => by
    simp only [List.map_cons, List.map_nil, List.cons.injEq, and_true] at h
    simp only [discountAcct, h]
  | _ :: _ :: _, _ :: _ :: _, _ => rfl
  | [], _ :: _, h => by simp at h
  | _ :: _, [], h => by simp at h
  | [_], _ :: _ :: _, h => by simp at h
  | _ :: _ :: _, [_], h => by simp at h

theorem takes_filled {w : Want} (k : Nat) : ∀ (L : List Leaf) (coin pc : Nat), (∀ l ∈ L, l.owner ≠ w.owner) →
    ∀ t ∈ w.takes k L coin pc, t.filled = true := by
  induction k with
  | zero => intro L coin pc _ t ht; cases ht
  | succ k ih =>
    intro L coin pc hL t ht
    cases L with
    | nil => cases ht
    | cons l L =>
      have hl := hL l (by simp)
      have e1 : w.meet l coin pc = ⟨l, w.lots l coin pc, true⟩ := by unfold Want.meet; rw [if_neg hl]
      unfold Want.takes at ht
      rw [e1] at ht
      split at ht
      · rcases List.mem_cons.1 ht with rfl | ht
        · rfl
        · refine ih _ _ _ ?_ t ht
          intro x hx
          unfold cutFirst at hx
          split at hx
          · exact hL x (List.mem_cons_of_mem _ hx)
          · rcases List.mem_cons.1 hx with rfl | hx
            · exact hl
            · exact hL x (List.mem_cons_of_mem _ hx)
      · cases ht

theorem kinds (v : EventView) : v.isMakerFill = true ∨ v.isRelease = true ∨ v.isTakerFill = true ∨ v.isReport = true := by
  cases v with
  | fill _ m => cases m <;> simp [EventView.isMakerFill, EventView.isTakerFill]
  | out _ r => cases r <;> simp [EventView.isRelease, EventView.isReport]

/-- What the queue gets from an order of which nothing rests. -/
theorem order_events {o : OrderParams} {m : Market} {ts : List Touch} {evs : List EventView} (h : EvReport o m ts none evs)
    (hr : OutReport o none none evs) (hz : o.owner ≠ 0) :
    ∀ v ∈ evs, v.owner = o.owner ∨ v.isMakerFill = true ∨ v.isRelease = true := by
  intro v hv
  rcases kinds v with k | k | k | k
  · exact .inr (.inl k)
  · exact .inr (.inr k)
  · have : v ∈ evs.filter EventView.isTakerFill := List.mem_filter.2 ⟨hv, k⟩
    rw [h.takers, if_neg hz] at this
    obtain ⟨t, _, rfl⟩ := List.mem_map.1 this
    left
    unfold Touch.takerFill
    cases o.side <;> rfl
  · left
    cases hr with
    | «open» _ h1 => simp at h1
    | closed e x _ _ _ h1 h2 =>
      rcases List.mem_append.1 hv with hv | hv
      · obtain ⟨_, _, rfl, _⟩ := h1 v hv k; rfl
      · rw [List.mem_singleton.1 hv]
        obtain ⟨_, _, rfl, _⟩ := h2; rfl
    | take _ _ _ h0 => exact absurd h0 hz

/-- What the queue gets from a send-take that meets nobody called `a`. -/
theorem take_events {o : OrderParams} {m : Market} {ts : List Touch} {evs : List EventView} (h : EvReport o m ts none evs)
    (hr : OutReport o none none evs) (hz : o.owner = 0) {a : Nat} (ha : ∀ t ∈ ts, t.maker.owner ≠ a) :
    ∀ v ∈ evs, v.owner ≠ a ∧ (v.isMakerFill = true ∨ v.isRelease = true) := by
  intro v hv
  rcases kinds v with k | k | k | k
  · refine ⟨?_, .inl k⟩
    have : v ∈ evs.filter EventView.isMakerFill := List.mem_filter.2 ⟨hv, k⟩
    rw [h.makers] at this
    obtain ⟨t, ht, rfl⟩ := List.mem_map.1 this
    have := ha t (List.mem_filter.1 ht).1
    unfold Touch.makerFill
    cases o.side <;> exact this
  · refine ⟨?_, .inr k⟩
    have : v ∈ evs.filter EventView.isRelease := List.mem_filter.2 ⟨hv, k⟩
    rw [h.releases] at this
    rcases List.mem_append.1 this with this | this
    · obtain ⟨t, ht, hv'⟩ := List.mem_flatMap.1 this
      have := ha t ht
      unfold Touch.release at hv'
      split at hv'
      · split at hv'
        · rw [List.mem_singleton.1 hv']; exact this
        · cases hv'
      · rw [List.mem_singleton.1 hv']; exact this
    · cases this
  · have : v ∈ evs.filter EventView.isTakerFill := List.mem_filter.2 ⟨hv, k⟩
    rw [h.takers, if_pos hz] at this
    cases this
  · cases hr with
    | «open» _ h1 => simp at h1
    | closed _ _ _ _ h0 => exact absurd hz h0
    | take _ _ _ _ h1 => rw [h1 v hv] at k; cases k

theorem resting_owner {P : Params} {s : State conc} (h : Reach P s) (hq : s.seq ≤ W64) {sd : Side} {l : Leaf}
    (hl : l ∈ resting s sd) : l.owner ≠ 0 := by
  obtain ⟨vs, hvs, hqi, hi⟩ := h.view hq
  refine hi.shape.owner_ne (sd := sd) ?_
  cases sd <;> exact hl

/-- C104. A send-take does what an immediate-or-cancel order for the same, from an account without money or orders on the
other side, does that is settled at once. -/
theorem take_is_order_settled {P : Params} {s s1 s' t : State conc} (h : Reach P s) (hq : s.seq < W64) {env env' : Env}
    {oa sa ta : List AccMeta} {ix : NewOrderIx} {tk : SendTakeIx} (hv : OrderValid ix) (hw : TakeValid tk)
    (hsame : SameAsk ix tk) (hacc : SameAccts ix.side oa sa ta) (hb : Blank s (given oa 1) ix.side.other)
    (hn : NotVault P s.mkt oa) (hn' : NotVault P s.mkt ta)
    (h1 : newOrderV3 conc P env s oa ix = .ok s1) (h2 : settleFunds conc P env' s1 sa = .ok s')
    (h3 : sendTake conc P s ta tk = .ok t) : EitherWay s s' t (given oa 1) := by
  obtain ⟨a, tier, o, o', slot, d, ts, f, evs, he, hbook⟩ := order_by_the_book h hq hv hn h1
  obtain ⟨a', tier', ts', evs', he', hbook'⟩ := send_take_by_the_book h hq hw hn' h3
  have hr1 : Reach P s1 := h.act (ix := .newOrderV3 ix) hv hn h1
  have hq1 : s1.seq ≤ W64 := by rw [he.seq]; omega
  obtain ⟨m, oo, owner, cv, pv, cw, pw, vsA, tp, refer, p, rfl, _, _, _, hS⟩ := settle_effect hr1 hq1 h2
  obtain ⟨i1, i2, i3, i4⟩ := parseNewOrder_inv he.args.parse
  obtain ⟨j1, j2, j3, j4⟩ := parseSendTake_inv he'.args.parse
  obtain ⟨q1, q2, q3, q4, q5, q6⟩ := hacc
  obtain ⟨b1, b2⟩ := hb
  obtain ⟨w1, w2, w3, w4, w5, w6⟩ := hsame
  rw [i1] at q1 b1 b2 ⊢
  rw [i3, j3] at q2
  rw [i4, j4] at q3
  rw [j1] at q5
  rw [j2] at q6
  rw [i2] at q4
  have q1 : oo.key = a.oo.key := q1
  have q5 : cw.key = a'.coinWallet.key := q5
  have q6 : pw.key = a'.pcWallet.key := q6
  -- the fee tier
  have ht : tier' = tier := by
    obtain ⟨x, x1, x2⟩ := he.args.tier
    obtain ⟨y, y1, y2⟩ := he'.args.tier
    rw [discountAcct_keys q3, y1] at x1
    cases x1
    rw [q2, y2] at x2
    exact Except.ok.inj x2
  subst ht
  -- the trades
  have hfree : ∀ l ∈ bestFirst s ix.side.other, l.owner ≠ a.oo.key ∧ l.owner ≠ 0 := fun l hl =>
    ⟨b2 l (bestFirst_mem.1 hl), resting_owner h (Nat.le_of_lt hq) (bestFirst_mem.1 hl)⟩
  have hts : ts = ts' := by
    have e := takes_same (w := wantOrder s.mkt ix a.oo.key tier') (w' := wantTake s.mkt tk tier') w2 w3 rfl rfl
      (by show ix.orderType ≠ _; rw [w1]; decide) (by show OrderType.ioc ≠ _; decide) ix.limit
      (bestFirst s ix.side.other) ix.maxCoinQty (payable ix.side ix.maxPcQty) hfree
    refine hbook.trades.trans (e.trans (Eq.trans ?_ hbook'.trades.symm))
    show Want.takes _ _ (bestFirst s ix.side.other) _ _ = Want.takes _ _ (bestFirst s tk.side.other) _ _
    rw [w2, w4, w5, w6]
  subst hts
  have hfill : ∀ x ∈ ts, x.filled = true := by
    rw [hbook.trades]
    exact takes_filled _ _ _ _ fun l hl => (hfree l hl).1
  have hmk : ∀ x ∈ ts, x.maker.owner ≠ a.oo.key := fun x hx e =>
    ((he.matched.touches x hx).who.1 (hfill x hx)) e.symm
  have hf : f = none := by
    have hown := he.matched.own
    cases f with
    | none => rfl
    | some f =>
      obtain ⟨_, hp⟩ := hown
      exact absurd w1 hp.notIoc
  subst hf
  have hown : resting s1 ix.side = resting s ix.side := he.matched.own
  have hown' : resting t tk.side = resting s tk.side := he'.matched.own
  have hopp : resting s1 ix.side.other = resting t ix.side.other := by
    refine bestFirst_inj ?_
    have e1 := hbook.after
    have e2 := hbook'.after
    have e2 : takeFront (bestFirst s tk.side.other) ts = some (bestFirst t tk.side.other) := e2
    rw [← w2] at e2
    have e1 : takeFront (bestFirst s ix.side.other) ts = some (bestFirst s1 ix.side.other) := e1
    rw [e1] at e2
    exact Option.some.inj e2
  rw [← w2] at hown'
  have hboth : ∀ sd, resting s' sd = resting t sd := by
    intro sd
    have : resting s' sd = resting s1 sd := by
      cases sd
      · show s'.bids.contents = _; rw [hS.rest.1]; rfl
      · show s'.asks.contents = _; rw [hS.rest.2.1]; rfl
    rw [this]
    by_cases e : sd = ix.side
    · rw [e, hown, hown']
    · have : sd = ix.side.other := by
        revert e
        cases sd <;> cases ix.side <;> simp [Side.other]
      rw [this, hopp]
  -- the account
  have hp : p = o' := by
    have := hS.account
    rw [q1, he.account] at this
    exact (Option.some.inj this).symm
  subst hp
  have ho : o.coinFree = 0 ∧ o.pcFree = 0 ∧ o.rebates = 0 ∧
      (∀ p, ooAt s.oos a.oo.key = some p → o = p) ∧ (ooAt s.oos a.oo.key = none → o.coinTotal = 0 ∧ o.pcTotal = 0) := by
    rcases loadOrders_inv he.args.load with ⟨k1, k2, _⟩ | ⟨k1, _, _, _, _, w, _, k2⟩
    · have k1 : ooAt s.oos a.oo.key = some o := k1
      obtain ⟨x1, x2, x3⟩ := b1 o k1
      exact ⟨x1, x2, x3, fun p hp => by rw [k1] at hp; exact Option.some.inj hp, fun hp => by rw [k1] at hp; cases hp⟩
    · have k1 : ooAt s.oos a.oo.key = none := k1
      subst k2
      exact ⟨rfl, rfl, rfl, fun p hp => by (rw [k1] at hp; cases hp), fun _ => ⟨rfl, rfl⟩⟩
  obtain ⟨o1, o2, o3, o4, o5⟩ := ho
  have hreb : p.rebates = 0 := he.rebates.trans o3
  have hrf : (if 0 < p.rebates then (refer.map (·.key)).head? else none) = none := by rw [hreb]; rfl
  rw [hrf] at hS
  obtain ⟨l1, l2, y1, y2, y3⟩ := hS.paid
  have y3 : s'.toks = l2 := y3
  subst y3
  have hmkt := hS.mkt
  rw [hreb] at hmkt
  have hlen : ∃ z, z = tradedLots ts * s.mkt.coinLot := ⟨_, rfl⟩
  obtain ⟨z, hz⟩ := hlen
  have hpl : postedLots none = 0 := rfl
  have main : s'.mkt = t.mkt ∧ (∀ w, bal s'.toks w = bal t.toks w) ∧ p.coinTotal - p.coinFree = o.coinTotal ∧
      p.pcTotal - p.pcFree = o.pcTotal := by
    cases hsd : ix.side with
    | bid =>
      have m1 := he.bid hsd
      have m2 := he'.bid (w2 ▸ hsd)
      have r1 := m1.mkt
      have r2 := m2.mkt
      have g1 := m1.deposit
      have g2 := m1.quote
      have g3 := m1.base
      have g4 := m1.quoteTotal
      have g5 := m1.baseTotal
      rw [hpl] at g2
      rw [← hz] at g3 g5 r2
      obtain ⟨l3, n1, n2⟩ := m2.paid
      rw [← hz] at n2
      rw [hsd] at q4
      have q4 : a.payer.key = given ta 6 := q4
      rw [j2] at q4
      have r3 := r1.pc
      have r4 := r1.mkt
      have r5 := r2.coin
      refine ⟨?_, ?_, by omega, by omega⟩
      · rw [hmkt, r2.mkt, r4]
        simp only [Market.mk.injEq, true_and, and_true]
        refine ⟨?_, ?_, ?_⟩ <;> first | omega | (split <;> omega)
      · intro w
        have u1 := he.paid.balance w
        have u2 := y1.balance w
        have u3 := y2.balance w
        have u4 := n1.balance w
        have u5 := n2.balance w
        have v1 : s1.mkt.coinVault = s.mkt.coinVault := by rw [r4]
        have v2 : s1.mkt.pcVault = s.mkt.pcVault := by rw [r4]
        rw [v1, q5] at u2
        rw [v2, q6] at u3
        rw [hsd, q4] at u1
        have u1 : bal s1.toks w + amountAt a'.pcWallet.key w d = bal s.toks w + amountAt s.mkt.pcVault w d := u1
        have ed : d = p.pcFree + (tradedQuote s.mkt ts + takerFees s.mkt tier' ts) := by omega
        have ec : p.coinFree = z := by omega
        rw [ed, amountAt_add _ _ p.pcFree, amountAt_add s.mkt.pcVault _ p.pcFree] at u1
        rw [ec] at u2
        omega
    | ask =>
      have m1 := he.ask hsd
      have m2 := he'.ask (w2 ▸ hsd)
      have r1 := m1.mkt
      have r2 := m2.mkt
      have g1 := m1.deposit
      have g2 := m1.quote
      have g3 := m1.base
      have g4 := m1.quoteTotal
      have g5 := m1.baseTotal
      rw [hpl, Nat.add_zero] at g3
      rw [← hz] at g3 g5 r2
      obtain ⟨l3, n1, n2⟩ := m2.paid
      rw [← hz] at n1
      rw [hsd] at q4
      have q4 : a.payer.key = given ta 5 := q4
      rw [j1] at q4
      have r3 := r1.pc
      have r4 := r1.mkt
      have r5 := r2.pc
      have r6 := m1.fees
      refine ⟨?_, ?_, by omega, by omega⟩
      · rw [hmkt, r2.mkt, r4]
        simp only [Market.mk.injEq, true_and, and_true]
        refine ⟨?_, ?_, ?_⟩ <;> first | omega | (split <;> omega)
      · intro w
        have u1 := he.paid.balance w
        have u2 := y1.balance w
        have u3 := y2.balance w
        have u4 := n1.balance w
        have u5 := n2.balance w
        have v1 : s1.mkt.coinVault = s.mkt.coinVault := by rw [r4]
        have v2 : s1.mkt.pcVault = s.mkt.pcVault := by rw [r4]
        rw [v1, q5] at u2
        rw [v2, q6] at u3
        rw [hsd, q4] at u1
        have u1 : bal s1.toks w + amountAt a'.coinWallet.key w d = bal s.toks w + amountAt s.mkt.coinVault w d := u1
        have ed : d = p.coinFree + z := by omega
        have ec : p.pcFree = tradedQuote s.mkt ts - takerFees s.mkt tier' ts := by omega
        rw [ed, amountAt_add, amountAt_add] at u1
        rw [ec] at u3
        omega
  obtain ⟨main1, main2, main3, main4⟩ := main
  refine ⟨hboth .bid, hboth .ask, main1, ?_, main2, ?_, ?_, ?_⟩
  · rw [hS.rest.2.2.2.1, he.seq, he'.seq]
  · intro b hb
    rw [hS.others b (by rw [q1]; exact hb), he.others b hb, he'.accounts]
  · refine ⟨_, by rw [← q1]; exact hS.after, rfl, rfl, rfl, ?_, ?_⟩
    · intro x hx
      rw [← o4 x hx]
      exact ⟨main3, main4⟩
    · intro hx
      have := o5 hx
      exact ⟨main3.trans this.1, main4.trans this.2⟩
  · refine ⟨evs, evs', ?_, he'.matched.queue, ?_, ?_, order_events he.matched.events he.matched.outs he.nonzero,
      take_events he'.matched.events he'.matched.outs rfl hmk⟩
    · rw [← he.matched.queue]
      unfold pending
      rw [hS.rest.2.2.1]
    · have e1 := he.matched.events.makers
      have e2 := he'.matched.events.makers
      have e3 : (newOrderReq ix (genOrderId s.seq ix.limitPrice ix.side) a.oo.key slot tier').side =
        (sendTakeReq tk (genOrderId s.seq tk.limitPrice tk.side) tier').side := w2
      rw [e1, e2, e3]
    · have e1 := he.matched.events.releases
      have e2 := he'.matched.events.releases
      have e3 : (newOrderReq ix (genOrderId s.seq ix.limitPrice ix.side) a.oo.key slot tier').side =
        (sendTakeReq tk (genOrderId s.seq tk.limitPrice tk.side) tier').side := w2
      rw [e1, e2, e3]

end Serum.Props

namespace Serum.Demo

open Serum.Props

/-- 12 buys 2 lots at up to 1100 by an immediate-or-cancel order through the account 42, and settles. -/
def iocIx : NewOrderIx := { order .bid 1100 2 takeIx.maxPcQty 8 with orderType := .ioc, limit := takeIx.limit }
def ioc1 : State conc := run s1 a2 (.newOrderV3 iocIx)
def ioc2 : State conc := run ioc1 (settleAccts 42 12 22 32 []) .settleFunds

/-- All conditions are met, and something is traded: the order, settled, and the send-take have the same outcome. -/
theorem ioc_or_take : EitherWay s1 ioc2 sT 42 ∧ bal sT.toks 22 = bal s1.toks 22 + 200 := by
  refine ⟨?_, by decide +kernel⟩
  have h1 : process conc P env s1 a2 (.newOrderV3 iocIx) = .ok ioc1 := run_eq (by decide +kernel)
  have h2 : process conc P env ioc1 (settleAccts 42 12 22 32 []) .settleFunds = .ok ioc2 := run_eq (by decide +kernel)
  exact take_is_order_settled (oa := a2) (sa := settleAccts 42 12 22 32 []) (ta := takeAccts) r1 (by decide +kernel)
    ⟨by decide, by decide, by decide, by decide, by decide, by decide⟩ takeValid
    ⟨rfl, rfl, rfl, rfl, rfl, rfl⟩ ⟨rfl, rfl, rfl, rfl, rfl, rfl⟩
    ⟨fun o ho => by (rw [show ooAt s1.oos (given a2 1) = none by decide +kernel] at ho; cases ho), by decide +kernel⟩
    (notVault _ (by decide)) (notVault _ (by decide)) h1 h2 eT

end Serum.Demo
