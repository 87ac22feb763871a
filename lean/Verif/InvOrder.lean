import Verif.InvMatch
import Verif.PropsInstr

/-
New orders and send-takes preserve the invariant.
-/

namespace Serum

/-! ### Locking funds and applying proceeds -/

/-- The account and the market after locking funds. -/
structure LockedBid (m m1 : Market) (o o1 : OpenOrders) (lock x d : Nat) : Prop where
  sum : x + d = lock
  le : x ≤ o.pcFree
  mkt : m1 = { m with pcDeposits := m.pcDeposits + d }
  acct : o1 = { o with pcFree := o.pcFree - x, pcTotal := o.pcTotal + d }
  lt : m.pcDeposits + d < W64
  totLt : o.pcTotal + d < W64

structure LockedAsk (m m1 : Market) (o o1 : OpenOrders) (lock x d : Nat) : Prop where
  sum : x + d = lock
  le : x ≤ o.coinFree
  mkt : m1 = { m with coinDeposits := m.coinDeposits + d }
  acct : o1 = { o with coinFree := o.coinFree - x, coinTotal := o.coinTotal + d }
  lt : m.coinDeposits + d < W64
  totLt : o.coinTotal + d < W64

theorem lockFunds_bid {m m1 : Market} {o o1 : OpenOrders} {ix : NewOrderIx} {b d : Nat}
    (hs : ix.side = .bid) (h : lockFunds m o ix b = .ok (m1, o1, d)) :
    ∃ x, LockedBid m m1 o o1 ix.maxPcQty x d := by
  unfold lockFunds at h
  rw [hs] at h
  simp only at h
  split at h
  · cases h
  · obtain ⟨o2, h2, h⟩ := bind_ok h
    obtain ⟨o3, h3, h⟩ := bind_ok h
    obtain ⟨e, he, h⟩ := bind_ok h
    simp only [pure, Except.pure, Except.ok.injEq, Prod.mk.injEq] at h
    obtain ⟨rfl, rfl, rfl⟩ := h
    unfold OpenOrders.lockFreePc at h2
    obtain ⟨t, ht, h2⟩ := bind_ok h2
    cases h2
    unfold OpenOrders.creditLockedPc at h3
    obtain ⟨t', ht', h3⟩ := bind_ok h3
    cases h3
    rw [unwrap_ok, checkedSub_some] at ht
    rw [unwrap_ok, checkedAdd_some] at ht' he
    obtain ⟨g1, rfl⟩ := ht
    obtain ⟨g2, rfl⟩ := ht'
    obtain ⟨g3, rfl⟩ := he
    exact ⟨min ix.maxPcQty o.pcFree, by omega, g1, rfl, rfl, g3, g2⟩

theorem lockFunds_ask {m m1 : Market} {o o1 : OpenOrders} {ix : NewOrderIx} {b d : Nat}
    (hs : ix.side = .ask) (h : lockFunds m o ix b = .ok (m1, o1, d)) :
    ix.maxCoinQty * m.coinLot < W64 ∧ ∃ x, LockedAsk m m1 o o1 (ix.maxCoinQty * m.coinLot) x d := by
  unfold lockFunds at h
  rw [hs] at h
  simp only at h
  cases hl : checkedMul ix.maxCoinQty m.coinLot with
  | none => rw [hl] at h; cases h
  | some lock =>
    rw [hl] at h
    simp only at h
    rw [checkedMul_some] at hl
    obtain ⟨hlt, rfl⟩ := hl
    refine ⟨hlt, ?_⟩
    split at h
    · cases h
    · obtain ⟨o2, h2, h⟩ := bind_ok h
      obtain ⟨o3, h3, h⟩ := bind_ok h
      obtain ⟨e, he, h⟩ := bind_ok h
      simp only [pure, Except.pure, Except.ok.injEq, Prod.mk.injEq] at h
      obtain ⟨rfl, rfl, rfl⟩ := h
      unfold OpenOrders.lockFreeCoin at h2
      obtain ⟨t, ht, h2⟩ := bind_ok h2
      cases h2
      unfold OpenOrders.creditLockedCoin at h3
      obtain ⟨t', ht', h3⟩ := bind_ok h3
      cases h3
      rw [unwrap_ok, checkedSub_some] at ht
      rw [unwrap_ok, checkedAdd_some] at ht' he
      obtain ⟨g1, rfl⟩ := ht
      obtain ⟨g2, rfl⟩ := ht'
      obtain ⟨g3, rfl⟩ := he
      exact ⟨min (ix.maxCoinQty * m.coinLot) o.coinFree, by omega, g1, rfl, rfl, g3, g2⟩

/-- The account after applying the proceeds. -/
structure Paid (o o' : OpenOrders) (cl : Nat) (pr : Proceeds) : Prop where
  acct : o' = { o with
    coinFree := o.coinFree + pr.coinCredit * cl + pr.coinUnlocked * cl
    coinTotal := o.coinTotal + pr.coinCredit * cl - pr.coinDebit * cl
    pcFree := o.pcFree + pr.pcCredit + pr.pcUnlocked
    pcTotal := o.pcTotal + pr.pcCredit - pr.pcDebit }
  coinDebit : pr.coinDebit * cl ≤ o.coinTotal + pr.coinCredit * cl
  pcDebit : pr.pcDebit ≤ o.pcTotal + pr.pcCredit
  debitLt : pr.coinDebit * cl < W64
  coinTotLt : o.coinTotal + pr.coinCredit * cl < W64
  pcTotLt : o.pcTotal + pr.pcCredit < W64
  coinLe : o'.coinFree ≤ o'.coinTotal
  pcLe : o'.pcFree ≤ o'.pcTotal

theorem applyProceeds_paid {o o' : OpenOrders} {cl : Nat} {pr : Proceeds}
    (h : applyProceeds o cl pr = .ok o') : Paid o o' cl pr := by
  unfold applyProceeds at h
  obtain ⟨un, h1, h⟩ := bind_ok h
  obtain ⟨cr, h2, h⟩ := bind_ok h
  obtain ⟨db, h3, h⟩ := bind_ok h
  obtain ⟨o1, h4, h⟩ := bind_ok h
  obtain ⟨o2, h5, h⟩ := bind_ok h
  obtain ⟨o3, h6, h⟩ := bind_ok h
  obtain ⟨o4, h7, h⟩ := bind_ok h
  obtain ⟨o5, h8, h⟩ := bind_ok h
  obtain ⟨o6, h9, h⟩ := bind_ok h
  obtain ⟨ct, h10, h⟩ := bind_ok h
  obtain ⟨pt, h11, h⟩ := bind_ok h
  obtain ⟨_, h12, h⟩ := bind_ok h
  obtain ⟨_, h13, h⟩ := bind_ok h
  rw [unwrap_ok, checkedMul_some] at h1 h2 h3
  obtain ⟨g1, rfl⟩ := h1
  obtain ⟨g2, rfl⟩ := h2
  obtain ⟨g3, rfl⟩ := h3
  unfold OpenOrders.creditLockedCoin at h4
  obtain ⟨t4, k4, h4⟩ := bind_ok h4
  rw [unwrap_ok, checkedAdd_some] at k4
  obtain ⟨g4, rfl⟩ := k4
  cases h4
  unfold OpenOrders.unlockCoin at h5
  obtain ⟨t5, k5, h5⟩ := bind_ok h5
  obtain ⟨_, a5, h5⟩ := bind_ok h5
  rw [unwrap_ok, checkedAdd_some] at k5
  obtain ⟨g5, rfl⟩ := k5
  cases h5
  unfold OpenOrders.unlockCoin at h6
  obtain ⟨t6, k6, h6⟩ := bind_ok h6
  obtain ⟨_, a6, h6⟩ := bind_ok h6
  rw [unwrap_ok, checkedAdd_some] at k6
  obtain ⟨g6, rfl⟩ := k6
  cases h6
  unfold OpenOrders.creditLockedPc at h7
  obtain ⟨t7, k7, h7⟩ := bind_ok h7
  rw [unwrap_ok, checkedAdd_some] at k7
  obtain ⟨g7, rfl⟩ := k7
  cases h7
  unfold OpenOrders.unlockPc at h8
  obtain ⟨t8, k8, h8⟩ := bind_ok h8
  obtain ⟨_, a8, h8⟩ := bind_ok h8
  rw [unwrap_ok, checkedAdd_some] at k8
  obtain ⟨g8, rfl⟩ := k8
  cases h8
  unfold OpenOrders.unlockPc at h9
  obtain ⟨t9, k9, h9⟩ := bind_ok h9
  obtain ⟨_, a9, h9⟩ := bind_ok h9
  rw [unwrap_ok, checkedAdd_some] at k9
  obtain ⟨g9, rfl⟩ := k9
  cases h9
  rw [unwrap_ok, checkedSub_some] at h10 h11
  obtain ⟨g10, rfl⟩ := h10
  obtain ⟨g11, rfl⟩ := h11
  rw [checkAssert_ok, decide_eq_true_eq] at h12 h13
  cases h
  exact ⟨rfl, g10, g11, g3, g4, g7, h12, h13⟩

/-! ### The accounting identities when no account changes -/

theorem Money.noAcct {m m' : Market} {oos bids asks evs bids' asks' evs'} (h : Money m oos bids asks evs)
    (l1 : m'.coinLot = m.coinLot) (l2 : m'.pcLot = m.pcLot)
    (hc : m'.coinDeposits + bookLock .ask m every asks + evSum (EventView.free .ask) every evs =
      m.coinDeposits + bookLock .ask m every asks' + evSum (EventView.free .ask) every evs')
    (hp : m'.pcDeposits + bookLock .bid m every bids + evSum (EventView.free .bid) every evs =
      m.pcDeposits + bookLock .bid m every bids' + evSum (EventView.free .bid) every evs')
    (hoc : ∀ b, bookLock .ask m (only b) asks' + evSum (EventView.lock .ask) (only b) evs' =
      bookLock .ask m (only b) asks + evSum (EventView.lock .ask) (only b) evs)
    (hop : ∀ b, bookLock .bid m (only b) bids' + evSum (EventView.lock .bid) (only b) evs' =
      bookLock .bid m (only b) bids + evSum (EventView.lock .bid) (only b) evs)
    (hr : evSum EventView.rebate every evs' + m.referrerRebates ≤
      evSum EventView.rebate every evs + m'.referrerRebates) :
    Money m' oos bids' asks' evs' := by
  obtain ⟨h1, h2, h3, h4, h5⟩ := h
  refine ⟨?_, ?_, ?_, ?_, ?_⟩
  · rw [bookLock_congr l1 l2]; omega
  · rw [bookLock_congr l1 l2]; omega
  · intro b p hb
    rw [bookLock_congr l1 l2, h3 b p hb]
    have := hoc b
    congr 1
    omega
  · intro b p hb
    rw [bookLock_congr l1 l2, h4 b p hb]
    have := hop b
    congr 1
    omega
  · omega

/-! ### Ids -/

/-- The id given to a new order differs from every recorded id. -/
theorem genOrderId_fresh {n n' p p' : Nat} {sd : Side} (h : n < n') (h' : n' < W64) :
    genOrderId n p sd ≠ genOrderId n' p' sd := by
  rw [genOrderId_eq (Nat.lt_trans h h'), genOrderId_eq h']
  cases sd <;> simp only <;> unfold W64 at * <;> omega

theorem Shape.key_lt {m seq oos bids asks evs} {x : Option (Nat × Nat)} {sd : Side} {l : Leaf}
    (hs : SlotOk (slotsOf oos) x (tagged bids asks) evs)
    (ids : ∀ a i sd id, slotsOf oos a i = some (sd, id) →
      ∃ n p, n < seq ∧ n < W64 ∧ 0 < p ∧ p < W64 ∧ id = genOrderId n p sd)
    (hb : BookOk m bids asks) (hl : l ∈ sideOf sd bids asks) : l.key < W128 := by
  have h1 := (hs.perm (tagged_drop hb hl)).at_leaf
  obtain ⟨n, p, _, h3, _, h5, h6⟩ := ids _ _ _ _ h1.2.1
  rw [h6]; exact genOrderId_lt h3 h5

theorem Shape.leaf_slot {m seq oos bids asks evs} (h : Shape m seq oos bids asks evs) {sd : Side} {l : Leaf}
    (hl : l ∈ sideOf sd bids asks) : slotsOf oos l.owner l.ownerSlot = some (sd, l.key) :=
  (h.slots.perm (tagged_drop h.book hl)).at_leaf.2.1

theorem Shape.owner_ne {m seq oos bids asks evs} (h : Shape m seq oos bids asks evs) {sd : Side} {l : Leaf}
    (hl : l ∈ sideOf sd bids asks) : l.owner ≠ 0 := by
  intro e
  have h1 := h.leaf_slot hl
  unfold slotsOf at h1
  rw [e] at h1
  cases h2 : ooAt oos 0 with
  | none => rw [h2] at h1; cases h1
  | some o =>
    exact h.zero (List.mem_map_of_mem (f := (·.1)) (ooAt_mem h2))

/-- A new id is on neither book. -/
theorem Shape.fresh {m seq oos bids asks evs} (h : Shape m seq oos bids asks evs) {sd : Side} {p : Nat}
    (hq : seq < W64) : genOrderId seq p sd ∉ (sideOf sd bids asks).map (·.key) := by
  intro hm
  obtain ⟨l, hl, e⟩ := List.mem_map.1 hm
  obtain ⟨n, p', h1, h2, _, _, h5⟩ := h.ids _ _ _ _ (h.leaf_slot hl)
  rw [h5] at e
  exact genOrderId_fresh h1 hq e

/-- The shape after an order was given a slot and matched. -/
theorem Shape.order {m m' seq oos bids asks evs bids' asks' evs'} (h : Shape m seq oos bids asks evs)
    {a slot p : Nat} {sd : Side} {o o' : OpenOrders} (ho : ooAt oos a = some o) (hok : OoOk o')
    (hsl : ∀ j, o'.slot j = if j = slot then some (sd, genOrderId seq p sd) else o.slot j)
    (hq : seq < W64) (hp : 0 < p) (hp' : p < W64)
    (hm : MktOk m') (hb : BookOk m' bids' asks')
    (hs : SlotOk (slotsOf (setOo oos a o')) none (tagged bids' asks') evs')
    (hn : (∀ x ∈ bids', x.key < W128) → (∀ x ∈ asks', x.key < W128) →
      ∀ b ∈ bids', ∀ k ∈ asks', b.price < k.price) :
    Shape m' (seq + 1) (setOo oos a o') bids' asks' evs' := by
  have hin : a ∈ oos.map (·.1) := List.mem_map_of_mem (f := (·.1)) (ooAt_mem ho)
  have hσ : ∀ b i, slotsOf (setOo oos a o') b i =
      if b = a ∧ i = slot then some (sd, genOrderId seq p sd) else slotsOf oos b i := by
    intro b i
    rw [slotsOf_setOo]
    by_cases hb : b = a
    · subst hb
      simp only [true_and, if_true, hsl]
      unfold slotsOf
      rw [ho]
    · simp [hb]
  have hids : ∀ b i sd' id, slotsOf (setOo oos a o') b i = some (sd', id) →
      ∃ n p, n < seq + 1 ∧ n < W64 ∧ 0 < p ∧ p < W64 ∧ id = genOrderId n p sd' := by
    intro b i sd' id h1
    rw [hσ] at h1
    split at h1
    · cases h1
      exact ⟨seq, p, by omega, hq, hp, hp', rfl⟩
    · obtain ⟨n, p', g1, g2⟩ := h.ids b i sd' id h1
      exact ⟨n, p', by omega, g2⟩
  refine ⟨hm, hb, hs, setOo_nodup h.keys _ _, ?_, ?_, hids, ?_, ?_⟩
  · rw [setOo_keys, if_pos hin]; exact h.zero
  · intro b q hq
    rw [ooAt_setOo] at hq
    split at hq
    · cases hq; exact hok
    · exact h.accts b q hq
  · intro b i sd' id c j sd'' h1 h2 he
    subst he
    rw [hσ] at h1 h2
    split at h1 <;> split at h2
    · rename_i e1 e2
      exact ⟨by rw [e1.1, e2.1], by rw [e1.2, e2.2]⟩
    · cases h1
      obtain ⟨n, p', g1, g2, _, _, g5⟩ := h.ids _ _ _ _ h2
      exact absurd g5.symm (genOrderId_fresh g1 hq)
    · cases h2
      obtain ⟨n, p', g1, g2, _, _, g5⟩ := h.ids _ _ _ _ h1
      exact absurd g5.symm (genOrderId_fresh g1 hq)
    · exact h.uniq b i sd' id c j sd' h1 h2 rfl
  · exact hn (fun x hx => Shape.key_lt (sd := .bid) hs hids hb hx)
      (fun x hx => Shape.key_lt (sd := .ask) hs hids hb hx)

/-! ### New orders -/

theorem SameMarket.coinVault {m m' : Market} (h : SameMarket m m') : m'.coinVault = m.coinVault := by
  rw [h.eq]
theorem SameMarket.pcVault {m m' : Market} (h : SameMarket m m') : m'.pcVault = m.pcVault := by
  rw [h.eq]

/-- Same balances. -/
structure SameMoney (o o' : OpenOrders) : Prop where
  coinFree : o'.coinFree = o.coinFree
  coinTotal : o'.coinTotal = o.coinTotal
  pcFree : o'.pcFree = o.pcFree
  pcTotal : o'.pcTotal = o.pcTotal
  rebates : o'.rebates = o.rebates

/-- The account after a buy order. -/
structure BidAcct (o o' : OpenOrders) (x d T TP F u : Nat) : Prop where
  coinFree : o'.coinFree = o.coinFree + T
  coinTotal : o'.coinTotal = o.coinTotal + T
  pcFree : o'.pcFree = o.pcFree - x + u
  pcTotal : o'.pcTotal = o.pcTotal + d - (TP + F)
  le : TP + F ≤ o.pcTotal + d
  coinLt : o.coinTotal + T < W64
  pcLt : o.pcTotal + d < W64
  rebates : o'.rebates = o.rebates
  coinLe : o'.coinFree ≤ o'.coinTotal
  pcLe : o'.pcFree ≤ o'.pcTotal

/-- The account after a sell order. -/
structure AskAcct (o o' : OpenOrders) (x d T TP F u : Nat) : Prop where
  pcFree : o'.pcFree = o.pcFree + (TP - F)
  pcTotal : o'.pcTotal = o.pcTotal + (TP - F)
  coinFree : o'.coinFree = o.coinFree - x + u
  coinTotal : o'.coinTotal = o.coinTotal + d - T
  le : T ≤ o.coinTotal + d
  coinLt : o.coinTotal + d < W64
  pcLt : o.pcTotal + (TP - F) < W64
  rebates : o'.rebates = o.rebates
  coinLe : o'.coinFree ≤ o'.coinTotal
  pcLe : o'.pcFree ≤ o'.pcTotal

theorem bidAcct {m m1 : Market} {o o1 o2 o' : OpenOrders} {lock x d cl : Nat} {pr : Proceeds} {T D u : Nat}
    (h : LockedBid m m1 o o1 lock x d) (hs : SameMoney o1 o2) (hp : Paid o2 o' cl pr)
    (he : pr = { Proceeds.zero with pcUnlocked := u, coinCredit := T, pcDebit := D }) {TP F : Nat}
    (hd : D = TP + F) : BidAcct o o' x d (T * cl) TP F u := by
  obtain ⟨p1, p2, p3, p4, p5, p6, p7, p8⟩ := hp
  obtain ⟨s1, s2, s3, s4, s5⟩ := hs
  have e1 := h.acct
  have e2 := h.totLt
  subst he hd p1 e1
  simp only [Proceeds.zero, Nat.zero_mul, Nat.add_zero, Nat.sub_zero, s1, s2, s3, s4, s5] at *
  exact ⟨rfl, rfl, rfl, rfl, p3, p5, e2, rfl, p7, p8⟩

theorem askAcct {m m1 : Market} {o o1 o2 o' : OpenOrders} {lock x d cl : Nat} {pr : Proceeds} {T D u : Nat}
    (h : LockedAsk m m1 o o1 lock x d) (hs : SameMoney o1 o2) (hp : Paid o2 o' cl pr)
    (he : pr = { Proceeds.zero with coinUnlocked := u, coinDebit := T, pcCredit := D }) {TP F : Nat}
    (hd : D = TP - F) : AskAcct o o' x d (T * cl) TP F (u * cl) := by
  obtain ⟨p1, p2, p3, p4, p5, p6, p7, p8⟩ := hp
  obtain ⟨s1, s2, s3, s4, s5⟩ := hs
  have e1 := h.acct
  have e2 := h.totLt
  subst he hd p1 e1
  simp only [Proceeds.zero, Nat.zero_mul, Nat.add_zero, Nat.sub_zero, s1, s2, s3, s4, s5] at *
  exact ⟨rfl, rfl, rfl, rfl, p2, e2, p6, rfl, p7, p8⟩

/-- Money and vaults after a buy order. -/
theorem Inv.buy {vs m seq oos l bids asks evs} (h : Inv vs m seq oos l bids asks evs) {a : Nat}
    {o o' : OpenOrders} (ho : ooAt oos a = some o) {req : OrderParams} {σ : SlotMap} {m1 : Market}
    {o1 : OpenOrders} {x d : Nat} (hlk : LockedBid m m1 o o1 req.pcLocked x d) {ob' : Ob lst}
    {evs' : List EventView} {X : RunSums} {given post tail : Nat}
    (hr : Ran req σ m1 bids asks evs ob' evs' X given post tail) (hside : req.side = .bid)
    (hown : req.owner = a) (ha : a ≠ 0)
    (hac : BidAcct o o' x d (X.lots * m.coinLot) X.pc X.fee (given + tail))
    {l' : Ledger} {src auth : Nat} (hd : depositIn l src m.pcVault auth d = .ok l') (hauth : auth ≠ vs) :
    Money ob'.mkt (setOo oos a o') ob'.bids.items ob'.asks.items (evs ++ evs') ∧ Funds vs ob'.mkt l' := by
  have hrun := hr.run
  rw [hside] at hrun
  have hm := h.money
  have hok := h.shape.accts a o ho
  have g1 := accSum_ge (g := (·.pcFree)) ho
  have hmk := hlk.mkt
  have k1 : m1.coinLot = m.coinLot := by rw [hmk]
  have k2 : m1.pcLot = m.pcLot := by rw [hmk]
  have k3 : m1.coinDeposits = m.coinDeposits := by rw [hmk]
  have k4 : m1.pcDeposits = m.pcDeposits + d := by rw [hmk]
  have k5 : m1.pcFees = m.pcFees := by rw [hmk]
  have k6 : m1.referrerRebates = m.referrerRebates := by rw [hmk]
  have k7 : m1.coinVault = m.coinVault := by rw [hmk]
  have k8 : m1.pcVault = m.pcVault := by rw [hmk]
  have f1 : Funds vs m1 l' := by
    refine h.funds.deposit hd hauth k7 k8 ?_
    intro b
    simp only [owed, k3, k4, k5, k6, k7, k8]
    split <;> split <;> omega
  have hlt : m1.pcDeposits + m1.pcFees + m1.referrerRebates < W64 := by
    obtain ⟨t2, e2, _⟩ := f1.pc
    have b2 := f1.solvent m1.pcVault
    have a2 := f1.amounts _ _ e2
    unfold owed bal at b2
    rw [e2] at b2
    simp only [if_true] at b2
    omega
  have hmo := hr.mktOk
  obtain ⟨r1, r2, r3, r4, r5⟩ := hr.mkt
  have hbud := hrun.budget
  have hsum := hlk.sum
  have hle := hlk.le
  have hpc := hm.pc
  have dep : ob'.mkt.pcDeposits + X.fee = m1.pcDeposits := by
    have := hmo.pcDeposits
    unfold W64 at *
    omega
  have refs : ob'.mkt.referrerRebates = m1.referrerRebates + X.ref := by
    rw [r2]; apply Nat.mod_eq_of_lt; omega
  have fees : ob'.mkt.pcFees = m1.pcFees + (X.fee - X.ref) := by
    rw [r3]; apply Nat.mod_eq_of_lt; omega
  refine ⟨hm.step ho (r1.coinLot.trans k1) (r1.pcLot.trans k2) ?_ ?_ ?_ ?_ ?_ ?_ ?_, ?_⟩
  · have e := hrun.freeAsk
    simp only [bookLock_congr k1 k2, k1] at e
    rw [r1.coinDeposits, k3, evSum_append, hac.coinFree]
    omega
  · have e := hrun.freeBid
    simp only [bookLock_congr k1 k2] at e
    rw [evSum_append, hac.pcFree]
    omega
  · have e := hrun.lockAsk (only a)
    simp only [bookLock_congr k1 k2] at e
    have t := hm.coinTot a o ho
    have c1 := hac.coinTotal
    have c2 := hac.coinLt
    rw [evSum_append, hac.coinFree]
    generalize bookLock Side.ask m (only a) ob'.asks.items = B1 at *
    generalize bookLock Side.ask m (only a) asks = B2 at *
    generalize evSum (EventView.lock Side.ask) (only a) evs = E1 at *
    generalize evSum (EventView.lock Side.ask) (only a) evs' = E2 at *
    generalize X.lots * m.coinLot = TT at *
    unfold W64 at *
    omega
  · have e := hrun.lockBid (only a)
    have e0 : only a req.owner = true := by rw [hown]; simp [only]
    simp only [bookLock_congr k1 k2, e0, if_true] at e
    have t := hm.pcTot a o ho
    have c1 := hac.pcTotal
    have c2 := hac.pcLt
    have c3 := hac.le
    rw [evSum_append, hac.pcFree]
    generalize bookLock Side.bid m (only a) ob'.bids.items = B1 at *
    generalize bookLock Side.bid m (only a) bids = B2 at *
    generalize evSum (EventView.lock Side.bid) (only a) evs = E1 at *
    generalize evSum (EventView.lock Side.bid) (only a) evs' = E2 at *
    unfold W64 at *
    omega
  · intro b hb
    have e := hrun.lockAsk (only b)
    simp only [bookLock_congr k1 k2] at e
    rw [evSum_append]
    omega
  · intro b hb
    have e := hrun.lockBid (only b)
    have e0 : only b req.owner = false := by
      rw [hown]; simp only [only, beq_eq_false_iff_ne]; exact fun e => hb e.symm
    simp only [bookLock_congr k1 k2, e0] at e
    rw [evSum_append]
    simp only [Bool.false_eq_true, if_false] at e
    omega
  · have e := hrun.rebate
    rw [if_pos (by rw [hown]; exact ha)] at e
    rw [evSum_append, e, refs, k6, hac.rebates]
    omega
  · refine f1.mono r1.coinVault r1.pcVault ?_
    intro b
    simp only [owed, r1.coinVault, r1.pcVault, r1.coinDeposits]
    split <;> split <;> omega

/-- Money and vaults after a sell order. -/
theorem Inv.sell {vs m seq oos l bids asks evs} (h : Inv vs m seq oos l bids asks evs) {a : Nat}
    {o o' : OpenOrders} (ho : ooAt oos a = some o) {req : OrderParams} {σ : SlotMap} {m1 : Market}
    {o1 : OpenOrders} {x d : Nat} (hlk : LockedAsk m m1 o o1 (req.maxCoinQty * m.coinLot) x d) {ob' : Ob lst}
    {evs' : List EventView} {X : RunSums} {given post tail : Nat}
    (hr : Ran req σ m1 bids asks evs ob' evs' X given post tail) (hside : req.side = .ask)
    (hown : req.owner = a) (ha : a ≠ 0) (hTlt : X.lots * m.coinLot < W64)
    (hac : AskAcct o o' x d (X.lots * m.coinLot) X.pc X.fee ((given + tail) * m.coinLot))
    {l' : Ledger} {src auth : Nat} (hd : depositIn l src m.coinVault auth d = .ok l') (hauth : auth ≠ vs) :
    Money ob'.mkt (setOo oos a o') ob'.bids.items ob'.asks.items (evs ++ evs') ∧ Funds vs ob'.mkt l' := by
  have hrun := hr.run
  rw [hside] at hrun
  have hm := h.money
  have hok := h.shape.accts a o ho
  have g1 := accSum_ge (g := (·.coinFree)) ho
  have hmk := hlk.mkt
  have k1 : m1.coinLot = m.coinLot := by rw [hmk]
  have k2 : m1.pcLot = m.pcLot := by rw [hmk]
  have k3 : m1.coinDeposits = m.coinDeposits + d := by rw [hmk]
  have k4 : m1.pcDeposits = m.pcDeposits := by rw [hmk]
  have k5 : m1.pcFees = m.pcFees := by rw [hmk]
  have k6 : m1.referrerRebates = m.referrerRebates := by rw [hmk]
  have k7 : m1.coinVault = m.coinVault := by rw [hmk]
  have k8 : m1.pcVault = m.pcVault := by rw [hmk]
  have f1 : Funds vs m1 l' := by
    refine h.funds.deposit hd hauth k7 k8 ?_
    intro b
    simp only [owed, k3, k4, k5, k6, k7, k8]
    split <;> split <;> omega
  have hlt := h.deposits_lt.2
  have hmo := hr.mktOk
  obtain ⟨r1, r2, r3, r4, r5⟩ := hr.mkt
  have hsz := congrArg (· * m.coinLot) hrun.size
  simp only [Nat.add_mul] at hsz
  have hu : (given + tail) * m.coinLot = given * m.coinLot + tail * m.coinLot := Nat.add_mul ..
  have hsum := hlk.sum
  have hle := hlk.le
  have hco := hm.coin
  have hpc := hm.pc
  have fb := hrun.freeBid
  simp only [bookLock_congr k1 k2] at fb
  have hfl := hrun.feeLe
  have dep : ob'.mkt.pcDeposits + X.fee = m.pcDeposits := by
    have := hmo.pcDeposits
    unfold W64 at *
    omega
  have refs : ob'.mkt.referrerRebates = m.referrerRebates + X.ref := by
    rw [r2, k6]; apply Nat.mod_eq_of_lt; omega
  have fees : ob'.mkt.pcFees = m.pcFees + (X.fee - X.ref) := by
    rw [r3, k5]; apply Nat.mod_eq_of_lt; omega
  refine ⟨hm.step ho (r1.coinLot.trans k1) (r1.pcLot.trans k2) ?_ ?_ ?_ ?_ ?_ ?_ ?_, ?_⟩
  · have e := hrun.freeAsk (by rw [k1]; exact hTlt)
    simp only [bookLock_congr k1 k2, k1] at e
    rw [r1.coinDeposits, k3, evSum_append, hac.coinFree, hu]
    omega
  · rw [evSum_append, hac.pcFree]
    omega
  · have e := hrun.lockAsk (only a)
    have e0 : only a req.owner = true := by rw [hown]; simp [only]
    simp only [bookLock_congr k1 k2, k1, e0, if_true] at e
    have t := hm.coinTot a o ho
    have c1 := hac.coinTotal
    have c2 := hac.coinLt
    have c3 := hac.le
    rw [evSum_append, hac.coinFree, hu]
    generalize bookLock Side.ask m (only a) ob'.asks.items = B1 at *
    generalize bookLock Side.ask m (only a) asks = B2 at *
    generalize evSum (EventView.lock Side.ask) (only a) evs = E1 at *
    generalize evSum (EventView.lock Side.ask) (only a) evs' = E2 at *
    generalize X.lots * m.coinLot = TT at *
    generalize given * m.coinLot = GG at *
    generalize tail * m.coinLot = LL at *
    generalize post * m.coinLot = PP at *
    generalize req.maxCoinQty * m.coinLot = MM at *
    unfold W64 at *
    omega
  · have e := hrun.lockBid (only a)
    simp only [bookLock_congr k1 k2] at e
    have t := hm.pcTot a o ho
    have c1 := hac.pcTotal
    have c2 := hac.pcLt
    rw [evSum_append, hac.pcFree]
    generalize bookLock Side.bid m (only a) ob'.bids.items = B1 at *
    generalize bookLock Side.bid m (only a) bids = B2 at *
    generalize evSum (EventView.lock Side.bid) (only a) evs = E1 at *
    generalize evSum (EventView.lock Side.bid) (only a) evs' = E2 at *
    unfold W64 at *
    omega
  · intro b hb
    have e := hrun.lockAsk (only b)
    have e0 : only b req.owner = false := by
      rw [hown]; simp only [only, beq_eq_false_iff_ne]; exact fun e => hb e.symm
    simp only [bookLock_congr k1 k2, e0] at e
    rw [evSum_append]
    simp only [Bool.false_eq_true, if_false] at e
    omega
  · intro b hb
    have e := hrun.lockBid (only b)
    simp only [bookLock_congr k1 k2] at e
    rw [evSum_append]
    omega
  · have e := hrun.rebate
    rw [if_pos (by rw [hown]; exact ha)] at e
    rw [evSum_append, e, refs, hac.rebates]
    omega
  · refine f1.mono r1.coinVault r1.pcVault ?_
    intro b
    simp only [owed, r1.coinVault, r1.pcVault, r1.coinDeposits]
    split <;> split <;> omega

/-- The account record with balances in range. -/
theorem OoOk.order {o o' : OpenOrders} (h : OoOk o) (h1 : o'.orders.length = 128)
    (h2 : o'.clientIds.length = 128) (h3 : o'.coinFree ≤ o'.coinTotal) (h4 : o'.pcFree ≤ o'.pcTotal)
    (h5 : o'.coinTotal < W64) (h6 : o'.pcTotal < W64) (h7 : o'.rebates = o.rebates)
    (h8 : o'.closed = false) : OoOk o' :=
  ⟨h1, h2, by omega, h5, by omega, h6, by rw [h7]; exact h.rebates, fun h => by rw [h8] at h; cases h⟩

theorem slot_setClientId (o : OpenOrders) (s c j : Nat) : (o.setClientId s c).slot j = o.slot j := rfl

/-- How the balances of the ordering account change. -/
def OrderAcct (s : State lst) (ix : NewOrderIx) (oo o' : OpenOrders) (m1 : Market) (o1 : OpenOrders) (d : Nat)
    (x : RunSums) (given tail : Nat) : Prop :=
  match ix.side with
  | .bid => ∃ n, LockedBid s.mkt m1 oo o1 ix.maxPcQty n d ∧
      BidAcct oo o' n d (x.lots * s.mkt.coinLot) x.pc x.fee (given + tail)
  | .ask => ∃ n, LockedAsk s.mkt m1 oo o1 (ix.maxCoinQty * s.mkt.coinLot) n d ∧
      AskAcct oo o' n d (x.lots * s.mkt.coinLot) x.pc x.fee ((given + tail) * s.mkt.coinLot)

/-- Everything a successful new order does. -/
structure OrderRun (P : Params) (env : Env) (s s' : State lst) (a : NewOrderAccts) (ix : NewOrderIx)
    (tier : FeeTier) (oo : OpenOrders) (vs : Nat) (evs : List EventView) (m1 : Market) (o1 : OpenOrders)
    (d slot : Nat) (ob' : Ob lst) (ts : List Touch) (f : Option Posting) (evs' : List EventView)
    (given post tail : Nat) (o' : OpenOrders) (l' : Ledger) : Prop where
  deadline : checkDeadline env.now ix.maxTs = .ok ()
  lock : lockFunds s.mkt oo ix (bal s.toks a.payer.key) = .ok (m1, o1, d)
  slotFree : oo.slot slot = none
  lots : m1.coinLot = s.mkt.coinLot ∧ m1.pcLot = s.mkt.pcLot
  owner : a.oo.key ≠ 0
  start : RoundIn (newOrderReq ix (genOrderId s.seq ix.limitPrice ix.side) a.oo.key slot tier) (s.ob lst m1)
    ix.maxCoinQty (newOrderReq ix (genOrderId s.seq ix.limitPrice ix.side) a.oo.key slot tier).pcLocked
  path : Path (newOrderReq ix (genOrderId s.seq ix.limitPrice ix.side) a.oo.key slot tier) ix.limit (s.ob lst m1)
    ix.maxCoinQty (newOrderReq ix (genOrderId s.seq ix.limitPrice ix.side) a.oo.key slot tier).pcLocked ob' ts f
  ran : Ran (newOrderReq ix (genOrderId s.seq ix.limitPrice ix.side) a.oo.key slot tier)
    (slotsOf (setOo s.oos a.oo.key o')) m1 s.bids.items s.asks.items evs ob' evs' (runSums m1 tier ts) given post tail
  cids : o'.clientIds = oo.clientIds.set slot ix.clientId
  who : o'.owner = oo.owner
  slots : ∀ j, o'.slot j =
    if j = slot then some (ix.side, genOrderId s.seq ix.limitPrice ix.side) else oo.slot j
  acct : OrderAcct s ix oo o' m1 o1 d (runSums m1 tier ts) given tail
  deposit : depositIn s.toks a.payer.key (s.mkt.depositVault ix.side) a.owner.key d = .ok l'
  signer : P.vaultSigner ob'.mkt.ownAddress ob'.mkt.vaultSignerNonce = some vs
  state : s' = { s with
    mkt := ob'.mkt
    seq := s.seq + 1
    oos := setOo s.oos a.oo.key o'
    toks := l'
    bids := ob'.bids
    asks := ob'.asks
    q := ob'.q }
  inv : Inv vs ob'.mkt (s.seq + 1) (setOo s.oos a.oo.key o') l' ob'.bids.items ob'.asks.items (evs ++ evs')

theorem newOrderExec_run {P : Params} {env : Env} {s s' : State lst} {a : NewOrderAccts} {ix : NewOrderIx}
    {tier : FeeTier} {oo : OpenOrders} {owner auth : Option Nat} {rent : Bool}
    (h : newOrderExec lst env s a ix tier oo = .ok s') (hv : Props.OrderValid ix)
    (hl : loadOrders s.toCore env a.oo.key owner rent auth = .ok oo)
    (hsig : P.vaultSigner s.mkt.ownAddress s.mkt.vaultSignerNonce ≠ some a.owner.key)
    (hseq : s.seq < W64) {vs : Nat} {evs : List EventView}
    (hvs : P.vaultSigner s.mkt.ownAddress s.mkt.vaultSignerNonce = some vs)
    (hq : s.q.items = evs.map Event.new)
    (hi : Inv vs s.mkt s.seq s.oos s.toks s.bids.items s.asks.items evs) :
    ∃ m1 o1 d slot ob' ts f evs' given post tail o' l',
      OrderRun P env s s' a ix tier oo vs evs m1 o1 d slot ob' ts f evs' given post tail o' l' := by
  obtain ⟨hi, ha0⟩ := hi.load (c := s.toCore) hl
  have hcl : oo.closed = false := by
    rcases loadOrders_inv hl with ⟨_, h2, _⟩ | ⟨_, _, _, _, _, w, _, rfl⟩
    · exact h2
    · rfl
  have hat : ooAt (setOo s.oos a.oo.key oo) a.oo.key = some oo := by rw [ooAt_setOo, if_pos rfl]
  have hok := hi.shape.accts _ _ hat
  have hne : a.owner.key ≠ vs := fun e => hsig (by rw [e]; exact hvs)
  unfold newOrderExec at h
  obtain ⟨_, hdl, h⟩ := bind_ok h
  obtain ⟨_, _, h⟩ := bind_ok h
  obtain ⟨⟨m1, o1, d⟩, hlk, h⟩ := bind_ok h
  simp only at h
  obtain ⟨⟨slot, o2⟩, hadd, h⟩ := bind_ok h
  simp only at h
  obtain ⟨⟨ob', rem, lim'⟩, hno, h⟩ := bind_ok h
  simp only at h
  obtain ⟨_, _, h⟩ := bind_ok h
  obtain ⟨o', hpr, h⟩ := bind_ok h
  obtain ⟨l', hdep, h⟩ := bind_ok h
  simp only [pure, Except.pure, Except.ok.injEq] at h
  subst h
  obtain ⟨⟨hp1, hp2⟩, ⟨hc1, hc2⟩, ⟨_, hpc⟩, _⟩ := hv
  replace hp1 : 0 < ix.limitPrice := Nat.pos_of_ne_zero hp1
  replace hc1 : 0 < ix.maxCoinQty := Nat.pos_of_ne_zero hc1
  have hmod : s.seq % W64 = s.seq := Nat.mod_eq_of_lt hseq
  rw [hmod] at hadd hno
  have hpaid := applyProceeds_paid hpr
  have hlots : m1.coinLot = s.mkt.coinLot ∧ m1.pcLot = s.mkt.pcLot ∧ MktOk m1 ∧ o1.orders = oo.orders ∧
      o1.clientIds = oo.clientIds ∧ (∀ j, o1.slot j = oo.slot j) ∧ o1.rebates = oo.rebates ∧
      o1.closed = oo.closed ∧ (ix.side = .ask → ix.maxCoinQty * m1.coinLot < W64) ∧
      m1.ownAddress = s.mkt.ownAddress ∧ m1.vaultSignerNonce = s.mkt.vaultSignerNonce ∧
      o1.owner = oo.owner := by
    have hm0 := hi.shape.mkt
    cases hside : ix.side with
    | bid =>
      obtain ⟨x, k⟩ := lockFunds_bid hside hlk
      have k1 := k.mkt
      have k2 := k.acct
      have k3 := k.lt
      subst k1 k2
      exact ⟨rfl, rfl, ⟨hm0.1, hm0.2, hm0.3, hm0.4, k3, hm0.6⟩, rfl, rfl, fun _ => rfl, rfl, rfl,
        (fun h => by cases h), rfl, rfl, rfl⟩
    | ask =>
      obtain ⟨k0, x, k⟩ := lockFunds_ask hside hlk
      have k1 := k.mkt
      have k2 := k.acct
      have k3 := k.lt
      subst k1 k2
      exact ⟨rfl, rfl, ⟨hm0.1, hm0.2, hm0.3, hm0.4, hm0.5, k3⟩, rfl, rfl, fun _ => rfl, rfl, rfl,
        (fun _ => k0), rfl, rfl, rfl⟩
  obtain ⟨L1, L2, L3, L4, L5, L6, L7, L8, L9, L10, L11, L12⟩ := hlots
  obtain ⟨f, b, e2, hslot, hfree, hsl⟩ := addOrder_inv (by rw [L4]; exact hok.orders) hadd
  have hpm := hpaid.acct
  have hslots' : ∀ j, o'.slot j =
      if j = slot then some (ix.side, genOrderId s.seq ix.limitPrice ix.side) else oo.slot j := by
    intro j
    rw [← L6, ← hsl, hpm]
    rfl
  have hσ : ∀ b i, slotsOf (setOo (setOo s.oos a.oo.key oo) a.oo.key o') b i =
      if b = a.oo.key ∧ i = slot then some (ix.side, genOrderId s.seq ix.limitPrice ix.side)
      else slotsOf (setOo s.oos a.oo.key oo) b i := by
    intro b i
    rw [slotsOf_setOo]
    by_cases hb : b = a.oo.key
    · subst hb
      simp only [true_and, if_true, hslots']
      unfold slotsOf
      rw [hat]
    · simp [hb]
  have hbegin := hi.shape.slots.begin (a := a.oo.key) (i := slot)
    (by unfold slotsOf; rw [hat]; simp only; rw [← L6]; exact hfree) hσ
  have hbook : BookOk m1 s.bids.items s.asks.items := (hi.shape.market L3 L1 L2).book
  let req := newOrderReq ix (genOrderId s.seq ix.limitPrice ix.side) a.oo.key slot tier
  have hstart : RoundIn req (s.ob lst m1) ix.maxCoinQty req.pcLocked :=
    ⟨L3, hbook, hc1, hc2, by
        show (match ix.side with | .bid => ix.maxPcQty | .ask => 0) < W64
        cases ix.side with
        | bid => exact hpc
        | ask => exact (by decide : 0 < W64),
      fun h0 _ => L9 h0, by
        have := hi.shape.fresh (sd := ix.side) (p := ix.limitPrice) hseq
        show genOrderId s.seq ix.limitPrice ix.side ∉ ((s.ob lst m1).own ix.side).items.map (·.key)
        cases hsd : ix.side <;> rw [hsd] at this <;> exact this⟩
  have hran := newOrder_ran (σ := slotsOf (setOo (setOo s.oos a.oo.key oo) a.oo.key o')) (evs := evs)
    (o := req) (ob := s.ob lst m1)
    ⟨by
        show 0 < extractPrice (genOrderId s.seq ix.limitPrice ix.side)
        rw [extractPrice_genOrderId hseq hp2]; exact hp1,
      fun h0 => absurd h0 ha0⟩
    hstart
    rfl hq (fun _ => by
      show slotsOf _ a.oo.key slot = some (ix.side, genOrderId s.seq ix.limitPrice ix.side)
      rw [hσ, if_pos ⟨rfl, rfl⟩])
    (fun h0 => absurd h0 ha0)
    (by rw [flightOf_some (o := req) ha0]; exact hbegin) hno
  obtain ⟨_, ts, f, evs', given, post, tail, hpath, hran⟩ := hran
  let X := runSums m1 tier ts
  have hsm := hran.mkt.same
  have hmoney : Money ob'.mkt (setOo (setOo s.oos a.oo.key oo) a.oo.key o') ob'.bids.items ob'.asks.items
      (evs ++ evs') ∧ Funds vs ob'.mkt l' ∧ o'.coinTotal < W64 ∧ o'.pcTotal < W64 ∧ o'.rebates = oo.rebates ∧
      OrderAcct s ix oo o' m1 o1 d X given tail := by
    unfold OrderAcct
    have hrun := hran.run
    have hreb : o'.rebates = oo.rebates := by rw [hpm, ← L7, e2]; rfl
    cases hside : ix.side with
    | bid =>
      obtain ⟨x, k⟩ := lockFunds_bid hside hlk
      have hside' : req.side = .bid := hside
      rw [hside'] at hrun
      have hp3 := hrun.pr
      rw [if_neg (show ¬ req.owner = 0 from ha0)] at hp3
      have hcl' : ob'.mkt.coinLot = s.mkt.coinLot := hsm.coinLot.trans L1
      rw [hcl'] at hpaid
      have hac : BidAcct oo o' x d (X.lots * s.mkt.coinLot) X.pc X.fee (given + tail) :=
        bidAcct k (o2 := o2.setClientId slot ix.clientId)
          ⟨by rw [e2]; rfl, by rw [e2]; rfl, by rw [e2]; rfl, by rw [e2]; rfl, by rw [e2]; rfl⟩ hpaid hp3 rfl
      have hlk' : req.pcLocked = ix.maxPcQty := by
        show (match ix.side with | .bid => ix.maxPcQty | .ask => 0) = _
        rw [hside]
      rw [hside] at hdep
      obtain ⟨q1, q2⟩ := hi.buy hat (req := req) (by rw [hlk']; exact k) hran hside' rfl ha0 hac hdep hne
      refine ⟨q1, q2, ?_, ?_, hreb, x, k, hac⟩
      · rw [hac.coinTotal]; exact hac.coinLt
      · have := hac.pcLt
        rw [hac.pcTotal]; omega
    | ask =>
      obtain ⟨_, x, k⟩ := lockFunds_ask hside hlk
      have hside' : req.side = .ask := hside
      rw [hside'] at hrun
      have hp3 := hrun.pr
      rw [if_neg (show ¬ req.owner = 0 from ha0)] at hp3
      have hcl' : ob'.mkt.coinLot = s.mkt.coinLot := hsm.coinLot.trans L1
      rw [hcl'] at hpaid
      have hac : AskAcct oo o' x d (X.lots * s.mkt.coinLot) X.pc X.fee ((given + tail) * s.mkt.coinLot) :=
        askAcct k (o2 := o2.setClientId slot ix.clientId)
          ⟨by rw [e2]; rfl, by rw [e2]; rfl, by rw [e2]; rfl, by rw [e2]; rfl, by rw [e2]; rfl⟩ hpaid hp3 rfl
      have hT : X.lots * s.mkt.coinLot < W64 := by
        have := hpaid.debitLt
        rw [hp3] at this
        exact this
      rw [hside] at hdep
      obtain ⟨q1, q2⟩ := hi.sell hat (req := req) k hran hside' rfl ha0 hT hac hdep hne
      refine ⟨q1, q2, ?_, ?_, hreb, x, k, hac⟩
      · have := hac.coinLt
        rw [hac.coinTotal]; omega
      · rw [hac.pcTotal]; exact hac.pcLt
  obtain ⟨M1, M2, M3, M4, M5, M6⟩ := hmoney
  have hok' : OoOk o' := by
    refine hok.order ?_ ?_ hpaid.coinLe hpaid.pcLe M3 M4 M5 ?_
    · rw [hpm, e2]
      simp only [OpenOrders.setClientId, List.length_set]
      rw [L4]; exact hok.orders
    · rw [hpm, e2]
      simp only [OpenOrders.setClientId, List.length_set]
      rw [L5]; exact hok.clientIds
    · rw [hpm, e2]
      simp only [OpenOrders.setClientId]
      rw [L8]; exact hcl
  have hshape := hi.shape.order hat hok' hslots' hseq hp1 hp2 hran.mktOk hran.book hran.slots
    (hran.noCross hi.shape.noCross)
  rw [setOo_setOo] at hshape M1 hran
  refine ⟨m1, o1, d, slot, ob', ts, f, evs', given, post, tail, o', l', hdl, hlk, by rw [← L6]; exact hfree,
    ⟨L1, L2⟩, ha0, hstart, hpath, hran, ?_, by rw [hpm, e2]; exact L12, hslots', M6, hdep, ?_, rfl, hshape, M1, M2⟩
  · rw [hpm, e2]
    simp only [OpenOrders.setClientId]
    rw [L5]
  · rw [hsm.eq]
    show P.vaultSigner m1.ownAddress m1.vaultSignerNonce = some vs
    rw [L10, L11]
    exact hvs

theorem newOrderExec_inv {P : Params} {env : Env} {s s' : State lst} {a : NewOrderAccts} {ix : NewOrderIx}
    {tier : FeeTier} {oo : OpenOrders} {owner auth : Option Nat} {rent : Bool}
    (h : newOrderExec lst env s a ix tier oo = .ok s') (hv : Props.OrderValid ix)
    (hl : loadOrders s.toCore env a.oo.key owner rent auth = .ok oo)
    (hsig : P.vaultSigner s.mkt.ownAddress s.mkt.vaultSignerNonce ≠ some a.owner.key)
    (hseq : s.seq < W64) (hi : SInv P s) : SInv P s' := by
  obtain ⟨vs, evs, hvs, hq, hi⟩ := hi
  obtain ⟨_, _, _, _, _, _, _, evs', _, _, _, _, _, h⟩ := newOrderExec_run h hv hl hsig hseq hvs hq hi
  have := h.state
  subst this
  exact ⟨vs, evs ++ evs', h.signer, h.ran.queue, h.inv⟩

theorem newOrderV3_inv {P : Params} {env : Env} {s s' : State lst} {accts : List AccMeta} {ix : NewOrderIx}
    (h : newOrderV3 lst P env s accts ix = .ok s') (hv : Props.OrderValid ix)
    (hsig : ∀ a ∈ accts, a.signer = true →
      P.vaultSigner s.mkt.ownAddress s.mkt.vaultSignerNonce ≠ some a.key)
    (hseq : s.seq < W64) (hi : SInv P s) : SInv P s' := by
  unfold newOrderV3 at h
  obtain ⟨a, ha, h⟩ := bind_ok h
  obtain ⟨⟨tier, oo⟩, hargs, h⟩ := bind_ok h
  simp only at h
  unfold newOrderArgs at hargs
  obtain ⟨_, _, hargs⟩ := bind_ok hargs
  obtain ⟨_, _, hargs⟩ := bind_ok hargs
  obtain ⟨_, hs, hargs⟩ := bind_ok hargs
  obtain ⟨_, _, hargs⟩ := bind_ok hargs
  obtain ⟨_, _, hargs⟩ := bind_ok hargs
  obtain ⟨_, _, hargs⟩ := bind_ok hargs
  obtain ⟨_, _, hargs⟩ := bind_ok hargs
  obtain ⟨_, _, hargs⟩ := bind_ok hargs
  obtain ⟨_, _, hargs⟩ := bind_ok hargs
  obtain ⟨_, _, hargs⟩ := bind_ok hargs
  obtain ⟨_, _, hargs⟩ := bind_ok hargs
  obtain ⟨_, _, hargs⟩ := bind_ok hargs
  obtain ⟨_, _, hargs⟩ := bind_ok hargs
  obtain ⟨_, _, hargs⟩ := bind_ok hargs
  obtain ⟨oo', hl, hargs⟩ := bind_ok hargs
  simp only [pure, Except.pure, Except.ok.injEq, Prod.mk.injEq] at hargs
  obtain ⟨rfl, rfl⟩ := hargs
  have hmem : a.owner ∈ accts := by
    unfold parseNewOrder at ha
    split at ha
    · split at ha
      · cases ha; simp
      · cases ha
    · cases ha
  have hsg : a.owner.signer = true := by
    unfold signed at hs
    exact checkAssert_ok.1 hs
  exact newOrderExec_inv h hv hl (hsig _ hmem hsg) hseq hi

end Serum
