import Verif.InvCancel

/-
What a run of the matching engine does to the quantities of the invariant.
-/

namespace Serum

/-- Sums of a run: lots traded, quote traded, taker fees, referrer shares. -/
structure RunSums where
  lots : Nat
  pc : Nat
  fee : Nat
  ref : Nat

/-- How the market's counters move. -/
structure MarketRun (m m' : Market) (x : RunSums) : Prop where
  same : SameMarket m m'
  refs : m'.referrerRebates = (m.referrerRebates + x.ref) % W64
  fees : m'.pcFees = (m.pcFees + (x.fee - x.ref)) % W64
  deposits : (m'.pcDeposits + x.fee) % W64 = m.pcDeposits
  le : x.ref ≤ x.fee

/-- A run of a buy order. -/
structure RunBid (o : OrderParams) (m : Market) (bids asks bids' asks' : List Leaf) (evs : List EventView)
    (pr : Proceeds) (x : RunSums) (given post tail : Nat) : Prop where
  lockAsk : ∀ P, bookLock .ask m P asks = bookLock .ask m P asks' + evSum (EventView.lock .ask) P evs
  lockBid : ∀ P, bookLock .bid m P bids + (if P o.owner then post else 0) =
    bookLock .bid m P bids' + evSum (EventView.lock .bid) P evs
  freeAsk : bookLock .ask m every asks =
    bookLock .ask m every asks' + evSum (EventView.free .ask) every evs + x.lots * m.coinLot
  freeBid : bookLock .bid m every bids + post + x.pc =
    bookLock .bid m every bids' + evSum (EventView.free .bid) every evs
  rebate : evSum EventView.rebate every evs = if o.owner ≠ 0 then x.ref else 0
  budget : o.pcLocked = x.pc + x.fee + given + post + tail
  pr : pr = { Proceeds.zero with
    pcUnlocked := given + (if o.owner = 0 then 0 else tail)
    coinCredit := x.lots
    pcDebit := x.pc + x.fee }
  noPost : o.owner = 0 → post = 0

/-- A run of a sell order. -/
structure RunAsk (o : OrderParams) (m : Market) (bids asks bids' asks' : List Leaf) (evs : List EventView)
    (pr : Proceeds) (x : RunSums) (given post tail : Nat) : Prop where
  lockBid : ∀ P, bookLock .bid m P bids = bookLock .bid m P bids' + evSum (EventView.lock .bid) P evs
  lockAsk : ∀ P, bookLock .ask m P asks + (if P o.owner then post * m.coinLot else 0) =
    bookLock .ask m P asks' + evSum (EventView.lock .ask) P evs
  freeBid : bookLock .bid m every bids =
    bookLock .bid m every bids' + evSum (EventView.free .bid) every evs + x.pc
  freeAsk : x.lots * m.coinLot < W64 →
    bookLock .ask m every asks + post * m.coinLot + x.lots * m.coinLot =
    bookLock .ask m every asks' + evSum (EventView.free .ask) every evs
  rebate : evSum EventView.rebate every evs = if o.owner ≠ 0 then x.ref else 0
  size : o.maxCoinQty = x.lots + given + post + tail
  feeLe : x.fee ≤ x.pc
  pr : pr = { Proceeds.zero with
    coinUnlocked := given + (if o.owner = 0 then 0 else tail)
    coinDebit := x.lots
    pcCredit := x.pc - x.fee }
  noPost : o.owner = 0 → post = 0

/-- The sums of a list of touches. -/
def runSums (m : Market) (tier : FeeTier) (ts : List Touch) : RunSums :=
  ⟨sumBy Touch.traded ts, sumBy (Touch.tradedPc m) ts, sumBy (Touch.fee m tier) ts, sumBy (Touch.ref m tier) ts⟩

theorem sumBy_sub {α : Type} {f g : α → Nat} {L : List α} (h : ∀ x ∈ L, g x ≤ f x) :
    sumBy (fun x => f x - g x) L = sumBy f L - sumBy g L ∧ sumBy g L ≤ sumBy f L := by
  induction L with
  | nil => simp
  | cons x xs ih =>
    obtain ⟨h1, h2⟩ := ih (fun y hy => h y (by simp [hy]))
    have := h x (by simp)
    simp only [sumBy_cons, h1]
    omega

theorem ref_le (m : Market) (tier : FeeTier) (t : Touch) : t.ref m tier ≤ t.fee m tier := by
  unfold Touch.ref; exact referrerRebate_le _

theorem marketRun {o : OrderParams} {m m' : Market} {ts : List Touch} (h : FeeReport o m m' ts) :
    MarketRun m m' (runSums m o.feeTier ts) := by
  have := sumBy_sub (f := Touch.fee m o.feeTier) (g := Touch.ref m o.feeTier) (L := ts) (fun t _ => ref_le m _ t)
  refine ⟨h.same, h.refs, ?_, h.deposits, this.2⟩
  show m'.pcFees = (m.pcFees + (sumBy (Touch.fee m o.feeTier) ts - sumBy (Touch.ref m o.feeTier) ts)) % W64
  rw [← this.1]; exact h.fees

/-- Everything one run does. -/
structure Ran (o : OrderParams) (σ : SlotMap) (m : Market) (bids asks : List Leaf) (evs : List EventView)
    (ob' : Ob lst) (evs' : List EventView) (x : RunSums) (given post tail : Nat) : Prop where
  queue : ob'.q.items = (evs ++ evs').map Event.new
  slots : SlotOk σ none (tagged ob'.bids.items ob'.asks.items) (evs ++ evs')
  mktOk : MktOk ob'.mkt
  book : BookOk ob'.mkt ob'.bids.items ob'.asks.items
  noCross : (∀ b ∈ bids, ∀ k ∈ asks, b.price < k.price) →
    (∀ x ∈ ob'.bids.items, x.key < W128) → (∀ x ∈ ob'.asks.items, x.key < W128) →
    ∀ b ∈ ob'.bids.items, ∀ k ∈ ob'.asks.items, b.price < k.price
  mkt : MarketRun m ob'.mkt x
  run : match o.side with
    | .bid => RunBid o m bids asks ob'.bids.items ob'.asks.items evs' ob'.pr x given post tail
    | .ask => RunAsk o m bids asks ob'.bids.items ob'.asks.items evs' ob'.pr x given post tail

theorem price_mono {a b : Leaf} (hb : b.key < W128) (h : a.key ≤ b.key) : a.price ≤ b.price := by
  unfold Leaf.price extractPrice
  rw [Nat.shiftRight_eq_div_pow, Nat.shiftRight_eq_div_pow]
  have h1 : a.key / 2 ^ 64 ≤ b.key / 2 ^ 64 := Nat.div_le_div_right h
  have h2 : b.key / 2 ^ 64 < W64 := by
    rw [Nat.div_lt_iff_lt_mul (by decide)]
    exact hb
  rw [Nat.mod_eq_of_lt h2, Nat.mod_eq_of_lt (Nat.lt_of_le_of_lt h1 h2)]
  exact h1

theorem sorted_head_price {L : List Leaf} (hs : L.Pairwise (fun a b => a.key < b.key))
    (hk : ∀ x ∈ L, x.key < W128) {b x : Leaf} (hb : L.head? = some b) (hx : x ∈ L) : b.price ≤ x.price := by
  cases L with
  | nil => cases hx
  | cons y ys =>
    simp only [List.head?_cons, Option.some.injEq] at hb
    subst hb
    rcases List.mem_cons.1 hx with rfl | hx
    · exact Nat.le_refl _
    · exact price_mono (hk x (by simp [hx])) (Nat.le_of_lt ((List.pairwise_cons.1 hs).1 x hx))

theorem sorted_last_price {L : List Leaf} (hs : L.Pairwise (fun a b => a.key < b.key))
    (hk : ∀ x ∈ L, x.key < W128) {b x : Leaf} (hb : L.reverse.head? = some b) (hx : x ∈ L) : x.price ≤ b.price := by
  rw [List.head?_reverse] at hb
  obtain ⟨M, rfl⟩ := List.getLast?_eq_some_iff.1 hb
  rcases List.mem_append.1 hx with hx | hx
  · exact price_mono (hk b (by simp)) (Nat.le_of_lt ((List.pairwise_append.1 hs).2.2 x hx b (by simp)))
  · simp only [List.mem_singleton] at hx; subst hx; exact Nat.le_refl _

/-- Prices of a worked-through side were there before. -/
theorem takeFront_price {L L' : List Leaf} {ts : List Touch} (h : takeFront L ts = some L') {x : Leaf}
    (hx : x ∈ L') : ∃ y ∈ L, y.price = x.price := by
  obtain ⟨y, hy, e, _⟩ := takeFront_mem h hx
  refine ⟨y, hy, ?_⟩
  have : x.key = y.key := by rw [e]
  unfold Leaf.price; rw [this]

/-- Orders of the own side after a run: those before and the posted one. -/
theorem own_mem {o : OrderParams} {ob ob' : Ob lst} {f : Option Posting}
    (hsort : (ob.own o.side).items.Pairwise (fun a b => a.key < b.key))
    (hfr : o.orderId ∉ (ob.own o.side).items.map (·.key)) (h : OwnReport o ob ob' f)
    {x : Leaf} (hx : x ∈ (ob'.own o.side).items) :
    x ∈ (ob.own o.side).items ∨ (x.key = o.orderId ∧
      ∀ b, (opposite o.side ob'.bids.items ob'.asks.items).head? = some b → ¬ priceOk o b.price) := by
  obtain ⟨_, h⟩ := h
  cases f with
  | none => simp only at h; rw [h] at hx; exact .inl hx
  | some f =>
    simp only at h
    rcases h.book with ⟨_, _, e⟩ | ⟨l, R, _, _, e, hR⟩
    · rw [e, mem_insKey hsort hfr] at hx
      rcases hx with rfl | hx
      · exact .inr ⟨rfl, h.noCross⟩
      · exact .inl hx
    · have hsub : R.Sublist (ob.own o.side).items := by
        cases hs : o.side <;> rw [hs] at hR <;> simp only at hR <;> rw [hR] <;> simp
      rw [e, mem_insKey (hsort.sublist hsub) (fun hc => hfr ((hsub.map _).subset hc))] at hx
      rcases hx with rfl | hx
      · exact .inr ⟨rfl, h.noCross⟩
      · exact .inl (hsub.subset hx)

/-- A run keeps the book uncrossed. -/
theorem run_noCross {o : OrderParams} {ob ob' : Ob lst} {f : Option Posting} {ts : List Touch}
    (hb : BookOk ob.mkt ob.bids.items ob.asks.items) (hb' : BookOk ob'.mkt ob'.bids.items ob'.asks.items)
    (hfr : o.orderId ∉ (ob.own o.side).items.map (·.key)) (h : OwnReport o ob ob' f)
    (ht : takeFront (opposite o.side ob.bids.items ob.asks.items) ts =
      some (opposite o.side ob'.bids.items ob'.asks.items))
    (hn : ∀ b ∈ ob.bids.items, ∀ k ∈ ob.asks.items, b.price < k.price)
    (hkb : ∀ x ∈ ob'.bids.items, x.key < W128) (hka : ∀ x ∈ ob'.asks.items, x.key < W128) :
    ∀ b ∈ ob'.bids.items, ∀ k ∈ ob'.asks.items, b.price < k.price := by
  intro b hbm k hkm
  cases hs : o.side with
  | bid =>
    have hom := own_mem (x := b) (by rw [hs]; exact hb.bidSort) hfr h (by rw [hs]; exact hbm)
    rw [hs] at ht hom
    simp only [opposite, Ob.own] at ht hom
    rcases hom with hom | ⟨hk, hp⟩
    · obtain ⟨y, hy, e⟩ := takeFront_price ht hkm
      rw [← e]; exact hn b hom y hy
    · cases hh : ob'.asks.items.head? with
      | none => rw [List.head?_eq_none_iff] at hh; rw [hh] at hkm; cases hkm
      | some c =>
        have h1 := hp c hh
        unfold priceOk at h1
        rw [hs] at h1
        simp only at h1
        have h2 := sorted_head_price hb'.askSort hka hh hkm
        have h3 : b.price = extractPrice o.orderId := by unfold Leaf.price; rw [hk]
        omega
  | ask =>
    have hom := own_mem (x := k) (by rw [hs]; exact hb.askSort) hfr h (by rw [hs]; exact hkm)
    rw [hs] at ht hom
    simp only [opposite, Ob.own] at ht hom
    rcases hom with hom | ⟨hk, hp⟩
    · obtain ⟨y, hy, e⟩ := takeFront_price ht (List.mem_reverse.2 hbm)
      rw [← e]; exact hn y (List.mem_reverse.1 hy) k hom
    · cases hh : ob'.bids.items.reverse.head? with
      | none =>
        rw [List.head?_eq_none_iff, List.reverse_eq_nil_iff] at hh
        rw [hh] at hbm; cases hbm
      | some c =>
        have h1 := hp c hh
        unfold priceOk at h1
        rw [hs] at h1
        simp only at h1
        have h2 := sorted_last_price hb'.bidSort hkb hh hbm
        have h3 : k.price = extractPrice o.orderId := by unfold Leaf.price; rw [hk]
        omega

theorem sumBy_mul (f : Touch → Nat) (c : Nat) (ts : List Touch) :
    sumBy (fun t => f t * c) ts = sumBy f ts * c := by
  induction ts with
  | nil => simp
  | cons t ts ih => simp [ih, Nat.add_mul]

theorem sumBy_le_mem {α : Type} (f : α → Nat) {L : List α} {x : α} (h : x ∈ L) : f x ≤ sumBy f L := by
  induction L with
  | nil => cases h
  | cons y ys ih =>
    rcases List.mem_cons.1 h with rfl | h
    · simp
    · have := ih h; simp; omega

theorem posted_zero {o : OrderParams} {ob ob' : Ob lst} {f : Option Posting} (h : OwnReport o ob ob' f)
    (h0 : o.owner = 0) : postedLots f = 0 := by
  obtain ⟨_, h⟩ := h
  cases f with
  | none => rfl
  | some f => exact absurd h0 h.owner

theorem runBid_of {o : OrderParams} {ob ob' : Ob lst} {ts : List Touch} {f : Option Posting}
    {evs : List EventView} (hside : o.side = .bid)
    (hsort : (ob.own o.side).items.Pairwise (fun a b => a.key < b.key))
    (hfr : o.orderId ∉ (ob.own o.side).items.map (·.key)) (hown : OwnReport o ob ob' f)
    (ht : takeFront (opposite o.side ob.bids.items ob.asks.items) ts =
        some (opposite o.side ob'.bids.items ob'.asks.items))
    (hr : EvReport o ob.mkt ts f evs) (hpr : ob.pr = Proceeds.zero)
    (hm : PrReport o ob.mkt o.maxCoinQty o.pcLocked ob.pr ob'.pr ts f none) :
    ∃ given post tail, RunBid o ob.mkt ob.bids.items ob.asks.items ob'.bids.items ob'.asks.items evs ob'.pr
      (runSums ob.mkt o.feeTier ts) given post tail := by
  have sr := fun P => sum_report hsort hfr hown ht hr P
  unfold PrReport at hm
  rw [hside] at hm
  simp only at hm
  obtain ⟨tail, given, m1, _, _, _, m5⟩ := hm
  refine ⟨given, postedLots f * extractPrice o.orderId * ob.mkt.pcLot, tail, ?_, ?_, ?_, ?_, ?_, ?_, ?_, ?_⟩
  · intro P
    have := (sr P).oppLock
    rw [hside] at this
    exact this
  · intro P
    have := (sr P).ownLock
    rw [hside] at this
    exact this
  · have := (sr every).oppFree
    rw [hside] at this
    simp only [opposite, Side.other] at this
    rw [this]
    congr 1
    show _ = sumBy Touch.traded ts * ob.mkt.coinLot
    rw [← sumBy_mul]
    apply sumBy_congr'
    intro t _
    unfold touchLock Touch.traded every lockedValue
    cases t.filled <;> simp
  · have := (sr every).ownFree
    rw [hside] at this
    simp only [Ob.own] at this
    rw [← this]
    simp only [every, if_true, lockedValue]
    congr 1
  · have := (sr every).rebate
    rw [this]
    simp only [every, and_true]
    rfl
  · rw [m1, sumBy_add']; rfl
  · rw [m5, hpr, sumBy_add']
    simp [Proceeds.zero, runSums]
  · intro h0; rw [posted_zero hown h0]; simp

theorem runAsk_of {o : OrderParams} {ob ob' : Ob lst} {ts : List Touch} {f : Option Posting}
    {evs : List EventView} (hside : o.side = .ask)
    (hsort : (ob.own o.side).items.Pairwise (fun a b => a.key < b.key))
    (hfr : o.orderId ∉ (ob.own o.side).items.map (·.key)) (hown : OwnReport o ob ob' f)
    (ht : takeFront (opposite o.side ob.bids.items ob.asks.items) ts =
        some (opposite o.side ob'.bids.items ob'.asks.items))
    (hr : EvReport o ob.mkt ts f evs) (hpr : ob.pr = Proceeds.zero)
    (hfee : ∀ t ∈ ts, t.fee ob.mkt o.feeTier ≤ t.tradedPc ob.mkt)
    (hm : PrReport o ob.mkt o.maxCoinQty o.pcLocked ob.pr ob'.pr ts f none) :
    ∃ given post tail, RunAsk o ob.mkt ob.bids.items ob.asks.items ob'.bids.items ob'.asks.items evs ob'.pr
      (runSums ob.mkt o.feeTier ts) given post tail := by
  have sr := fun P => sum_report hsort hfr hown ht hr P
  unfold PrReport at hm
  rw [hside] at hm
  simp only at hm
  obtain ⟨tail, m1, _, m5⟩ := hm
  have hsub := sumBy_sub hfee
  have hrev : ∀ sd (L : List Leaf) P, bookLock sd ob.mkt P L.reverse = bookLock sd ob.mkt P L :=
    fun sd L P => bookLock_perm (List.reverse_perm L)
  refine ⟨sumBy (Touch.given o.stb) ts, postedLots f, tail, ?_, ?_, ?_, ?_, ?_, ?_, hsub.2, ?_, ?_⟩
  · intro P
    have := (sr P).oppLock
    rw [hside] at this
    simp only [opposite, Side.other, hrev] at this
    exact this
  · intro P
    have := (sr P).ownLock
    rw [hside] at this
    exact this
  · have := (sr every).oppFree
    rw [hside] at this
    simp only [opposite, Side.other, hrev] at this
    rw [this]
    congr 1
  · intro hlt
    have := (sr every).ownFree
    rw [hside] at this
    simp only [Ob.own] at this
    rw [← this]
    simp only [every, if_true, lockedValue]
    congr 1
    show sumBy Touch.traded ts * ob.mkt.coinLot = _
    rw [← sumBy_mul]
    apply sumBy_congr'
    intro t htm
    unfold Touch.traded Touch.received
    cases hfl : t.filled with
    | false => simp
    | true =>
      simp only [if_true]
      refine (wmul_eq ?_).symm
      have h1 := sumBy_le_mem Touch.traded htm
      unfold Touch.traded at h1
      simp only [hfl, if_true] at h1
      exact Nat.lt_of_le_of_lt (Nat.mul_le_mul_right _ h1) hlt
  · have := (sr every).rebate
    rw [this]
    simp only [every, and_true]
    rfl
  · rw [m1]; rfl
  · rw [m5, hpr, hsub.1]
    simp [Proceeds.zero, runSums]
  · intro h0; rw [posted_zero hown h0]

/-- A run of the engine from a state with sound slots. -/
theorem newOrder_ran {o : OrderParams} {limit lim' : Nat} {ob ob' : Ob lst} {r : Option Remaining}
    {σ : SlotMap} {evs : List EventView} (ho : OrderOk o) (hi : RoundIn o ob o.maxCoinQty o.pcLocked)
    (hpr : ob.pr = Proceeds.zero) (hq : ob.q.items = evs.map Event.new) (hrec : Recorded σ o)
    (hz : o.owner = 0 → ∀ l ∈ opposite o.side ob.bids.items ob.asks.items, l.owner ≠ 0)
    (hs : SlotOk σ (flightOf o) (tagged ob.bids.items ob.asks.items) evs)
    (h : newOrder lst ob o limit = .ok (ob', r, lim')) :
    r = none ∧ ∃ ts f evs' given post tail, Path o limit ob o.maxCoinQty o.pcLocked ob' ts f ∧
      Ran o σ ob.mkt ob.bids.items ob.asks.items evs ob' evs' (runSums ob.mkt o.feeTier ts) given post tail := by
  obtain ⟨⟨ts, f, hp⟩, hr, _⟩ := path_of_loop ho hi h
  refine ⟨hr, ?_⟩
  obtain ⟨p1, p2, p3⟩ := path_pres ho hi hp
  obtain ⟨t1, t2, t3⟩ := path_touches ho hi hp
  have hown := path_own ho hi hp
  obtain ⟨evs', q1, q2, q3, q4⟩ := path_events ho hi hz hp
  have hmoney := path_money ho hi hz hp
  have hfees := path_fees ho hi hp
  obtain ⟨evs2, s1, s2⟩ := path_slots ho hi hp hq hrec hz hs
  have : evs2 = evs' := by
    rw [s1, hq, List.map_append, List.append_cancel_left_eq] at q1
    exact map_new_inj q1
  subst this
  have hsort : (ob.own o.side).items.Pairwise (fun a b => a.key < b.key) := by
    cases hsd : o.side with
    | bid => exact hi.book.bidSort
    | ask => exact hi.book.askSort
  have hx : ∃ given post tail, match o.side with
      | .bid => RunBid o ob.mkt ob.bids.items ob.asks.items ob'.bids.items ob'.asks.items evs2 ob'.pr
          (runSums ob.mkt o.feeTier ts) given post tail
      | .ask => RunAsk o ob.mkt ob.bids.items ob.asks.items ob'.bids.items ob'.asks.items evs2 ob'.pr
          (runSums ob.mkt o.feeTier ts) given post tail := by
    cases hsd : o.side with
    | bid => exact runBid_of hsd hsort hi.fresh hown t1 q3 hpr hmoney
    | ask =>
      refine runAsk_of hsd hsort hi.fresh hown t1 q3 hpr ?_ hmoney
      intro t htm
      unfold Touch.fee Touch.tradedPc
      split
      · refine takerFee_le _ ?_
        obtain ⟨y, hy, e, hle⟩ := takeFront_maker t1 htm
        have hl := (takeFront_lots t1 htm).2
        rw [hsd] at hy
        have hv := hi.book.bidVal y (List.mem_reverse.1 hy)
        have hpr : t.maker.price = y.price := by unfold Leaf.price; rw [e]
        unfold Touch.pc
        rw [hpr]
        exact Nat.lt_of_le_of_lt (Nat.mul_le_mul_right _ (Nat.mul_le_mul_right _ (Nat.le_trans hl hle))) hv
      · exact Nat.le_refl _
  obtain ⟨given, post, tail, hx⟩ := hx
  exact ⟨ts, f, evs2, given, post, tail, hp, s1, s2, p2, p3,
    run_noCross hi.book p3 hi.fresh hown t1, marketRun hfees, hx⟩

end Serum
