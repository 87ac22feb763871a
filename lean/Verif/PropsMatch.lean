import Verif.MatchReport
import Verif.PropsBook

/-!
Properties C18, C19, C21–C25: what one run of the matching engine does, for every book, order and match
limit.

`MatchPre` lists what the engine may rely on. `Verif.PropsHist` shows that it holds in every reachable
state of a market.
-/

namespace Serum.Props

/-- The order's own side, in the order of ids: increasing price. -/
def ownBook (o : OrderParams) (ob : Ob conc) : Slab :=
  match o.side with
  | .bid => ob.bids
  | .ask => ob.asks

/-- The state and the order the engine is called with. -/
structure MatchPre (ob : Ob conc) (o : OrderParams) : Prop where
  bidTree : ob.bids.Inv
  askTree : ob.asks.Inv
  queue : ob.q.WF
  mkt : MktOk ob.mkt
  book : BookOk ob.mkt ob.bids.contents ob.asks.contents
  id : o.orderId < 2 ^ 128
  order : OrderOk o
  coinPos : 0 < o.maxCoinQty
  coinLt : o.maxCoinQty < W64
  pcLt : o.pcLocked < W64
  val : o.side = .ask → o.owner ≠ 0 → o.maxCoinQty * ob.mkt.coinLot < W64
  fresh : o.orderId ∉ (ownBook o ob).contents.map (·.key)
  noDummy : o.owner = 0 → ∀ l ∈ ob.bids.contents ++ ob.asks.contents, l.owner ≠ 0

/-- The orders of the opposite side, best price first, oldest first. -/
def oppSide (o : OrderParams) (ob : Ob conc) : List Leaf :=
  opposite o.side ob.bids.contents ob.asks.contents

/-- How the orders met, the remainder posted and the new events show in the book and the queue. -/
structure Ran (o : OrderParams) (ob ob' : Ob conc) (ts : List Touch) (f : Option Posting)
    (evs : List EventView) : Prop where
  opp : takeFront (oppSide o ob) ts = some (oppSide o ob')
  own : match f with
    | none => (ownBook o ob').contents = (ownBook o ob).contents
    | some f => PostOk o (ownBook o ob).cap (ownBook o ob).contents (ownBook o ob').contents
        (oppSide o ob') f
  queue : ob'.q.toList = ob.q.toList ++ evs.map Event.new
  events : EvReport o ob.mkt ts f evs

/-- Everything the engine did. -/
structure FullReport (o : OrderParams) (limit : Nat) (ob ob' : Ob conc) (r : Option Remaining)
    (ts : List Touch) (f : Option Posting) (evs : List EventView) : Prop where
  ran : Ran o ob ob' ts f evs
  resolved : r = none
  touches : ∀ t ∈ ts, TouchOk o t
  count : ts.length ≤ limit
  money : PrReport o ob.mkt o.maxCoinQty o.pcLocked ob.pr ob'.pr ts f none
  fees : FeeReport o ob.mkt ob'.mkt ts
  outs : OutReport o none f evs
  bidTree : ob'.bids.Inv
  askTree : ob'.asks.Inv
  queue : ob'.q.WF
  mkt : MktOk ob'.mkt
  book : BookOk ob'.mkt ob'.bids.contents ob'.asks.contents

/-- The list-level view of an engine state. -/
def absOb (ob : Ob conc) : Ob lst :=
  { bids := ob.bids.abs, asks := ob.asks.abs, q := ob.q.abs, mkt := ob.mkt, pr := ob.pr }

theorem MatchPre.path {ob ob' : Ob conc} {o : OrderParams} {limit lim' : Nat} {r : Option Remaining}
    (pre : MatchPre ob o) (h : newOrder conc ob o limit = .ok (ob', r, lim')) :
    RoundIn o (absOb ob) o.maxCoinQty o.pcLocked ∧
    (o.owner = 0 → ∀ l ∈ opposite o.side (absOb ob).bids.items (absOb ob).asks.items, l.owner ≠ 0) ∧
    ob'.bids.Inv ∧ ob'.asks.Inv ∧ ob'.q.WF ∧ r = none ∧
    ∃ ts f, Path o limit (absOb ob) o.maxCoinQty o.pcLocked (absOb ob') ts f := by
  have hro : concLst.RO ob (absOb ob) :=
    ⟨⟨pre.bidTree, rfl⟩, ⟨pre.askTree, rfl⟩, ⟨pre.queue, rfl⟩, rfl, rfl⟩
  have hin : RoundIn o (absOb ob) o.maxCoinQty o.pcLocked := by
    refine ⟨pre.mkt, pre.book, pre.coinPos, pre.coinLt, pre.pcLt, pre.val, ?_⟩
    have := pre.fresh
    unfold ownBook at this
    unfold Ob.own
    cases hs : o.side <;> rw [hs] at this <;> exact this
  obtain ⟨⟨ob2, r2, l2⟩, e2, hrr⟩ := (Refines.sim_newOrder hro o pre.id limit).ok_right h
  obtain ⟨hro', heq⟩ := hrr
  simp only [Prod.mk.injEq] at heq
  obtain ⟨rfl, rfl⟩ := heq
  obtain ⟨⟨ts, f, hp⟩, hr, _⟩ := path_of_loop pre.order hin e2
  obtain ⟨⟨i1, b1⟩, ⟨i2, b2⟩, ⟨i3, b3⟩, m, p⟩ := hro'
  have e : ob2 = absOb ob' := by
    obtain ⟨x1, x2, x3, x4, x5⟩ := ob2
    simp only at b1 b2 b3 m p
    subst b1 b2 b3 m p
    rfl
  rw [e] at hp
  refine ⟨hin, ?_, i1, i2, i3, hr, ts, f, hp⟩
  intro h0 l hl
  apply pre.noDummy h0 l
  unfold opposite at hl
  cases hs : o.side <;> rw [hs] at hl
  · exact List.mem_append_right _ hl
  · exact List.mem_append_left _ (List.mem_reverse.1 hl)

theorem full_report {ob ob' : Ob conc} {o : OrderParams} {limit lim' : Nat} {r : Option Remaining}
    (pre : MatchPre ob o) (h : newOrder conc ob o limit = .ok (ob', r, lim')) :
    ∃ ts f evs, FullReport o limit ob ob' r ts f evs := by
  obtain ⟨hin, hz, i1, i2, i3, hr, ts, f, hp⟩ := pre.path h
  obtain ⟨t1, t2, t3⟩ := path_touches pre.order hin hp
  obtain ⟨evs, q1, _, q3, q4⟩ := path_events pre.order hin hz hp
  have ho := path_own pre.order hin hp
  obtain ⟨p1, p2, p3⟩ := path_pres pre.order hin hp
  refine ⟨ts, f, evs, ⟨t1, ?_, q1, q3⟩, hr, t2, t3, path_money pre.order hin hz hp,
    path_fees pre.order hin hp, q4, i1, i2, i3, p2, p3⟩
  obtain ⟨_, ho⟩ := ho
  unfold Ob.own at ho
  unfold ownBook
  cases f with
  | none => cases hs : o.side <;> simp only [hs] at ho ⊢ <;> exact ho
  | some f =>
    cases hs : o.side <;> simp only [hs] at ho ⊢ <;> · simp only [oppSide, hs]; exact ho

/-! ### C18: limit prices -/

/-- Base and quote lots of a trade at an acceptable price, before fees. -/
structure FairTrade (o : OrderParams) (m : Market) (base quote : Nat) : Prop where
  ex : ∃ lots price, 0 < lots ∧ base = wmul lots m.coinLot ∧ quote = lots * price * m.pcLot ∧
    (match o.side with
      | .bid => price ≤ extractPrice o.orderId
      | .ask => extractPrice o.orderId ≤ price)

theorem mem_makers {o : OrderParams} {m : Market} {ts : List Touch} {f : Option Posting}
    {evs : List EventView} (h : EvReport o m ts f evs) {v : EventView} (hv : v ∈ evs)
    (hm : v.isMakerFill = true) : ∃ t ∈ ts, t.filled = true ∧ v = t.makerFill o.side m := by
  have : v ∈ evs.filter EventView.isMakerFill := List.mem_filter.2 ⟨hv, hm⟩
  rw [h.makers] at this
  obtain ⟨t, ht, rfl⟩ := List.mem_map.1 this
  exact ⟨t, (List.mem_filter.1 ht).1, (List.mem_filter.1 ht).2, rfl⟩

theorem mem_takers {o : OrderParams} {m : Market} {ts : List Touch} {f : Option Posting}
    {evs : List EventView} (h : EvReport o m ts f evs) {v : EventView} (hv : v ∈ evs)
    (hm : v.isTakerFill = true) :
    o.owner ≠ 0 ∧ ∃ t ∈ ts, t.filled = true ∧ v = t.takerFill o m := by
  have : v ∈ evs.filter EventView.isTakerFill := List.mem_filter.2 ⟨hv, hm⟩
  rw [h.takers] at this
  split at this
  · cases this
  · rename_i h0
    obtain ⟨t, ht, rfl⟩ := List.mem_map.1 this
    exact ⟨h0, t, (List.mem_filter.1 ht).1, (List.mem_filter.1 ht).2, rfl⟩

theorem sumBy_le {α : Type} {f g : α → Nat} {L : List α} (h : ∀ a ∈ L, f a ≤ g a) :
    sumBy f L ≤ sumBy g L := by
  induction L with
  | nil => exact Nat.le_refl _
  | cons a L ih =>
    rw [sumBy_cons, sumBy_cons]
    exact Nat.add_le_add (h a (by simp)) (ih fun x hx => h x (by simp [hx]))

theorem sumBy_mul {α : Type} (f : α → Nat) (c : Nat) (L : List α) :
    sumBy (fun a => f a * c) L = sumBy f L * c := by
  induction L with
  | nil => simp
  | cons a L ih => rw [sumBy_cons, sumBy_cons, ih, Nat.add_mul]

theorem sumBy_add {α : Type} (f g : α → Nat) (L : List α) :
    sumBy (fun a => f a + g a) L = sumBy f L + sumBy g L := by
  induction L with
  | nil => simp
  | cons a L ih => rw [sumBy_cons, sumBy_cons, sumBy_cons, ih]; omega

theorem sumBy_congr {α : Type} {f g : α → Nat} {L : List α} (h : ∀ a ∈ L, f a = g a) :
    sumBy f L = sumBy g L := by
  induction L with
  | nil => rfl
  | cons a L ih => rw [sumBy_cons, sumBy_cons, h a (by simp), ih fun x hx => h x (by simp [hx])]

theorem FullReport.fee_le {ob ob' : Ob conc} {o : OrderParams} {limit : Nat} {r : Option Remaining}
    {ts : List Touch} {f : Option Posting} {evs : List EventView} (pre : MatchPre ob o)
    (h : FullReport o limit ob ob' r ts f evs) {t : Touch} (ht : t ∈ ts) (hs : o.side = .ask) :
    t.pc ob.mkt < W64 := by
  obtain ⟨y, hy, e, hle⟩ := takeFront_maker h.ran.opp ht
  have hl := takeFront_lots h.ran.opp ht
  have hy' : y ∈ ob.bids.contents := by
    unfold oppSide opposite at hy
    rw [hs] at hy
    simpa using hy
  have hv := pre.book.bidVal y hy'
  have hp : t.maker.price = y.price := by rw [e]; rfl
  unfold Touch.pc
  rw [hp]
  exact Nat.lt_of_le_of_lt (Nat.mul_le_mul (Nat.mul_le_mul (by omega) (Nat.le_refl _)) (Nat.le_refl _)) hv

/-- C18. Every fill an order causes is at a price no worse than its limit, for both parties' events; and
in total a bid pays at most its limit price per lot plus fees, an ask receives at least its limit price per
lot less fees. `fees` is what the market's fee counters gain. -/
theorem limit_price_protection {ob ob' : Ob conc} {o : OrderParams} {limit lim' : Nat}
    {r : Option Remaining} (pre : MatchPre ob o)
    (h : newOrder conc ob o limit = .ok (ob', r, lim')) :
    ∃ (evs : List EventView) (fees refs : Nat), ob'.q.toList = ob.q.toList ++ evs.map Event.new ∧
      (∀ side maker paid received fee id owner slot tier cid,
        EventView.fill side maker paid received fee id owner slot tier cid ∈ evs →
        (maker = (side != o.side)) ∧
        (side = .ask → o.side = .bid → FairTrade o ob.mkt paid received) ∧
        (side = .bid → o.side = .ask → FairTrade o ob.mkt received paid) ∧
        (side = .bid → o.side = .bid → fee ≤ paid ∧ FairTrade o ob.mkt received (paid - fee)) ∧
        (side = .ask → o.side = .ask → FairTrade o ob.mkt paid (received + fee))) ∧
      (o.side = .bid → ob'.pr.pcDebit - ob.pr.pcDebit ≤
        (ob'.pr.coinCredit - ob.pr.coinCredit) * extractPrice o.orderId * ob.mkt.pcLot + fees) ∧
      (o.side = .ask → (ob'.pr.coinDebit - ob.pr.coinDebit) * extractPrice o.orderId * ob.mkt.pcLot ≤
        ob'.pr.pcCredit - ob.pr.pcCredit + fees) ∧
      refs ≤ fees ∧ ob'.mkt.referrerRebates = (ob.mkt.referrerRebates + refs) % W64 ∧
      ob'.mkt.pcFees = (ob.mkt.pcFees + (fees - refs)) % W64 := by
  obtain ⟨ts, f, evs, R⟩ := full_report pre h
  have hev := R.ran.events
  refine ⟨evs, sumBy (Touch.fee ob.mkt o.feeTier) ts, sumBy (Touch.ref ob.mkt o.feeTier) ts, R.ran.queue,
    ?_, ?_, ?_, ?_, R.fees.refs, ?_⟩
  · intro side maker paid received fee id owner slot tier cid hv
    cases maker with
    | true =>
      obtain ⟨t, ht, hf, e⟩ := mem_makers hev hv rfl
      have hl := (takeFront_lots R.ran.opp ht).1
      have hp := (R.touches t ht).price
      unfold priceOk at hp
      unfold Touch.makerFill at e
      cases hs : o.side with
      | ask =>
        rw [hs] at e hp
        cases e
        refine ⟨rfl, by simp, fun _ _ => ⟨t.lots, t.maker.price, hl, rfl, rfl, ?_⟩, by simp, by simp⟩
        rw [hs]; exact hp
      | bid =>
        rw [hs] at e hp
        cases e
        refine ⟨rfl, fun _ _ => ⟨t.lots, t.maker.price, hl, ?_, rfl, ?_⟩, by simp, by simp, by simp⟩
        · obtain ⟨y, hy, e, hle⟩ := takeFront_maker R.ran.opp ht
          have hy' : y ∈ ob.asks.contents := by
            unfold oppSide opposite at hy; rw [hs] at hy; exact hy
          have hv := pre.book.askVal y hy'
          have hl2 := (takeFront_lots R.ran.opp ht).2
          exact (wmul_eq (Nat.lt_of_le_of_lt (Nat.mul_le_mul (by omega) (Nat.le_refl _)) hv)).symm
        · rw [hs]; exact hp
    | false =>
      obtain ⟨h0, t, ht, hf, e⟩ := mem_takers hev hv rfl
      have hl := (takeFront_lots R.ran.opp ht).1
      have hp := (R.touches t ht).price
      unfold priceOk at hp
      unfold Touch.takerFill at e
      cases hs : o.side with
      | ask =>
        rw [hs] at hp
        simp only [hs] at e
        cases e
        have hfl := takerFee_le o.feeTier (R.fee_le pre ht hs)
        refine ⟨rfl, by simp, by simp, by simp, fun _ _ => ⟨t.lots, t.maker.price, hl, rfl, ?_, ?_⟩⟩
        · have e : t.lots * t.maker.price * ob.mkt.pcLot = t.pc ob.mkt := rfl
          rw [e]; omega
        · rw [hs]; exact hp
      | bid =>
        rw [hs] at hp
        simp only [hs] at e
        cases e
        refine ⟨rfl, by simp, by simp, fun _ _ => ⟨by omega, t.lots, t.maker.price, hl, ?_, ?_, ?_⟩, by simp⟩
        · obtain ⟨y, hy, e, hle⟩ := takeFront_maker R.ran.opp ht
          have hy' : y ∈ ob.asks.contents := by
            unfold oppSide opposite at hy; rw [hs] at hy; exact hy
          have hv := pre.book.askVal y hy'
          have hl2 := (takeFront_lots R.ran.opp ht).2
          exact (wmul_eq (Nat.lt_of_le_of_lt (Nat.mul_le_mul (by omega) (Nat.le_refl _)) hv)).symm
        · rw [Nat.add_sub_cancel]; rfl
        · rw [hs]; exact hp
  · intro hs
    have hm := R.money
    unfold PrReport at hm
    rw [hs] at hm
    obtain ⟨tail, given, _, _, _, _, e⟩ := hm
    rw [e]
    simp only [Nat.add_sub_cancel_left]
    rw [sumBy_add]
    apply Nat.add_le_add_right
    rw [← sumBy_mul, ← sumBy_mul]
    apply sumBy_le
    intro t ht
    have hp := (R.touches t ht).price
    unfold priceOk at hp
    rw [hs] at hp
    unfold Touch.tradedPc Touch.traded Touch.pc
    split
    · exact Nat.mul_le_mul (Nat.mul_le_mul (Nat.le_refl _) hp) (Nat.le_refl _)
    · exact Nat.zero_le _
  · intro hs
    have hm := R.money
    unfold PrReport at hm
    rw [hs] at hm
    obtain ⟨tail, _, _, e⟩ := hm
    rw [e]
    simp only [Nat.add_sub_cancel_left]
    rw [← sumBy_add, ← sumBy_mul, ← sumBy_mul]
    apply sumBy_le
    intro t ht
    have hp := (R.touches t ht).price
    unfold priceOk at hp
    rw [hs] at hp
    have hfl := takerFee_le o.feeTier (R.fee_le pre ht hs)
    unfold Touch.tradedPc Touch.traded Touch.fee
    split
    · have : t.lots * extractPrice o.orderId * ob.mkt.pcLot ≤ t.pc ob.mkt :=
        Nat.mul_le_mul (Nat.mul_le_mul (Nat.le_refl _) hp) (Nat.le_refl _)
      omega
    · simp
  · apply sumBy_le
    intro t _
    exact referrerRebate_le _
  · rw [R.fees.fees]
    have : sumBy (Touch.fee ob.mkt o.feeTier) ts =
        sumBy (fun t => t.fee ob.mkt o.feeTier - t.ref ob.mkt o.feeTier) ts +
          sumBy (Touch.ref ob.mkt o.feeTier) ts := by
      rw [← sumBy_add]
      apply sumBy_congr
      intro t _
      have := referrerRebate_le (t.fee ob.mkt o.feeTier)
      unfold Touch.ref
      omega
    rw [this, Nat.add_sub_cancel]

/-! ### C19: price-time priority -/

/-- Price of an order, from its id. -/
def idPrice (key : Nat) : Nat := key / 2 ^ 64
/-- Time stamp of an order, from its id: bids store the complement. -/
def idTime (side : Side) (key : Nat) : Nat :=
  match side with
  | .bid => 2 ^ 64 - 1 - key % 2 ^ 64
  | .ask => key % 2 ^ 64

/-- `a` comes before `b` on a side: better price, or same price and earlier. -/
def Before (side : Side) (a b : Leaf) : Prop :=
  match side with
  | .bid => idPrice b.key < idPrice a.key ∨
      (idPrice b.key = idPrice a.key ∧ idTime .bid a.key < idTime .bid b.key)
  | .ask => idPrice a.key < idPrice b.key ∨
      (idPrice b.key = idPrice a.key ∧ idTime .ask a.key < idTime .ask b.key)

/-- Lots taken from the order with id `key`. -/
def taken (ts : List Touch) (key : Nat) : Nat :=
  sumBy (fun t => if t.maker.key = key then t.lots else 0) ts

/-- The orders `before` were worked through in their order: some are used up, then at most one is
partially used, the rest is untouched, and `after` is what remains. -/
def InTurn (ts : List Touch) (before after : List Leaf) : Prop :=
  ∃ done rest, before = done ++ rest ∧ (∀ l ∈ done, 0 < l.quantity ∧ taken ts l.key = l.quantity) ∧
    ((after = rest ∧ ∀ l ∈ rest, taken ts l.key = 0) ∨
     ∃ l R, rest = l :: R ∧ 0 < taken ts l.key ∧ taken ts l.key < l.quantity ∧
       after = { l with quantity := l.quantity - taken ts l.key } :: R ∧
       ∀ x ∈ R, taken ts x.key = 0)

theorem taken_cons (t : Touch) (ts : List Touch) (k : Nat) :
    taken (t :: ts) k = (if t.maker.key = k then t.lots else 0) + taken ts k := by
  simp [taken]

theorem taken_none {L L' : List Leaf} {ts : List Touch} (h : takeFront L ts = some L') {k : Nat}
    (hk : ∀ l ∈ L, l.key ≠ k) : taken ts k = 0 := by
  induction ts generalizing L with
  | nil => rfl
  | cons t ts ih =>
    cases L with
    | nil => cases h
    | cons l L =>
      simp only [takeFront] at h
      split at h
      · rename_i hc
        rw [taken_cons, hc.1, if_neg (hk l (by simp))]
        rw [ih h]
        intro x hx
        split at hx
        · exact hk x (by simp [hx])
        · rw [List.mem_cons] at hx
          rcases hx with rfl | hx
          · exact hk l (by simp)
          · exact hk x (by simp [hx])
      · cases h

theorem takeFront_inTurn {L L' : List Leaf} {ts : List Touch} (h : takeFront L ts = some L')
    (hn : L.Pairwise (fun a b => a.key ≠ b.key)) : InTurn ts L L' := by
  induction ts generalizing L with
  | nil =>
    simp only [takeFront, Option.some.injEq] at h
    subst h
    exact ⟨[], L, rfl, by simp, .inl ⟨rfl, fun _ _ => rfl⟩⟩
  | cons t ts ih =>
    cases L with
    | nil => cases h
    | cons l L =>
      simp only [takeFront] at h
      rw [List.pairwise_cons] at hn
      split at h
      · rename_i hc
        obtain ⟨hm, hpos, hle⟩ := hc
        by_cases he : t.lots = l.quantity
        · rw [if_pos he] at h
          have h0 := taken_none h (k := l.key) fun x hx => (hn.1 x hx).symm
          obtain ⟨done, rest, e, hd, hr⟩ := ih h hn.2
          have hoth : ∀ x ∈ L, taken (t :: ts) x.key = taken ts x.key := by
            intro x hx
            rw [taken_cons, hm, if_neg (hn.1 x hx), Nat.zero_add]
          refine ⟨l :: done, rest, by rw [e]; rfl, ?_, ?_⟩
          · intro x hx
            rw [List.mem_cons] at hx
            rcases hx with rfl | hx
            · rw [taken_cons, hm, if_pos rfl, h0]; omega
            · rw [hoth x (by rw [e]; simp [hx])]; exact hd x hx
          · rcases hr with ⟨e2, hr⟩ | ⟨y, R, e2, h1, h2, h3, h4⟩
            · exact .inl ⟨e2, fun x hx => by rw [hoth x (by rw [e]; simp [hx])]; exact hr x hx⟩
            · right
              have hy : taken (t :: ts) y.key = taken ts y.key := hoth y (by rw [e, e2]; simp)
              refine ⟨y, R, e2, by rw [hy]; exact h1, by rw [hy]; exact h2, by rw [hy]; exact h3, ?_⟩
              intro x hx
              rw [hoth x (by rw [e, e2]; simp [hx])]
              exact h4 x hx
        · rw [if_neg he] at h
          have hn' : ({ l with quantity := l.quantity - t.lots } :: L).Pairwise
              (fun a b => a.key ≠ b.key) := List.pairwise_cons.2 ⟨hn.1, hn.2⟩
          obtain ⟨done, rest, e, hd, hr⟩ := ih h hn'
          have hoth : ∀ x ∈ L, taken (t :: ts) x.key = taken ts x.key := by
            intro x hx
            rw [taken_cons, hm, if_neg (hn.1 x hx), Nat.zero_add]
          have hself : taken (t :: ts) l.key = t.lots + taken ts l.key := by
            rw [taken_cons, hm, if_pos rfl]
          cases done with
          | nil =>
            rw [List.nil_append] at e
            rcases hr with ⟨e2, hr⟩ | ⟨y, R, e2, h1, h2, h3, h4⟩
            · refine ⟨[], l :: L, rfl, by simp, .inr ⟨l, L, rfl, ?_, ?_, ?_, ?_⟩⟩
              · omega
              · have : taken ts l.key = 0 := hr { l with quantity := l.quantity - t.lots } (by rw [← e]; simp)
                omega
              · have : taken ts l.key = 0 := hr { l with quantity := l.quantity - t.lots } (by rw [← e]; simp)
                rw [e2, ← e, hself, this]; simp
              · intro x hx
                rw [hoth x hx]; exact hr x (by rw [← e]; simp [hx])
            · rw [e2] at e
              simp only [List.cons.injEq] at e
              obtain ⟨e3, rfl⟩ := e
              subst e3
              simp only at h1 h2 h3
              refine ⟨[], l :: L, rfl, by simp, .inr ⟨l, L, rfl, ?_, ?_, ?_, ?_⟩⟩
              · omega
              · omega
              · rw [h3, hself]; simp; omega
              · intro x hx
                rw [hoth x hx]; exact h4 x hx
          | cons d done =>
            simp only [List.cons_append, List.cons.injEq] at e
            obtain ⟨rfl, e⟩ := e
            have hd0 := hd { l with quantity := l.quantity - t.lots } (by simp)
            simp only at hd0
            refine ⟨l :: done, rest, by rw [e]; rfl, ?_, ?_⟩
            · intro x hx
              rw [List.mem_cons] at hx
              rcases hx with rfl | hx
              · omega
              · rw [hoth x (by rw [e]; simp [hx])]; exact hd x (by simp [hx])
            · rcases hr with ⟨e2, hr⟩ | ⟨y, R, e2, h1, h2, h3, h4⟩
              · exact .inl ⟨e2, fun x hx => by rw [hoth x (by rw [e]; simp [hx])]; exact hr x hx⟩
              · right
                have hy : taken (t :: ts) y.key = taken ts y.key := hoth y (by rw [e, e2]; simp)
                refine ⟨y, R, e2, by rw [hy]; exact h1, by rw [hy]; exact h2, by rw [hy]; exact h3, ?_⟩
                intro x hx
                rw [hoth x (by rw [e, e2]; simp [hx])]
                exact h4 x hx
      · cases h

theorem before_of_lt {a b : Leaf} (h : a.key < b.key) : Before .ask a b ∧ Before .bid b a := by
  unfold Before idPrice idTime
  constructor <;> simp only <;> omega

/-- C19. The opposite side is listed best price first, then oldest first; an incoming order works through
it strictly in that sequence, skipping nobody, and leaves at most the last one partially used. The fill
events queued for makers name exactly the traded ones, in that sequence and at their own prices. -/
theorem price_time_priority {ob ob' : Ob conc} {o : OrderParams} {limit lim' : Nat}
    {r : Option Remaining} (pre : MatchPre ob o)
    (h : newOrder conc ob o limit = .ok (ob', r, lim')) :
    ∃ (ts : List Touch) (evs : List EventView),
      (oppSide o ob).Pairwise (Before o.side.other) ∧
      InTurn ts (oppSide o ob) (oppSide o ob') ∧
      takeFront (oppSide o ob) ts = some (oppSide o ob') ∧
      ob'.q.toList = ob.q.toList ++ evs.map Event.new ∧
      evs.filter EventView.isMakerFill = (ts.filter (·.filled)).map (Touch.makerFill o.side ob.mkt) := by
  obtain ⟨ts, f, evs, R⟩ := full_report pre h
  have hpw : (oppSide o ob).Pairwise (Before o.side.other) ∧
      (oppSide o ob).Pairwise (fun a b => a.key ≠ b.key) := by
    unfold oppSide opposite
    cases hs : o.side with
    | bid =>
      exact ⟨pre.book.askSort.imp fun h => (before_of_lt h).1, pre.book.askSort.imp fun h => by omega⟩
    | ask =>
      simp only [List.pairwise_reverse]
      exact ⟨pre.book.bidSort.imp fun h => (before_of_lt h).2, pre.book.bidSort.imp fun h => by omega⟩
  exact ⟨ts, evs, hpw.1, takeFront_inTurn R.ran.opp hpw.2, R.ran.opp, R.ran.queue, R.ran.events.makers⟩

/-! ### C21: order types -/

/-- The own side after an order: unchanged, or with the order's remainder added, or with the remainder
in place of the worst order. -/
inductive OwnSide (o : OrderParams) (lots : Nat) (before after : List Leaf) : Prop where
  | none (h0 : lots = 0) (h : after = before)
  | rests (h0 : 0 < lots) (h : after = insKey (o.leaf lots) before)
  | evicts (h0 : 0 < lots) (l : Leaf) (rest : List Leaf)
      (hw : match o.side with | .bid => before = l :: rest | .ask => before = rest ++ [l])
      (h : after = insKey (o.leaf lots) rest)

/-- C21. An immediate-or-cancel order leaves its side as it was; a post-only order neither trades nor
touches the other side; otherwise at most the order's own remainder is added, its lots being what the
order did not trade or give up. -/
theorem order_types {ob ob' : Ob conc} {o : OrderParams} {limit lim' : Nat}
    {r : Option Remaining} (pre : MatchPre ob o)
    (h : newOrder conc ob o limit = .ok (ob', r, lim')) :
    (o.orderType = .ioc → (ownBook o ob').contents = (ownBook o ob).contents) ∧
    (o.orderType = .postOnly → oppSide o ob' = oppSide o ob ∧
      ob'.pr.coinCredit = ob.pr.coinCredit ∧ ob'.pr.pcCredit = ob.pr.pcCredit ∧
      ob'.pr.coinDebit = ob.pr.coinDebit ∧ ob'.pr.pcDebit = ob.pr.pcDebit ∧
      ∃ evs : List EventView, ob'.q.toList = ob.q.toList ++ evs.map Event.new ∧
        ∀ v ∈ evs, v.isMakerFill = false ∧ v.isTakerFill = false) ∧
    ∃ lots, OwnSide o lots (ownBook o ob).contents (ownBook o ob').contents ∧
      lots + (ob'.pr.coinDebit - ob.pr.coinDebit) + (ob'.pr.coinCredit - ob.pr.coinCredit)
        ≤ o.maxCoinQty := by
  obtain ⟨ts, f, evs, R⟩ := full_report pre h
  have hown := R.ran.own
  refine ⟨?_, ?_, postedLots f, ?_, ?_⟩
  · intro hioc
    cases f with
    | none => exact hown
    | some f => exact absurd hioc hown.notIoc
  · intro hpo
    have hts : ts = [] := by
      cases ts with
      | nil => rfl
      | cons t ts => exact absurd hpo (R.touches t (by simp)).notPostOnly
    subst hts
    have ho := R.ran.opp
    simp only [takeFront, Option.some.injEq] at ho
    have hm := R.money
    unfold PrReport at hm
    refine ⟨ho.symm, ?_, ?_, ?_, ?_, evs, R.ran.queue, ?_⟩
    · cases hs : o.side <;> rw [hs] at hm
      · obtain ⟨_, _, _, _, _, _, e⟩ := hm; rw [e]; simp
      · obtain ⟨_, _, _, e⟩ := hm; rw [e]
    · cases hs : o.side <;> rw [hs] at hm
      · obtain ⟨_, _, _, _, _, _, e⟩ := hm; rw [e]
      · obtain ⟨_, _, _, e⟩ := hm; rw [e]; simp
    · cases hs : o.side <;> rw [hs] at hm
      · obtain ⟨_, _, _, _, _, _, e⟩ := hm; rw [e]
      · obtain ⟨_, _, _, e⟩ := hm; rw [e]; simp
    · cases hs : o.side <;> rw [hs] at hm
      · obtain ⟨_, _, _, _, _, _, e⟩ := hm; rw [e]; simp
      · obtain ⟨_, _, _, e⟩ := hm; rw [e]
    · intro v hv
      constructor
      · cases hc : v.isMakerFill with
        | false => rfl
        | true => obtain ⟨t, ht, _⟩ := mem_makers R.ran.events hv hc; cases ht
      · cases hc : v.isTakerFill with
        | false => rfl
        | true => obtain ⟨_, t, ht, _⟩ := mem_takers R.ran.events hv hc; cases ht
  · cases f with
    | none => exact .none rfl hown
    | some f =>
      rcases hown.book with ⟨_, _, e⟩ | ⟨l, rest, _, _, e, hw⟩
      · exact .rests hown.pos e
      · exact .evicts hown.pos l rest hw e
  · have hm := R.money
    unfold PrReport at hm
    cases hs : o.side <;> rw [hs] at hm
    · obtain ⟨_, _, _, _, d, _, e⟩ := hm
      rw [e]; simp only [Nat.add_sub_cancel_left, Nat.sub_self]
      simp only at d
      omega
    · obtain ⟨_, d, _, e⟩ := hm
      rw [e]; simp only [Nat.add_sub_cancel_left, Nat.sub_self]
      simp only at d
      omega

/-! ### C22: self-trade -/

/-- The event giving an order of the opposite side `lots` of its locked funds back. -/
def cancelEvent (o : OrderParams) (m : Market) (l : Leaf) (lots : Nat) : EventView :=
  match o.side with
  | .bid => .out .ask true (lots * m.coinLot) ((l.quantity - lots) * m.coinLot) l.key l.owner l.ownerSlot
      l.clientId
  | .ask => .out .bid true (lots * l.price * m.pcLot) ((l.quantity - lots) * l.price * m.pcLot) l.key
      l.owner l.ownerSlot l.clientId

/-- C22. In any run, the orders met (`ts`, which are exactly what the opposite side lost, in turn) are
traded if and only if they belong to another account. Those of the same account are never met under
abort-transaction; under cancel-provide they lose everything and the incoming order nothing; under
decrement-take the incoming order gives up the same lots, and (ask) exactly these lots or (bid) their
quote value are unlocked for it. Each one's funds are released by an event. -/
theorem self_trade {ob ob' : Ob conc} {o : OrderParams} {limit lim' : Nat}
    {r : Option Remaining} (pre : MatchPre ob o)
    (h : newOrder conc ob o limit = .ok (ob', r, lim')) :
    ∃ (ts : List Touch) (evs : List EventView),
      takeFront (oppSide o ob) ts = some (oppSide o ob') ∧
      ob'.q.toList = ob.q.toList ++ evs.map Event.new ∧
      (∀ side paid received fee id owner slot tier cid,
        EventView.fill side true paid received fee id owner slot tier cid ∈ evs → owner ≠ o.owner) ∧
      (∀ t ∈ ts, t.maker.owner = o.owner →
        o.stb ≠ .abortTransaction ∧ (o.stb = .cancelProvide → t.lots = t.maker.quantity) ∧
        cancelEvent o ob.mkt t.maker t.lots ∈ evs) ∧
      (∀ t ∈ ts, t.maker.owner ≠ o.owner → t.makerFill o.side ob.mkt ∈ evs) ∧
      (o.side = .ask → sumBy (fun t => if t.maker.owner ≠ o.owner then t.lots else 0) ts =
        ob'.pr.coinDebit - ob.pr.coinDebit) ∧
      (o.side = .bid → sumBy (fun t => if t.maker.owner ≠ o.owner then t.lots else 0) ts =
        ob'.pr.coinCredit - ob.pr.coinCredit) ∧
      (∃ given, given = sumBy (fun t => if t.maker.owner = o.owner ∧ o.stb = .decrementTake then t.lots
          else 0) ts ∧
        (o.side = .ask → given ≤ ob'.pr.coinUnlocked - ob.pr.coinUnlocked ∧
          given + (ob'.pr.coinDebit - ob.pr.coinDebit) ≤ o.maxCoinQty) ∧
        (o.side = .bid → given + (ob'.pr.coinCredit - ob.pr.coinCredit) ≤ o.maxCoinQty ∧
          sumBy (fun t => if t.maker.owner = o.owner ∧ o.stb = .decrementTake then
            t.lots * t.maker.price * ob.mkt.pcLot else 0) ts ≤ ob'.pr.pcUnlocked - ob.pr.pcUnlocked)) := by
  obtain ⟨ts, f, evs, R⟩ := full_report pre h
  have hfil : ∀ t ∈ ts, t.maker.owner = o.owner ↔ t.filled = false := by
    intro t ht
    have := (R.touches t ht).who
    cases hf : t.filled with
    | true => simp only [hf, true_iff] at this; simp; exact fun e => this e.symm
    | false => simp only [hf, Bool.false_eq_true, false_iff, Decidable.not_not] at this; simp [this]
  have e1 : sumBy (fun t => if t.maker.owner ≠ o.owner then t.lots else 0) ts = sumBy Touch.traded ts := by
    apply sumBy_congr
    intro t ht
    have := hfil t ht
    unfold Touch.traded
    cases hf : t.filled with
    | true => rw [hf] at this; simp only [Bool.true_eq_false, iff_false] at this; simp [this]
    | false => rw [hf] at this; simp only [iff_true] at this; simp [this]
  have e2 : sumBy (fun t => if t.maker.owner = o.owner ∧ o.stb = .decrementTake then t.lots else 0) ts =
      sumBy (Touch.given o.stb) ts := by
    apply sumBy_congr
    intro t ht
    have := hfil t ht
    unfold Touch.given
    cases hf : t.filled with
    | true => rw [hf] at this; simp only [Bool.true_eq_false, iff_false] at this; simp [this]
    | false => rw [hf] at this; simp only [iff_true] at this; simp [this]
  have e3 : sumBy (fun t => if t.maker.owner = o.owner ∧ o.stb = .decrementTake then
      t.lots * t.maker.price * ob.mkt.pcLot else 0) ts =
      sumBy (fun t => t.given o.stb * t.maker.price * ob.mkt.pcLot) ts := by
    apply sumBy_congr
    intro t ht
    have := hfil t ht
    unfold Touch.given
    cases hf : t.filled with
    | true => rw [hf] at this; simp only [Bool.true_eq_false, iff_false] at this; simp [this]
    | false =>
      rw [hf] at this; simp only [iff_true] at this; simp only [this, true_and]
      split <;> simp
  have hm := R.money
  unfold PrReport at hm
  refine ⟨ts, evs, R.ran.opp, R.ran.queue, ?_, ?_, ?_, ?_, ?_, _, rfl, ?_, ?_⟩
  · intro side paid received fee id owner slot tier cid hv
    obtain ⟨t, ht, hf, e⟩ := mem_makers R.ran.events hv rfl
    have hne : o.owner ≠ t.maker.owner := (R.touches t ht).who.1 hf
    unfold Touch.makerFill at e
    cases hs : o.side <;> rw [hs] at e <;> cases e <;> exact fun e => hne e.symm
  · intro t ht hown
    have hf := (hfil t ht).1 hown
    refine ⟨?_, ?_, ?_⟩
    · rcases (R.touches t ht).self hf with h | h
      · rw [h]; simp
      · rw [h.1]; simp
    · intro hc
      rcases (R.touches t ht).self hf with h | h
      · rw [hc] at h; cases h
      · exact h.2
    · have : cancelEvent o ob.mkt t.maker t.lots ∈ evs.filter EventView.isRelease := by
        rw [R.ran.events.releases]
        apply List.mem_append_left
        rw [List.mem_flatMap]
        refine ⟨t, ht, ?_⟩
        unfold Touch.release cancelEvent
        cases hs : o.side <;> simp [hf, Side.other, lockedValue]
      exact (List.mem_filter.1 this).1
  · intro t ht hown
    have hf : t.filled = true := (R.touches t ht).who.2 fun e => hown e.symm
    have : t.makerFill o.side ob.mkt ∈ evs.filter EventView.isMakerFill := by
      rw [R.ran.events.makers]
      exact List.mem_map.2 ⟨t, List.mem_filter.2 ⟨ht, hf⟩, rfl⟩
    exact (List.mem_filter.1 this).1
  · intro hs
    rw [hs] at hm
    obtain ⟨_, _, _, e⟩ := hm
    rw [e1, e]; simp
  · intro hs
    rw [hs] at hm
    obtain ⟨_, _, _, _, _, _, e⟩ := hm
    rw [e1, e]; simp
  · intro hs
    rw [hs] at hm
    obtain ⟨_, d, _, e⟩ := hm
    simp only at d
    rw [e2, e]; simp only [Nat.add_sub_cancel_left]
    constructor <;> omega
  · intro hs
    rw [hs] at hm
    obtain ⟨_, _, _, _, d, g, e⟩ := hm
    simp only at d
    rw [e2, e3, e]; simp only [Nat.add_sub_cancel_left]
    constructor <;> omega

/-- C22, abort-transaction: if the best order of the opposite side is the sender's own and would trade
(for a bid: the budget pays for at least one lot), the order is refused. -/
theorem self_trade_abort {ob : Ob conc} {o : OrderParams} {limit : Nat} (pre : MatchPre ob o)
    (hstb : o.stb = .abortTransaction) (hlim : 0 < limit) (hpo : o.orderType ≠ .postOnly)
    {l : Leaf} {rest : List Leaf} (hb : oppSide o ob = l :: rest) (hown : l.owner = o.owner)
    (hprice : match o.side with
      | .bid => l.price ≤ extractPrice o.orderId ∧
          l.price * ob.mkt.pcLot ≤ o.feeTier.removeTakerFee o.pcLocked
      | .ask => extractPrice o.orderId ≤ l.price) :
    ∃ e, newOrder conc ob o limit = .error e := by
  cases h : newOrder conc ob o limit with
  | error e => exact ⟨e, rfl⟩
  | ok x =>
    exfalso
    obtain ⟨ob', r, lim'⟩ := x
    obtain ⟨hin, hz, i1, i2, i3, hr, ts, f, hp⟩ := pre.path h
    obtain ⟨t1, t2, t3⟩ := path_touches pre.order hin hp
    have hpo' : (o.orderType == .postOnly) = false := by simpa using hpo
    -- the first round meets no order
    have hts : ts = [] := by
      cases ts with
      | nil => rfl
      | cons t ts =>
        have e : oppSide o ob = opposite o.side (absOb ob).bids.items (absOb ob).asks.items := rfl
        rw [← e, hb] at t1
        simp only [takeFront] at t1
        split at t1
        · rename_i hc
          have htk := t2 t (by simp)
          have hf : t.filled = false := by
            cases hf : t.filled with
            | false => rfl
            | true => exact absurd (by rw [hc.1, hown]) (htk.who.1 hf)
          rcases htk.self hf with h | h
          · rw [hstb] at h; cases h
          · rw [hstb] at h; cases h.1
        · cases t1
    -- but it cannot stop either
    have key : ∀ ob1 r1 f1, Round o false (absOb ob) o.maxCoinQty o.pcLocked ob1 r1 [] f1 → False := by
      intro ob1 r1 f1 hr1
      unfold Round at hr1
      have e : oppSide o ob = opposite o.side (absOb ob).bids.items (absOb ob).asks.items := rfl
      rw [e] at hb
      cases hs : o.side with
      | ask =>
        rw [hs] at hr1 hb hprice
        simp only at hr1 hprice
        unfold opposite at hb
        simp only at hb
        have hlast : (absOb ob).bids.items.getLast? = some l := by
          rw [← List.head?_reverse, hb]; rfl
        have hlp : ∀ c p b, (o.iter c p b).limitPrice = extractPrice o.orderId := fun _ _ _ => rfl
        have hpp : ∀ c p, (o.iter c p false).postOnly = false := fun _ _ => rfl
        cases hr1 with
        | post hlim => have := hlim l hlast; rw [hlp] at this; omega
        | evict _ _ hlim => have := hlim l hlast; rw [hlp] at this; omega
        | release hlim =>
          have := hlim l hlast; rw [hlp, hpp] at this
          rcases this with h | h
          · omega
          · cases h
        | stop hlim =>
          have := hlim l hlast; rw [hlp, hpp] at this
          rcases this with h | h
          · omega
          · cases h
      | bid =>
        rw [hs] at hr1 hb hprice
        simp only at hr1 hprice
        unfold opposite at hb
        simp only at hb
        have hhead : (absOb ob).asks.items.head? = some l := by rw [hb]; rfl
        have hlp : ∀ c p b, (o.iter c p b).limitPrice = extractPrice o.orderId := fun _ _ _ => rfl
        have hpp : ∀ c p, (o.iter c p false).postOnly = false := fun _ _ => rfl
        have htq : bidTradeQty (absOb ob).mkt (o.iter o.maxCoinQty o.pcLocked false) l ≠ 0 := by
          unfold bidTradeQty
          have h1 : 0 < l.quantity := hin.book.askQty l (by rw [hb]; simp)
          have h2 : 0 < l.price := hin.book.askPrice l (by rw [hb]; simp)
          have h3 : 0 < (o.iter o.maxCoinQty o.pcLocked false).coinQty := pre.coinPos
          have h4 : 0 < (o.iter o.maxCoinQty o.pcLocked false).feeTier.removeTakerFee
              (o.iter o.maxCoinQty o.pcLocked false).pcLocked / (absOb ob).mkt.pcLot / l.price := by
            apply Nat.div_pos _ h2
            rw [show (absOb ob).mkt.pcLot = ob.mkt.pcLot from rfl, Nat.le_div_iff_mul_le pre.mkt.pcLot]
            exact hprice.2
          omega
        cases hr1 with
        | post _ hlim => have := hlim l hhead; rw [hlp] at this; omega
        | evict _ _ _ hlim => have := hlim l hhead; rw [hlp] at this; omega
        | release hlim =>
          have := hlim l hhead; rw [hlp, hpp] at this
          rcases this with h | h | h
          · omega
          · cases h
          · exact htq h
        | stop hlim =>
          have := hlim l hhead; rw [hlp, hpp] at this
          rcases this with h | h | h
          · omega
          · cases h
          · exact htq h
    subst hts
    generalize hobs : absOb ob = obs at hp key hin
    generalize hts : ([] : List Touch) = ts at hp
    cases hp with
    | last => omega
    | stop h => subst hts; rw [hpo'] at h; exact key _ _ _ h
    | more h ht =>
      rw [hpo'] at h
      have := List.append_eq_nil_iff.1 hts.symm
      rw [this.1] at h
      exact key _ _ _ h

/-! ### C23, C24 -/

/-- C23 (engine). Everything an order brought is accounted for. An ask of `maxCoinQty` lots: lots traded,
put on the book and unlocked again add up to exactly that (a send-take has nothing locked: the rest is
simply not used). A bid locking `pcLocked`: quote spent on trades and fees, committed to the resting
remainder and unlocked again add up to exactly that, and lots bought and resting never exceed
`maxCoinQty`. -/
theorem order_within_size_and_budget {ob ob' : Ob conc} {o : OrderParams} {limit lim' : Nat}
    {r : Option Remaining} (pre : MatchPre ob o)
    (h : newOrder conc ob o limit = .ok (ob', r, lim')) :
    ∃ lots, OwnSide o lots (ownBook o ob).contents (ownBook o ob').contents ∧
      (o.side = .ask →
        ob'.pr.pcUnlocked = ob.pr.pcUnlocked ∧ ob'.pr.coinCredit = ob.pr.coinCredit ∧
        ob'.pr.pcDebit = ob.pr.pcDebit ∧ ob.pr.coinDebit ≤ ob'.pr.coinDebit ∧
        ob.pr.coinUnlocked ≤ ob'.pr.coinUnlocked ∧
        (ob'.pr.coinDebit - ob.pr.coinDebit) + lots + (ob'.pr.coinUnlocked - ob.pr.coinUnlocked)
          ≤ o.maxCoinQty ∧
        (o.owner ≠ 0 →
          (ob'.pr.coinDebit - ob.pr.coinDebit) + lots + (ob'.pr.coinUnlocked - ob.pr.coinUnlocked)
            = o.maxCoinQty)) ∧
      (o.side = .bid →
        ob'.pr.coinUnlocked = ob.pr.coinUnlocked ∧ ob'.pr.pcCredit = ob.pr.pcCredit ∧
        ob'.pr.coinDebit = ob.pr.coinDebit ∧ ob.pr.pcDebit ≤ ob'.pr.pcDebit ∧
        ob.pr.pcUnlocked ≤ ob'.pr.pcUnlocked ∧ ob.pr.coinCredit ≤ ob'.pr.coinCredit ∧
        (ob'.pr.coinCredit - ob.pr.coinCredit) + lots ≤ o.maxCoinQty ∧
        (ob'.pr.pcDebit - ob.pr.pcDebit) + lots * extractPrice o.orderId * ob.mkt.pcLot +
          (ob'.pr.pcUnlocked - ob.pr.pcUnlocked) ≤ o.pcLocked ∧
        (o.owner ≠ 0 →
          (ob'.pr.pcDebit - ob.pr.pcDebit) + lots * extractPrice o.orderId * ob.mkt.pcLot +
            (ob'.pr.pcUnlocked - ob.pr.pcUnlocked) = o.pcLocked)) := by
  obtain ⟨ts, f, evs, R⟩ := full_report pre h
  have hown := R.ran.own
  have hm := R.money
  unfold PrReport at hm
  refine ⟨postedLots f, ?_, ?_, ?_⟩
  · cases f with
    | none => exact .none rfl hown
    | some f =>
      rcases hown.book with ⟨_, _, e⟩ | ⟨l, rest, _, _, e, hw⟩
      · exact .rests hown.pos e
      · exact .evicts hown.pos l rest hw e
  · intro hs
    rw [hs] at hm
    obtain ⟨tail, d, _, e⟩ := hm
    simp only at d
    rw [e]
    by_cases h0 : o.owner = 0
    · simp only [h0, if_true]; refine ⟨trivial, trivial, trivial, ?_, ?_, ?_, ?_⟩ <;> omega
    · simp only [h0, if_false]; refine ⟨trivial, trivial, trivial, ?_, ?_, ?_, ?_⟩ <;> omega
  · intro hs
    rw [hs] at hm
    obtain ⟨tail, given, d, _, d2, _, e⟩ := hm
    simp only at d d2
    rw [e]
    by_cases h0 : o.owner = 0
    · simp only [h0, if_true]; refine ⟨trivial, trivial, trivial, ?_, ?_, ?_, ?_, ?_, ?_⟩ <;> omega
    · simp only [h0, if_false]; refine ⟨trivial, trivial, trivial, ?_, ?_, ?_, ?_, ?_, ?_⟩ <;> omega

/-- C24. For every limit, an accepted order is resolved completely: no remainder is handed back, and the
orders met on the opposite side number at most `limit`. -/
theorem matching_work_bounded {ob ob' : Ob conc} {o : OrderParams} {limit lim' : Nat}
    {r : Option Remaining} (pre : MatchPre ob o)
    (h : newOrder conc ob o limit = .ok (ob', r, lim')) :
    r = none ∧ ∃ ts, takeFront (oppSide o ob) ts = some (oppSide o ob') ∧ ts.length ≤ limit ∧
      (oppSide o ob).length ≤ (oppSide o ob').length + limit ∧
      (limit = 0 → oppSide o ob' = oppSide o ob) := by
  obtain ⟨ts, f, evs, R⟩ := full_report pre h
  refine ⟨R.resolved, ts, R.ran.opp, R.count, ?_, ?_⟩
  · have hlen : ∀ (ts : List Touch) (L L' : List Leaf), takeFront L ts = some L' →
        L.length ≤ L'.length + ts.length := by
      intro ts
      induction ts with
      | nil => intro L L' h; simp only [takeFront, Option.some.injEq] at h; subst h; simp
      | cons t ts ih =>
        intro L L' h
        cases L with
        | nil => simp
        | cons l L =>
          simp only [takeFront] at h
          split at h
          · have := ih _ _ h
            split at this <;> simp only [List.length_cons] at * <;> omega
          · cases h
    have := hlen ts _ _ R.ran.opp
    have := R.count
    omega
  · intro h0
    have hc := R.count
    have : ts = [] := List.length_eq_zero_iff.1 (by omega)
    subst this
    have := R.ran.opp
    simp only [takeFront, Option.some.injEq] at this
    exact this.symm

/-! ### C25: eviction -/

/-- C25. The order's own side only ever loses an order when it is full and the new order rests on it; the
one that goes is the worst of the side, the new order takes its place, and one event returns exactly the
funds the evicted order had locked. -/
theorem eviction {ob ob' : Ob conc} {o : OrderParams} {limit lim' : Nat}
    {r : Option Remaining} (pre : MatchPre ob o)
    (h : newOrder conc ob o limit = .ok (ob', r, lim')) :
    (∀ x ∈ (ownBook o ob).contents, x ∈ (ownBook o ob').contents) ∨
    ∃ (l : Leaf) (lots : Nat) (rest : List Leaf) (evs : List EventView),
      (ownBook o ob).cap < 2 * (ownBook o ob).contents.length + 1 ∧
      l ∈ (ownBook o ob).contents ∧
      (∀ x ∈ (ownBook o ob).contents, x = l ∨ Before o.side x l) ∧
      (ownBook o ob).contents.Perm (l :: rest) ∧
      0 < lots ∧ (ownBook o ob').contents.Perm (o.leaf lots :: rest) ∧
      ob'.q.toList = ob.q.toList ++ evs.map Event.new ∧
      (.out o.side true (match o.side with
          | .bid => l.quantity * l.price * ob.mkt.pcLot
          | .ask => l.quantity * ob.mkt.coinLot) 0 l.key l.owner l.ownerSlot l.clientId) ∈ evs := by
  obtain ⟨ts, f, evs, R⟩ := full_report pre h
  have hown := R.ran.own
  have hfresh := pre.fresh
  have hsort : (ownBook o ob).contents.Pairwise (fun a b => a.key < b.key) := by
    unfold ownBook
    cases o.side
    · exact pre.book.bidSort
    · exact pre.book.askSort
  cases f with
  | none => left; intro x hx; simp only at hown; rw [hown]; exact hx
  | some f =>
    rcases hown.book with ⟨_, _, e⟩ | ⟨l, rest, hcap, hev, e, hw⟩
    · left
      intro x hx
      rw [e]
      exact (insKey_perm hsort hfresh).symm.subset (by simp [hx])
    · right
      have hmem : l ∈ (ownBook o ob).contents := by
        cases hs : o.side <;> rw [hs] at hw <;> simp only at hw <;> rw [hw] <;> simp
      have hsub : ∀ x ∈ rest, x ∈ (ownBook o ob).contents := by
        intro x hx
        cases hs : o.side <;> rw [hs] at hw <;> simp only at hw <;> rw [hw] <;> simp [hx]
      refine ⟨l, f.lots, rest, evs, by omega, hmem, ?_, ?_, hown.pos, ?_, R.ran.queue, ?_⟩
      · intro x hx
        cases hs : o.side with
        | bid =>
          rw [hs] at hw
          simp only at hw
          rw [hw] at hx hsort
          rw [List.pairwise_cons] at hsort
          rw [List.mem_cons] at hx
          rcases hx with rfl | hx
          · exact .inl rfl
          · exact .inr (before_of_lt (hsort.1 x hx)).2
        | ask =>
          rw [hs] at hw
          simp only at hw
          rw [hw] at hx hsort
          rw [List.pairwise_append] at hsort
          rw [List.mem_append, List.mem_singleton] at hx
          rcases hx with hx | rfl
          · exact .inr (before_of_lt (hsort.2.2 x hx l (by simp))).1
          · exact .inl rfl
      · cases hs : o.side <;> rw [hs] at hw <;> simp only at hw <;> rw [hw]
        exact List.perm_append_singleton l rest
      · rw [e]
        have hs' : rest.Pairwise (fun a b => a.key < b.key) := by
          cases hs : o.side <;> rw [hs] at hw <;> simp only at hw <;> rw [hw] at hsort
          · exact (List.pairwise_cons.1 hsort).2
          · exact (List.pairwise_append.1 hsort).1
        apply insKey_perm hs'
        intro hin
        apply hfresh
        rw [List.mem_map] at hin ⊢
        obtain ⟨x, hx, e⟩ := hin
        exact ⟨x, hsub x hx, e⟩
      · have : EventView.out o.side true (lockedValue o.side ob.mkt l.price l.quantity) 0 l.key l.owner
            l.ownerSlot l.clientId ∈ evs.filter EventView.isRelease := by
          rw [R.ran.events.releases]
          apply List.mem_append_right
          obtain ⟨n, ev⟩ := f
          simp only at hev
          subst hev
          simp [evictRelease]
        have := (List.mem_filter.1 this).1
        unfold lockedValue at this
        exact this

/-! ### A concrete case -/

def exSlab (n : Nat) (ls : List Leaf) : Slab :=
  match slabRun (Slab.fresh n) (ls.map .insert) with
  | .ok (s, _) => s
  | .error _ => Slab.fresh n

theorem exSlab_inv (n : Nat) (ls : List Leaf) (h : ∀ l ∈ ls, l.key < 2 ^ 128) : (exSlab n ls).Inv := by
  unfold exSlab
  split
  · rename_i s outs e
    refine (Reachable.inv (n := n) ⟨ls.map .insert, outs, ?_, e⟩).1
    intro op hop
    obtain ⟨l, hl, rfl⟩ := List.mem_map.1 hop
    exact h l hl
  · exact fresh_inv n

def exMarket : Market :=
  { flags := 3, ownAddress := 1, vaultSignerNonce := 0, coinMint := 2, pcMint := 3, coinVault := 4,
    coinDeposits := 1000, coinFees := 0, pcVault := 5, pcDeposits := 5000, pcFees := 0, pcDust := 0,
    reqQ := 6, eventQ := 7, bids := 8, asks := 9, coinLot := 10, pcLot := 2, feeRateBps := 0,
    referrerRebates := 0, ooAuthority := 0, pruneAuthority := 0, crankAuthority := 0 }

def exLeaf (side : Side) (seq price owner qty : Nat) : Leaf :=
  { ownerSlot := seq, feeTier := .base, key := genOrderId seq price side, owner, quantity := qty,
    clientId := 0 }

/-- Two bids (accounts 20 and 21) and one ask (account 22) on three-node sides. -/
def exOb : Ob conc :=
  { bids := exSlab 3 [exLeaf .bid 1 10 20 3, exLeaf .bid 2 9 21 5]
    asks := exSlab 3 [exLeaf .ask 3 12 22 4, exLeaf .ask 4 13 21 4]
    q := Queue.fresh (List.replicate 8 Event.zero)
    mkt := exMarket
    pr := Proceeds.zero }

/-- An ask of 9 lots at 9 by account 22. -/
def exAsk : OrderParams :=
  { side := .ask, orderType := .limit, orderId := genOrderId 5 9 .ask, owner := 22, ownerSlot := 5,
    feeTier := .base, maxCoinQty := 9, pcLocked := 0, clientId := 0, stb := .abortTransaction }

/-- A bid for 6 lots at 13 by account 21, which would meet its own ask second. -/
def exBid (stb : SelfTradeBehavior) : OrderParams :=
  { side := .bid, orderType := .ioc, orderId := genOrderId 5 13 .bid, owner := 21, ownerSlot := 5,
    feeTier := .base, maxCoinQty := 6, pcLocked := 200, clientId := 0, stb }

theorem exOb_pre (o : OrderParams) (h1 : o.orderId < 2 ^ 128) (h2 : OrderOk o) (h3 : 0 < o.maxCoinQty)
    (h4 : o.maxCoinQty < W64) (h5 : o.pcLocked < W64) (h6 : o.maxCoinQty * 10 < W64)
    (h7 : o.orderId ∉ (ownBook o exOb).contents.map (·.key)) : MatchPre exOb o := by
  have hb : exOb.bids.contents = [exLeaf .bid 2 9 21 5, exLeaf .bid 1 10 20 3] := rfl
  have ha : exOb.asks.contents = [exLeaf .ask 3 12 22 4, exLeaf .ask 4 13 21 4] := rfl
  refine ⟨?_, ?_, ?_, ?_, ?_, h1, h2, h3, h4, h5, fun _ _ => h6, h7, ?_⟩
  · apply exSlab_inv; decide
  · apply exSlab_inv; decide
  · apply Queue.fresh_wf; decide
  · constructor <;> decide
  · rw [hb, ha]; constructor <;> decide
  · intro _; rw [hb, ha]; decide

/-- The hypotheses of C18–C25 hold for this state and these orders. -/
theorem exAsk_pre : MatchPre exOb exAsk := by
  apply exOb_pre
  · decide
  · exact ⟨by decide, by decide⟩
  all_goals decide

theorem exBid_pre (stb : SelfTradeBehavior) : MatchPre exOb (exBid stb) := by
  apply exOb_pre
  · show genOrderId 5 13 .bid < 2 ^ 128; decide
  · exact ⟨by show 0 < extractPrice (genOrderId 5 13 .bid); decide, fun _ => rfl⟩
  · show 0 < 6; decide
  · show 6 < W64; decide
  · show 200 < W64; decide
  · show 6 * 10 < W64; decide
  · show genOrderId 5 13 .bid ∉ exOb.bids.contents.map (·.key); decide

/-- The ask trades 3 lots at 10 and 5 at 9, its last lot rests and the worst ask is evicted. -/
example : ∃ ob' l, newOrder conc exOb exAsk 10 = .ok (ob', none, l) ∧ ob'.bids.contents = [] ∧
    ob'.asks.contents = [exAsk.leaf 1, exLeaf .ask 3 12 22 4] ∧ ob'.pr.coinDebit = 8 ∧
    ob'.q.toList.length = 7 := by
  refine ⟨_, _, rfl, ?_, ?_, ?_, ?_⟩ <;> rfl

/-- With a limit of one only the best bid is met and the rest of the ask is returned, since it would
cross. -/
example : ∃ ob' l, newOrder conc exOb exAsk 1 = .ok (ob', none, l) ∧
    ob'.bids.contents = [exLeaf .bid 2 9 21 5] ∧ ob'.pr.coinDebit = 3 ∧ ob'.pr.coinUnlocked = 6 := by
  refine ⟨_, _, rfl, ?_, ?_, ?_⟩ <;> decide

/-- Self-trade: the bid buys 4 lots from account 22, then meets account 21's own ask. -/
example : newOrder conc exOb (exBid .abortTransaction) 10 = .error .wouldSelfTrade := rfl
example : ∃ ob' l, newOrder conc exOb (exBid .cancelProvide) 10 = .ok (ob', none, l) ∧
    ob'.asks.contents = [] ∧ ob'.pr.coinCredit = 4 := by
  refine ⟨_, _, rfl, ?_, ?_⟩ <;> rfl
example : ∃ ob' l, newOrder conc exOb (exBid .decrementTake) 10 = .ok (ob', none, l) ∧
    ob'.asks.contents = [exLeaf .ask 4 13 21 2] ∧ ob'.pr.coinCredit = 4 := by
  refine ⟨_, _, rfl, ?_, ?_⟩ <;> rfl

/-- A bid at 13 by account 22, whose own ask is best: the case of `self_trade_abort`. -/
example : MatchPre exOb { exBid .abortTransaction with owner := 22 } ∧
    oppSide { exBid .abortTransaction with owner := 22 } exOb =
      [exLeaf .ask 3 12 22 4, exLeaf .ask 4 13 21 4] ∧
    12 * 2 ≤ FeeTier.base.removeTakerFee 200 := by
  refine ⟨?_, rfl, by decide⟩
  apply exOb_pre
  · show genOrderId 5 13 .bid < 2 ^ 128; decide
  · exact ⟨by show 0 < extractPrice (genOrderId 5 13 .bid); decide, fun _ => rfl⟩
  · show 0 < 6; decide
  · show 6 < W64; decide
  · show 200 < W64; decide
  · show 6 * 10 < W64; decide
  · show genOrderId 5 13 .bid ∉ exOb.bids.contents.map (·.key); decide

end Serum.Props
