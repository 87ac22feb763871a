import Verif.MatchPath

/-
What a whole run of `newOrder` did, in terms of the list of resting orders it met (`ts`) and of the
remainder it put on the book (`f`).
-/

namespace Serum

/-- The opposite side of an order, best price first and oldest first. -/
def opposite (side : Side) (bids asks : List Leaf) : List Leaf :=
  match side with
  | .bid => asks
  | .ask => bids.reverse

/-- Working through a list of orders strictly from the front: every touch concerns the current first
order, and the next order is reached only when the first is used up. -/
def takeFront : List Leaf → List Touch → Option (List Leaf)
  | L, [] => some L
  | [], _ :: _ => none
  | l :: L, t :: ts =>
    if t.maker = l ∧ 0 < t.lots ∧ t.lots ≤ l.quantity then
      takeFront (if t.lots = l.quantity then L else { l with quantity := l.quantity - t.lots } :: L) ts
    else none

theorem takeFront_append (L : List Leaf) (a b : List Touch) :
    takeFront L (a ++ b) = (takeFront L a).bind (fun L' => takeFront L' b) := by
  induction a generalizing L with
  | nil => rfl
  | cons t ts ih =>
    cases L with
    | nil => rfl
    | cons l L =>
      simp only [List.cons_append, takeFront]
      split
      · exact ih _
      · rfl

/-- Sum of a quantity over a list. -/
def sumBy {α : Type} (f : α → Nat) (L : List α) : Nat := (L.map f).sum

@[simp] theorem sumBy_nil {α : Type} (f : α → Nat) : sumBy f [] = 0 := rfl
@[simp] theorem sumBy_cons {α : Type} (f : α → Nat) (a : α) (L : List α) :
    sumBy f (a :: L) = f a + sumBy f L := by simp [sumBy]
@[simp] theorem sumBy_append {α : Type} (f : α → Nat) (a b : List α) :
    sumBy f (a ++ b) = sumBy f a + sumBy f b := by simp [sumBy]
theorem sumBy_perm {α : Type} (f : α → Nat) {a b : List α} (h : a.Perm b) : sumBy f a = sumBy f b :=
  (h.map f).sum_nat

/-- Quote value of a touch before fees. -/
def Touch.pc (t : Touch) (m : Market) : Nat := t.lots * t.maker.price * m.pcLot

/-- Lots traded. -/
def Touch.traded (t : Touch) : Nat := if t.filled then t.lots else 0
/-- Quote traded, before fees. -/
def Touch.tradedPc (m : Market) (t : Touch) : Nat := if t.filled then t.pc m else 0
/-- Taker fee. -/
def Touch.fee (m : Market) (tier : FeeTier) (t : Touch) : Nat :=
  if t.filled then tier.takerFee (t.pc m) else 0
/-- Referrer share of the taker fee. -/
def Touch.ref (m : Market) (tier : FeeTier) (t : Touch) : Nat := referrerRebate (t.fee m tier)
/-- Lots of the incoming order given up to self-trade protection. -/
def Touch.given (stb : SelfTradeBehavior) (t : Touch) : Nat :=
  if t.filled then 0 else if stb = .decrementTake then t.lots else 0

/-- Lots put on the book. -/
def postedLots : Option Posting → Nat
  | some f => f.lots
  | none => 0

/-- May the order trade at this price? -/
def priceOk (o : OrderParams) (price : Nat) : Prop :=
  match o.side with
  | .bid => price ≤ extractPrice o.orderId
  | .ask => extractPrice o.orderId ≤ price

/-- What is known about each touch. -/
structure TouchOk (o : OrderParams) (t : Touch) : Prop where
  price : priceOk o t.maker.price
  notPostOnly : o.orderType ≠ .postOnly
  who : t.filled = true ↔ o.owner ≠ t.maker.owner
  self : t.filled = false →
    o.stb = .decrementTake ∨ (o.stb = .cancelProvide ∧ t.lots = t.maker.quantity)

theorem round_touches {o : OrderParams} {po : Bool} {ob ob' : Ob lst} {coin pc : Nat}
    {r : Option Remaining} {ts : List Touch} {f : Option Posting} (hi : RoundIn o ob coin pc)
    (hpo : (o.orderType == .postOnly) = true → po = true)
    (h : Round o po ob coin pc ob' r ts f) :
    takeFront (opposite o.side ob.bids.items ob.asks.items) ts =
        some (opposite o.side ob'.bids.items ob'.asks.items) ∧
      (∀ t ∈ ts, TouchOk o t) ∧ ts.length ≤ 1 ∧ (r.isSome → ts.length = 1 ∧ f = none) := by
  obtain ⟨hm, hb, hc0, hcl, hpl, hval, hfr⟩ := hi
  have hnp : po = false → o.orderType ≠ .postOnly := by
    intro h1 h2
    rw [hpo (by simp [h2])] at h1
    cases h1
  unfold Round at h
  cases hside : o.side with
  | ask =>
    rw [hside] at h
    simp only at h
    cases h with
    | post => exact ⟨rfl, by simp, by simp, by simp⟩
    | evict => exact ⟨rfl, by simp, by simp, by simp⟩
    | release => exact ⟨rfl, by simp, by simp, by simp⟩
    | stop => exact ⟨rfl, by simp, by simp, by simp⟩
    | selfTrade B best provide take hB hpr hpo' hown hst hb' =>
      have hmem : best ∈ ob.bids.items := by rw [hB]; simp
      have hq := hb.bidQty _ hmem
      have hc : (o.iter coin pc po).coinQty = coin := rfl
      refine ⟨?_, ?_, by simp, by simp⟩
      · simp only [opposite, hB, List.reverse_append, List.reverse_cons, List.reverse_nil,
          List.nil_append, List.singleton_append, takeFront]
        have h1 : 0 < provide := by rcases hst with ⟨_, h, _⟩ | ⟨_, h, _⟩ <;> omega
        have h2 : provide ≤ best.quantity := by rcases hst with ⟨_, h, _⟩ | ⟨_, h, _⟩ <;> omega
        simp only [h1, h2, and_self, if_true, Option.some.injEq]
        simp only [Ob.push, Ob.putPr, Ob.putBids, List.reverse_append]
        unfold shrink
        by_cases he : best.quantity = provide
        · simp [he]
        · have he' : ¬ provide = best.quantity := fun h => he h.symm
          simp [he, he']
      · intro t ht
        rw [List.mem_singleton] at ht
        subst ht
        refine ⟨?_, hnp hpo', ?_, ?_⟩
        · unfold priceOk; rw [hside]; exact hpr
        · simp only [Bool.false_eq_true, false_iff]; exact fun h => h hown
        · intro _
          rcases hst with ⟨h, _⟩ | ⟨h, h', _⟩
          · exact .inl h
          · exact .inr ⟨h, h'⟩
    | fill B best tq fee hB hpr hpo' hown htq hfee hb1 hb2 =>
      have hmem : best ∈ ob.bids.items := by rw [hB]; simp
      have hq := hb.bidQty _ hmem
      have hc : (o.iter coin pc po).coinQty = coin := rfl
      refine ⟨?_, ?_, by simp, by simp⟩
      · simp only [opposite, hB, List.reverse_append, List.reverse_cons, List.reverse_nil,
          List.nil_append, List.singleton_append, takeFront]
        have h1 : 0 < tq := by omega
        have h2 : tq ≤ best.quantity := by omega
        simp only [h1, h2, and_self, if_true, Option.some.injEq]
        simp only [Ob.push, Ob.putPr, Ob.putBids, Ob.putMkt, List.reverse_append]
        unfold shrink
        by_cases he : best.quantity = tq
        · simp [he]
        · have he' : ¬ tq = best.quantity := fun h => he h.symm
          simp [he, he']
      · intro t ht
        rw [List.mem_singleton] at ht
        subst ht
        refine ⟨?_, hnp hpo', ?_, ?_⟩
        · unfold priceOk; rw [hside]; exact hpr
        · simp only [true_iff]; exact hown
        · simp
  | bid =>
    rw [hside] at h
    simp only at h
    cases h with
    | post => exact ⟨rfl, by simp, by simp, by simp⟩
    | evict => exact ⟨rfl, by simp, by simp, by simp⟩
    | release => exact ⟨rfl, by simp, by simp, by simp⟩
    | stop => exact ⟨rfl, by simp, by simp, by simp⟩
    | selfTrade A best provide take unlocked still hA hpr hpo' hown htq hst hle hgo hb' =>
      have hmem : best ∈ ob.asks.items := by rw [hA]; simp
      have hq := hb.askQty _ hmem
      have hle1 : bidTradeQty ob.mkt (o.iter coin pc po) best ≤ best.quantity := by
        unfold bidTradeQty; omega
      refine ⟨?_, ?_, by simp, by simp⟩
      · simp only [opposite, hA, takeFront]
        have h1 : 0 < provide := by rcases hst with ⟨_, h, _⟩ | ⟨_, h, _⟩ <;> omega
        have h2 : provide ≤ best.quantity := by rcases hst with ⟨_, h, _⟩ | ⟨_, h, _⟩ <;> omega
        simp only [h1, h2, and_self, if_true, Option.some.injEq]
        simp only [Ob.push, Ob.putPr, Ob.putAsks]
        unfold shrink
        by_cases he : best.quantity = provide
        · simp [he]
        · have he' : ¬ provide = best.quantity := fun h => he h.symm
          simp [he, he']
      · intro t ht
        rw [List.mem_singleton] at ht
        subst ht
        refine ⟨?_, hnp hpo', ?_, ?_⟩
        · unfold priceOk; rw [hside]; exact hpr
        · simp only [Bool.false_eq_true, false_iff]; exact fun h => h hown
        · intro _
          rcases hst with ⟨h, _⟩ | ⟨h, h', _⟩
          · exact .inl h
          · exact .inr ⟨h, h'⟩
    | fill A best tq pc' fee left hA hpr hpo' hown htq htpos hpc hfee hleft hb1 hb2 =>
      have hle1 : tq ≤ best.quantity := by subst htq; unfold bidTradeQty; omega
      refine ⟨?_, ?_, by simp, by simp⟩
      · simp only [opposite, hA, takeFront]
        simp only [htpos, hle1, and_self, if_true, Option.some.injEq]
        simp only [Ob.push, Ob.putPr, Ob.putAsks, Ob.putMkt]
        unfold shrink
        by_cases he : best.quantity = tq
        · simp [he]
        · have he' : ¬ tq = best.quantity := fun h => he h.symm
          simp [he, he']
      · intro t ht
        rw [List.mem_singleton] at ht
        subst ht
        refine ⟨?_, hnp hpo', ?_, ?_⟩
        · unfold priceOk; rw [hside]; exact hpr
        · simp only [true_iff]; exact hown
        · simp

theorem path_touches {o : OrderParams} (ho : OrderOk o) {limit : Nat} {ob ob' : Ob lst} {coin pc : Nat}
    {ts : List Touch} {f : Option Posting} (hi : RoundIn o ob coin pc)
    (h : Path o limit ob coin pc ob' ts f) :
    takeFront (opposite o.side ob.bids.items ob.asks.items) ts =
        some (opposite o.side ob'.bids.items ob'.asks.items) ∧
      (∀ t ∈ ts, TouchOk o t) ∧ ts.length ≤ limit := by
  induction h with
  | last h =>
    obtain ⟨a, b, c, _⟩ := round_touches hi (by simp) h
    have := (round_postOnly_none h).2
    subst this
    exact ⟨a, b, Nat.le_refl _⟩
  | stop h =>
    obtain ⟨a, b, c, _⟩ := round_touches hi (by simp) h
    exact ⟨a, b, by omega⟩
  | more h _ ih =>
    obtain ⟨a, b, c, _⟩ := round_touches hi (by simp) h
    obtain ⟨a', b', c'⟩ := ih ((round_pres ho hi h).2.2.2 _ rfl)
    refine ⟨?_, ?_, ?_⟩
    · rw [takeFront_append, a]; exact a'
    · intro t ht
      rw [List.mem_append] at ht
      exact ht.elim (b t) (b' t)
    · rw [List.length_append]; omega

/-! ### The own side -/

/-- The order put on the book. -/
def OrderParams.leaf (o : OrderParams) (lots : Nat) : Leaf :=
  { ownerSlot := o.ownerSlot, feeTier := o.feeTier, key := o.orderId, owner := o.owner,
    quantity := lots, clientId := o.clientId }

/-- What is known about a posting onto `own` (sorted by id) against `opp` (best first). -/
structure PostOk (o : OrderParams) (cap : Nat) (own own' opp : List Leaf) (f : Posting) : Prop where
  notIoc : o.orderType ≠ .ioc
  owner : o.owner ≠ 0
  pos : 0 < f.lots
  noCross : ∀ b, opp.head? = some b → ¬ priceOk o b.price
  book : (f.evicted = none ∧ 2 * own.length + 1 ≤ cap ∧ own' = insKey (o.leaf f.lots) own) ∨
    (∃ l R, ¬ 2 * own.length + 1 ≤ cap ∧ f.evicted = some l ∧ own' = insKey (o.leaf f.lots) R ∧
      (match o.side with
        | .bid => own = l :: R
        | .ask => own = R ++ [l]))

/-- The book side of a posting. -/
def OwnReport (o : OrderParams) (ob ob' : Ob lst) (f : Option Posting) : Prop :=
  (ob'.own o.side).cap = (ob.own o.side).cap ∧
  match f with
  | none => (ob'.own o.side).items = (ob.own o.side).items
  | some f => PostOk o (ob.own o.side).cap (ob.own o.side).items (ob'.own o.side).items
      (opposite o.side ob'.bids.items ob'.asks.items) f

theorem round_own {o : OrderParams} {po : Bool} {ob ob' : Ob lst} {coin pc : Nat}
    {r : Option Remaining} {ts : List Touch} {f : Option Posting} (hi : RoundIn o ob coin pc)
    (h : Round o po ob coin pc ob' r ts f) : OwnReport o ob ob' f := by
  obtain ⟨hm, hb, hc0, hcl, hpl, hval, hfr⟩ := hi
  unfold Round at h
  unfold OwnReport
  cases hside : o.side with
  | ask =>
    rw [hside] at h
    simp only at h
    cases h with
    | post hlim hpa hns hcap =>
      refine ⟨rfl, ?_, hns, hc0, ?_, .inl ⟨rfl, hcap, rfl⟩⟩
      · simpa [OrderParams.iter] using hpa
      · intro b hb'
        unfold priceOk; rw [hside]
        simp only [opposite, List.head?_reverse] at hb'
        have := hlim b hb'
        have e : (o.iter coin pc po).limitPrice = extractPrice o.orderId := rfl
        rw [e] at this
        simp only; omega
    | evict A l hlim hpa hns hcap hA =>
      refine ⟨rfl, ?_, hns, hc0, ?_, .inr ⟨l, A, hcap, rfl, rfl, ?_⟩⟩
      · simpa [OrderParams.iter] using hpa
      · intro b hb'
        unfold priceOk; rw [hside]
        simp only [opposite, List.head?_reverse] at hb'
        have := hlim b hb'
        have e : (o.iter coin pc po).limitPrice = extractPrice o.orderId := rfl
        rw [e] at this
        simp only; omega
      · rw [hside]; exact hA
    | release => exact ⟨rfl, rfl⟩
    | stop => exact ⟨rfl, rfl⟩
    | selfTrade => exact ⟨rfl, rfl⟩
    | fill => exact ⟨rfl, rfl⟩
  | bid =>
    rw [hside] at h
    simp only at h
    cases h with
    | post qty hlim hpa hns hqty hq0 hle hb' hcap =>
      refine ⟨rfl, ?_, hns, hq0, ?_, .inl ⟨rfl, hcap, rfl⟩⟩
      · simpa [OrderParams.iter] using hpa
      · intro b hb'
        unfold priceOk; rw [hside]
        simp only [opposite] at hb'
        have := hlim b hb'
        have e : (o.iter coin pc po).limitPrice = extractPrice o.orderId := rfl
        rw [e] at this
        simp only; omega
    | evict qty B l hlim hpa hns hqty hq0 hle hb' hcap hB =>
      refine ⟨rfl, ?_, hns, hq0, ?_, .inr ⟨l, B, hcap, rfl, rfl, ?_⟩⟩
      · simpa [OrderParams.iter] using hpa
      · intro b hb'
        unfold priceOk; rw [hside]
        simp only [opposite] at hb'
        have := hlim b hb'
        have e : (o.iter coin pc po).limitPrice = extractPrice o.orderId := rfl
        rw [e] at this
        simp only; omega
      · rw [hside]; exact hB
    | release => exact ⟨rfl, rfl⟩
    | stop => exact ⟨rfl, rfl⟩
    | selfTrade => exact ⟨rfl, rfl⟩
    | fill => exact ⟨rfl, rfl⟩

theorem path_own {o : OrderParams} (ho : OrderOk o) {limit : Nat} {ob ob' : Ob lst} {coin pc : Nat}
    {ts : List Touch} {f : Option Posting} (hi : RoundIn o ob coin pc)
    (h : Path o limit ob coin pc ob' ts f) : OwnReport o ob ob' f := by
  induction h with
  | last h => exact round_own hi h
  | stop h => exact round_own hi h
  | more h _ ih =>
    have h1 := round_own hi h
    have h2 := ih ((round_pres ho hi h).2.2.2 _ rfl)
    have hf := ((round_touches hi (by simp) h).2.2.2 rfl).2
    subst hf
    obtain ⟨c1, i1⟩ := h1
    unfold OwnReport at h2 ⊢
    rw [c1, i1] at h2
    exact h2

/-! ### Events -/

def EventView.isMakerFill : EventView → Bool
  | .fill _ true .. => true
  | _ => false
def EventView.isTakerFill : EventView → Bool
  | .fill _ false .. => true
  | _ => false
/-- An out event that releases funds. -/
def EventView.isRelease : EventView → Bool
  | .out _ true .. => true
  | _ => false
/-- An out event that only reports. -/
def EventView.isReport : EventView → Bool
  | .out _ false .. => true
  | _ => false

def Side.other : Side → Side
  | .bid => .ask
  | .ask => .bid

/-- The maker's fill event of a touch: the resting order pays and receives at its own price. -/
def Touch.makerFill (side : Side) (m : Market) (t : Touch) : EventView :=
  match side with
  | .ask => .fill .bid true (t.pc m) (wmul t.lots m.coinLot) 0 t.maker.key t.maker.owner
      t.maker.ownerSlot t.maker.feeTier t.maker.clientId
  | .bid => .fill .ask true (t.lots * m.coinLot) (t.pc m) 0 t.maker.key t.maker.owner
      t.maker.ownerSlot t.maker.feeTier t.maker.clientId

/-- The taker's fill event of a touch. -/
def Touch.takerFill (o : OrderParams) (m : Market) (t : Touch) : EventView :=
  match o.side with
  | .ask => .fill .ask false (wmul t.lots m.coinLot) (t.pc m - o.feeTier.takerFee (t.pc m))
      (o.feeTier.takerFee (t.pc m)) o.orderId o.owner o.ownerSlot o.feeTier o.clientId
  | .bid => .fill .bid false (t.pc m + o.feeTier.takerFee (t.pc m)) (t.lots * m.coinLot)
      (o.feeTier.takerFee (t.pc m)) o.orderId o.owner o.ownerSlot o.feeTier o.clientId

/-- Native amount locked by `lots` of a resting order of a side. -/
def lockedValue (side : Side) (m : Market) (price lots : Nat) : Nat :=
  match side with
  | .bid => lots * price * m.pcLot
  | .ask => lots * m.coinLot

/-- The releasing out event of a touch, if any: a used-up order leaves, a self-traded one gets back what
was cancelled. -/
def Touch.release (side : Side) (m : Market) (t : Touch) : List EventView :=
  if t.filled then
    if t.maker.quantity = t.lots then
      [.out side.other true 0 0 t.maker.key t.maker.owner t.maker.ownerSlot t.maker.clientId] else []
  else [.out side.other true (lockedValue side.other m t.maker.price t.lots)
    (lockedValue side.other m t.maker.price (t.maker.quantity - t.lots))
    t.maker.key t.maker.owner t.maker.ownerSlot t.maker.clientId]

/-- The releasing out event of an evicted order. -/
def evictRelease (side : Side) (m : Market) : Option Posting → List EventView
  | some ⟨_, some l⟩ => [.out side true (lockedValue side m l.price l.quantity) 0 l.key l.owner
      l.ownerSlot l.clientId]
  | _ => []

/-- An out event of the incoming order. -/
def OwnOut (o : OrderParams) (final : Bool) (v : EventView) : Prop :=
  ∃ u s, v = .out o.side false u s o.orderId o.owner o.ownerSlot o.clientId ∧ (final = true ↔ s = 0)

/-- The events of a run. -/
structure EvReport (o : OrderParams) (m : Market) (ts : List Touch) (f : Option Posting)
    (evs : List EventView) : Prop where
  makers : evs.filter EventView.isMakerFill = (ts.filter (·.filled)).map (Touch.makerFill o.side m)
  takers : evs.filter EventView.isTakerFill =
    if o.owner = 0 then [] else (ts.filter (·.filled)).map (Touch.takerFill o m)
  releases : evs.filter EventView.isRelease =
    ts.flatMap (Touch.release o.side m) ++ evictRelease o.side m f

/-- How the order's own out events end: a final one, last, exactly when nothing of it rests. -/
inductive OutReport (o : OrderParams) (r : Option Remaining) (f : Option Posting) :
    List EventView → Prop where
  | open (evs : List EventView) (hrf : r.isSome = true ∨ f.isSome = true)
      (h : ∀ v ∈ evs, v.isReport = true → OwnOut o false v) : OutReport o r f evs
  | closed (evs : List EventView) (v : EventView) (hr : r = none) (hf : f = none) (ho : o.owner ≠ 0)
      (h : ∀ v ∈ evs, v.isReport = true → OwnOut o false v) (hv : OwnOut o true v) :
      OutReport o r f (evs ++ [v])
  | take (evs : List EventView) (hr : r = none) (hf : f = none) (ho : o.owner = 0)
      (h : ∀ v ∈ evs, v.isReport = false) : OutReport o r f evs

@[simp] theorem iter_owner (o : OrderParams) (c p : Nat) (b : Bool) : (o.iter c p b).owner = o.owner := rfl
@[simp] theorem iter_coinQty (o : OrderParams) (c p : Nat) (b : Bool) : (o.iter c p b).coinQty = c := rfl

theorem round_events {o : OrderParams} {po : Bool} {ob ob' : Ob lst} {coin pc : Nat}
    {r : Option Remaining} {ts : List Touch} {f : Option Posting} (ho : OrderOk o)
    (hi : RoundIn o ob coin pc)
    (hz : o.owner = 0 → ∀ l ∈ opposite o.side ob.bids.items ob.asks.items, l.owner ≠ 0)
    (h : Round o po ob coin pc ob' r ts f) :
    ∃ evs : List EventView, ob'.q.items = ob.q.items ++ evs.map Event.new ∧ ob'.q.cap = ob.q.cap ∧
      EvReport o ob.mkt ts f evs ∧ OutReport o r f evs := by
  obtain ⟨hm, hb, hc0, hcl, hpl, hval, hfr⟩ := hi
  unfold Round at h
  have hcq : (o.iter coin pc po).coinQty = coin := rfl
  have how : (o.iter coin pc po).owner = o.owner := rfl
  cases hside : o.side with
  | ask =>
    rw [hside] at h
    simp only at h
    cases h with
    | post hlim hpa hns hcap =>
      exact ⟨[], by simp [Ob.putAsks], rfl, ⟨by simp, by simp, by simp [evictRelease]⟩,
        .open _ (by simp) (by simp)⟩
    | evict A l hlim hpa hns hcap hA =>
      refine ⟨_, rfl, rfl, ⟨?_, ?_, ?_⟩, .open _ (by simp) ?_⟩ <;>
        simp [Leaf.out, EventView.isMakerFill, EventView.isTakerFill, EventView.isRelease,
          EventView.isReport, evictRelease, lockedValue, hside]
    | release hlim hwhy hns hb' =>
      refine ⟨_, rfl, rfl, ⟨?_, ?_, ?_⟩, .closed [] _ rfl rfl hns (by simp) ?_⟩
      · simp [IterParams.out, EventView.isMakerFill]
      · simp [IterParams.out, EventView.isTakerFill]
      · simp [IterParams.out, EventView.isRelease, evictRelease]
      · exact ⟨_, 0, by rw [hside]; rfl, by simp⟩
    | stop hlim hs =>
      exact ⟨[], by simp, rfl, ⟨by simp, by simp, by simp [evictRelease]⟩, .take _ rfl rfl hs (by simp)⟩
    | selfTrade B best provide take hB hpr hpo hown hst hb' =>
      have hown0 : o.owner ≠ 0 := by
        intro h0
        have h1 : best.owner = 0 := by rw [← hown]; exact h0
        exact hz h0 best (by rw [hside]; simp [opposite, hB]) h1
      refine ⟨_, rfl, rfl, ⟨?_, ?_, ?_⟩, ?_⟩
      · simp [IterParams.out, Leaf.out, EventView.isMakerFill]
      · simp [IterParams.out, Leaf.out, EventView.isTakerFill]
      · simp [List.filter_cons, IterParams.out, Leaf.out, EventView.isRelease, evictRelease, Touch.release, hside,
          Side.other, lockedValue]
      · have hle : take ≤ coin := by rcases hst with ⟨_, _, h⟩ | ⟨_, _, h⟩ <;> omega
        by_cases he : coin = take
        · rw [if_pos (by rw [hcq]; exact he)]
          refine .closed [_] _ rfl rfl hown0 ?_ ⟨_, _, by rw [hside]; rfl, ?_⟩
          · simp [Leaf.out, EventView.isReport]
          · rw [hcq]; simp; omega
        · rw [if_neg (by rw [hcq]; exact he)]
          refine .open _ (by simp) ?_
          intro v hv hr
          simp only [List.mem_cons, List.not_mem_nil, or_false] at hv
          rcases hv with rfl | rfl
          · simp [Leaf.out, EventView.isReport] at hr
          · refine ⟨_, _, by rw [hside]; rfl, ?_⟩
            rw [hcq]; simp; omega
    | fill B best tq fee hB hpr hpo hown htq hfee hb1 hb2 =>
      refine ⟨_, rfl, rfl, ⟨?_, ?_, ?_⟩, ?_⟩
      · unfold askFillEvs
        by_cases h0 : o.owner = 0 <;> by_cases h1 : best.quantity = tq <;> by_cases h2 : coin = tq <;>
          simp [List.filter_cons, h0, h1, h2, IterParams.out, Leaf.out, EventView.isMakerFill, Touch.makerFill,
            hside, Touch.pc]
      · unfold askFillEvs
        by_cases h0 : o.owner = 0 <;> by_cases h1 : best.quantity = tq <;> by_cases h2 : coin = tq <;>
          simp [List.filter_cons, h0, h1, h2, IterParams.out, Leaf.out, EventView.isTakerFill, Touch.takerFill,
            hside, Touch.pc, OrderParams.iter]
      · unfold askFillEvs
        by_cases h0 : o.owner = 0 <;> by_cases h1 : best.quantity = tq <;> by_cases h2 : coin = tq <;>
          simp [List.filter_cons, h0, h1, h2, IterParams.out, Leaf.out, EventView.isRelease, Touch.release,
            hside, evictRelease, Side.other]
      · unfold askFillEvs
        simp only [how, hcq]
        by_cases h2 : coin = tq
        · rw [if_pos h2, if_pos h2]
          by_cases h0 : o.owner = 0
          · refine .take _ rfl rfl h0 ?_
            by_cases h1 : best.quantity = tq <;> simp [h0, h1, Leaf.out, EventView.isReport]
          · rw [if_neg h0, if_neg h0]
            refine .closed _ _ rfl rfl h0 ?_ ⟨_, 0, by rw [hside]; rfl, by simp⟩
            by_cases h1 : best.quantity = tq <;> simp [h1, Leaf.out, EventView.isReport]
        · rw [if_neg h2, if_neg h2]
          refine .open _ (by simp) ?_
          by_cases h0 : o.owner = 0 <;> by_cases h1 : best.quantity = tq <;>
            simp [h0, h1, Leaf.out, EventView.isReport]
  | bid =>
    rw [hside] at h
    simp only at h
    cases h with
    | post qty hlim hpa hns hqty hq0 hle hb' hcap =>
      refine ⟨_, rfl, rfl, ⟨?_, ?_, ?_⟩, .open _ (by simp) ?_⟩
      · simp [IterParams.out, EventView.isMakerFill]
      · simp [IterParams.out, EventView.isTakerFill]
      · simp [IterParams.out, EventView.isRelease, evictRelease]
      · intro v hv hr
        rw [List.mem_singleton] at hv
        subst hv
        refine ⟨_, _, by rw [hside]; rfl, ?_⟩
        have : 0 < qty * (o.iter coin pc po).limitPrice * ob.mkt.pcLot :=
          Nat.mul_pos (Nat.mul_pos hq0 ho.price) hm.pcLot
        simp; omega
    | evict qty B l hlim hpa hns hqty hq0 hle hb' hcap hB =>
      refine ⟨_, rfl, rfl, ⟨?_, ?_, ?_⟩, .open _ (by simp) ?_⟩
      · simp [IterParams.out, Leaf.out, EventView.isMakerFill]
      · simp [IterParams.out, Leaf.out, EventView.isTakerFill]
      · simp [List.filter_cons, IterParams.out, Leaf.out, EventView.isRelease, evictRelease, lockedValue, hside]
      · intro v hv hr
        simp only [List.mem_cons, List.not_mem_nil, or_false] at hv
        rcases hv with rfl | rfl
        · refine ⟨_, _, by rw [hside]; rfl, ?_⟩
          have : 0 < qty * (o.iter coin pc po).limitPrice * ob.mkt.pcLot :=
            Nat.mul_pos (Nat.mul_pos hq0 ho.price) hm.pcLot
          simp; omega
        · simp [Leaf.out, EventView.isReport] at hr
    | release hlim hwhy hns hb' =>
      refine ⟨_, rfl, rfl, ⟨?_, ?_, ?_⟩, .closed [] _ rfl rfl hns (by simp) ?_⟩
      · simp [IterParams.out, EventView.isMakerFill]
      · simp [IterParams.out, EventView.isTakerFill]
      · simp [IterParams.out, EventView.isRelease, evictRelease]
      · exact ⟨_, 0, by rw [hside]; rfl, by simp⟩
    | stop hlim hs =>
      exact ⟨[], by simp, rfl, ⟨by simp, by simp, by simp [evictRelease]⟩, .take _ rfl rfl hs (by simp)⟩
    | selfTrade A best provide take unlocked still hA hpr hpo hown htq hst hle hgo hb' =>
      have hown0 : o.owner ≠ 0 := by
        intro h0
        have h1 : best.owner = 0 := by rw [← hown]; exact h0
        exact hz h0 best (by rw [hside]; simp [opposite, hA]) h1
      refine ⟨_, rfl, rfl, ⟨?_, ?_, ?_⟩, ?_⟩
      · simp [IterParams.out, Leaf.out, EventView.isMakerFill]
      · simp [IterParams.out, Leaf.out, EventView.isTakerFill]
      · simp [List.filter_cons, IterParams.out, Leaf.out, EventView.isRelease, evictRelease, Touch.release, hside,
          Side.other, lockedValue]
      · by_cases he : still = 0
        · rw [if_pos he]
          refine .closed [_] _ rfl rfl hown0 ?_ ⟨_, _, by rw [hside]; rfl, ?_⟩
          · simp [Leaf.out, EventView.isReport]
          · simp [he]
        · rw [if_neg he]
          refine .open _ (by simp) ?_
          intro v hv hr
          simp only [List.mem_cons, List.not_mem_nil, or_false] at hv
          rcases hv with rfl | rfl
          · simp [Leaf.out, EventView.isReport] at hr
          · exact ⟨_, _, by rw [hside]; rfl, by simp [he]⟩
    | fill A best tq pc' fee left hA hpr hpo hown htq htpos hpc hfee hleft hb1 hb2 =>
      refine ⟨_, rfl, rfl, ⟨?_, ?_, ?_⟩, ?_⟩
      · unfold bidFillEvs
        by_cases h0 : o.owner = 0 <;> by_cases h1 : best.quantity = tq <;>
          by_cases h2 : coin ≠ tq ∧ left ≠ 0 <;>
          simp [List.filter_cons, h0, h1, h2, IterParams.out, Leaf.out, EventView.isMakerFill, Touch.makerFill,
            hside, Touch.pc]
      · unfold bidFillEvs
        by_cases h0 : o.owner = 0 <;> by_cases h1 : best.quantity = tq <;>
          by_cases h2 : coin ≠ tq ∧ left ≠ 0 <;>
          simp [List.filter_cons, h0, h1, h2, IterParams.out, Leaf.out, EventView.isTakerFill, Touch.takerFill,
            hside, Touch.pc, OrderParams.iter]
      · unfold bidFillEvs
        by_cases h0 : o.owner = 0 <;> by_cases h1 : best.quantity = tq <;>
          by_cases h2 : coin ≠ tq ∧ left ≠ 0 <;>
          simp [List.filter_cons, h0, h1, h2, IterParams.out, Leaf.out, EventView.isRelease, Touch.release,
            hside, evictRelease, Side.other]
      · unfold bidFillEvs
        simp only [how, hcq]
        by_cases h2 : coin ≠ tq ∧ left ≠ 0
        · rw [if_pos h2, if_pos h2]
          refine .open _ (by simp) ?_
          by_cases h0 : o.owner = 0 <;> by_cases h1 : best.quantity = tq <;>
            simp [h0, h1, Leaf.out, EventView.isReport]
        · rw [if_neg h2, if_neg h2]
          by_cases h0 : o.owner = 0
          · refine .take _ rfl rfl h0 ?_
            by_cases h1 : best.quantity = tq <;> simp [h0, h1, Leaf.out, EventView.isReport]
          · rw [if_neg h0, if_neg h0]
            refine .closed _ _ rfl rfl h0 ?_ ⟨_, 0, by rw [hside]; rfl, by simp⟩
            by_cases h1 : best.quantity = tq <;> simp [h1, Leaf.out, EventView.isReport]

theorem SameMarket.pc {m m' : Market} (h : SameMarket m m') (t : Touch) : t.pc m' = t.pc m := by
  unfold Touch.pc; rw [h.pcLot]

theorem EvReport.same {o : OrderParams} {m m' : Market} (h : SameMarket m m') {ts : List Touch}
    {f : Option Posting} {evs : List EventView} (hr : EvReport o m' ts f evs) :
    EvReport o m ts f evs := by
  have e1 : Touch.makerFill o.side m' = Touch.makerFill o.side m := by
    funext t; unfold Touch.makerFill; rw [h.pc, h.coinLot]
  have e2 : Touch.takerFill o m' = Touch.takerFill o m := by
    funext t; unfold Touch.takerFill; rw [h.pc, h.coinLot]
  have e0 : ∀ s p n, lockedValue s m' p n = lockedValue s m p n := by
    intro s p n; unfold lockedValue; rw [h.pcLot, h.coinLot]
  have e3 : Touch.release o.side m' = Touch.release o.side m := by
    funext t; unfold Touch.release; simp only [e0]
  have e4 : evictRelease o.side m' f = evictRelease o.side m f := by
    unfold evictRelease; simp only [e0]
  obtain ⟨a, b, c⟩ := hr
  exact ⟨by rw [a, e1], by rw [b, e2], by rw [c, e3, e4]⟩

/-- Orders left by `takeFront` come from the orders before. -/
theorem takeFront_mem {L L' : List Leaf} {ts : List Touch} (h : takeFront L ts = some L') {x : Leaf}
    (hx : x ∈ L') : ∃ y ∈ L, x = { y with quantity := x.quantity } ∧ x.quantity ≤ y.quantity := by
  induction ts generalizing L with
  | nil =>
    simp only [takeFront, Option.some.injEq] at h
    subst h
    exact ⟨x, hx, rfl, Nat.le_refl _⟩
  | cons t ts ih =>
    cases L with
    | nil => cases h
    | cons l L =>
      simp only [takeFront] at h
      split at h
      · obtain ⟨y, hy, e, hle⟩ := ih h
        split at hy
        · exact ⟨y, by simp [hy], e, hle⟩
        · rw [List.mem_cons] at hy
          rcases hy with rfl | hy
          · refine ⟨l, by simp, ?_, ?_⟩
            · exact e
            · simp only at hle; omega
          · exact ⟨y, by simp [hy], e, hle⟩
      · cases h

theorem OutReport.append {o : OrderParams} {r r' : Option Remaining} {f f' : Option Posting}
    {a b : List EventView} (h1 : OutReport o r f a) (hr : r.isSome = true) (h2 : OutReport o r' f' b) :
    (o.owner = 0 ∧ ∃ v ∈ a, v.isReport = true) ∨ OutReport o r' f' (a ++ b) := by
  cases h1 with
  | closed _ _ h => subst h; cases hr
  | take _ h => subst h; cases hr
  | «open» _ hrf ha =>
    cases h2 with
    | «open» _ hrf' hb =>
      right
      refine .open _ hrf' ?_
      intro v hv
      rw [List.mem_append] at hv
      exact hv.elim (ha v) (hb v)
    | closed evs v h1 h2 h3 hb hv =>
      right
      rw [← List.append_assoc]
      refine .closed _ _ h1 h2 h3 ?_ hv
      intro v hv
      rw [List.mem_append] at hv
      exact hv.elim (ha v) (hb v)
    | take _ h1 h2 h3 hb =>
      by_cases hex : ∃ v ∈ a, v.isReport = true
      · exact .inl ⟨h3, hex⟩
      · right
        refine .take _ h1 h2 h3 ?_
        intro v hv
        rw [List.mem_append] at hv
        refine hv.elim (fun hv => ?_) (hb v)
        cases hc : v.isReport with
        | false => rfl
        | true => exact absurd ⟨v, hv, hc⟩ hex

theorem map_new_inj {a b : List EventView} (h : a.map Event.new = b.map Event.new) : a = b := by
  induction a generalizing b with
  | nil => cases b with
    | nil => rfl
    | cons => cases h
  | cons x a ih => cases b with
    | nil => cases h
    | cons y b =>
      simp only [List.map_cons, List.cons.injEq] at h
      have h1 := congrArg Event.asView h.1
      simp only [Event.asView_new, Except.ok.injEq] at h1
      rw [h1, ih h.2]

/-- A send-take never reports on itself. -/
def NoReport (o : OrderParams) (evs : List EventView) : Prop :=
  o.owner = 0 → ∀ v ∈ evs, v.isReport = false

theorem round_noReport {o : OrderParams} {po : Bool} {ob ob' : Ob lst} {coin pc : Nat}
    {r : Option Remaining} {ts : List Touch} {f : Option Posting}
    (hz : o.owner = 0 → ∀ l ∈ opposite o.side ob.bids.items ob.asks.items, l.owner ≠ 0)
    (h : Round o po ob coin pc ob' r ts f) {evs : List EventView}
    (he : ob'.q.items = ob.q.items ++ evs.map Event.new) : NoReport o evs := by
  intro h0
  have key : ∀ evs' : List EventView, ob'.q.items = ob.q.items ++ evs'.map Event.new →
      (∀ v ∈ evs', v.isReport = false) → ∀ v ∈ evs, v.isReport = false := by
    intro evs' he' hv
    rw [he', List.append_cancel_left_eq] at he
    have e : evs' = evs := map_new_inj he
    rw [← e]; exact hv
  unfold Round at h
  have how : ∀ c p b, (o.iter c p b).owner = o.owner := fun _ _ _ => rfl
  cases hside : o.side with
  | ask =>
    rw [hside] at h
    simp only at h
    cases h with
    | post hlim hpa hns hcap => exact absurd h0 hns
    | evict A l hlim hpa hns hcap hA => exact absurd h0 hns
    | release hlim hwhy hns hb' => exact absurd h0 hns
    | stop hlim hs => exact key [] (by simp) (by simp)
    | selfTrade B best provide take hB hpr hpo hown hst hb' =>
      have h1 : best.owner = 0 := by rw [← hown]; exact h0
      exact absurd h1 (hz h0 best (by rw [hside]; simp [opposite, hB]))
    | fill B best tq fee hB hpr hpo hown htq hfee hb1 hb2 =>
      refine key _ rfl ?_
      unfold askFillEvs
      by_cases h1 : best.quantity = tq <;> simp [h0, h1, Leaf.out, EventView.isReport]
  | bid =>
    rw [hside] at h
    simp only at h
    cases h with
    | post qty hlim hpa hns hqty hq0 hle hb' hcap => exact absurd h0 hns
    | evict qty B l hlim hpa hns hqty hq0 hle hb' hcap hB => exact absurd h0 hns
    | release hlim hwhy hns hb' => exact absurd h0 hns
    | stop hlim hs => exact key [] (by simp) (by simp)
    | selfTrade A best provide take unlocked still hA hpr hpo hown htq hst hle hgo hb' =>
      have h1 : best.owner = 0 := by rw [← hown]; exact h0
      exact absurd h1 (hz h0 best (by rw [hside]; simp [opposite, hA]))
    | fill A best tq pc' fee left hA hpr hpo hown htq htpos hpc hfee hleft hb1 hb2 =>
      refine key _ rfl ?_
      unfold bidFillEvs
      by_cases h1 : best.quantity = tq <;> simp [h0, h1, Leaf.out, EventView.isReport]

theorem path_events {o : OrderParams} (ho : OrderOk o) {limit : Nat} {ob ob' : Ob lst} {coin pc : Nat}
    {ts : List Touch} {f : Option Posting} (hi : RoundIn o ob coin pc)
    (hz : o.owner = 0 → ∀ l ∈ opposite o.side ob.bids.items ob.asks.items, l.owner ≠ 0)
    (h : Path o limit ob coin pc ob' ts f) :
    ∃ evs : List EventView, ob'.q.items = ob.q.items ++ evs.map Event.new ∧ ob'.q.cap = ob.q.cap ∧
      EvReport o ob.mkt ts f evs ∧ OutReport o none f evs := by
  induction h with
  | last h => exact round_events ho hi hz h
  | stop h => exact round_events ho hi hz h
  | @more limit ob coin pc ob1 ob' r ts ts' f' f h _ ih =>
    obtain ⟨e1, q1, c1, r1, o1⟩ := round_events ho hi hz h
    have hn1 := round_noReport hz h q1
    have hp := round_pres ho hi h
    have ht := round_touches hi (by simp) h
    have hf := (ht.2.2.2 rfl).2
    subst hf
    have hz' : o.owner = 0 → ∀ l ∈ opposite o.side ob1.bids.items ob1.asks.items, l.owner ≠ 0 := by
      intro h0 l hl
      obtain ⟨y, hy, e, _⟩ := takeFront_mem ht.1 hl
      have : l.owner = y.owner := by rw [e]
      rw [this]; exact hz h0 y hy
    obtain ⟨e2, q2, c2, r2, o2⟩ := ih (hp.2.2.2 _ rfl) hz'
    have r2 := r2.same hp.1
    refine ⟨e1 ++ e2, by rw [q2, q1]; simp, by rw [c2, c1], ⟨?_, ?_, ?_⟩, ?_⟩
    · rw [List.filter_append, r1.makers, r2.makers]; simp
    · rw [List.filter_append, r1.takers, r2.takers]
      split <;> simp
    · rw [List.filter_append, r1.releases, r2.releases]
      simp [evictRelease]
    · rcases o1.append rfl o2 with ⟨h0, v, hv, hv'⟩ | h
      · rw [hn1 h0 v hv] at hv'; cases hv'
      · exact h

/-! ### Money -/

/-- What an incoming order of `coin` lots (and, for a bid, `pc` quote) ended up with. -/
def PrReport (o : OrderParams) (m : Market) (coin pc : Nat) (pr pr' : Proceeds) (ts : List Touch)
    (f : Option Posting) (rem : Option Remaining) : Prop :=
  match o.side with
  | .ask => ∃ tail,
      coin = sumBy Touch.traded ts + sumBy (Touch.given o.stb) ts + postedLots f + tail +
        (match rem with | some r => r.coin | none => 0) ∧
      (rem.isSome = true → tail = 0) ∧
      pr' = { pr with
        coinUnlocked := pr.coinUnlocked + sumBy (Touch.given o.stb) ts + (if o.owner = 0 then 0 else tail)
        coinDebit := pr.coinDebit + sumBy Touch.traded ts
        pcCredit := pr.pcCredit + sumBy (fun t => t.tradedPc m - t.fee m o.feeTier) ts }
  | .bid => ∃ tail given,
      pc = sumBy (fun t => t.tradedPc m + t.fee m o.feeTier) ts + given +
        postedLots f * extractPrice o.orderId * m.pcLot + tail +
        (match rem with | some r => r.pc | none => 0) ∧
      (rem.isSome = true → tail = 0) ∧
      sumBy Touch.traded ts + sumBy (Touch.given o.stb) ts + postedLots f +
        (match rem with | some r => r.coin | none => 0) ≤ coin ∧
      given = sumBy (fun t => t.given o.stb * t.maker.price * m.pcLot) ts ∧
      pr' = { pr with
        pcUnlocked := pr.pcUnlocked + given + (if o.owner = 0 then 0 else tail)
        coinCredit := pr.coinCredit + sumBy Touch.traded ts
        pcDebit := pr.pcDebit + sumBy (fun t => t.tradedPc m + t.fee m o.feeTier) ts }

theorem round_money {o : OrderParams} {po : Bool} {ob ob' : Ob lst} {coin pc : Nat}
    {r : Option Remaining} {ts : List Touch} {f : Option Posting}
    (hz : o.owner = 0 → ∀ l ∈ opposite o.side ob.bids.items ob.asks.items, l.owner ≠ 0)
    (h : Round o po ob coin pc ob' r ts f) : PrReport o ob.mkt coin pc ob.pr ob'.pr ts f r := by
  unfold Round at h
  unfold PrReport
  have hco : (o.iter coin pc po).coinQty = coin := rfl
  have hst' : (o.iter coin pc po).stb = o.stb := rfl
  have hpc' : (o.iter coin pc po).pcLocked = pc := rfl
  have hlp : (o.iter coin pc po).limitPrice = extractPrice o.orderId := rfl
  have hft : (o.iter coin pc po).feeTier = o.feeTier := rfl
  cases hside : o.side with
  | ask =>
    rw [hside] at h
    simp only at h
    cases h with
    | post hlim hpa hns hcap => exact ⟨0, by simp [postedLots], by simp, by simp [Ob.putAsks]⟩
    | evict A l hlim hpa hns hcap hA =>
      exact ⟨0, by simp [postedLots], by simp, by simp [Ob.putAsks, Ob.push]⟩
    | release hlim hwhy hns hb' =>
      have hn : o.owner ≠ 0 := hns
      exact ⟨coin, by simp [postedLots], by simp, by simp [Ob.putPr, Ob.push, hn]⟩
    | stop hlim hs =>
      have hn : o.owner = 0 := hs
      exact ⟨coin, by simp [postedLots], by simp, by simp [hn]⟩
    | selfTrade B best provide take hB hpr hpo hown hst hb' =>
      have hg : sumBy (Touch.given o.stb) [⟨best, provide, false⟩] = take := by
        rcases hst with ⟨a, b, c⟩ | ⟨a, b, c⟩
        · rw [hst'] at a; simp [Touch.given, a, b, c]
        · rw [hst'] at a; simp [Touch.given, a, c]
      have hle : take ≤ coin := by rcases hst with ⟨_, _, h⟩ | ⟨_, _, h⟩ <;> omega
      refine ⟨0, ?_, by simp, ?_⟩
      · rw [hg, hco]
        split
        · rename_i x r' hx
          split at hx
          · cases hx
          · simp only [Option.some.injEq] at hx
            subst hx
            simp [postedLots, Touch.traded]; omega
        · rename_i x hx
          split at hx
          · simp [postedLots, Touch.traded]; omega
          · cases hx
      · rw [hg]; simp [Ob.putPr, Ob.push, Touch.traded, Touch.tradedPc, Touch.fee]
    | fill B best tq fee hB hpr hpo hown htq hfee hb1 hb2 =>
      have hle : tq ≤ coin := by omega
      refine ⟨0, ?_, by simp, ?_⟩
      · rw [hco]
        split
        · rename_i x r' hx
          split at hx
          · cases hx
          · simp only [Option.some.injEq] at hx
            subst hx
            simp [postedLots, Touch.traded, Touch.given]; omega
        · rename_i x hx
          split at hx
          · simp [postedLots, Touch.traded, Touch.given]; omega
          · cases hx
      · rw [hft] at hfee
        simp [Ob.putPr, Ob.push, Ob.putMkt, Touch.traded, Touch.tradedPc, Touch.fee, Touch.given, Touch.pc, hfee]
  | bid =>
    rw [hside] at h
    simp only at h
    cases h with
    | post qty hlim hpa hns hqty hq0 hle hb' hcap =>
      have hn : o.owner ≠ 0 := hns
      rw [hlp, hpc'] at hle
      refine ⟨pc - qty * extractPrice o.orderId * ob.mkt.pcLot, 0, ?_, by simp, ?_, by simp, ?_⟩
      · simp [postedLots]; omega
      · simp [postedLots]; omega
      · simp [Ob.putPr, Ob.push, Ob.putBids, hn, hlp, hpc']
    | evict qty B l hlim hpa hns hqty hq0 hle hb' hcap hB =>
      have hn : o.owner ≠ 0 := hns
      rw [hlp, hpc'] at hle
      refine ⟨pc - qty * extractPrice o.orderId * ob.mkt.pcLot, 0, ?_, by simp, ?_, by simp, ?_⟩
      · simp [postedLots]; omega
      · simp [postedLots]; omega
      · simp [Ob.putPr, Ob.push, Ob.putBids, hn, hlp, hpc']
    | release hlim hwhy hns hb' =>
      have hn : o.owner ≠ 0 := hns
      exact ⟨pc, 0, by simp [postedLots], by simp, by simp [postedLots], by simp,
        by simp [Ob.putPr, Ob.push, hn, hpc']⟩
    | stop hlim hs =>
      have hn : o.owner = 0 := hs
      exact ⟨pc, 0, by simp [postedLots], by simp, by simp [postedLots], by simp, by simp [hn]⟩
    | selfTrade A best provide take unlocked still hA hpr hpo hown htq hst hle hgo hb' =>
      have hn : o.owner ≠ 0 := by
        intro h0
        have h1 : best.owner = 0 := by rw [← hown]; exact h0
        exact hz h0 best (by rw [hside]; simp [opposite, hA]) h1
      rw [hpc'] at hle
      rw [hco, hpc'] at hgo
      have hb1 : bidTradeQty ob.mkt (o.iter coin pc po) best ≤ coin := by unfold bidTradeQty; omega
      have htc : take ≤ coin := by rcases hst with ⟨_, _, h⟩ | ⟨_, _, h⟩ <;> omega
      have hg : Touch.given o.stb ⟨best, provide, false⟩ = take := by
        rcases hst with ⟨a, b, c⟩ | ⟨a, b, c⟩
        · rw [hst'] at a; simp [Touch.given, a, b, c]
        · rw [hst'] at a; simp [Touch.given, a, c]
      refine ⟨unlocked - take * best.price * ob.mkt.pcLot, take * best.price * ob.mkt.pcLot, ?_, ?_, ?_, ?_, ?_⟩
      · simp only [sumBy_cons, sumBy_nil, Touch.tradedPc, Touch.fee, postedLots]
        rcases hgo with ⟨h1, h2, h3, h4⟩ | ⟨h1, h3, h4⟩
        · have h5 : still ≠ 0 := by
            rw [h4]; intro h6; exact h2 (Nat.le_antisymm (Nat.le_of_sub_eq_zero h6) hle)
          rw [if_neg h5, h3, h4]
          generalize take * best.price * ob.mkt.pcLot = X at *
          simp; omega
        · rw [if_pos h4]; simp; omega
      · intro hr
        rcases hgo with ⟨h1, h2, h3, h4⟩ | ⟨h1, h3, h4⟩
        · omega
        · rw [if_pos h4] at hr; cases hr
      · rw [hco]
        simp only [sumBy_cons, sumBy_nil, Touch.traded, hg, postedLots]
        rcases hgo with ⟨h1, h2, h3, h4⟩ | ⟨h1, h3, h4⟩
        · have h5 : still ≠ 0 := by
            rw [h4]; intro h6; exact h2 (Nat.le_antisymm (Nat.le_of_sub_eq_zero h6) hle)
          rw [if_neg h5]; simp; omega
        · rw [if_pos h4]; simp; omega
      · simp only [sumBy_cons, sumBy_nil, hg]; omega
      · have e : take * best.price * ob.mkt.pcLot + (unlocked - take * best.price * ob.mkt.pcLot) = unlocked := by
          rcases hgo with ⟨h1, h2, h3, h4⟩ | ⟨h1, h3, h4⟩ <;> omega
        simp [Ob.putPr, Ob.push, Touch.traded, Touch.tradedPc, Touch.fee, hn, Nat.add_assoc, e]
    | fill A best tq pc' fee left hA hpr hpo hown htq htpos hpc hfee hleft hb1 hb2 =>
      have htc : tq ≤ coin := by rw [htq]; unfold bidTradeQty; rw [hco]; omega
      rw [hpc'] at hleft
      rw [hft] at hfee
      rw [hco]
      have e1 : sumBy (fun t => Touch.tradedPc ob.mkt t + t.fee ob.mkt o.feeTier) [⟨best, tq, true⟩] =
          pc' + fee := by
        simp [Touch.tradedPc, Touch.fee, Touch.pc, hfee, hpc]
      have how : (o.iter coin pc po).owner = o.owner := rfl
      rw [e1, how]
      by_cases h2 : coin ≠ tq ∧ left ≠ 0
      · rw [if_pos h2]
        refine ⟨0, 0, ?_, by simp, ?_, by simp [Touch.given], ?_⟩
        · simp [postedLots]; omega
        · simp [postedLots, Touch.traded, Touch.given]; omega
        · simp [Ob.putPr, Ob.push, Ob.putMkt, Touch.traded, h2]
      · rw [if_neg h2]
        refine ⟨left, 0, ?_, by simp, ?_, by simp [Touch.given], ?_⟩
        · simp [postedLots]; omega
        · simp [postedLots, Touch.traded, Touch.given]; omega
        · by_cases h0 : o.owner = 0 <;> simp [Ob.putPr, Ob.push, Ob.putMkt, Touch.traded, h2, h0]

theorem path_money {o : OrderParams} (ho : OrderOk o) {limit : Nat} {ob ob' : Ob lst} {coin pc : Nat}
    {ts : List Touch} {f : Option Posting} (hi : RoundIn o ob coin pc)
    (hz : o.owner = 0 → ∀ l ∈ opposite o.side ob.bids.items ob.asks.items, l.owner ≠ 0)
    (h : Path o limit ob coin pc ob' ts f) : PrReport o ob.mkt coin pc ob.pr ob'.pr ts f none := by
  induction h with
  | last h => exact round_money hz h
  | stop h => exact round_money hz h
  | @more limit ob coin pc ob1 ob' r ts ts' f' f h _ ih =>
    have r1 := round_money hz h
    have hp := round_pres ho hi h
    have ht := round_touches hi (by simp) h
    have hf := (ht.2.2.2 rfl).2
    subst hf
    have hz' : o.owner = 0 → ∀ l ∈ opposite o.side ob1.bids.items ob1.asks.items, l.owner ≠ 0 := by
      intro h0 l hl
      obtain ⟨y, hy, e, _⟩ := takeFront_mem ht.1 hl
      have : l.owner = y.owner := by rw [e]
      rw [this]; exact hz h0 y hy
    have r2 := ih (hp.2.2.2 _ rfl) hz'
    have hs := hp.1
    have e1 : Touch.tradedPc ob1.mkt = Touch.tradedPc ob.mkt := by
      funext t; unfold Touch.tradedPc; rw [hs.pc]
    have e2 : ∀ t : Touch, t.fee ob1.mkt o.feeTier = t.fee ob.mkt o.feeTier := by
      intro t; unfold Touch.fee; rw [hs.pc]
    unfold PrReport at r1 r2 ⊢
    cases hside : o.side with
    | ask =>
      rw [hside] at r1 r2
      simp only [e1, e2] at r1 r2 ⊢
      obtain ⟨t1, a1, b1, c1⟩ := r1
      obtain ⟨t2, a2, b2, c2⟩ := r2
      have := b1 rfl
      subst this
      refine ⟨t2, ?_, by simp, ?_⟩
      · simp [postedLots] at a1 a2 ⊢; omega
      · rw [c2, c1]; simp; omega
    | bid =>
      rw [hside] at r1 r2
      simp only [e1, e2, hs.pcLot] at r1 r2 ⊢
      obtain ⟨t1, g1, a1, b1, d1, k1, c1⟩ := r1
      obtain ⟨t2, g2, a2, b2, d2, k2, c2⟩ := r2
      have := b1 rfl
      subst this
      refine ⟨t2, g1 + g2, ?_, by simp, ?_, ?_, ?_⟩
      · simp [postedLots] at a1 a2 ⊢; omega
      · simp [postedLots] at d1 d2 ⊢; omega
      · simp [k1, k2]
      · rw [c2, c1]; simp; omega

/-- Fee accounting of a run: the market's fee counters and quote deposits, modulo 2^64. -/
structure FeeReport (o : OrderParams) (m m' : Market) (ts : List Touch) : Prop where
  same : SameMarket m m'
  refs : m'.referrerRebates = (m.referrerRebates + sumBy (Touch.ref m o.feeTier) ts) % W64
  fees : m'.pcFees = (m.pcFees + sumBy (fun t => t.fee m o.feeTier - t.ref m o.feeTier) ts) % W64
  deposits : (m'.pcDeposits + sumBy (Touch.fee m o.feeTier) ts) % W64 = m.pcDeposits

theorem referrerRebate_le (n : Nat) : referrerRebate n ≤ n := by unfold referrerRebate; omega

theorem accrue_report {m : Market} (hm : MktOk m) {fee : Nat} (hf : fee < W64) :
    (m.accrueFees fee 0).referrerRebates = (m.referrerRebates + referrerRebate fee) % W64 ∧
    (m.accrueFees fee 0).pcFees = (m.pcFees + (fee - referrerRebate fee)) % W64 ∧
    ((m.accrueFees fee 0).pcDeposits + fee) % W64 = m.pcDeposits := by
  have hr := referrerRebate_le fee
  have e0 : wsub fee 0 = fee := by rw [wsub_eq (by omega) hf]; omega
  have e1 : wsub fee (referrerRebate fee) = fee - referrerRebate fee := wsub_eq hr hf
  refine ⟨rfl, ?_, ?_⟩
  · show wadd m.pcFees (wsub (wsub fee 0) (referrerRebate fee)) = _
    rw [e0, e1]; rfl
  · show (wsub m.pcDeposits (wsub fee 0) + fee) % W64 = _
    rw [e0]
    exact wadd_wsub hm.pcDeposits

theorem round_fees {o : OrderParams} {po : Bool} {ob ob' : Ob lst} {coin pc : Nat}
    {r : Option Remaining} {ts : List Touch} {f : Option Posting} (ho : OrderOk o)
    (hi : RoundIn o ob coin pc) (h : Round o po ob coin pc ob' r ts f) :
    FeeReport o ob.mkt ob'.mkt ts := by
  have hs := (round_pres ho hi h).1
  obtain ⟨hm, hb, hc0, hcl, hpl, hval, hfr⟩ := hi
  have triv : ob'.mkt = ob.mkt → (∀ t ∈ ts, t.filled = false) → FeeReport o ob.mkt ob'.mkt ts := by
    intro e ht
    have h1 : sumBy (Touch.fee ob.mkt o.feeTier) ts = 0 := by
      clear h
      induction ts with
      | nil => rfl
      | cons t ts ih => rw [sumBy_cons, ih fun t h => ht t (by simp [h])]; simp [Touch.fee, ht t (by simp)]
    have h2 : sumBy (Touch.ref ob.mkt o.feeTier) ts = 0 := by
      clear h
      induction ts with
      | nil => rfl
      | cons t ts ih =>
        rw [sumBy_cons, ih fun t h => ht t (by simp [h])]
        · simp [Touch.ref, Touch.fee, ht t (by simp), referrerRebate]
        · rw [sumBy_cons] at h1; omega
    have h3 : sumBy (fun t => Touch.fee ob.mkt o.feeTier t - t.ref ob.mkt o.feeTier) ts = 0 := by
      clear h h2
      induction ts with
      | nil => rfl
      | cons t ts ih =>
        rw [sumBy_cons, ih fun t h => ht t (by simp [h])]
        · simp [Touch.fee, ht t (by simp)]
        · rw [sumBy_cons] at h1; omega
    refine ⟨hs, ?_, ?_, ?_⟩
    · rw [h2, e]; exact (Nat.mod_eq_of_lt hm.rebates).symm
    · rw [h3, e]; exact (Nat.mod_eq_of_lt hm.pcFees).symm
    · rw [h1, e]; exact Nat.mod_eq_of_lt hm.pcDeposits
  have one : ∀ (best : Leaf) (tq fee : Nat), fee = o.feeTier.takerFee (tq * best.price * ob.mkt.pcLot) →
      fee < W64 → ts = [⟨best, tq, true⟩] → ob'.mkt = ob.mkt.accrueFees fee 0 →
      FeeReport o ob.mkt ob'.mkt ts := by
    intro best tq fee hf hl ht he
    obtain ⟨a, b, c⟩ := accrue_report hm hl
    subst ht
    have e : Touch.fee ob.mkt o.feeTier ⟨best, tq, true⟩ = fee := by simp [Touch.fee, Touch.pc, hf]
    refine ⟨hs, ?_, ?_, ?_⟩
    · simp only [sumBy_cons, sumBy_nil, Touch.ref, e]; rw [he, a]; rfl
    · simp only [sumBy_cons, sumBy_nil, Touch.ref, e]; rw [he, b]; rfl
    · simp only [sumBy_cons, sumBy_nil, e]; rw [he, ← c]; rfl
  unfold Round at h
  cases hside : o.side with
  | ask =>
    rw [hside] at h
    simp only at h
    cases h with
    | post hlim hpa hns hcap => exact triv rfl (by simp)
    | evict A l hlim hpa hns hcap hA => exact triv rfl (by simp)
    | release hlim hwhy hns hb' => exact triv rfl (by simp)
    | stop hlim hs => exact triv rfl (by simp)
    | selfTrade B best provide take hB hpr hpo hown hst hb' => exact triv rfl (by simp)
    | fill B best tq fee hB hpr hpo hown htq hfee hb1 hb2 =>
      refine one best tq fee hfee ?_ rfl rfl
      have hmem : best ∈ ob.bids.items := by rw [hB]; simp
      have h1 := hb.bidVal _ hmem
      have h2 : tq * best.price * ob.mkt.pcLot ≤ best.quantity * best.price * ob.mkt.pcLot :=
        Nat.mul_le_mul (Nat.mul_le_mul (by omega) (Nat.le_refl _)) (Nat.le_refl _)
      have h3 : fee ≤ tq * best.price * ob.mkt.pcLot := by rw [hfee]; exact takerFee_le _ (by omega)
      omega
  | bid =>
    rw [hside] at h
    simp only at h
    cases h with
    | post qty hlim hpa hns hqty hq0 hle hb' hcap => exact triv rfl (by simp)
    | evict qty B l hlim hpa hns hqty hq0 hle hb' hcap hB => exact triv rfl (by simp)
    | release hlim hwhy hns hb' => exact triv rfl (by simp)
    | stop hlim hs => exact triv rfl (by simp)
    | selfTrade A best provide take unlocked still hA hpr hpo hown htq hst hle hgo hb' =>
      exact triv rfl (by simp)
    | fill A best tq pc' fee left hA hpr hpo hown htq htpos hpc hfee hleft hb1 hb2 =>
      subst hpc
      refine one best tq fee hfee ?_ rfl rfl
      have : (o.iter coin pc po).pcLocked = pc := rfl
      omega

theorem path_fees {o : OrderParams} (ho : OrderOk o) {limit : Nat} {ob ob' : Ob lst} {coin pc : Nat}
    {ts : List Touch} {f : Option Posting} (hi : RoundIn o ob coin pc)
    (h : Path o limit ob coin pc ob' ts f) : FeeReport o ob.mkt ob'.mkt ts := by
  induction h with
  | last h => exact round_fees ho hi h
  | stop h => exact round_fees ho hi h
  | @more limit ob coin pc ob1 ob' r ts ts' f' f h _ ih =>
    have r1 := round_fees ho hi h
    have hp := round_pres ho hi h
    have r2 := ih (hp.2.2.2 _ rfl)
    have hs := hp.1
    have e1 : Touch.fee ob1.mkt o.feeTier = Touch.fee ob.mkt o.feeTier := by
      funext t; unfold Touch.fee; rw [hs.pc]
    have e2 : Touch.ref ob1.mkt o.feeTier = Touch.ref ob.mkt o.feeTier := by
      funext t; unfold Touch.ref; rw [e1]
    obtain ⟨a, b, c, d⟩ := r1
    obtain ⟨a', b', c', d'⟩ := r2
    simp only [e1, e2] at b' c' d'
    refine ⟨a.trans a', ?_, ?_, ?_⟩
    · rw [b', b, sumBy_append, Nat.mod_add_mod, Nat.add_assoc]
    · rw [c', c, sumBy_append, Nat.mod_add_mod, Nat.add_assoc]
    · rw [sumBy_append, ← d, ← d', Nat.mod_add_mod]; congr 1; omega

/-- Lots of every touch are positive and within the maker's quantity. -/
theorem takeFront_lots {L L' : List Leaf} {ts : List Touch} (h : takeFront L ts = some L') {t : Touch}
    (ht : t ∈ ts) : 0 < t.lots ∧ t.lots ≤ t.maker.quantity := by
  induction ts generalizing L with
  | nil => cases ht
  | cons x ts ih =>
    cases L with
    | nil => cases h
    | cons l L =>
      simp only [takeFront] at h
      split at h
      · rename_i hc
        rw [List.mem_cons] at ht
        rcases ht with rfl | ht
        · rw [hc.1]; exact hc.2
        · exact ih h ht
      · cases h

/-- A touched order's value is at most what the order locked. -/
theorem takeFront_maker {L L' : List Leaf} {ts : List Touch} (h : takeFront L ts = some L') {t : Touch}
    (ht : t ∈ ts) : ∃ y ∈ L, t.maker = { y with quantity := t.maker.quantity } ∧
      t.maker.quantity ≤ y.quantity := by
  induction ts generalizing L with
  | nil => cases ht
  | cons x ts ih =>
    cases L with
    | nil => cases h
    | cons l L =>
      simp only [takeFront] at h
      split at h
      · rename_i hc
        rw [List.mem_cons] at ht
        rcases ht with rfl | ht
        · exact ⟨l, by simp, by rw [hc.1], by rw [hc.1]; exact Nat.le_refl _⟩
        · obtain ⟨y, hy, e, hle⟩ := ih h ht
          split at hy
          · exact ⟨y, by simp [hy], e, hle⟩
          · rw [List.mem_cons] at hy
            rcases hy with rfl | hy
            · exact ⟨l, by simp, e, Nat.le_trans hle (Nat.sub_le _ _)⟩
            · exact ⟨y, by simp [hy], e, hle⟩
      · cases h

end Serum
