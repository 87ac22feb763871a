import Verif.MatchReport

/-!
Textbook matching: a direct recursive description, over the other side's orders listed best first, of what
an incoming order should trade and what should rest of it; and the proof that a run of `newOrder` on
list-level books does exactly that.
-/

namespace Serum

/-- An incoming order as its sender states it (`owner` is 0 for a send-take), on a market whose quote lots
have `pcLot` units. -/
structure Want where
  side : Side
  price : Nat
  owner : Nat
  stb : SelfTradeBehavior
  kind : OrderType
  tier : FeeTier
  pcLot : Nat

/-- Is a price as good as the limit or better? -/
def Want.accepts (w : Want) (price : Nat) : Bool :=
  match w.side with
  | .bid => decide (price ≤ w.price)
  | .ask => decide (w.price ≤ price)

/-- Lots of a resting order that can be taken with `coin` lots to go and, when buying, `pc` quote units left
to pay the price and the fee. -/
def Want.lots (w : Want) (l : Leaf) (coin pc : Nat) : Nat :=
  match w.side with
  | .bid => min (min l.quantity coin) (w.tier.removeTakerFee pc / (l.price * w.pcLot))
  | .ask => min l.quantity coin

/-- What happens with the best order of the other side: a trade, or, if it is the sender's own, a
cancellation of all of it or of as much as would have traded. -/
def Want.meet (w : Want) (l : Leaf) (coin pc : Nat) : Touch :=
  if l.owner = w.owner then
    if w.stb = .cancelProvide then ⟨l, l.quantity, false⟩ else ⟨l, w.lots l coin pc, false⟩
  else ⟨l, w.lots l coin pc, true⟩

/-- Lots of the incoming order that a touch uses up. -/
def Want.coinUsed (w : Want) (t : Touch) : Nat :=
  if t.filled = false ∧ w.stb = .cancelProvide then 0 else t.lots

/-- Quote units a touch uses up when buying: price and fee of a trade, the price alone of a decrement. -/
def Want.pcUsed (w : Want) (t : Touch) : Nat :=
  if t.filled then
    t.lots * t.maker.price * w.pcLot + w.tier.takerFee (t.lots * t.maker.price * w.pcLot)
  else if w.stb = .cancelProvide then 0 else t.lots * t.maker.price * w.pcLot

/-- `n` lots of the first order are gone. -/
def cutFirst (l : Leaf) (n : Nat) (L : List Leaf) : List Leaf :=
  if n = l.quantity then L else { l with quantity := l.quantity - n } :: L

/-- The touches of an order that may make at most `k` of them. -/
def Want.takes (w : Want) : Nat → List Leaf → Nat → Nat → List Touch
  | 0, _, _, _ => []
  | _ + 1, [], _, _ => []
  | k + 1, l :: L, coin, pc =>
    if w.kind ≠ .postOnly ∧ w.accepts l.price = true ∧ w.lots l coin pc ≠ 0 then
      w.meet l coin pc :: w.takes k (cutFirst l (w.meet l coin pc).lots L)
        (coin - w.coinUsed (w.meet l coin pc)) (pc - w.pcUsed (w.meet l coin pc))
    else []

/-- Lots that rest of an order, given what is then on the other side and what the order has left. -/
def Want.rests (w : Want) (L : List Leaf) (coin pc : Nat) : Nat :=
  if w.kind = .ioc then 0
  else if L.head?.any (fun l => w.accepts l.price) then 0
  else match w.side with
    | .ask => coin
    | .bid => min coin (pc / (w.price * w.pcLot))

/-- The order the engine is given. -/
def Want.of (o : OrderParams) (m : Market) : Want :=
  { side := o.side, price := extractPrice o.orderId, owner := o.owner, stb := o.stb, kind := o.orderType,
    tier := o.feeTier, pcLot := m.pcLot }

theorem Want.lots_zero (w : Want) (l : Leaf) (coin pc : Nat) (h : coin = 0 ∨ (w.side = .bid ∧ pc = 0)) :
    w.lots l coin pc = 0 := by
  unfold Want.lots
  rcases h with rfl | ⟨h, rfl⟩
  · split <;> simp
  · rw [h]
    have : w.tier.removeTakerFee 0 = 0 := by
      have := removeTakerFee_le w.tier 0; omega
    simp [this]

theorem Want.takes_done (w : Want) (k : Nat) (L : List Leaf) (coin pc : Nat)
    (h : coin = 0 ∨ (w.side = .bid ∧ pc = 0)) : w.takes k L coin pc = [] := by
  cases k with
  | zero => rfl
  | succ k =>
    cases L with
    | nil => rfl
    | cons l L =>
      unfold Want.takes
      rw [if_neg]
      rintro ⟨_, _, h3⟩
      exact h3 (w.lots_zero l coin pc h)

theorem Want.rests_done (w : Want) (L : List Leaf) (coin pc : Nat)
    (h : coin = 0 ∨ (w.side = .bid ∧ pc = 0)) : w.rests L coin pc = 0 := by
  unfold Want.rests
  split
  · rfl
  split
  · rfl
  rcases h with rfl | ⟨h, rfl⟩
  · split <;> simp
  · rw [h]; simp

theorem div_swap (a b c : Nat) : a / b / c = a / (c * b) := by
  rw [Nat.div_div_eq_div_mul, Nat.mul_comm]

/-- A round that meets nobody. -/
structure NoTouch (w : Want) (po : Bool) (L L' : List Leaf) (coin pc : Nat) (r : Option Remaining)
    (f : Option Posting) : Prop where
  over : r = none
  same : L' = L
  why : po = true ∨ ∀ l L1, L = l :: L1 → w.accepts l.price = false ∨ w.lots l coin pc = 0
  rests : postedLots f = w.rests L coin pc

/-- A round that meets the first order of the other side. -/
structure OneTouch (w : Want) (po : Bool) (L L' : List Leaf) (coin pc : Nat) (r : Option Remaining)
    (t : Touch) (f : Option Posting) : Prop where
  noPost : f = none
  notPo : po = false
  first : ∃ L1, L = t.maker :: L1 ∧ L' = cutFirst t.maker t.lots L1
  ok : w.accepts t.maker.price = true
  pos : w.lots t.maker coin pc ≠ 0
  what : t = w.meet t.maker coin pc
  over : r = none → coin - w.coinUsed t = 0 ∨ (w.side = .bid ∧ pc - w.pcUsed t = 0)
  next : ∀ x, r = some x → x.coin = coin - w.coinUsed t ∧ x.pc = pc - w.pcUsed t

theorem takeFront_one {L L' : List Leaf} {t : Touch} (h : takeFront L [t] = some L') :
    ∃ L1, L = t.maker :: L1 ∧ L' = cutFirst t.maker t.lots L1 := by
  cases L with
  | nil => simp [takeFront] at h
  | cons l L =>
    simp only [takeFront] at h
    split at h
    · rename_i hc
      simp only [Option.some.injEq] at h
      obtain ⟨rfl, _, _⟩ := hc
      exact ⟨L, rfl, by rw [← h]; rfl⟩
    · cases h

theorem getLast_reverse {L : List Leaf} {l : Leaf} {L1 : List Leaf} (h : L.reverse = l :: L1) :
    L.getLast? = some l := by
  rw [← List.head?_reverse, h]; rfl

theorem round_takes {o : OrderParams} {po : Bool} {ob ob' : Ob lst} {coin pc : Nat}
    {r : Option Remaining} {ts : List Touch} {f : Option Posting} (ho : OrderOk o) (hi : RoundIn o ob coin pc)
    (hpo : (o.orderType == .postOnly) = true → po = true) (hpc : o.side = .ask → pc = 0)
    (h : Round o po ob coin pc ob' r ts f) :
    (ts = [] ∧ NoTouch (Want.of o ob.mkt) po (opposite o.side ob.bids.items ob.asks.items)
        (opposite o.side ob'.bids.items ob'.asks.items) coin pc r f) ∨
    ∃ t, ts = [t] ∧ OneTouch (Want.of o ob.mkt) po (opposite o.side ob.bids.items ob.asks.items)
        (opposite o.side ob'.bids.items ob'.asks.items) coin pc r t f := by
  obtain ⟨htf, _, _, _⟩ := round_touches hi hpo h
  obtain ⟨hm, hb, hc0, hcl, hpl, hval, hfr⟩ := hi
  unfold Round at h
  cases hside : o.side with
  | ask =>
    rw [hside] at h htf
    simp only at h
    have hp0 := hpc hside
    have hac : ∀ p, (Want.of o ob.mkt).accepts p = decide (extractPrice o.orderId ≤ p) := by
      intro p; unfold Want.accepts Want.of; simp only [hside]
    have hlo : ∀ l c p, (Want.of o ob.mkt).lots l c p = min l.quantity c := by
      intro l c p; unfold Want.lots Want.of; simp only [hside]
    cases h with
    | post hlim hpa hns hcap =>
      refine .inl ⟨rfl, rfl, rfl, .inr ?_, ?_⟩
      · intro l L1 hl
        have := hlim l (getLast_reverse hl)
        left; rw [hac]; exact decide_eq_false (Nat.not_le.2 this)
      · unfold Want.rests
        rw [if_neg, if_neg]
        · show coin = _
          unfold Want.of; simp only [hside]
        · simp only [opposite, List.head?_reverse]
          cases hg : ob.bids.items.getLast? with
          | none => simp
          | some b => simp [hac]; exact hlim b hg
        · intro he
          have : (Want.of o ob.mkt).kind = o.orderType := rfl
          rw [this] at he
          simp [OrderParams.iter, he] at hpa
    | evict A l hlim hpa hns hcap hA =>
      refine .inl ⟨rfl, rfl, rfl, .inr ?_, ?_⟩
      · intro l L1 hl
        have := hlim l (getLast_reverse hl)
        left; rw [hac]; exact decide_eq_false (Nat.not_le.2 this)
      · unfold Want.rests
        rw [if_neg, if_neg]
        · show coin = _
          unfold Want.of; simp only [hside]
        · simp only [opposite, List.head?_reverse]
          cases hg : ob.bids.items.getLast? with
          | none => simp
          | some b => simp [hac]; exact hlim b hg
        · intro he
          have : (Want.of o ob.mkt).kind = o.orderType := rfl
          rw [this] at he
          simp [OrderParams.iter, he] at hpa
    | release hlim hwhy hns hb' =>
      refine .inl ⟨rfl, rfl, rfl, ?_, ?_⟩
      · cases hpo' : po with
        | true => exact .inl rfl
        | false =>
          right
          intro l L1 hl
          have := hlim l (getLast_reverse hl)
          left; rw [hac]; apply decide_eq_false
          rcases this with h1 | h1
          · exact Nat.not_le.2 h1
          · simp [OrderParams.iter, hpo'] at h1
      · show 0 = _
        unfold Want.rests
        rcases hwhy with h1 | ⟨b, hb1, hb2⟩
        · rw [if_pos]
          simpa [OrderParams.iter, Want.of] using h1
        · split
          · rfl
          · rw [if_pos]
            simp only [opposite, List.head?_reverse, hb1, Option.any_some, hac]
            exact decide_eq_true hb2
    | stop hlim hs =>
      refine .inl ⟨rfl, rfl, rfl, ?_, ?_⟩
      · cases hpo' : po with
        | true => exact .inl rfl
        | false =>
          right
          intro l L1 hl
          have := hlim l (getLast_reverse hl)
          left; rw [hac]; apply decide_eq_false
          rcases this with h1 | h1
          · exact Nat.not_le.2 h1
          · simp [OrderParams.iter, hpo'] at h1
      · show 0 = _
        unfold Want.rests
        rw [if_pos (show (Want.of o ob.mkt).kind = .ioc from ho.take hs)]
    | selfTrade B best provide take hB hpr hpo' hown hst hb' =>
      have hmem : best ∈ ob.bids.items := by rw [hB]; simp
      have hq := hb.bidQty _ hmem
      have hc : (o.iter coin pc po).coinQty = coin := rfl
      rw [hc] at hst
      refine .inr ⟨_, rfl, ?_⟩
      have hwhat : (⟨best, provide, false⟩ : Touch) = (Want.of o ob.mkt).meet best coin pc := by
        unfold Want.meet
        rw [if_pos (show best.owner = (Want.of o ob.mkt).owner from hown.symm), hlo]
        rcases hst with ⟨h1, h2, _⟩ | ⟨h1, h2, _⟩
        · rw [if_neg (by rw [show (Want.of o ob.mkt).stb = .decrementTake from h1]; simp), h2]
        · rw [if_pos (show (Want.of o ob.mkt).stb = .cancelProvide from h1), h2]
      have hcu : (Want.of o ob.mkt).coinUsed ⟨best, provide, false⟩ = take := by
        unfold Want.coinUsed
        rcases hst with ⟨h1, h2, h3⟩ | ⟨h1, h2, h3⟩
        · rw [if_neg (by rw [show (Want.of o ob.mkt).stb = .decrementTake from h1]; simp), h3, h2]
        · rw [if_pos ⟨rfl, show (Want.of o ob.mkt).stb = .cancelProvide from h1⟩, h3]
      refine ⟨rfl, hpo', takeFront_one htf, ?_, ?_, hwhat, ?_, ?_⟩
      · rw [hac]; exact decide_eq_true hpr
      · rw [hlo]; simp only; omega
      · intro hr
        rw [hcu]
        rw [hc] at hr
        split at hr
        · left; omega
        · cases hr
      · intro x hx
        rw [hcu]
        rw [hc] at hx
        split at hx
        · cases hx
        · cases hx
          exact ⟨rfl, by rw [hp0]; simp⟩
    | fill B best tq fee hB hpr hpo' hown htq hfee hb1 hb2 =>
      have hmem : best ∈ ob.bids.items := by rw [hB]; simp
      have hq := hb.bidQty _ hmem
      have hc : (o.iter coin pc po).coinQty = coin := rfl
      rw [hc] at htq
      refine .inr ⟨_, rfl, ?_⟩
      have hwhat : (⟨best, tq, true⟩ : Touch) = (Want.of o ob.mkt).meet best coin pc := by
        unfold Want.meet
        rw [if_neg (show ¬ best.owner = (Want.of o ob.mkt).owner from fun e => hown e.symm), hlo, htq]
      have hcu : (Want.of o ob.mkt).coinUsed ⟨best, tq, true⟩ = tq := by
        unfold Want.coinUsed
        rw [if_neg (by simp)]
      refine ⟨rfl, hpo', takeFront_one htf, ?_, ?_, hwhat, ?_, ?_⟩
      · rw [hac]; exact decide_eq_true hpr
      · rw [hlo]; simp only; omega
      · intro hr
        rw [hcu]
        rw [hc] at hr
        split at hr
        · left; omega
        · cases hr
      · intro x hx
        rw [hcu]
        rw [hc] at hx
        split at hx
        · cases hx
        · cases hx
          exact ⟨rfl, by rw [hp0]; simp⟩
  | bid =>
    rw [hside] at h htf
    simp only at h
    have hac : ∀ p, (Want.of o ob.mkt).accepts p = decide (p ≤ extractPrice o.orderId) := by
      intro p; unfold Want.accepts Want.of; simp only [hside]
    have hlo : ∀ l, (Want.of o ob.mkt).lots l coin pc = bidTradeQty ob.mkt (o.iter coin pc po) l := by
      intro l
      unfold Want.lots Want.of bidTradeQty
      simp only [hside]
      rw [div_swap]
      rfl
    have hrest : ∀ qty, (∀ b, ob.asks.items.head? = some b → (o.iter coin pc po).limitPrice < b.price) →
        (o.iter coin pc po).postAllowed = true →
        qty = min coin (pc / ob.mkt.pcLot / extractPrice o.orderId) →
        qty = (Want.of o ob.mkt).rests (opposite .bid ob.bids.items ob.asks.items) coin pc := by
      intro qty hlim hpa hqty
      unfold Want.rests
      rw [if_neg, if_neg]
      · rw [hqty, div_swap]
        unfold Want.of; simp only [hside]
      · simp only [opposite]
        cases hg : ob.asks.items.head? with
        | none => simp
        | some b => simp [hac]; exact hlim b hg
      · intro he
        have : (Want.of o ob.mkt).kind = o.orderType := rfl
        rw [this] at he
        simp [OrderParams.iter, he] at hpa
    have hno : (∀ b, ob.asks.items.head? = some b →
        (o.iter coin pc po).limitPrice < b.price ∨ (o.iter coin pc po).postOnly = true ∨
          bidTradeQty ob.mkt (o.iter coin pc po) b = 0) →
        po = true ∨ ∀ l L1, opposite .bid ob.bids.items ob.asks.items = l :: L1 →
          (Want.of o ob.mkt).accepts l.price = false ∨ (Want.of o ob.mkt).lots l coin pc = 0 := by
      intro hlim
      cases hpo' : po with
      | true => exact .inl rfl
      | false =>
        right
        intro l L1 hl
        simp only [opposite] at hl
        have := hlim l (by rw [hl]; rfl)
        rw [hac, hlo]
        rcases this with h1 | h1 | h1
        · left; exact decide_eq_false (Nat.not_le.2 h1)
        · simp [OrderParams.iter, hpo'] at h1
        · exact .inr h1
    cases h with
    | post qty hlim hpa hns hqty hq0 hle hb' hcap =>
      refine .inl ⟨rfl, rfl, rfl, .inr ?_, hrest qty hlim hpa hqty⟩
      intro l L1 hl
      simp only [opposite] at hl
      have := hlim l (by rw [hl]; rfl)
      left; rw [hac]; exact decide_eq_false (Nat.not_le.2 this)
    | evict qty B l hlim hpa hns hqty hq0 hle hb' hcap hB =>
      refine .inl ⟨rfl, rfl, rfl, .inr ?_, hrest qty hlim hpa hqty⟩
      intro l L1 hl
      simp only [opposite] at hl
      have := hlim l (by rw [hl]; rfl)
      left; rw [hac]; exact decide_eq_false (Nat.not_le.2 this)
    | release hlim hwhy hns hb' =>
      refine .inl ⟨rfl, rfl, rfl, hno hlim, ?_⟩
      show 0 = _
      unfold Want.rests
      rcases hwhy with h1 | h1 | ⟨b, hb1, hb2⟩
      · rw [if_pos]
        simpa [OrderParams.iter, Want.of] using h1
      · split
        · rfl
        · split
          · rfl
          · have e : (Want.of o ob.mkt).side = .bid := hside
            rw [e]
            simp only
            have e2 : pc / ((Want.of o ob.mkt).price * (Want.of o ob.mkt).pcLot) = 0 := by
              rw [← div_swap]; exact h1
            rw [e2]; simp
      · split
        · rfl
        · rw [if_pos]
          simp only [opposite, hb1, Option.any_some, hac]
          exact decide_eq_true hb2
    | stop hlim hs =>
      refine .inl ⟨rfl, rfl, rfl, hno hlim, ?_⟩
      show 0 = _
      unfold Want.rests
      rw [if_pos (show (Want.of o ob.mkt).kind = .ioc from ho.take hs)]
    | selfTrade A best provide take unlocked still hA hpr hpo' hown htq hst hle hgo hb' =>
      have hc : (o.iter coin pc po).coinQty = coin := rfl
      have hpl' : (o.iter coin pc po).pcLocked = pc := rfl
      rw [hc, hpl'] at hgo
      rw [hpl'] at hle
      refine .inr ⟨_, rfl, ?_⟩
      have hwhat : (⟨best, provide, false⟩ : Touch) = (Want.of o ob.mkt).meet best coin pc := by
        unfold Want.meet
        rw [if_pos (show best.owner = (Want.of o ob.mkt).owner from hown.symm), hlo]
        rcases hst with ⟨h1, h2, _⟩ | ⟨h1, h2, _⟩
        · rw [if_neg (by rw [show (Want.of o ob.mkt).stb = .decrementTake from h1]; simp), h2]
        · rw [if_pos (show (Want.of o ob.mkt).stb = .cancelProvide from h1), h2]
      have hcu : (Want.of o ob.mkt).coinUsed ⟨best, provide, false⟩ = take := by
        unfold Want.coinUsed
        rcases hst with ⟨h1, h2, h3⟩ | ⟨h1, h2, h3⟩
        · rw [if_neg (by rw [show (Want.of o ob.mkt).stb = .decrementTake from h1]; simp), h3, h2]
        · rw [if_pos ⟨rfl, show (Want.of o ob.mkt).stb = .cancelProvide from h1⟩, h3]
      have hpu : (Want.of o ob.mkt).pcUsed ⟨best, provide, false⟩ = take * best.price * ob.mkt.pcLot := by
        unfold Want.pcUsed
        rw [if_neg (by simp)]
        rcases hst with ⟨h1, h2, h3⟩ | ⟨h1, h2, h3⟩
        · rw [if_neg (by rw [show (Want.of o ob.mkt).stb = .decrementTake from h1]; simp), h3, h2]; rfl
        · rw [if_pos (show (Want.of o ob.mkt).stb = .cancelProvide from h1), h3]; simp
      refine ⟨rfl, hpo', takeFront_one htf, ?_, ?_, hwhat, ?_, ?_⟩
      · rw [hac]; exact decide_eq_true hpr
      · rw [hlo]; simp only; omega
      · intro hr
        rw [hcu, hpu]
        split at hr
        · rename_i h0
          rcases hgo with ⟨g1, g2, g3, g4⟩ | ⟨g1 | g1, _, _⟩
          · omega
          · left; omega
          · right; exact ⟨hside, by omega⟩
        · cases hr
      · intro x hx
        rw [hcu, hpu]
        rw [hc] at hx
        split at hx
        · cases hx
        · cases hx
          rcases hgo with ⟨g1, g2, g3, g4⟩ | ⟨_, _, g⟩
          · exact ⟨rfl, g4⟩
          · contradiction
    | fill A best tq pc' fee left hA hpr hpo' hown htq htpos hpc' hfee hleft hb1 hb2 =>
      have hc : (o.iter coin pc po).coinQty = coin := rfl
      have hpl' : (o.iter coin pc po).pcLocked = pc := rfl
      rw [hpl'] at hleft
      refine .inr ⟨_, rfl, ?_⟩
      have hwhat : (⟨best, tq, true⟩ : Touch) = (Want.of o ob.mkt).meet best coin pc := by
        unfold Want.meet
        rw [if_neg (show ¬ best.owner = (Want.of o ob.mkt).owner from fun e => hown e.symm), hlo, htq]
      have hcu : (Want.of o ob.mkt).coinUsed ⟨best, tq, true⟩ = tq := by
        unfold Want.coinUsed
        rw [if_neg (by simp)]
      have hpu : (Want.of o ob.mkt).pcUsed ⟨best, tq, true⟩ = pc' + fee := by
        unfold Want.pcUsed
        rw [if_pos rfl, hfee, hpc']
        rfl
      refine ⟨rfl, hpo', takeFront_one htf, ?_, ?_, hwhat, ?_, ?_⟩
      · rw [hac]; exact decide_eq_true hpr
      · rw [hlo]; simp only; omega
      · intro hr
        rw [hcu, hpu]
        rw [hc] at hr
        split at hr
        · cases hr
        · rename_i hn
          by_cases h1 : coin = tq
          · left; omega
          · right
            refine ⟨hside, ?_⟩
            have : left = 0 := by
              by_cases h2 : left = 0
              · exact h2
              · exact absurd ⟨h1, h2⟩ hn
            omega
      · intro x hx
        rw [hcu, hpu]
        rw [hc] at hx
        split at hx
        · cases hx
          exact ⟨rfl, by simp only; omega⟩
        · cases hx

/-- Every run of `newOrder` makes the textbook's touches, and leaves the textbook's remainder on the book. -/
theorem path_takes {o : OrderParams} (ho : OrderOk o) {limit : Nat} {ob ob' : Ob lst} {coin pc : Nat}
    {ts : List Touch} {f : Option Posting} (hi : RoundIn o ob coin pc) (hpc : o.side = .ask → pc = 0)
    (h : Path o limit ob coin pc ob' ts f) :
    ts = (Want.of o ob.mkt).takes limit (opposite o.side ob.bids.items ob.asks.items) coin pc ∧
    postedLots f = (Want.of o ob.mkt).rests (opposite o.side ob'.bids.items ob'.asks.items)
      (coin - sumBy (Want.of o ob.mkt).coinUsed ts) (pc - sumBy (Want.of o ob.mkt).pcUsed ts) := by
  induction h with
  | last h =>
    rcases round_takes ho hi (by simp) hpc h with ⟨rfl, g⟩ | ⟨t, rfl, g⟩
    · exact ⟨rfl, by rw [g.same, g.rests]; simp⟩
    · have := g.notPo; cases this
  | @stop limit ob coin pc ob' ts f h =>
    rcases round_takes ho hi (by simp) hpc h with ⟨rfl, g⟩ | ⟨t, rfl, g⟩
    · refine ⟨?_, by rw [g.same, g.rests]; simp⟩
      cases hL : opposite o.side ob.bids.items ob.asks.items with
      | nil => rfl
      | cons l L =>
        unfold Want.takes
        rw [if_neg]
        rintro ⟨h1, h2, h3⟩
        rcases g.why with k | k
        · apply h1
          exact beq_iff_eq.1 k
        · rcases k l L hL with k | k
          · rw [k] at h2; cases h2
          · exact h3 k
    · obtain ⟨L1, e1, e2⟩ := g.first
      have hd := g.over rfl
      have hk : (Want.of o ob.mkt).kind ≠ .postOnly := by
        intro k
        have k' : (o.orderType == .postOnly) = true := beq_iff_eq.2 k
        rw [g.notPo] at k'
        cases k'
      constructor
      · rw [e1]
        unfold Want.takes
        rw [if_pos ⟨hk, g.ok, g.pos⟩, ← g.what, Want.takes_done _ _ _ _ _ hd]
      · rw [g.noPost, Want.rests_done]
        · rfl
        · simpa using hd
  | @more limit ob coin pc ob1 ob' r ts ts' f' f h _ ih =>
    rcases round_takes ho hi (by simp) hpc h with ⟨rfl, g⟩ | ⟨t, rfl, g⟩
    · have := g.over; cases this
    · obtain ⟨L1, e1, e2⟩ := g.first
      obtain ⟨n1, n2⟩ := g.next _ rfl
      have hs := (round_pres ho hi h).1
      have ew : Want.of o ob1.mkt = Want.of o ob.mkt := by
        unfold Want.of; rw [hs.pcLot]
      obtain ⟨i1, i2⟩ := ih ((round_pres ho hi h).2.2.2 _ rfl) (by
        intro k; rw [n2, hpc k]; simp)
      rw [ew, n1, n2] at i1 i2
      have hk : (Want.of o ob.mkt).kind ≠ .postOnly := by
        intro k
        have k' : (o.orderType == .postOnly) = true := beq_iff_eq.2 k
        rw [g.notPo] at k'
        cases k'
      constructor
      · rw [e1]
        unfold Want.takes
        rw [if_pos ⟨hk, g.ok, g.pos⟩, ← g.what, ← e2]
        rw [List.singleton_append, i1]
      · rw [i2, List.singleton_append, sumBy_cons, sumBy_cons, Nat.sub_sub, Nat.sub_sub]

end Serum
