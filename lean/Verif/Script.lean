import Verif.Textbook

/-!
The events of an order, one by one: a direct recursive description, over the touches of the textbook, of
everything an order writes to the event queue; and the proof that a run of `newOrder` on list-level books
writes exactly that.
-/

namespace Serum

/-- An out event about the order itself: what was released, and what of it stays locked. -/
def OrderParams.ownOut (o : OrderParams) (released still : Nat) : EventView :=
  .out o.side false released still o.orderId o.owner o.ownerSlot o.clientId

/-- An order with nothing left to trade, or no quote units left to trade with. -/
def spent (side : Side) (coin pc : Nat) : Prop := coin = 0 ∨ (side = .bid ∧ pc = 0)

instance (side : Side) (coin pc : Nat) : Decidable (spent side coin pc) := by unfold spent; infer_instance

/-- What is reported of an order that meets one of its own account's: what is released, and what of it stays
locked. With `coin` lots and, when buying, `pc` quote units before, and `coin'`, `pc'` after. A seller's remainder
is told in lots. -/
def OrderParams.metOwn (o : OrderParams) (m : Market) (coin pc coin' pc' : Nat) : EventView :=
  match o.side with
  | .ask => o.ownOut ((coin - coin') * m.coinLot) coin'
  | .bid => if spent .bid coin' pc' then o.ownOut pc 0 else o.ownOut (pc - pc') pc'

/-- What is reported of an order that a trade used up: a buyer's change. -/
def OrderParams.usedUp (o : OrderParams) (pc' : Nat) : EventView :=
  match o.side with
  | .ask => o.ownOut 0 0
  | .bid => o.ownOut pc' 0

/-- The events of a touch, of an order with `coin` lots and, when buying, `pc` quote units before it, `coin'`, `pc'`
after. A trade: the maker's fill, the maker's departure if nothing of it is left, the taker's fill and, if it was
its last, the taker's departure; of a send-take only the maker's. An own order: what happened to it and to the
incoming one. -/
def Touch.events (o : OrderParams) (m : Market) (t : Touch) (coin pc coin' pc' : Nat) : List EventView :=
  if t.filled then
    t.makerFill o.side m :: (t.release o.side m ++
      if o.owner = 0 then []
      else t.takerFill o m :: if spent o.side coin' pc' then [o.usedUp pc'] else [])
  else t.release o.side m ++ [o.metOwn m coin pc coin' pc']

/-- The events after the last touch, of an order that is not used up. A buyer who rests is told what it does not need;
one that does not rest gets everything back; and an evicted order leaves. -/
def OrderParams.tail (o : OrderParams) (m : Market) (f : Option Posting) (coin pc : Nat) : List EventView :=
  match f with
  | none =>
    if o.owner = 0 then [] else
      match o.side with
      | .ask => [o.ownOut (coin * m.coinLot) 0]
      | .bid => [o.ownOut pc 0]
  | some g =>
    (match o.side with
      | .ask => []
      | .bid => [o.ownOut (pc - g.lots * extractPrice o.orderId * m.pcLot) (g.lots * extractPrice o.orderId * m.pcLot)])
    ++ evictRelease o.side m f

/-- The events of an order with `coin` lots and, when buying, `pc` quote units to go, that makes the touches given and
then rests as `f` says. -/
def OrderParams.script (o : OrderParams) (m : Market) (f : Option Posting) : List Touch → Nat → Nat → List EventView
  | [], coin, pc => o.tail m f coin pc
  | t :: ts, coin, pc =>
    t.events o m coin pc (coin - (Want.of o m).coinUsed t) (pc - (Want.of o m).pcUsed t) ++
    if spent o.side (coin - (Want.of o m).coinUsed t) (pc - (Want.of o m).pcUsed t) then []
    else o.script m f ts (coin - (Want.of o m).coinUsed t) (pc - (Want.of o m).pcUsed t)

/-- A round's events. -/
structure RoundTold (o : OrderParams) (ob ob' : Ob lst) (coin pc : Nat) (r : Option Remaining) (ts : List Touch)
    (f : Option Posting) : Prop where
  last : r = none → ob'.q.items = ob.q.items ++ (o.script ob.mkt f ts coin pc).map Event.new
  more : ∀ x, r = some x → ∃ t, ts = [t] ∧
    ¬ spent o.side (coin - (Want.of o ob.mkt).coinUsed t) (pc - (Want.of o ob.mkt).pcUsed t) ∧
    ob'.q.items = ob.q.items ++ (t.events o ob.mkt coin pc (coin - (Want.of o ob.mkt).coinUsed t)
      (pc - (Want.of o ob.mkt).pcUsed t)).map Event.new

/-- Of a round with a touch, it is enough to know its events and whether it was the last. -/
theorem RoundTold.one {o : OrderParams} {ob ob' : Ob lst} {coin pc : Nat} {r : Option Remaining} {t : Touch}
    {f : Option Posting} {c' p' : Nat} (hc : coin - (Want.of o ob.mkt).coinUsed t = c')
    (hp : pc - (Want.of o ob.mkt).pcUsed t = p') (hr : r = none ↔ spent o.side c' p')
    (he : ob'.q.items = ob.q.items ++ (t.events o ob.mkt coin pc c' p').map Event.new) :
    RoundTold o ob ob' coin pc r [t] f := by
  subst hc hp
  refine ⟨fun h => ?_, fun x h => ⟨t, rfl, fun hs => ?_, he⟩⟩
  · rw [he]
    simp only [OrderParams.script, if_pos (hr.1 h), List.append_nil]
  · rw [hr.2 hs] at h; cases h

theorem Ob.push_told (ob : Ob lst) (vs : List EventView) : (ob.push vs).q.items = ob.q.items ++ vs.map Event.new := rfl

theorem round_told {o : OrderParams} {po : Bool} {ob ob' : Ob lst} {coin pc : Nat}
    {r : Option Remaining} {ts : List Touch} {f : Option Posting} (hi : RoundIn o ob coin pc)
    (hz : o.owner = 0 → ∀ l ∈ opposite o.side ob.bids.items ob.asks.items, l.owner ≠ 0)
    (h : Round o po ob coin pc ob' r ts f) : RoundTold o ob ob' coin pc r ts f := by
  obtain ⟨hm, hb, hc0, hcl, hpl, hval, hfr⟩ := hi
  have hc : (o.iter coin pc po).coinQty = coin := rfl
  have hpl' : (o.iter coin pc po).pcLocked = pc := rfl
  unfold Round at h
  cases hside : o.side with
  | ask =>
    rw [hside] at h
    simp only at h
    cases h with
    | post hlim hpa hns hcap =>
      refine ⟨fun _ => ?_, fun x h => by cases h⟩
      simp [OrderParams.script, OrderParams.tail, hside, evictRelease, Ob.putAsks]
    | evict A l hlim hpa hns hcap hA =>
      refine ⟨fun _ => ?_, fun x h => by cases h⟩
      simp [OrderParams.script, OrderParams.tail, hside, evictRelease, Ob.push_told, Ob.putAsks, lockedValue, Leaf.out]
    | release hlim hwhy hns hb' =>
      refine ⟨fun _ => ?_, fun x h => by cases h⟩
      have hns' : o.owner ≠ 0 := hns
      have := hval hside hns'
      simp [OrderParams.script, OrderParams.tail, hside, hns', Ob.push_told, Ob.putPr, IterParams.out, OrderParams.ownOut,
        OrderParams.iter, wmul, Nat.mod_eq_of_lt this]
    | stop hlim hs =>
      refine ⟨fun _ => ?_, fun x h => by cases h⟩
      have hs' : o.owner = 0 := hs
      simp [OrderParams.script, OrderParams.tail, hs']
    | selfTrade B best provide take hB hpr hpo' hown hst hb' =>
      rw [hc] at hst
      have hcu : (Want.of o ob.mkt).coinUsed ⟨best, provide, false⟩ = take := by
        unfold Want.coinUsed
        rcases hst with ⟨h1, h2, h3⟩ | ⟨h1, h2, h3⟩
        · rw [if_neg (by rw [show (Want.of o ob.mkt).stb = .decrementTake from h1]; simp), h3, h2]
        · rw [if_pos ⟨rfl, show (Want.of o ob.mkt).stb = .cancelProvide from h1⟩, h3]
      have htc : take ≤ coin := by rcases hst with ⟨_, _, h⟩ | ⟨_, _, h⟩ <;> omega
      have h0 : o.owner ≠ 0 := by
        intro h0
        refine hz h0 best (by rw [hside]; simp [opposite, hB]) ?_
        rw [← hown]; exact h0
      have hv := hval hside h0
      have hw : wmul take ob.mkt.coinLot = take * ob.mkt.coinLot :=
        Nat.mod_eq_of_lt (Nat.lt_of_le_of_lt (Nat.mul_le_mul_right _ htc) hv)
      refine .one (c' := coin - take) (by rw [hcu]) rfl ?_ ?_
      · rw [hc]
        unfold spent
        constructor
        · intro h; split at h
          · left; omega
          · cases h
        · rintro (h | ⟨h, _⟩)
          · rw [if_pos (by omega)]
          · rw [hside] at h; cases h
      · rw [Ob.push_told]
        have e : coin - (coin - take) = take := by omega
        simp [Touch.events, Touch.release, OrderParams.metOwn, hside, lockedValue, Leaf.out, IterParams.out,
          OrderParams.ownOut, OrderParams.iter, hw, e, Ob.putPr, Ob.putBids, Side.other]
    | fill B best tq fee hB hpr hpo' hown htq hfee hb1 hb2 =>
      rw [hc] at htq
      have hcu : (Want.of o ob.mkt).coinUsed ⟨best, tq, true⟩ = tq := by
        unfold Want.coinUsed
        rw [if_neg (by simp)]
      refine .one (c' := coin - tq) (by rw [hcu]) rfl ?_ ?_
      · rw [hc]
        unfold spent
        constructor
        · intro h; split at h
          · left; omega
          · cases h
        · rintro (h | ⟨h, _⟩)
          · rw [if_pos (by omega)]
          · rw [hside] at h; cases h
      · rw [Ob.push_told]
        have e : spent o.side (coin - tq) (pc - (Want.of o ob.mkt).pcUsed ⟨best, tq, true⟩) ↔ coin = tq := by
          unfold spent; rw [hside]; simp; omega
        have ho : (o.iter coin pc po).owner = o.owner := rfl
        simp only [Touch.events, if_pos, e, askFillEvs, hc, ho]
        have e2 : Touch.release o.side ob.mkt ⟨best, tq, true⟩ =
            if best.quantity = tq then [best.out .bid true 0 0] else [] := by
          simp [Touch.release, hside, Side.other, Leaf.out]
        rw [e2, hside]
        by_cases h0 : o.owner = 0
        · simp [h0, Touch.makerFill, Touch.pc, Ob.putPr, Ob.putBids, Ob.putMkt]
        · simp only [h0, if_neg, not_false_eq_true]
          congr 2
          simp [Touch.makerFill, Touch.takerFill, Touch.pc, hside, OrderParams.usedUp, OrderParams.ownOut, IterParams.out,
            OrderParams.iter]
  | bid =>
    rw [hside] at h
    simp only at h
    cases h with
    | post qty hlim hpa hns hqty hq0 hle hb' hcap =>
      refine ⟨fun _ => ?_, fun x h => by cases h⟩
      simp [OrderParams.script, OrderParams.tail, hside, evictRelease, Ob.push_told, Ob.putBids, Ob.putPr, IterParams.out,
        OrderParams.ownOut, OrderParams.iter]
    | evict qty B l hlim hpa hns hqty hq0 hle hb' hcap hB =>
      refine ⟨fun _ => ?_, fun x h => by cases h⟩
      simp [OrderParams.script, OrderParams.tail, hside, evictRelease, Ob.push_told, Ob.putBids, Ob.putPr, IterParams.out,
        OrderParams.ownOut, OrderParams.iter, lockedValue, Leaf.out]
    | release hlim hwhy hns hb' =>
      refine ⟨fun _ => ?_, fun x h => by cases h⟩
      have hns' : o.owner ≠ 0 := hns
      simp [OrderParams.script, OrderParams.tail, hside, hns', Ob.push_told, Ob.putPr, IterParams.out, OrderParams.ownOut,
        OrderParams.iter]
    | stop hlim hs =>
      refine ⟨fun _ => ?_, fun x h => by cases h⟩
      have hs' : o.owner = 0 := hs
      simp [OrderParams.script, OrderParams.tail, hs']
    | selfTrade A best provide take unlocked still hA hpr hpo' hown htq hst hle hgo hb' =>
      rw [hc, hpl'] at hgo
      rw [hpl'] at hle
      have hcu : (Want.of o ob.mkt).coinUsed ⟨best, provide, false⟩ = take := by
        unfold Want.coinUsed
        rcases hst with ⟨h1, h2, h3⟩ | ⟨h1, h2, h3⟩
        · rw [if_neg (by rw [show (Want.of o ob.mkt).stb = .decrementTake from h1]; simp), h3, h2]
        · rw [if_pos ⟨rfl, show (Want.of o ob.mkt).stb = .cancelProvide from h1⟩, h3]
      have hpu : (Want.of o ob.mkt).pcUsed ⟨best, provide, false⟩ = take * best.price * ob.mkt.pcLot := by
        unfold Want.pcUsed
        rw [if_neg (by simp)]
        rcases hst with ⟨h1, h2, h3⟩ | ⟨h1, h2, h3⟩
        · rw [if_neg (by rw [show (Want.of o ob.mkt).stb = .decrementTake from h1]; simp), h3, h2]; rfl
        · rw [if_pos (show (Want.of o ob.mkt).stb = .cancelProvide from h1), h3]; simp
      have htc : take ≤ coin := by
        rcases hst with ⟨_, _, h⟩ | ⟨_, _, h⟩
        · rw [h]; unfold bidTradeQty; rw [hc]; omega
        · omega
      generalize hx : take * best.price * ob.mkt.pcLot = x at *
      have hsp : spent o.side (coin - take) (pc - x) ↔ still = 0 := by
        unfold spent; rw [hside]
        rcases hgo with ⟨g1, g2, g3, g4⟩ | ⟨g1 | g1, g2, g3⟩
        · constructor
          · rintro (h | ⟨_, h⟩) <;> omega
          · intro h; omega
        · exact ⟨fun _ => g3, fun _ => .inl (by omega)⟩
        · exact ⟨fun _ => g3, fun _ => .inr ⟨rfl, by omega⟩⟩
      refine .one (c' := coin - take) (p' := pc - x) (by rw [hcu]) (by rw [hpu]) ?_ ?_
      · rw [hsp]
        constructor
        · intro h; split at h
          · assumption
          · cases h
        · intro h; rw [if_pos h]
      · rw [Ob.push_told]
        have e : o.metOwn ob.mkt coin pc (coin - take) (pc - x) = o.ownOut unlocked still := by
          unfold OrderParams.metOwn
          rw [hside] at hsp
          rw [hside]
          simp only [hsp]
          rcases hgo with ⟨g1, g2, g3, g4⟩ | ⟨_, g2, g3⟩
          · rw [if_neg (by omega), g3, g4]
            congr 1; omega
          · rw [if_pos g3, g2, g3]
        simp [Touch.events, Touch.release, e, hside, lockedValue, Leaf.out, IterParams.out,
          OrderParams.ownOut, OrderParams.iter, Ob.putPr, Ob.putAsks, Side.other]
    | fill A best tq pc' fee left hA hpr hpo' hown htq htpos hpc' hfee hleft hb1 hb2 =>
      rw [hpl'] at hleft
      have hcu : (Want.of o ob.mkt).coinUsed ⟨best, tq, true⟩ = tq := by
        unfold Want.coinUsed
        rw [if_neg (by simp)]
      have hpu : (Want.of o ob.mkt).pcUsed ⟨best, tq, true⟩ = pc' + fee := by
        unfold Want.pcUsed
        rw [if_pos rfl, hfee, hpc']
        rfl
      have htc : tq ≤ coin := by rw [htq]; unfold bidTradeQty; rw [hc]; omega
      have hsp : spent o.side (coin - tq) left ↔ ¬ (coin ≠ tq ∧ left ≠ 0) := by
        unfold spent; rw [hside]; simp; omega
      refine .one (c' := coin - tq) (p' := left) (by rw [hcu]) (by rw [hpu]; omega) ?_ ?_
      · rw [hc, hsp]
        constructor
        · intro h; split at h
          · cases h
          · assumption
        · intro h; rw [if_neg h]
      · rw [Ob.push_told]
        have ho : (o.iter coin pc po).owner = o.owner := rfl
        simp only [Touch.events, if_pos, hsp, bidFillEvs, hc, ho]
        have e2 : Touch.release o.side ob.mkt ⟨best, tq, true⟩ =
            if best.quantity = tq then [best.out .ask true 0 0] else [] := by
          simp [Touch.release, hside, Side.other, Leaf.out]
        rw [e2, hside]
        by_cases h0 : o.owner = 0
        · simp [h0, Touch.makerFill, Touch.pc, Ob.putPr, Ob.putAsks, Ob.putMkt]
        · simp only [h0, if_neg, not_false_eq_true]
          by_cases h1 : coin ≠ tq ∧ left ≠ 0
          · congr 2
            simp [h1, Touch.makerFill, Touch.takerFill, Touch.pc, hside, OrderParams.iter]
          · congr 2
            simp only [if_neg h1, if_pos h1]
            simp [Touch.makerFill, Touch.takerFill, Touch.pc, hside, OrderParams.usedUp, OrderParams.ownOut,
              IterParams.out, OrderParams.iter]

theorem OrderParams.script_lots {o : OrderParams} {m m' : Market} (h1 : m'.coinLot = m.coinLot) (h2 : m'.pcLot = m.pcLot)
    (f : Option Posting) : ∀ (ts : List Touch) (coin pc : Nat), o.script m' f ts coin pc = o.script m f ts coin pc := by
  have e1 : Touch.makerFill o.side m' = Touch.makerFill o.side m := by
    funext t; unfold Touch.makerFill Touch.pc; rw [h1, h2]
  have e2 : Touch.takerFill o m' = Touch.takerFill o m := by
    funext t; unfold Touch.takerFill Touch.pc; rw [h1, h2]
  have e0 : ∀ s p n, lockedValue s m' p n = lockedValue s m p n := by
    intro s p n; unfold lockedValue; rw [h1, h2]
  have e3 : Touch.release o.side m' = Touch.release o.side m := by
    funext t; unfold Touch.release; simp only [e0]
  have e4 : evictRelease o.side m' f = evictRelease o.side m f := by
    unfold evictRelease; simp only [e0]
  have e5 : Want.of o m' = Want.of o m := by unfold Want.of; rw [h2]
  intro ts
  induction ts with
  | nil => intro coin pc; simp only [script, tail, e4, h1, h2]
  | cons t ts ih => intro coin pc; simp only [script, Touch.events, metOwn, e1, e2, e3, e5, h1, ih]

/-- Every run of `newOrder` writes the script. -/
theorem path_script {o : OrderParams} (ho : OrderOk o) {limit : Nat} {ob ob' : Ob lst} {coin pc : Nat}
    {ts : List Touch} {f : Option Posting} (hi : RoundIn o ob coin pc) (hpc : o.side = .ask → pc = 0)
    (hz : o.owner = 0 → ∀ l ∈ opposite o.side ob.bids.items ob.asks.items, l.owner ≠ 0)
    (h : Path o limit ob coin pc ob' ts f) :
    ob'.q.items = ob.q.items ++ (o.script ob.mkt f ts coin pc).map Event.new := by
  induction h with
  | last h => exact (round_told hi hz h).last rfl
  | stop h => exact (round_told hi hz h).last rfl
  | @more limit ob coin pc ob1 ob' r ts ts' f' f h _ ih =>
    obtain ⟨t, rfl, hs, he⟩ := (round_told hi hz h).more r rfl
    have hp := round_pres ho hi h
    have ht := round_touches hi (by simp) h
    have hz' : o.owner = 0 → ∀ l ∈ opposite o.side ob1.bids.items ob1.asks.items, l.owner ≠ 0 := by
      intro h0 l hl
      obtain ⟨y, hy, e, _⟩ := takeFront_mem ht.1 hl
      have : l.owner = y.owner := by rw [e]
      rw [this]; exact hz h0 y hy
    rcases round_takes ho hi (by simp) hpc h with ⟨k, _⟩ | ⟨t', k, g⟩
    · cases k
    · obtain rfl : t = t' := by simpa using k
      obtain ⟨n1, n2⟩ := g.next _ rfl
      have e2 := ih (hp.2.2.2 _ rfl) (fun k => by rw [n2, hpc k]; simp) hz'
      rw [e2, he, OrderParams.script_lots hp.1.coinLot hp.1.pcLot, n1, n2]
      simp only [List.singleton_append, OrderParams.script, if_neg hs, List.map_append, List.append_assoc]

end Serum
