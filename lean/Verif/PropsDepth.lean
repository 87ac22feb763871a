import Verif.PropsBest
import Verif.PropsDue
import Verif.PropsGroup
import Verif.PropsReferral
import Verif.PropsImpartial

/-!
C113: the depth chart tells a taker everything. How many lots an order meets at each price is determined by the number of
lots resting at each price alone, not by how they are divided into orders.
-/

namespace Serum.Props

/-! ### Depth -/

/-- Lots resting on a side at a price: what a depth chart shows. -/
def depthAt (s : State conc) (sd : Side) (p : Nat) : Nat :=
  total (fun l => if l.price = p then l.quantity else 0) (resting s sd)

/-- Is price `q` better than `p` for somebody who buys (or sells)? -/
def better (side : Side) (q p : Nat) : Bool :=
  match side with
  | .bid => decide (q < p)
  | .ask => decide (p < q)

/-- Lots that a buyer (or seller) finds at prices better than `p`. -/
def depthBefore (s : State conc) (side : Side) (p : Nat) : Nat :=
  total (fun l => if better side l.price p then l.quantity else 0) (resting s side.other)

/-- Lots an order met at a price. -/
def metAt (ts : List Touch) (p : Nat) : Nat := total (fun t => if t.maker.price = p then t.lots else 0) ts

/-- Lots an order met altogether: traded, or taken off the book because they were the sender's own. -/
def met (ts : List Touch) : Nat := total (·.lots) ts

/-! ### From the front of a list -/

/-- Sorted from the best price to the worst. -/
def Ranked (side : Side) (L : List Leaf) : Prop := L.Pairwise fun a b => better side b.price a.price = false

theorem better_trans {side : Side} {a b p : Nat} (h : better side b a = false) (k : better side b p = true) :
    better side a p = true := by
  cases side <;> simp only [better, decide_eq_true_eq, decide_eq_false_iff_not] at * <;> omega

theorem better_tri {side : Side} {a p : Nat} (h : better side a p = false) : a = p ∨ better side p a = true := by
  cases side <;> simp only [better, decide_eq_true_eq, decide_eq_false_iff_not] at * <;> omega

theorem better_irrefl (side : Side) (p : Nat) : better side p p = false := by
  cases side <;> simp [better]

theorem better_asymm {side : Side} {a p : Nat} (h : better side a p = true) : better side p a = false ∧ a ≠ p := by
  cases side <;> simp only [better, decide_eq_true_eq, decide_eq_false_iff_not] at * <;> omega

/-- Whoever works through a ranked list from the front meets, at each price, the lots there as far as what they meet
altogether exceeds what is there at better prices. -/
theorem front_by_price {side : Side} {ts : List Touch} : ∀ {L L' : List Leaf}, takeFront L ts = some L' → Ranked side L →
    (∀ p, metAt ts p = min (total (fun l => if l.price = p then l.quantity else 0) L)
      (met ts - total (fun l => if better side l.price p then l.quantity else 0) L)) ∧
    ∀ p, total (fun l => if l.price = p then l.quantity else 0) L' + metAt ts p =
      total (fun l => if l.price = p then l.quantity else 0) L := by
  induction ts with
  | nil =>
    intro L L' h _
    have : L' = L := by cases L <;> simp only [takeFront, Option.some.injEq] at h <;> exact h.symm
    subst this
    exact ⟨fun p => by simp [metAt, met, total], fun p => by simp [metAt, total]⟩
  | cons t ts ih =>
    intro L L' h hr
    cases L with
    | nil => cases h
    | cons l L =>
      simp only [takeFront] at h
      unfold Ranked at hr
      rw [List.pairwise_cons] at hr
      split at h
      case isFalse => cases h
      rename_i hc
      obtain ⟨rfl, h0, hle⟩ := hc
      -- the sums over what is left of the list
      obtain ⟨M, hM, hMr, hd⟩ : ∃ M, takeFront M ts = some L' ∧ Ranked side M ∧ ∀ f : Nat → Bool,
          total (fun l => if f l.price then l.quantity else 0) (t.maker :: L) =
            total (fun l => if f l.price then l.quantity else 0) M + if f t.maker.price then t.lots else 0 := by
        refine ⟨_, h, ?_, ?_⟩
        · split
          · exact hr.2
          · exact List.pairwise_cons.2 ⟨hr.1, hr.2⟩
        · intro f
          split
          · rename_i e
            rw [total_cons, e, Nat.add_comm]
          · rw [total_cons, total_cons]
            have e : ({ t.maker with quantity := t.maker.quantity - t.lots } : Leaf).price = t.maker.price := rfl
            rw [e]
            by_cases hf : f t.maker.price = true
            · simp only [if_pos hf]; omega
            · simp only [if_neg hf]; omega
      obtain ⟨i1, i2⟩ := ih hM hMr
      have hD : ∀ p, total (fun l => if l.price = p then l.quantity else 0) (t.maker :: L) =
          total (fun l => if l.price = p then l.quantity else 0) M + if t.maker.price = p then t.lots else 0 := by
        intro p
        have := hd (fun q => decide (q = p))
        simpa only [decide_eq_true_eq] using this
      have hB := fun p => hd (fun q => better side q p)
      have hm1 : ∀ p, metAt (t :: ts) p = (if t.maker.price = p then t.lots else 0) + metAt ts p := fun p => total_cons ..
      have hm2 : met (t :: ts) = t.lots + met ts := total_cons ..
      refine ⟨fun p => ?_, fun p => ?_⟩
      · rw [hm1, hm2, hD, hB, i1]
        by_cases e : t.maker.price = p
        · have z : total (fun l => if better side l.price p then l.quantity else 0) M +
              (if better side t.maker.price p then t.lots else 0) = 0 := by
            rw [← hB]
            refine total_zero fun l hl => ?_
            rcases List.mem_cons.1 hl with rfl | hl
            · rw [e, better_irrefl]; rfl
            · have := hr.1 l hl
              rw [e] at this
              rw [this]; rfl
          rw [if_pos e] at *
          omega
        · cases hb : better side t.maker.price p with
          | true => simp only [if_neg e, if_true]; omega
          | false =>
            have z : total (fun l => if l.price = p then l.quantity else 0) M = 0 := by
              have : total (fun l => if l.price = p then l.quantity else 0) (t.maker :: L) = 0 := by
                refine total_zero fun l hl => ?_
                rcases List.mem_cons.1 hl with rfl | hl
                · rw [if_neg e]
                · rw [if_neg]
                  rintro rfl
                  have := hr.1 l hl
                  rcases better_tri hb with e' | e'
                  · exact e e'
                  · rw [this] at e'; cases e'
              rw [hD] at this
              omega
            simp only [if_neg e, Bool.false_eq_true, if_false]
            omega
      · have := i2 p
        rw [hm1, hD]
        omega

/-! ### Sums by price -/

/-- A sum of quantities weighted by a function of the price can be computed price by price. -/
theorem by_price {α : Type} (pr q : α → Nat) (g : Nat → Nat) {L : List α} {ps : List Nat} (hn : ps.Nodup)
    (hps : ∀ x ∈ L, pr x ∈ ps) : total (fun x => g (pr x) * q x) L =
      total (fun p => g p * total (fun x => if pr x = p then q x else 0) L) ps := by
  have e : ∀ p, g p * total (fun x => if pr x = p then q x else 0) L =
      total (fun x => if pr x = p then g (pr x) * q x else 0) L := by
    intro p
    rw [← total_mul_left]
    refine total_congr fun x _ => ?_
    split
    · rename_i h; rw [h]
    · rfl
  simp only [e]
  rw [← total_swap (fun x p => if pr x = p then g (pr x) * q x else 0) L ps]
  refine total_congr fun x hx => ?_
  rw [total_single hn, if_pos (hps x hx)]

/-- So such sums agree if the quantities at each price (that counts) do. -/
theorem same_by_price {α β : Type} {pr q : α → Nat} {pr' q' : β → Nat} (g : Nat → Nat) {L : List α} {L' : List β}
    (h : ∀ p, g p ≠ 0 → total (fun x => if pr' x = p then q' x else 0) L' = total (fun x => if pr x = p then q x else 0) L) :
    total (fun x => g (pr' x) * q' x) L' = total (fun x => g (pr x) * q x) L := by
  have hn : (List.range (total pr L + total pr' L' + 1)).Nodup := List.nodup_range
  rw [by_price pr q g hn (fun x hx => by have := total_mem pr hx; rw [List.mem_range]; omega),
    by_price pr' q' g hn (fun x hx => by have := total_mem pr' hx; rw [List.mem_range]; omega)]
  refine total_congr fun p _ => ?_
  by_cases e : g p = 0
  · simp [e]
  · rw [h p e]

/-! ### Fees -/

theorem takerFee_bounds (t : FeeTier) {q : Nat} (hq : q < W64) :
    t.takerRate * q ≤ t.takerFee q * W64 ∧ t.takerFee q * W64 ≤ t.takerRate * q + (W64 - 1) := by
  rw [takerFee_eq t hq]
  generalize t.takerRate * q = x
  unfold W64
  omega

/-- The fees of trades that are all within 64 bits are the rate on the whole value, and less than a unit more for each. -/
theorem fees_bounds (m : Market) (tier : FeeTier) {ts : List Touch} (hv : ∀ t ∈ ts, t.filled = true → t.pc m < W64) :
    tier.takerRate * tradedQuote m ts ≤ takerFees m tier ts * W64 ∧
    takerFees m tier ts * W64 ≤ tier.takerRate * tradedQuote m ts + ts.length * (W64 - 1) := by
  induction ts with
  | nil => simp [tradedQuote, takerFees, total]
  | cons t ts ih =>
    obtain ⟨i1, i2⟩ := ih fun x hx => hv x (List.mem_cons_of_mem _ hx)
    have e1 : tradedQuote m (t :: ts) = t.tradedPc m + tradedQuote m ts := total_cons ..
    have e2 : takerFees m tier (t :: ts) = t.fee m tier + takerFees m tier ts := total_cons ..
    rw [e1, e2, Nat.mul_add, Nat.add_mul, List.length_cons, Nat.succ_mul]
    have : tier.takerRate * t.tradedPc m ≤ t.fee m tier * W64 ∧
        t.fee m tier * W64 ≤ tier.takerRate * t.tradedPc m + (W64 - 1) := by
      unfold Touch.tradedPc Touch.fee
      by_cases hf : t.filled = true
      · rw [if_pos hf, if_pos hf]
        exact takerFee_bounds tier (hv t (by simp) hf)
      · rw [if_neg hf, if_neg hf]
        simp
    omega

/-- Two runs with the same value traded at the same rate differ in fees by less than one unit for each match. -/
theorem fees_close {m m' : Market} {tier : FeeTier} {ts ts' : List Touch}
    (hv : ∀ t ∈ ts, t.filled = true → t.pc m < W64) (hv' : ∀ t ∈ ts', t.filled = true → t.pc m' < W64)
    (he : tradedQuote m' ts' = tradedQuote m ts) : takerFees m' tier ts' ≤ takerFees m tier ts + (ts'.length - 1) := by
  have a := (fees_bounds m tier hv).1
  have b := (fees_bounds m' tier hv').2
  rw [he] at b
  cases ts' with
  | nil => exact Nat.zero_le _
  | cons t ts' =>
    rw [List.length_cons] at *
    have : takerFees m' tier (t :: ts') * W64 < (takerFees m tier ts + (ts'.length + 1)) * W64 := by
      have c : (ts'.length + 1) * (W64 - 1) < (ts'.length + 1) * W64 :=
        Nat.mul_lt_mul_of_pos_left (by decide) (Nat.succ_pos _)
      rw [Nat.add_mul]
      omega
    have := Nat.lt_of_mul_lt_mul_right this
    omega

/-! ### What an order meets -/

/-- An order met, at each price, the lots there, as far as what it met altogether exceeds what was there at better prices;
and that is what is missing there afterwards. -/
structure DepthFill (s s' : State conc) (side : Side) (ts : List Touch) : Prop where
  met : ∀ p, metAt ts p = min (depthAt s side.other p) (met ts - depthBefore s side p)
  left : ∀ p, depthAt s' side.other p + metAt ts p = depthAt s side.other p

theorem bestFirst_ranked {P : Params} {s : State conc} (h : Reach P s) (hq : s.seq ≤ W64) (side : Side) :
    Ranked side (bestFirst s side.other) := by
  refine List.Pairwise.imp ?_ (bestFirst_ok h hq side.other).1
  intro a b hab
  cases side <;> simp only [Side.other, better, decide_eq_false_iff_not] at * <;> omega

theorem depth_fill {P : Params} {s s' : State conc} (h : Reach P s) (hq : s.seq ≤ W64) {w : Want} {limit coin pc posted : Nat}
    {ts : List Touch} (hb : ByTheBook s s' w limit coin pc ts posted) : DepthFill s s' w.side ts := by
  obtain ⟨a, b⟩ := front_by_price hb.after (bestFirst_ranked h hq w.side)
  simp only [total_bestFirst] at a b
  exact ⟨a, b⟩

theorem met_filled {ts : List Touch} (h : ∀ t ∈ ts, t.filled = true) : tradedLots ts = met ts :=
  total_congr fun t ht => by unfold Touch.traded; rw [if_pos (h t ht)]

/-- Lots within an order's limit price. -/
theorem within_total (s : State conc) (w : Want) : total (·.quantity) (Within s w) =
    total (fun l => (if w.accepts l.price then 1 else 0) * l.quantity) (resting s w.side.other) := by
  unfold Within
  rw [← total_bestFirst]
  generalize bestFirst s w.side.other = L
  induction L with
  | nil => rfl
  | cons l L ih =>
    rw [total_cons, ← ih]
    by_cases e : w.accepts l.price = true
    · rw [List.filter_cons_of_pos (by exact e), total_cons, if_pos e, Nat.one_mul]
    · rw [List.filter_cons_of_neg (by exact e), if_neg e, Nat.zero_mul, Nat.zero_add]

/-- At an acceptable price and the better ones there are no more lots than within the limit. -/
theorem depth_le_within {s : State conc} {w : Want} {p : Nat} (hp : w.accepts p = true) :
    depthAt s w.side.other p + depthBefore s w.side p ≤ total (·.quantity) (Within s w) := by
  rw [within_total]
  unfold depthAt depthBefore
  rw [← total_add]
  refine total_le fun l _ => ?_
  cases hb : better w.side l.price p with
  | true =>
    have : w.accepts l.price = true := by
      unfold Want.accepts at *
      unfold better at hb
      cases hs : w.side <;> rw [hs] at hb hp <;> simp only [decide_eq_true_eq] at * <;> omega
    rw [if_neg (better_asymm hb).2, this]
    simp
  | false =>
    by_cases e : l.price = p
    · rw [if_pos e, e, hp]; simp
    · simp [e]

/-- What an order that can sweep trades at each price, from the depth. -/
structure DepthTrade (s : State conc) (w : Want) (coin : Nat) (ts : List Touch) : Prop where
  filled : ∀ t ∈ ts, t.filled = true
  within : ∀ p, w.accepts p = true → metAt ts p = min (depthAt s w.side.other p) (coin - depthBefore s w.side p)
  beyond : ∀ p, w.accepts p = false → metAt ts p = 0

theorem depth_trade {s s' : State conc} {w : Want} {coin pc posted : Nat}
    {ts : List Touch} (hd : DepthFill s s' w.side ts) (hs : Swept s w coin pc ts posted) : DepthTrade s w coin ts := by
  have hf : ∀ t ∈ ts, t.filled = true := fun t ht => sweep_filled (by rw [hs.trades] at ht; exact ht)
  refine ⟨hf, fun p hp => ?_, fun p hp => ?_⟩
  · rw [hd.met, ← met_filled hf, hs.lots]
    have := depth_le_within (s := s) hp
    omega
  · refine total_zero fun t ht => ?_
    rw [if_neg]
    rintro rfl
    rw [hs.trades] at ht
    have := (List.mem_filter.1 (mem_sweep ht).1).2
    rw [hp] at this
    cases this

/-- Two orders did the same but for the division into trades: the same lots at each price, for the same value; fees differ by
less than a unit for each match, and the same depth is left within the limit. -/
structure SameAtEachPrice (s1 t1 : State conc) (m m' : Market) (w : Want) (ts ts' : List Touch) : Prop where
  lotsAt : ∀ p, metAt ts' p = metAt ts p
  lots : tradedLots ts' = tradedLots ts
  quote : tradedQuote m' ts' = tradedQuote m ts
  fees : takerFees m' w.tier ts' ≤ takerFees m w.tier ts + (ts'.length - 1)
  fees' : takerFees m w.tier ts ≤ takerFees m' w.tier ts' + (ts.length - 1)
  left : ∀ p, w.accepts p = true → depthAt t1 w.side.other p = depthAt s1 w.side.other p

theorem same_at_each_price {s s1 t t1 : State conc} {w w' : Want} {coin pc pc' posted posted' : Nat} {ts ts' : List Touch}
    (hw : w'.side = w.side) (hp : w'.price = w.price) (hlot : t.mkt.pcLot = s.mkt.pcLot)
    (hd : DepthFill s s1 w.side ts) (hd' : DepthFill t t1 w'.side ts')
    (hs : Swept s w coin pc ts posted) (hs' : Swept t w' coin pc' ts' posted')
    (hv : ∀ x ∈ ts, x.filled = true → x.pc s.mkt < W64) (hv' : ∀ x ∈ ts', x.filled = true → x.pc t.mkt < W64)
    (hdepth : ∀ p, w.accepts p = true → depthAt t w.side.other p = depthAt s w.side.other p) :
    SameAtEachPrice s1 t1 s.mkt t.mkt w ts ts' := by
  have ha : ∀ p, w'.accepts p = w.accepts p := fun p => by unfold Want.accepts; rw [hw, hp]
  have a := depth_trade hd hs
  have b := depth_trade hd' hs'
  have hl : ∀ p, metAt ts' p = metAt ts p := by
    intro p
    cases hp : w.accepts p with
    | false => rw [a.beyond p hp, b.beyond p (by rw [ha, hp])]
    | true =>
      rw [a.within p hp, b.within p (by rw [ha, hp]), hw, hdepth p hp]
      congr 2
      -- prices better than an acceptable one are acceptable
      have key := same_by_price (pr := Leaf.price) (q := Leaf.quantity) (pr' := Leaf.price) (q' := Leaf.quantity)
        (fun q => if better w.side q p then 1 else 0) (L := resting s w.side.other) (L' := resting t w.side.other) (by
          intro q hq
          refine hdepth q ?_
          have hb : better w.side q p = true := by
            cases hb : better w.side q p with
            | true => rfl
            | false => simp [hb] at hq
          unfold Want.accepts at *
          unfold better at hb
          cases hs : w.side <;> rw [hs] at hb hp <;> simp only [decide_eq_true_eq] at * <;> omega)
      have conv : ∀ x : State conc, depthBefore x w.side p =
          total (fun l => (if better w.side l.price p then 1 else 0) * l.quantity) (resting x w.side.other) := fun x =>
        total_congr fun l _ => by split <;> simp
      rw [conv, conv, key]
  have h2 : tradedLots ts' = tradedLots ts := by
    rw [met_filled a.filled, met_filled b.filled]
    have := same_by_price (pr := fun t : Touch => t.maker.price) (q := fun t : Touch => t.lots)
      (pr' := fun t : Touch => t.maker.price) (q' := fun t : Touch => t.lots) (fun _ => 1) (L := ts) (L' := ts')
      (fun p _ => hl p)
    simp only [Nat.one_mul] at this
    exact this
  have h3 : tradedQuote t.mkt ts' = tradedQuote s.mkt ts := by
    have := same_by_price (pr := fun t : Touch => t.maker.price) (q := fun t : Touch => t.lots)
      (pr' := fun t : Touch => t.maker.price) (q' := fun t : Touch => t.lots) (fun p => p * s.mkt.pcLot) (L := ts) (L' := ts')
      (fun p _ => hl p)
    have conv : ∀ (m : Market) (us : List Touch), m.pcLot = s.mkt.pcLot → (∀ x ∈ us, x.filled = true) → tradedQuote m us =
        total (fun t => t.maker.price * s.mkt.pcLot * t.lots) us := by
      intro m us hm hf
      refine total_congr fun x hx => ?_
      unfold Touch.tradedPc Touch.pc
      rw [if_pos (hf x hx), hm, Nat.mul_comm _ x.lots, Nat.mul_assoc]
    rw [conv _ _ hlot b.filled, conv _ _ rfl a.filled]
    exact this
  refine ⟨hl, h2, h3, fees_close hv hv' h3, fees_close hv' hv h3.symm, fun p hp => ?_⟩
  have e1 := hd.left p
  have e2 := hd'.left p
  rw [hw, hl, hdepth p hp] at e2
  omega

theorem touch_value {P : Params} {s s' : State conc} (h : Reach P s) (hq : s.seq ≤ W64) {o : OrderParams} {limit : Nat}
    {ts : List Touch} {f : Option Posting} {evs : List EventView} (hm : Matched s s' o limit ts f evs)
    (hb : o.side = .bid → tradedQuote s.mkt ts < W64) : ∀ x ∈ ts, x.filled = true → x.pc s.mkt < W64 := by
  intro x hx hf
  exact (trade_value h hq hm hb (t := ⟨o.side.other, x.maker.owner, x.maker.key, x.maker.price, x.lots⟩)
    (List.mem_map.2 ⟨x, List.mem_filter.2 ⟨hx, hf⟩, rfl⟩)).2

theorem order_values {P : Params} {s s' : State conc} (h : Reach P s) (hq : s.seq < W64) {env : Env}
    {accts : List AccMeta} {ix : NewOrderIx} (hv : OrderValid ix) {a : NewOrderAccts} {tier : FeeTier}
    {o o' : OpenOrders} {slot d : Nat} {ts : List Touch} {f : Option Posting} {evs : List EventView}
    (he : PlaceEffect P env s s' accts ix a tier o o' slot d ts f evs) : ∀ x ∈ ts, x.filled = true → x.pc s.mkt < W64 := by
  refine touch_value h (Nat.le_of_lt hq) he.matched fun hs => ?_
  have := (he.bid hs).budget
  have := hv.2.2.1.2
  unfold W64
  omega

theorem take_values {P : Params} {s s' : State conc} (h : Reach P s) (hq : s.seq < W64)
    {accts : List AccMeta} {ix : SendTakeIx} (hv : TakeValid ix) {a : SendTakeAccts} {tier : FeeTier} {ts : List Touch}
    {evs : List EventView} (he : TakeEffect P s s' accts ix a tier ts evs) :
    ∀ x ∈ ts, x.filled = true → x.pc s.mkt < W64 := by
  refine touch_value h (Nat.le_of_lt hq) he.matched fun hs => ?_
  have := (he.bid hs).budget
  have := hv.2.2.1.2
  unfold W64
  omega

/-! ### C113 -/

/-- C113, new orders. Whatever an order meets, and wherever it stops: given how many lots it meets altogether, how many of
them it meets at each price can be read off the depth, and this is what is missing there afterwards. -/
theorem order_fills_depth {P : Params} {s s' : State conc} (h : Reach P s) (hq : s.seq < W64) {env : Env}
    {accts : List AccMeta} {ix : NewOrderIx} (hv : OrderValid ix) {a : NewOrderAccts} {tier : FeeTier}
    {o o' : OpenOrders} {slot d : Nat} {ts : List Touch} {f : Option Posting} {evs : List EventView}
    (he : PlaceEffect P env s s' accts ix a tier o o' slot d ts f evs) : DepthFill s s' ix.side ts :=
  depth_fill h (Nat.le_of_lt hq) (place_by_the_book h hq hv he)

/-- C113, send-takes. -/
theorem take_fills_depth {P : Params} {s s' : State conc} (h : Reach P s) (hq : s.seq < W64)
    {accts : List AccMeta} {ix : SendTakeIx} (hv : TakeValid ix) {a : SendTakeAccts} {tier : FeeTier} {ts : List Touch}
    {evs : List EventView} (he : TakeEffect P s s' accts ix a tier ts evs) : DepthFill s s' ix.side ts :=
  depth_fill h (Nat.le_of_lt hq) (take_by_the_book h hq hv he)

/-- C113, new orders. An order that can sweep (C76) trades, at each price within its limit, the lots there as far as its
size exceeds what is there at better prices. -/
theorem order_trades_depth {P : Params} {s s' : State conc} (h : Reach P s) (hq : s.seq < W64) {env : Env}
    {accts : List AccMeta} {ix : NewOrderIx} (hv : OrderValid ix) {a : NewOrderAccts} {tier : FeeTier}
    {o o' : OpenOrders} {slot d : Nat} {ts : List Touch} {f : Option Posting} {evs : List EventView}
    (he : PlaceEffect P env s s' accts ix a tier o o' slot d ts f evs)
    (hc : CanSweep s (wantOrder s.mkt ix a.oo.key tier) ix.limit ix.maxCoinQty (payable ix.side ix.maxPcQty)) :
    DepthTrade s (wantOrder s.mkt ix a.oo.key tier) ix.maxCoinQty ts :=
  depth_trade (order_fills_depth h hq hv he) (order_sweeps h hq hv he hc)

theorem can_take_sweeps {P : Params} {s s' : State conc} (h : Reach P s) (hq : s.seq < W64)
    {accts : List AccMeta} {ix : SendTakeIx} (hv : TakeValid ix) {a : SendTakeAccts} {tier : FeeTier} {ts : List Touch}
    {evs : List EventView} (he : TakeEffect P s s' accts ix a tier ts evs)
    (hc : CanSweep s (wantTake s.mkt ix tier) ix.limit ix.maxCoinQty (payable ix.side ix.maxPcQty)) :
    Swept s (wantTake s.mkt ix tier) ix.maxCoinQty (payable ix.side ix.maxPcQty) ts 0 :=
  take_sweeps h hq hv he hc.limit fun hs => by
    have := hc.money hs
    rw [hs] at this
    exact this

/-- C113, send-takes. -/
theorem take_trades_depth {P : Params} {s s' : State conc} (h : Reach P s) (hq : s.seq < W64)
    {accts : List AccMeta} {ix : SendTakeIx} (hv : TakeValid ix) {a : SendTakeAccts} {tier : FeeTier} {ts : List Touch}
    {evs : List EventView} (he : TakeEffect P s s' accts ix a tier ts evs)
    (hc : CanSweep s (wantTake s.mkt ix tier) ix.limit ix.maxCoinQty (payable ix.side ix.maxPcQty)) :
    DepthTrade s (wantTake s.mkt ix tier) ix.maxCoinQty ts :=
  depth_trade (take_fills_depth h hq hv he) (can_take_sweeps h hq hv he hc)

/-- C113, new orders. How the lots at a price are divided into orders, and whose they are, makes no difference but for the
rounding of fees: two orders on the same side, for the same lots at the same limit price and in the same fee tier, in two
states (even of two markets) with the same depth within that limit, trade the same lots at each price for the same value;
fees differ by less than a unit for each match; and the same depth is left. -/
theorem same_depth_order {P P' : Params} {s s1 t t1 : State conc} (h : Reach P s) (hq : s.seq < W64) (h' : Reach P' t)
    (hq' : t.seq < W64) {env env' : Env} {accts accts' : List AccMeta} {ix ix' : NewOrderIx} (hv : OrderValid ix)
    (hv' : OrderValid ix') (hside : ix'.side = ix.side) (hprice : ix'.limitPrice = ix.limitPrice)
    (hsize : ix'.maxCoinQty = ix.maxCoinQty) (hlot : t.mkt.pcLot = s.mkt.pcLot)
    {a a' : NewOrderAccts} {tier : FeeTier} {o o1 o' o1' : OpenOrders} {slot slot' d d' : Nat} {ts ts' : List Touch}
    {f f' : Option Posting} {evs evs' : List EventView}
    (he : PlaceEffect P env s s1 accts ix a tier o o1 slot d ts f evs)
    (he' : PlaceEffect P' env' t t1 accts' ix' a' tier o' o1' slot' d' ts' f' evs')
    (hc : CanSweep s (wantOrder s.mkt ix a.oo.key tier) ix.limit ix.maxCoinQty (payable ix.side ix.maxPcQty))
    (hc' : CanSweep t (wantOrder t.mkt ix' a'.oo.key tier) ix'.limit ix'.maxCoinQty (payable ix'.side ix'.maxPcQty))
    (hdepth : ∀ p, (wantOrder s.mkt ix a.oo.key tier).accepts p = true →
      depthAt t ix.side.other p = depthAt s ix.side.other p) :
    SameAtEachPrice s1 t1 s.mkt t.mkt (wantOrder s.mkt ix a.oo.key tier) ts ts' := by
  have hs := order_sweeps h hq hv he hc
  have hs' := order_sweeps h' hq' hv' he' hc'
  rw [hsize] at hs'
  exact same_at_each_price (w := wantOrder s.mkt ix a.oo.key tier) (w' := wantOrder t.mkt ix' a'.oo.key tier) hside hprice
    hlot (order_fills_depth h hq hv he) (order_fills_depth h' hq' hv' he') hs hs' (order_values h hq hv he)
    (order_values h' hq' hv' he') hdepth

/-- C113, send-takes. -/
theorem same_depth_take {P P' : Params} {s s1 t t1 : State conc} (h : Reach P s) (hq : s.seq < W64) (h' : Reach P' t)
    (hq' : t.seq < W64) {accts accts' : List AccMeta} {ix ix' : SendTakeIx} (hv : TakeValid ix)
    (hv' : TakeValid ix') (hside : ix'.side = ix.side) (hprice : ix'.limitPrice = ix.limitPrice)
    (hsize : ix'.maxCoinQty = ix.maxCoinQty) (hlot : t.mkt.pcLot = s.mkt.pcLot)
    {a a' : SendTakeAccts} {tier : FeeTier} {ts ts' : List Touch} {evs evs' : List EventView}
    (he : TakeEffect P s s1 accts ix a tier ts evs) (he' : TakeEffect P' t t1 accts' ix' a' tier ts' evs')
    (hc : CanSweep s (wantTake s.mkt ix tier) ix.limit ix.maxCoinQty (payable ix.side ix.maxPcQty))
    (hc' : CanSweep t (wantTake t.mkt ix' tier) ix'.limit ix'.maxCoinQty (payable ix'.side ix'.maxPcQty))
    (hdepth : ∀ p, (wantTake s.mkt ix tier).accepts p = true → depthAt t ix.side.other p = depthAt s ix.side.other p) :
    SameAtEachPrice s1 t1 s.mkt t.mkt (wantTake s.mkt ix tier) ts ts' := by
  have hs := can_take_sweeps h hq hv he hc
  have hs' := can_take_sweeps h' hq' hv' he' hc'
  rw [hsize] at hs'
  exact same_at_each_price (w := wantTake s.mkt ix tier) (w' := wantTake t.mkt ix' tier) hside hprice
    hlot (take_fills_depth h hq hv he) (take_fills_depth h' hq' hv' he') hs hs' (take_values h hq hv he)
    (take_values h' hq' hv' he') hdepth

end Serum.Props

namespace Serum.Demo
open Serum Props

/-- Five lots offered at 1000 as in `s1`, but in two orders. -/
def two1 : State conc := run s0 a1 (.newOrderV3 (order .ask 1000 2 1 7))
def two2 : State conc := run two1 a1 (.newOrderV3 (order .ask 1000 3 1 8))
def fourIx : NewOrderIx := order .bid 1100 4 50000 9
def fourWhole : State conc := run s1 a2 (.newOrderV3 fourIx)
def fourParted : State conc := run two2 a2 (.newOrderV3 fourIx)

/-- A buyer of four lots meets one order of five lots at 1000 in one state and orders of two and three lots at 1000 in the
other: four lots at 1000 in both, and one lot is left. -/
theorem depth_demo :
    (∃ a tier o o1 slot d ts f evs a' o' o1' slot' d' ts' f' evs',
      PlaceEffect P env s1 fourWhole a2 fourIx a tier o o1 slot d ts f evs ∧
      PlaceEffect P env two2 fourParted a2 fourIx a' tier o' o1' slot' d' ts' f' evs' ∧
      SameAtEachPrice fourWhole fourParted s1.mkt two2.mkt (wantOrder s1.mkt fourIx a.oo.key tier) ts ts') ∧
    (resting s1 .ask).map (fun l => (l.price, l.quantity)) = [(1000, 5)] ∧
    (resting two2 .ask).map (fun l => (l.price, l.quantity)) = [(1000, 2), (1000, 3)] ∧
    depthAt fourWhole .ask 1000 = 1 ∧ depthAt fourParted .ask 1000 = 1 := by
  have hr1 : Reach P two1 := next r0 (valid (by decide)) (by decide +kernel) (by decide)
  have hr2 : Reach P two2 := next hr1 (valid (by decide)) (by decide +kernel) (by decide)
  have x1 : process conc P env s1 a2 (.newOrderV3 fourIx) = .ok fourWhole := run_eq (by decide +kernel)
  have x2 : process conc P env two2 a2 (.newOrderV3 fourIx) = .ok fourParted := run_eq (by decide +kernel)
  have hv : OrderValid fourIx := by unfold fourIx; exact valid (by decide)
  obtain ⟨a, tier, o, o1, slot, d, ts, f, evs, he⟩ := place_effect r1 (by decide +kernel) hv (notVault _ (by decide)) x1
  obtain ⟨a', tier', o', o1', slot', d', ts', f', evs', he'⟩ :=
    place_effect hr2 (by decide +kernel) hv (notVault _ (by decide)) x2
  have ea : a.oo.key = 42 := by
    have := he.args.parse
    have h : (parseNewOrder a2).map (·.oo.key) = .ok 42 := rfl
    rw [this] at h
    exact Except.ok.inj h
  have ea' : a'.oo.key = 42 := by
    have := he'.args.parse
    have h : (parseNewOrder a2).map (·.oo.key) = .ok 42 := rfl
    rw [this] at h
    exact Except.ok.inj h
  have et : tier' = tier := by
    have e := he'.args.parse
    rw [he.args.parse] at e
    obtain rfl := Except.ok.inj e
    have hd : (parseNewOrder a2).map (·.discount) = .ok [] := rfl
    rw [he.args.parse] at hd
    have hd : a.discount = [] := Except.ok.inj hd
    obtain ⟨d1, g1, g2⟩ := he.args.tier
    obtain ⟨d2, g3, g4⟩ := he'.args.tier
    rw [hd] at g1 g3
    obtain rfl : none = d1 := Except.ok.inj g1
    obtain rfl : none = d2 := Except.ok.inj g3
    rw [loadFeeTier_congr (c := s1.toCore) (by rw [show two2.toCore.mkt = s1.toCore.mkt by decide +kernel]), g2] at g4
    exact (Except.ok.inj g4).symm
  subst et
  refine ⟨⟨a, tier', o, o1, slot, d, ts, f, evs, a', o', o1', slot', d', ts', f', evs', he, he',
    same_depth_order r1 (by decide +kernel) hr2 (by decide +kernel) hv hv rfl rfl rfl (by decide +kernel) he he' ?_ ?_ ?_⟩,
    by decide +kernel, by decide +kernel, by decide +kernel, by decide +kernel⟩
  · rw [ea]
    cases tier' <;> exact ⟨by decide, by decide +kernel, by decide +kernel, by decide +kernel⟩
  · rw [ea']
    cases tier' <;> exact ⟨by decide, by decide +kernel, by decide +kernel, by decide +kernel⟩
  · intro p _
    have e : ∀ L : List Leaf, total (fun l => if l.price = p then l.quantity else 0) L =
        total (fun x => if x.1 = p then x.2 else 0) (L.map fun l => (l.price, l.quantity)) := fun L => by rw [total_map]
    show total _ (resting two2 .ask) = total _ (resting s1 .ask)
    rw [e, e, show (resting s1 .ask).map (fun l => (l.price, l.quantity)) = [(1000, 5)] by decide +kernel,
      show (resting two2 .ask).map (fun l => (l.price, l.quantity)) = [(1000, 2), (1000, 3)] by decide +kernel]
    by_cases hp : 1000 = p <;> simp [total, hp]

end Serum.Demo
