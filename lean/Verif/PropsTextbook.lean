import Verif.PropsPlace
import Verif.PropsTake

/-!
C75: an order makes exactly the textbook's trades and stops only when it has to.
C76: an order with enough limit and money sweeps the front of the book.
-/

namespace Serum.Props

/-! ### The money that can be spent -/

/-- `removeTakerFee` is the largest value that can be paid together with its fee. -/
theorem afford_iff (t : FeeTier) {v q : Nat} (hq : q < W64) : v ≤ t.removeTakerFee q ↔ v + t.takerFee v ≤ q := by
  constructor
  · exact spend_fee_le t hq
  · intro h
    rw [takerFee_eq t (by omega)] at h
    rw [removeTakerFee_eq]
    have hpos : 0 < W64 + t.takerRate := by unfold W64; omega
    rw [Nat.le_div_iff_mul_le hpos, Nat.mul_add, Nat.mul_comm v t.takerRate]
    generalize t.takerRate * v = x at *
    unfold W64 at *
    omega

/-- Up to how many lots of a resting order can be taken: as many as it has, as are wanted and, when buying, as
can be paid for together with the fee. -/
theorem lots_greatest (w : Want) {l : Leaf} {coin pc : Nat} (hp : 0 < l.price) (hl : 0 < w.pcLot) (hq : pc < W64)
    (n : Nat) : n ≤ w.lots l coin pc ↔ n ≤ l.quantity ∧ n ≤ coin ∧
      (w.side = .bid → n * l.price * w.pcLot + w.tier.takerFee (n * l.price * w.pcLot) ≤ pc) := by
  unfold Want.lots
  cases hs : w.side with
  | ask => simp only [Nat.le_min]; constructor
           · exact fun h => ⟨h.1, h.2, fun h => by cases h⟩
           · exact fun h => ⟨h.1, h.2.1⟩
  | bid =>
    simp only [Nat.le_min]
    have hv : 0 < l.price * w.pcLot := Nat.mul_pos hp hl
    have : n ≤ w.tier.removeTakerFee pc / (l.price * w.pcLot) ↔
        n * l.price * w.pcLot + w.tier.takerFee (n * l.price * w.pcLot) ≤ pc := by
      rw [Nat.le_div_iff_mul_le hv, ← Nat.mul_assoc]
      exact afford_iff w.tier hq
    rw [this]
    constructor
    · exact fun h => ⟨h.1.1, h.1.2, fun _ => h.2⟩
    · exact fun h => ⟨⟨h.1, h.2.1⟩, h.2.2 trivial⟩

/-! ### Stopping -/

/-- The first order of what is left when the textbook stops short of its limit cannot be taken. -/
theorem takes_full (w : Want) {k : Nat} {L L' : List Leaf} {coin pc : Nat} (hk : w.kind ≠ .postOnly)
    (hlen : (w.takes k L coin pc).length < k) (hf : takeFront L (w.takes k L coin pc) = some L') {l : Leaf}
    {L1 : List Leaf} (hL : L' = l :: L1) :
    w.accepts l.price = false ∨ w.lots l (coin - total w.coinUsed (w.takes k L coin pc))
      (pc - total w.pcUsed (w.takes k L coin pc)) = 0 := by
  induction k generalizing L coin pc with
  | zero => simp [Want.takes] at hlen
  | succ k ih =>
    cases L with
    | nil =>
      simp only [Want.takes, takeFront, Option.some.injEq] at hf
      rw [hL] at hf; cases hf
    | cons x L =>
      unfold Want.takes at hf hlen ⊢
      by_cases hc : w.kind ≠ .postOnly ∧ w.accepts x.price = true ∧ w.lots x coin pc ≠ 0
      · rw [if_pos hc] at hf hlen ⊢
        simp only [List.length_cons, Nat.add_lt_add_iff_right] at hlen
        simp only [takeFront] at hf
        split at hf
        · rename_i h1
          have := ih hlen (by rw [← hf]; rfl)
          simpa only [total, List.map_cons, List.sum_cons, Nat.sub_sub] using this
        · cases hf
      · rw [if_neg hc] at hf ⊢
        simp only [takeFront, Option.some.injEq] at hf
        rw [hL] at hf
        cases hf
        simp only [total, List.map_nil, List.sum_nil, Nat.sub_zero]
        cases ha : w.accepts l.price with
        | false => exact .inl rfl
        | true =>
          right
          by_cases h0 : w.lots l coin pc = 0
          · exact h0
          · exact absurd ⟨hk, ha, h0⟩ hc

/-- Best prices come first. -/
def BestFirst (w : Want) (L : List Leaf) : Prop :=
  L.Pairwise (fun a b => w.accepts b.price = true → w.accepts a.price = true)

/-- Why an order stopped: `L` is what remains on the other side, `coin` and `pc` what it has left. -/
structure Spent (w : Want) (limit : Nat) (ts : List Touch) (L : List Leaf) (coin pc : Nat) : Prop where
  why : w.kind = .postOnly ∨ ts.length = limit ∨ coin = 0 ∨ (∀ l ∈ L, w.accepts l.price = false) ∨
    (w.side = .bid ∧ ∃ l L1, L = l :: L1 ∧ pc < l.price * w.pcLot + w.tier.takerFee (l.price * w.pcLot))

/-! ### Sweeping -/

/-- Filling `coin` lots from the front of a list of orders. -/
def sweep : Nat → List Leaf → List Touch
  | _, [] => []
  | coin, l :: L =>
    if coin = 0 then []
    else if l.quantity ≤ coin then ⟨l, l.quantity, true⟩ :: sweep (coin - l.quantity) L
    else [⟨l, coin, true⟩]

theorem sweep_zero (L : List Leaf) : sweep 0 L = [] := by
  cases L <;> simp [sweep]

/-- A sweep fills the smaller of what is wanted and what is there. -/
theorem sweep_lots (coin : Nat) (L : List Leaf) :
    tradedLots (sweep coin L) = min coin (total (·.quantity) L) := by
  induction L generalizing coin with
  | nil => simp [sweep, tradedLots, total]
  | cons l L ih =>
    unfold sweep
    split
    · rename_i h; subst h; simp [tradedLots, total]
    · split
      · have := ih (coin - l.quantity)
        simp only [tradedLots, total, List.map_cons, List.sum_cons] at this ⊢
        rw [this]
        simp only [Touch.traded]
        simp only [if_true]
        omega
      · simp only [tradedLots, total, List.map_cons, List.sum_cons, List.map_nil, List.sum_nil, Touch.traded,
          if_true]
        omega

/-- What remains of a list after a sweep. -/
theorem sweep_left (coin : Nat) {L : List Leaf} (hpos : ∀ l ∈ L, 0 < l.quantity)
    (h : total (·.quantity) L ≤ coin) (R : List Leaf) :
    takeFront (L ++ R) (sweep coin L) = some R := by
  induction L generalizing coin with
  | nil => cases R <;> rfl
  | cons l L ih =>
    have hl := hpos l (by simp)
    simp only [total, List.map_cons, List.sum_cons] at h
    unfold sweep
    rw [if_neg (by omega), if_pos (by omega)]
    simp only [List.cons_append, takeFront]
    rw [if_pos ⟨trivial, hl, Nat.le_refl _⟩, if_pos trivial]
    exact ih _ (fun x hx => hpos x (by simp [hx])) (by unfold total; omega)

/-- With a large enough limit and enough money the textbook sweeps the acceptable orders. -/
theorem takes_sweep (w : Want) (hk : w.kind ≠ .postOnly) (hlot : 0 < w.pcLot) {k : Nat} {L : List Leaf}
    {coin pc : Nat} (hq : pc < W64) (hsort : BestFirst w L) (hpos : ∀ l ∈ L, 0 < l.quantity ∧ 0 < l.price)
    (hown : ∀ l ∈ L, w.accepts l.price = true → l.owner ≠ w.owner)
    (hlen : (sweep coin (L.filter (fun l => w.accepts l.price))).length ≤ k)
    (hpay : w.side = .bid → total w.pcUsed (sweep coin (L.filter (fun l => w.accepts l.price))) ≤ pc) :
    w.takes k L coin pc = sweep coin (L.filter (fun l => w.accepts l.price)) := by
  induction L generalizing k coin pc with
  | nil => cases k <;> rfl
  | cons l L ih =>
    unfold BestFirst at hsort
    rw [List.pairwise_cons] at hsort
    obtain ⟨hq0, hp0⟩ := hpos l (by simp)
    cases hac : w.accepts l.price with
    | false =>
      have hnil : (l :: L).filter (fun l => w.accepts l.price) = [] := by
        rw [List.filter_eq_nil_iff]
        intro x hx ha
        rw [List.mem_cons] at hx
        rcases hx with rfl | hx
        · rw [hac] at ha; cases ha
        · have := hsort.1 x hx ha
          rw [hac] at this; cases this
      rw [hnil]
      cases k with
      | zero => rfl
      | succ k =>
        unfold Want.takes
        rw [if_neg]
        · rfl
        · rw [hac]; rintro ⟨_, h, _⟩; cases h
    | true =>
      rw [List.filter_cons_of_pos (by exact hac)] at hlen hpay ⊢
      by_cases hc : coin = 0
      · subst hc
        rw [sweep_zero]
        exact w.takes_done _ _ _ _ (.inl rfl)
      have hno := hown l (by simp) hac
      have hmeet : w.meet l coin pc = ⟨l, w.lots l coin pc, true⟩ := by
        unfold Want.meet; rw [if_neg hno]
      unfold sweep at hlen hpay ⊢
      rw [if_neg hc] at hlen hpay ⊢
      have hrest : ∀ n, n = min l.quantity coin →
          (w.side = .bid → n * l.price * w.pcLot + w.tier.takerFee (n * l.price * w.pcLot) ≤ pc) →
          w.lots l coin pc = n := by
        intro n hn hcost
        apply Nat.le_antisymm
        · have := (lots_greatest w hp0 hlot hq (w.lots l coin pc)).1 (Nat.le_refl _)
          omega
        · exact (lots_greatest w hp0 hlot hq n).2 ⟨by omega, by omega, hcost⟩
      by_cases hle : l.quantity ≤ coin
      · rw [if_pos hle] at hlen hpay ⊢
        simp only [List.length_cons] at hlen
        simp only [total, List.map_cons, List.sum_cons] at hpay
        cases k with
        | zero => omega
        | succ k =>
          have hn : w.lots l coin pc = l.quantity := by
            apply hrest _ (by omega)
            intro hs
            have := hpay hs
            simp only [Want.pcUsed, if_true] at this
            omega
          unfold Want.takes
          rw [if_pos ⟨hk, hac, by omega⟩, hmeet, hn]
          have e1 : w.coinUsed ⟨l, l.quantity, true⟩ = l.quantity := by simp [Want.coinUsed]
          have e2 : cutFirst l l.quantity L = L := by simp [cutFirst]
          rw [e1, e2, ih (by omega) hsort.2 (fun x hx => hpos x (by simp [hx]))
            (fun x hx => hown x (by simp [hx])) (by omega)]
          intro hs
          have := hpay hs
          unfold total
          omega
      · rw [if_neg hle] at hlen hpay ⊢
        simp only [List.length_cons, List.length_nil] at hlen
        simp only [total, List.map_cons, List.sum_cons, List.map_nil, List.sum_nil] at hpay
        cases k with
        | zero => omega
        | succ k =>
          have hn : w.lots l coin pc = coin := by
            apply hrest _ (by omega)
            intro hs
            have := hpay hs
            simp only [Want.pcUsed, if_true] at this
            omega
          unfold Want.takes
          rw [if_pos ⟨hk, hac, by omega⟩, hmeet, hn]
          have e1 : w.coinUsed ⟨l, coin, true⟩ = coin := by simp [Want.coinUsed]
          rw [e1, w.takes_done _ _ _ _ (.inl (by omega))]

/-! ### In reachable states -/

theorem bestFirst_ok {P : Params} {s : State conc} (h : Reach P s) (hq : s.seq ≤ W64) (sd : Side) :
    (bestFirst s sd).Pairwise (fun a b => match sd with | .bid => b.price ≤ a.price | .ask => a.price ≤ b.price) ∧
    ∀ l ∈ bestFirst s sd, 0 < l.quantity ∧ 0 < l.price := by
  obtain ⟨vs, hvs, hqi, hi⟩ := h.view hq
  have hb := hi.shape.book
  have key : ∀ (l : Leaf), l ∈ s.bids.contents ∨ l ∈ s.asks.contents → l.key < W128 := by
    rintro l (hl | hl)
    · exact Shape.key_lt (sd := .bid) hi.shape.slots hi.shape.ids hb hl
    · exact Shape.key_lt (sd := .ask) hi.shape.slots hi.shape.ids hb hl
  cases sd with
  | bid =>
    constructor
    · show (s.bids.contents.reverse).Pairwise _
      rw [List.pairwise_reverse]
      refine List.Pairwise.imp_of_mem ?_ hb.bidSort
      intro a b ha hb' hab
      exact price_mono (key b (.inl hb')) (Nat.le_of_lt hab)
    · intro l hl
      have hl' : l ∈ s.bids.contents := List.mem_reverse.1 hl
      exact ⟨hb.bidQty _ hl', hb.bidPrice _ hl'⟩
  | ask =>
    constructor
    · refine List.Pairwise.imp_of_mem ?_ hb.askSort
      intro a b ha hb' hab
      exact price_mono (key b (.inr hb')) (Nat.le_of_lt hab)
    · intro l hl
      exact ⟨hb.askQty _ hl, hb.askPrice _ hl⟩

theorem takeFront_best {w : Want} {L L' : List Leaf} {ts : List Touch} (h : takeFront L ts = some L')
    (hb : BestFirst w L) (hp : ∀ l ∈ L, 0 < l.quantity ∧ 0 < l.price) :
    BestFirst w L' ∧ ∀ l ∈ L', 0 < l.quantity ∧ 0 < l.price := by
  induction ts generalizing L with
  | nil =>
    cases L <;> (simp only [takeFront, Option.some.injEq] at h; subst h; exact ⟨hb, hp⟩)
  | cons t ts ih =>
    cases L with
    | nil => cases h
    | cons l L =>
      simp only [takeFront] at h
      unfold BestFirst at hb
      rw [List.pairwise_cons] at hb
      split at h
      · rename_i hc
        obtain ⟨_, c1, c2⟩ := hc
        have hL : ∀ x ∈ L, 0 < x.quantity ∧ 0 < x.price := fun x hx => hp x (by simp [hx])
        split at h
        · exact ih h hb.2 hL
        · rename_i hne
          refine ih h (List.pairwise_cons.2 ⟨hb.1, hb.2⟩) ?_
          intro x hx
          rw [List.mem_cons] at hx
          rcases hx with rfl | hx
          · exact ⟨by simp only; omega, (hp l (by simp)).2⟩
          · exact hL x hx
      · cases h

theorem bestFirst_best {P : Params} {s : State conc} (h : Reach P s) (hq : s.seq ≤ W64) (w : Want) :
    BestFirst w (bestFirst s w.side.other) := by
  refine List.Pairwise.imp ?_ (bestFirst_ok h hq w.side.other).1
  intro a b hab
  unfold Want.accepts
  cases hs : w.side with
  | bid =>
    rw [hs] at hab
    simp only [Side.other, decide_eq_true_eq] at hab ⊢
    omega
  | ask =>
    rw [hs] at hab
    simp only [Side.other, decide_eq_true_eq] at hab ⊢
    omega

/-- A finished run stopped for one of the reasons of `Spent`. -/
theorem matched_spent {P : Params} {s s' : State conc} (h : Reach P s) (hq : s.seq ≤ W64) {o : OrderParams}
    {limit : Nat} {ts : List Touch} {f : Option Posting} {evs : List EventView}
    (hm : Matched s s' o limit ts f evs) (hpc : o.pcLocked < W64) :
    Spent (Want.of o s.mkt) limit ts (bestFirst s' o.side.other)
      (o.maxCoinQty - total (Want.of o s.mkt).coinUsed ts) (o.pcLocked - total (Want.of o s.mkt).pcUsed ts) := by
  obtain ⟨vs, hvs, hqi, hi⟩ := h.view hq
  constructor
  by_cases hk : (Want.of o s.mkt).kind = .postOnly
  · exact .inl hk
  right
  by_cases hl : ts.length = limit
  · exact .inl hl
  right
  have hlt : ts.length < limit := by have := hm.count; omega
  have hb := bestFirst_best h hq (Want.of o s.mkt)
  obtain ⟨b1, b2⟩ := takeFront_best hm.opp hb (bestFirst_ok h hq _).2
  cases hL : bestFirst s' o.side.other with
  | nil => exact .inr (.inl (by simp))
  | cons l L1 =>
    rw [hL] at b1 b2
    obtain ⟨p1, p2⟩ := b2 l (by simp)
    have ht := hm.takes
    have hf := hm.opp
    rw [ht] at hlt hf
    have := takes_full (Want.of o s.mkt) hk hlt hf hL
    rw [← ht] at this
    rcases this with g | g
    · refine .inr (.inl ?_)
      intro x hx
      rw [List.mem_cons] at hx
      rcases hx with rfl | hx
      · exact g
      · cases ha : (Want.of o s.mkt).accepts x.price with
        | false => rfl
        | true =>
          have := (List.pairwise_cons.1 b1).1 x hx ha
          rw [g] at this; cases this
    · by_cases h0 : o.maxCoinQty - total (Want.of o s.mkt).coinUsed ts = 0
      · exact .inl h0
      · have hn := mt (lots_greatest (Want.of o s.mkt) (l := l)
          (coin := o.maxCoinQty - total (Want.of o s.mkt).coinUsed ts)
          (pc := o.pcLocked - total (Want.of o s.mkt).pcUsed ts) p2 hi.shape.mkt.pcLot (by omega) 1).2 (by omega)
        have hs : (Want.of o s.mkt).side = .bid ∧ ¬ (o.pcLocked - total (Want.of o s.mkt).pcUsed ts ≥
            l.price * (Want.of o s.mkt).pcLot +
              (Want.of o s.mkt).tier.takerFee (l.price * (Want.of o s.mkt).pcLot)) := by
          refine ⟨Decidable.byContradiction fun hs => hn ⟨by omega, by omega, fun e => absurd e hs⟩, ?_⟩
          intro hge
          refine hn ⟨by omega, by omega, fun _ => ?_⟩
          rw [Nat.one_mul]
          exact hge
        exact .inr (.inr ⟨hs.1, l, L1, rfl, by omega⟩)

/-- The orders of the other side that an order may trade with, best first. -/
def Within (s : State conc) (w : Want) : List Leaf :=
  (bestFirst s w.side.other).filter (fun l => w.accepts l.price)

/-- What is left of an order after a sweep. -/
theorem matched_sweep {P : Params} {s s' : State conc} (h : Reach P s) (hq : s.seq ≤ W64) {o : OrderParams}
    {limit : Nat} {ts : List Touch} {f : Option Posting} {evs : List EventView}
    (hm : Matched s s' o limit ts f evs) (hpc : o.pcLocked < W64) (hk : o.orderType ≠ .postOnly)
    (hown : ∀ l ∈ Within s (Want.of o s.mkt), l.owner ≠ o.owner)
    (hlen : (sweep o.maxCoinQty (Within s (Want.of o s.mkt))).length ≤ limit)
    (hpay : o.side = .bid → total (Want.of o s.mkt).pcUsed (sweep o.maxCoinQty (Within s (Want.of o s.mkt))) ≤
      o.pcLocked) :
    ts = sweep o.maxCoinQty (Within s (Want.of o s.mkt)) ∧
    tradedLots ts = min o.maxCoinQty (total (·.quantity) (Within s (Want.of o s.mkt))) := by
  obtain ⟨vs, hvs, hqi, hi⟩ := h.view hq
  have := takes_sweep (Want.of o s.mkt) hk hi.shape.mkt.pcLot (k := limit) (L := bestFirst s o.side.other)
    (coin := o.maxCoinQty) (pc := o.pcLocked) hpc (bestFirst_best h hq (Want.of o s.mkt)) (bestFirst_ok h hq _).2
    (fun l hl ha => hown l (List.mem_filter.2 ⟨hl, ha⟩)) hlen hpay
  rw [← hm.takes] at this
  refine ⟨this, ?_⟩
  rw [this]
  exact sweep_lots _ _

/-- Acceptable orders come before the others. -/
theorem best_split {w : Want} {L : List Leaf} (h : BestFirst w L) :
    L = L.filter (fun l => w.accepts l.price) ++ L.filter (fun l => !w.accepts l.price) := by
  induction L with
  | nil => rfl
  | cons l L ih =>
    unfold BestFirst at h
    rw [List.pairwise_cons] at h
    cases ha : w.accepts l.price with
    | true =>
      rw [List.filter_cons_of_pos (by exact ha), List.filter_cons_of_neg (by simp [ha]), List.cons_append, ← ih h.2]
    | false =>
      have h1 : (l :: L).filter (fun l => w.accepts l.price) = [] := by
        rw [List.filter_eq_nil_iff]
        intro x hx hax
        rw [List.mem_cons] at hx
        rcases hx with rfl | hx
        · rw [ha] at hax; cases hax
        · have := h.1 x hx hax
          rw [ha] at this; cases this
      have h2 : (l :: L).filter (fun l => !w.accepts l.price) = l :: L := by
        rw [List.filter_eq_self]
        intro x hx
        have := List.filter_eq_nil_iff.1 h1 x hx
        simpa using this
      rw [h1, h2]; rfl

theorem sweep_used (w : Want) (coin : Nat) (L : List Leaf) :
    total w.coinUsed (sweep coin L) = min coin (total (·.quantity) L) := by
  rw [← sweep_lots]
  unfold tradedLots
  have : ∀ t ∈ sweep coin L, w.coinUsed t = t.traded := by
    induction L generalizing coin with
    | nil => intro t ht; cases ht
    | cons l L ih =>
      intro t ht
      unfold sweep at ht
      split at ht
      · cases ht
      · split at ht
        · rw [List.mem_cons] at ht
          rcases ht with rfl | ht
          · simp [Want.coinUsed, Touch.traded]
          · exact ih _ t ht
        · rw [List.mem_singleton] at ht
          subst ht
          simp [Want.coinUsed, Touch.traded]
  unfold total
  rw [List.map_congr_left this]

/-- Lots that rest after a sweep: none of an immediate-or-cancel order; otherwise what was not to be had on the
other side, as far as, when buying, the money left pays for it at the limit price. -/
def restAfter (w : Want) (coin pc : Nat) (A : List Leaf) : Nat :=
  if w.kind = .ioc then 0
  else match w.side with
    | .ask => coin - total (·.quantity) A
    | .bid => min (coin - total (·.quantity) A) ((pc - total w.pcUsed (sweep coin A)) / (w.price * w.pcLot))

theorem matched_rest {P : Params} {s s' : State conc} (h : Reach P s) (hq : s.seq ≤ W64) {o : OrderParams}
    {limit : Nat} {ts : List Touch} {f : Option Posting} {evs : List EventView}
    (hm : Matched s s' o limit ts f evs) (hts : ts = sweep o.maxCoinQty (Within s (Want.of o s.mkt))) :
    postedLots f = restAfter (Want.of o s.mkt) o.maxCoinQty o.pcLocked (Within s (Want.of o s.mkt)) := by
  have hr := hm.remains
  have hf := hm.opp
  have hu := sweep_used (Want.of o s.mkt) o.maxCoinQty (Within s (Want.of o s.mkt))
  rw [← hts] at hu
  rw [hu] at hr
  unfold restAfter
  rw [← hts]
  by_cases hd : total (·.quantity) (Within s (Want.of o s.mkt)) < o.maxCoinQty
  · have hb := bestFirst_best h hq (Want.of o s.mkt)
    have hleft := sweep_left o.maxCoinQty (L := Within s (Want.of o s.mkt)) (by
      intro l hl
      exact ((bestFirst_ok h hq _).2 l (List.mem_filter.1 hl).1).1) (Nat.le_of_lt hd)
      ((bestFirst s (Want.of o s.mkt).side.other).filter (fun l => !(Want.of o s.mkt).accepts l.price))
    unfold Within at hleft
    rw [← best_split hb] at hleft
    have hts' := hts
    unfold Within at hts'
    rw [← hts', show (Want.of o s.mkt).side.other = o.side.other from rfl, hf, Option.some.injEq] at hleft
    rw [hr]
    unfold Want.rests
    have hno : ¬ ((bestFirst s' o.side.other).head?.any fun l => (Want.of o s.mkt).accepts l.price) = true := by
      rw [hleft]
      cases hh : (((bestFirst s o.side.other).filter fun l => !(Want.of o s.mkt).accepts l.price).head?) with
      | none => simp
      | some x =>
        have := List.mem_of_head? hh
        have := (List.mem_filter.1 this).2
        simpa using this
    rw [if_neg hno, show min o.maxCoinQty (total (·.quantity) (Within s (Want.of o s.mkt))) =
      total (·.quantity) (Within s (Want.of o s.mkt)) from by omega]
    split
    · rfl
    · cases (Want.of o s.mkt).side <;> rfl
  · have e : o.maxCoinQty - min o.maxCoinQty (total (·.quantity) (Within s (Want.of o s.mkt))) = 0 := by omega
    rw [e, Want.rests_done _ _ _ _ (.inl rfl)] at hr
    rw [hr]
    have e2 : o.maxCoinQty - total (·.quantity) (Within s (Want.of o s.mkt)) = 0 := by omega
    rw [e2]
    split
    · rfl
    · cases (Want.of o s.mkt).side <;> simp

/-! ### C75 -/

/-- An order for `coin` lots with `pc` quote units ran by the book from `s` to `s'`. -/
structure ByTheBook (s s' : State conc) (w : Want) (limit coin pc : Nat) (ts : List Touch) (posted : Nat) : Prop where
  /-- It met the orders the textbook says, and took of each what the textbook says. -/
  trades : ts = w.takes limit (bestFirst s w.side.other) coin pc
  /-- The other side lost exactly that. -/
  after : takeFront (bestFirst s w.side.other) ts = some (bestFirst s' w.side.other)
  /-- What the textbook lets rest, rests. -/
  posted : posted = w.rests (bestFirst s' w.side.other) (coin - total w.coinUsed ts) (pc - total w.pcUsed ts)
  /-- It did not stop early. -/
  stop : Spent w limit ts (bestFirst s' w.side.other) (coin - total w.coinUsed ts) (pc - total w.pcUsed ts)

theorem want_order {s : State conc} {ix : NewOrderIx} (hv : OrderValid ix) (hq : s.seq < W64) (oo slot : Nat)
    (tier : FeeTier) : Want.of (newOrderReq ix (genOrderId s.seq ix.limitPrice ix.side) oo slot tier) s.mkt =
      wantOrder s.mkt ix oo tier := by
  have : extractPrice (genOrderId s.seq ix.limitPrice ix.side) = ix.limitPrice := extractPrice_genOrderId hq hv.1.2
  unfold Want.of wantOrder newOrderReq
  simp only [this]

theorem want_take {s : State conc} {ix : SendTakeIx} (hv : TakeValid ix) (hq : s.seq < W64) (tier : FeeTier) :
    Want.of (sendTakeReq ix (genOrderId s.seq ix.limitPrice ix.side) tier) s.mkt = wantTake s.mkt ix tier := by
  have : extractPrice (genOrderId s.seq ix.limitPrice ix.side) = ix.limitPrice := extractPrice_genOrderId hq hv.1.2
  unfold Want.of wantTake sendTakeReq
  simp only [this]

theorem payable_lt {side : Side} {n : Nat} (h : n < W64) : payable side n < W64 := by
  cases side
  · exact h
  · show 0 < W64; decide

theorem place_by_the_book {P : Params} {s s' : State conc} (h : Reach P s) (hq : s.seq < W64) {env : Env}
    {accts : List AccMeta} {ix : NewOrderIx} (hv : OrderValid ix) {a : NewOrderAccts} {tier : FeeTier}
    {o o' : OpenOrders} {slot d : Nat} {ts : List Touch} {f : Option Posting} {evs : List EventView}
    (he : PlaceEffect P env s s' accts ix a tier o o' slot d ts f evs) :
    ByTheBook s s' (wantOrder s.mkt ix a.oo.key tier) ix.limit ix.maxCoinQty (payable ix.side ix.maxPcQty) ts
      (postedLots f) := by
  have hm := he.matched
  have hsp := matched_spent h (Nat.le_of_lt hq) hm (payable_lt hv.2.2.1.2)
  have ht := hm.takes
  have hr := hm.remains
  rw [want_order hv hq] at hsp ht hr
  exact ⟨ht, hm.opp, hr, hsp⟩

/-- C75, new orders. Every successful `NewOrderV3` meets exactly the resting orders, and takes from each exactly
the lots, that textbook matching over the other side's list prescribes; what rests of it is what the textbook
prescribes; and it stops only when post-only, out of its limit of matches, out of lots, out of acceptable orders
or, buying, out of money for one more lot at the best price and its fee. -/
theorem order_by_the_book {P : Params} {s s' : State conc} (h : Reach P s) (hq : s.seq < W64) {env : Env}
    {accts : List AccMeta} {ix : NewOrderIx} (hv : OrderValid ix) (hn : NotVault P s.mkt accts)
    (hx : newOrderV3 conc P env s accts ix = .ok s') :
    ∃ a tier o o' slot d ts f evs, PlaceEffect P env s s' accts ix a tier o o' slot d ts f evs ∧
      ByTheBook s s' (wantOrder s.mkt ix a.oo.key tier) ix.limit ix.maxCoinQty (payable ix.side ix.maxPcQty) ts
        (postedLots f) := by
  obtain ⟨a, tier, o, o', slot, d, ts, f, evs, he⟩ := place_effect h hq hv hn hx
  exact ⟨a, tier, o, o', slot, d, ts, f, evs, he, place_by_the_book h hq hv he⟩

/-- C75, send-takes. -/
theorem take_by_the_book {P : Params} {s s' : State conc} (h : Reach P s) (hq : s.seq < W64)
    {accts : List AccMeta} {ix : SendTakeIx} (hv : TakeValid ix) {a : SendTakeAccts} {tier : FeeTier}
    {ts : List Touch} {evs : List EventView} (he : TakeEffect P s s' accts ix a tier ts evs) :
    ByTheBook s s' (wantTake s.mkt ix tier) ix.limit ix.maxCoinQty (payable ix.side ix.maxPcQty) ts 0 := by
  have hm := he.matched
  have hsp := matched_spent h (Nat.le_of_lt hq) hm (payable_lt hv.2.2.1.2)
  have ht := hm.takes
  have hr := hm.remains
  rw [want_take hv hq] at hsp ht hr
  exact ⟨ht, hm.opp, hr, hsp⟩

theorem send_take_by_the_book {P : Params} {s s' : State conc} (h : Reach P s) (hq : s.seq < W64)
    {accts : List AccMeta} {ix : SendTakeIx} (hv : TakeValid ix) (hn : NotVault P s.mkt accts)
    (hx : sendTake conc P s accts ix = .ok s') :
    ∃ a tier ts evs, TakeEffect P s s' accts ix a tier ts evs ∧
      ByTheBook s s' (wantTake s.mkt ix tier) ix.limit ix.maxCoinQty (payable ix.side ix.maxPcQty) ts 0 := by
  obtain ⟨a, tier, ts, evs, he⟩ := take_effect h hq hv hn hx
  exact ⟨a, tier, ts, evs, he, take_by_the_book h hq hv he⟩

/-! ### C76 -/

/-- An order for `coin` lots with `pc` quote units can sweep: it may take, none of the orders it would meet is its
sender's, its limit of matches reaches far enough, and a buyer's money pays for the sweep and its fees. -/
structure CanSweep (s : State conc) (w : Want) (limit coin pc : Nat) : Prop where
  kind : w.kind ≠ .postOnly
  others : ∀ l ∈ Within s w, l.owner ≠ w.owner
  limit : (sweep coin (Within s w)).length ≤ limit
  money : w.side = .bid → tradedQuote s.mkt (sweep coin (Within s w)) +
    takerFees s.mkt w.tier (sweep coin (Within s w)) ≤ pc

/-- What a sweep gives: the trades, their size, and what rests. -/
structure Swept (s : State conc) (w : Want) (coin pc : Nat) (ts : List Touch) (posted : Nat) : Prop where
  trades : ts = sweep coin (Within s w)
  lots : tradedLots ts = min coin (total (·.quantity) (Within s w))
  posted : posted = restAfter w coin pc (Within s w)

theorem sweep_filled {coin : Nat} {L : List Leaf} {t : Touch} (ht : t ∈ sweep coin L) : t.filled = true := by
  induction L generalizing coin with
  | nil => cases ht
  | cons l L ih =>
    unfold sweep at ht
    split at ht
    · cases ht
    · split at ht
      · rw [List.mem_cons] at ht
        rcases ht with rfl | ht
        · rfl
        · exact ih ht
      · rw [List.mem_singleton] at ht
        subst ht; rfl

theorem sweep_cost (w : Want) (m : Market) (hm : w.pcLot = m.pcLot) (ts : List Touch)
    (h : ∀ t ∈ ts, t.filled = true) : total w.pcUsed ts = tradedQuote m ts + takerFees m w.tier ts := by
  induction ts with
  | nil => rfl
  | cons t ts ih =>
    have h1 := ih (fun x hx => h x (by simp [hx]))
    have h2 := h t (by simp)
    unfold tradedQuote takerFees total at *
    simp only [List.map_cons, List.sum_cons, h1]
    have e1 : w.pcUsed t = Touch.tradedPc m t + Touch.fee m w.tier t := by
      unfold Want.pcUsed Touch.tradedPc Touch.fee Touch.pc
      rw [if_pos h2, if_pos h2, if_pos h2, hm]
    rw [e1]
    omega

/-- C76, new orders. An order that can sweep trades exactly the front of the other side: every order within its
limit price in turn, at that order's own price, up to its size; so `min` of its size and of all that is offered
within its limit. What rests is what was not to be had, as far as a buyer's remaining money pays for it. -/
theorem order_sweeps {P : Params} {s s' : State conc} (h : Reach P s) (hq : s.seq < W64) {env : Env}
    {accts : List AccMeta} {ix : NewOrderIx} (hv : OrderValid ix) {a : NewOrderAccts} {tier : FeeTier}
    {o o' : OpenOrders} {slot d : Nat} {ts : List Touch} {f : Option Posting} {evs : List EventView}
    (he : PlaceEffect P env s s' accts ix a tier o o' slot d ts f evs)
    (hc : CanSweep s (wantOrder s.mkt ix a.oo.key tier) ix.limit ix.maxCoinQty (payable ix.side ix.maxPcQty)) :
    Swept s (wantOrder s.mkt ix a.oo.key tier) ix.maxCoinQty (payable ix.side ix.maxPcQty) ts (postedLots f) := by
  have hm := he.matched
  have hw := want_order (s := s) hv hq a.oo.key slot tier
  rw [← hw] at hc ⊢
  obtain ⟨c1, c2, c3, c4⟩ := hc
  obtain ⟨g1, g2⟩ := matched_sweep h (Nat.le_of_lt hq) hm (payable_lt hv.2.2.1.2) c1 c2 c3 (by
    intro hs
    rw [sweep_cost _ s.mkt rfl _ (fun t => sweep_filled)]
    exact c4 hs)
  exact ⟨g1, g2, matched_rest h (Nat.le_of_lt hq) hm g1⟩

/-- C76, send-takes. -/
theorem take_sweeps {P : Params} {s s' : State conc} (h : Reach P s) (hq : s.seq < W64)
    {accts : List AccMeta} {ix : SendTakeIx} (hv : TakeValid ix) {a : SendTakeAccts} {tier : FeeTier}
    {ts : List Touch} {evs : List EventView} (he : TakeEffect P s s' accts ix a tier ts evs)
    (hl : (sweep ix.maxCoinQty (Within s (wantTake s.mkt ix tier))).length ≤ ix.limit)
    (hp : ix.side = .bid → tradedQuote s.mkt (sweep ix.maxCoinQty (Within s (wantTake s.mkt ix tier))) +
      takerFees s.mkt tier (sweep ix.maxCoinQty (Within s (wantTake s.mkt ix tier))) ≤ ix.maxPcQty) :
    Swept s (wantTake s.mkt ix tier) ix.maxCoinQty (payable ix.side ix.maxPcQty) ts 0 := by
  have hm := he.matched
  have hw := want_take (s := s) hv hq tier
  rw [← hw] at hl hp ⊢
  obtain ⟨vs, hvs, hqi, hi⟩ := h.view (Nat.le_of_lt hq)
  have hown : ∀ l ∈ Within s (Want.of (sendTakeReq ix (genOrderId s.seq ix.limitPrice ix.side) tier) s.mkt),
      l.owner ≠ 0 := by
    intro l hl
    have hl := mem_bestFirst.1 (List.mem_filter.1 hl).1
    cases hs : ix.side with
    | bid =>
      exact hi.shape.owner_ne (sd := .ask) (by
        have : (Want.of (sendTakeReq ix (genOrderId s.seq ix.limitPrice ix.side) tier) s.mkt).side.other = .ask := by
          show ix.side.other = _; rw [hs]; rfl
        rw [this] at hl; exact hl)
    | ask =>
      exact hi.shape.owner_ne (sd := .bid) (by
        have : (Want.of (sendTakeReq ix (genOrderId s.seq ix.limitPrice ix.side) tier) s.mkt).side.other = .bid := by
          show ix.side.other = _; rw [hs]; rfl
        rw [this] at hl; exact hl)
  obtain ⟨g1, g2⟩ := matched_sweep h (Nat.le_of_lt hq) hm (payable_lt hv.2.2.1.2) (by simp [sendTakeReq]) hown hl (by
    intro hs
    have hs' : ix.side = .bid := hs
    rw [sweep_cost _ s.mkt rfl _ (fun t => sweep_filled)]
    have := hp hs'
    have e : (match ix.side with | .bid => ix.maxPcQty | .ask => 0) = ix.maxPcQty := by rw [hs']
    exact Nat.le_trans this (Nat.le_of_eq e.symm))
  exact ⟨g1, g2, matched_rest h (Nat.le_of_lt hq) hm g1⟩

/-- C76. Whoever has what `CanPlace` lists and can sweep at every fee tier gets, from the instruction as sent, the
sweep: a buyer's account gains the lots, a seller's the price less fees. -/
theorem funded_order_sweeps {P : Params} {s : State conc} (h : Reach P s) (hq : s.seq < W64) {env : Env}
    {accts : List AccMeta} {ix : NewOrderIx} {oo payer owner rent : Nat} {disc : List Nat} {o : OpenOrders}
    (hv : OrderValid ix) (hn : NotVault P s.mkt accts) (hc : CanPlace P env s accts ix oo payer owner rent disc o)
    (hs : ∀ tier, CanSweep s (wantOrder s.mkt ix oo tier) ix.limit ix.maxCoinQty (payable ix.side ix.maxPcQty)) :
    ∃ s' tier o' ts posted, processRaw conc P env s accts (Instruction.newOrderV3 ix).pack = .ok s' ∧
      Swept s (wantOrder s.mkt ix oo tier) ix.maxCoinQty (payable ix.side ix.maxPcQty) ts posted ∧
      ooAt s'.oos oo = some o' ∧
      (ix.side = .bid → o'.coinFree = o.coinFree +
        min ix.maxCoinQty (total (·.quantity) (Within s (wantOrder s.mkt ix oo tier))) * s.mkt.coinLot) ∧
      (ix.side = .ask → o'.pcFree = o.pcFree + (tradedQuote s.mkt ts - takerFees s.mkt tier ts)) := by
  obtain ⟨s', hx, a, tier, o', slot, ts, f, evs, rfl, he⟩ := place_works h hq hv hn hc
  have hsw := order_sweeps h hq hv he (hs tier)
  refine ⟨s', tier, o', ts, postedLots f, hx, hsw, he.account, ?_, ?_⟩
  · intro hb
    rw [(he.bid hb).base, hsw.lots]
  · intro ha
    exact (he.ask ha).quote

/-- 42 buys up to 2 lots at 1100 or better against 5 lots at 1000: it can sweep at every tier. -/
example (tier : FeeTier) : CanSweep Demo.p3
    (wantOrder Demo.p3.mkt { Demo.order .bid 1100 2 30000 8 with limit := 3 } 42 tier) 3 2 30000 where
  kind := by cases tier <;> decide +kernel
  others := by cases tier <;> decide +kernel
  limit := by cases tier <;> decide +kernel
  money := by cases tier <;> decide +kernel

/-- Selling 4 lots at 800 or better to bids for 3 at 900 and 2 at 800: two trades, 3 and 1 lots; with a limit of one
match only the first. -/
example : let w := wantOrder Demo.p5.mkt (Demo.order .ask 800 4 1 7) 41 .base
    CanSweep Demo.p5 w 3 4 0 ∧
    (sweep 4 (Within Demo.p5 w)).map (fun t => (t.maker.price, t.lots)) = [(900, 3), (800, 1)] ∧
    (w.takes 3 (bestFirst Demo.p5 .bid) 4 0).map (fun t => (t.maker.price, t.lots)) = [(900, 3), (800, 1)] ∧
    (w.takes 1 (bestFirst Demo.p5 .bid) 4 0).map (fun t => (t.maker.price, t.lots)) = [(900, 3)] :=
  ⟨⟨by decide +kernel, by decide +kernel, by decide +kernel, by decide +kernel⟩, by decide +kernel, by decide +kernel,
    by decide +kernel⟩

end Serum.Props
