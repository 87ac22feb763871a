import Verif.PropsFlow

/-!
C33: no instruction changes what belongs to somebody else, except by filling their resting orders at their own
price or delivering what is already theirs.
-/

namespace Serum.Props

/-! ### What belongs to an account -/

/-- Referrer rebates recorded for an account. -/
def rebatesOf (s : State conc) (b : Nat) : Nat :=
  match ooAt s.oos b with
  | some o => o.rebates
  | none => 0

/-- The orders of an account. -/
def ordersOf (s : State conc) (sd : Side) (b : Nat) : List Leaf := (resting s sd).filter fun l => l.owner == b

/-- Base units that belong to account `b`: free, behind its resting asks, or due from its queued events. -/
def baseClaim (s : State conc) (b : Nat) : Nat :=
  (freeOf s b).1 + total (askValue s.mkt) (ordersOf s .ask b) + total baseDue (eventsOf b (pending s))
/-- Quote units that belong to account `b`. -/
def quoteClaim (s : State conc) (b : Nat) : Nat :=
  (freeOf s b).2 + total (bidValue s.mkt) (ordersOf s .bid b) + total quoteDue (eventsOf b (pending s))
/-- Referrer rebates that belong to account `b`. -/
def rebateClaim (s : State conc) (b : Nat) : Nat := rebatesOf s b + total rebateDue (eventsOf b (pending s))

/-- Base units a resting order gives in a trade. -/
def Trade.baseGiven (m : Market) (t : Trade) : Nat := match t.side with | .ask => t.lots * m.coinLot | .bid => 0
def Trade.baseGot (m : Market) (t : Trade) : Nat := match t.side with | .bid => t.lots * m.coinLot | .ask => 0
def Trade.quoteGiven (m : Market) (t : Trade) : Nat := match t.side with | .bid => t.value m | .ask => 0
def Trade.quoteGot (m : Market) (t : Trade) : Nat := match t.side with | .ask => t.value m | .bid => 0

/-- Between `s` and `s'` nothing happened to account `b` but trades of its resting orders at their own price:
what belongs to it changed by exactly those trades, and its orders are those it had, or less of them. -/
structure OnlyFilled (s s' : State conc) (b : Nat) (ts : List Trade) : Prop where
  theirs : ∀ t ∈ ts, t.owner = b ∧ t.With s
  orders : ∀ sd, ∀ l' ∈ resting s' sd, l'.owner = b →
    ∃ l ∈ resting s sd, l' = { l with quantity := l'.quantity } ∧ l'.quantity ≤ l.quantity
  base : baseClaim s' b + total (Trade.baseGiven s.mkt) ts = baseClaim s b + total (Trade.baseGot s.mkt) ts
  quote : quoteClaim s' b + total (Trade.quoteGiven s.mkt) ts = quoteClaim s b + total (Trade.quoteGot s.mkt) ts
  rebate : rebateClaim s' b = rebateClaim s b
  lots : s'.mkt.coinLot = s.mkt.coinLot ∧ s'.mkt.pcLot = s.mkt.pcLot

/-! ### Sums -/

theorem baseClaim_eq (s : State conc) (b : Nat) : baseClaim s b =
    (freeOf s b).1 + bookLock .ask s.mkt (only b) (resting s .ask) +
      evSum (EventView.free .ask) (only b) (pending s) := by
  unfold baseClaim ordersOf eventsOf
  rw [askLock_only, evSum_only _ _ free_ask]

theorem quoteClaim_eq (s : State conc) (b : Nat) : quoteClaim s b =
    (freeOf s b).2 + bookLock .bid s.mkt (only b) (resting s .bid) +
      evSum (EventView.free .bid) (only b) (pending s) := by
  unfold quoteClaim ordersOf eventsOf
  rw [bidLock_only, evSum_only _ _ free_bid]

theorem rebateClaim_eq (s : State conc) (b : Nat) : rebateClaim s b =
    rebatesOf s b + evSum EventView.rebate (only b) (pending s) := by
  unfold rebateClaim eventsOf
  rw [evSum_only _ _ rebate_due]

theorem Trade.lotsCongr {m m' : Market} (h : m'.coinLot = m.coinLot ∧ m'.pcLot = m.pcLot) :
    Trade.baseGiven m' = Trade.baseGiven m ∧ Trade.baseGot m' = Trade.baseGot m ∧
    Trade.quoteGiven m' = Trade.quoteGiven m ∧ Trade.quoteGot m' = Trade.quoteGot m := by
  refine ⟨?_, ?_, ?_, ?_⟩ <;> funext t <;>
    simp only [Trade.baseGiven, Trade.baseGot, Trade.quoteGiven, Trade.quoteGot, Trade.value, h.1, h.2]

theorem OnlyFilled.trans {a b c : State conc} {k : Nat} {ts us : List Trade} (h : OnlyFilled a b k ts)
    (g : OnlyFilled b c k us) : OnlyFilled a c k (ts ++ us) := by
  obtain ⟨e1, e2, e3, e4⟩ := Trade.lotsCongr h.lots
  refine ⟨?_, ?_, ?_, ?_, g.rebate.trans h.rebate, ⟨g.lots.1.trans h.lots.1, g.lots.2.trans h.lots.2⟩⟩
  · intro t ht
    rcases List.mem_append.1 ht with ht | ht
    · exact h.theirs t ht
    · obtain ⟨h1, l, hl, g1, g2, g3, g4, g5⟩ := g.theirs t ht
      obtain ⟨l0, hl0, e, hle⟩ := h.orders _ l hl (g2.trans h1)
      refine ⟨h1, l0, hl0, ?_, ?_, ?_, g4, Nat.le_trans g5 hle⟩
      · rw [← g1, e]
      · rw [← g2, e]
      · rw [← g3, e]; rfl
  · intro sd l' hl' ho
    obtain ⟨l1, hl1, e, hle⟩ := g.orders sd l' hl' ho
    obtain ⟨l0, hl0, e', hle'⟩ := h.orders sd l1 hl1 (by rw [← ho, e])
    refine ⟨l0, hl0, ?_, Nat.le_trans hle hle'⟩
    rw [e, e']
  · have h1 := h.base
    have h2 := g.base
    rw [e1, e2] at h2
    simp only [total_append]
    omega
  · have h1 := h.quote
    have h2 := g.quote
    rw [e3, e4] at h2
    simp only [total_append]
    omega

/-- Nothing about the account changed. -/
theorem OnlyFilled.same {s s' : State conc} {b : Nat} (hb : ∀ sd, resting s' sd = resting s sd)
    (hp : pending s' = pending s) (ho : ooAt s'.oos b = ooAt s.oos b)
    (hl : s'.mkt.coinLot = s.mkt.coinLot ∧ s'.mkt.pcLot = s.mkt.pcLot) : OnlyFilled s s' b [] := by
  have hf : freeOf s' b = freeOf s b := by unfold freeOf; rw [ho]
  have hr : rebatesOf s' b = rebatesOf s b := by unfold rebatesOf; rw [ho]
  refine ⟨by simp, ?_, ?_, ?_, ?_, hl⟩
  · intro sd l hl' _
    rw [hb] at hl'
    exact ⟨l, hl', rfl, Nat.le_refl _⟩
  · rw [baseClaim_eq, baseClaim_eq, hb, hp, hf, bookLock_congr hl.1 hl.2]; rfl
  · rw [quoteClaim_eq, quoteClaim_eq, hb, hp, hf, bookLock_congr hl.1 hl.2]; rfl
  · rw [rebateClaim_eq, rebateClaim_eq, hp, hr]

/-! ### Matching -/

theorem total_mono_mem {ts : List Touch} {t : Touch} (ht : t ∈ ts) (hf : t.filled = true) : t.lots ≤ tradedLots ts := by
  have := total_mem Touch.traded ht
  unfold Touch.traded at this
  rw [if_pos hf] at this
  exact this

/-- An order or take fills others' orders. -/
theorem Matched.filled {s s' : State conc} {o : OrderParams} {limit : Nat} {ts : List Touch} {f : Option Posting}
    {evs : List EventView} (h : Matched s s' o limit ts f evs) {b : Nat} (hb : b ≠ o.owner)
    (ho : ooAt s'.oos b = ooAt s.oos b) (hw : o.side = .ask → tradedLots ts * s.mkt.coinLot < W64) :
    OnlyFilled s s' b ((tradesOf o.side.other ts).filter fun t => t.owner == b) := by
  have hf : freeOf s' b = freeOf s b := by unfold freeOf; rw [ho]
  have hr : rebatesOf s' b = rebatesOf s b := by unfold rebatesOf; rw [ho]
  have hs := h.sums (only b)
  have hob : only b o.owner = false := by unfold only; simp; exact fun e => hb e.symm
  have hsum : ∀ g : Trade → Nat, total g ((tradesOf o.side.other ts).filter fun t => t.owner == b) =
      sumBy (fun t => if t.filled then (if only b t.maker.owner then
        g ⟨o.side.other, t.maker.owner, t.maker.key, t.maker.price, t.lots⟩ else 0) else 0) ts := by
    intro g
    rw [total_filter]
    unfold tradesOf
    rw [total_map, total_filter]
    rfl
  have hreb := hs.rebate
  rw [if_neg (by rw [hob]; simp)] at hreb
  have hown := hs.ownFree
  rw [hob] at hown
  have hopp := hs.oppFree
  have hpm : ∀ (x : State conc) sd, bookLock sd s.mkt (only b) (bestFirst x sd) = bookLock sd s.mkt (only b) (resting x sd) := by
    intro x sd
    cases sd
    · exact bookLock_perm (List.reverse_perm _)
    · rfl
  rw [hpm, hpm] at hopp
  have hlk : ∀ sd L, bookLock sd s'.mkt (only b) L = bookLock sd s.mkt (only b) L :=
    fun sd L => bookLock_congr h.lots.1 h.lots.2 sd _ L
  refine ⟨?_, ?_, ?_, ?_, ?_, h.lots⟩
  · intro t ht
    obtain ⟨h1, h2⟩ := List.mem_filter.1 ht
    exact ⟨by simpa using h2, (h.trades h1).2.1⟩
  · intro sd l hl hlo
    by_cases hsd : sd = o.side
    · subst hsd
      have hown := h.own
      cases f with
      | none => simp only at hown; rw [hown] at hl; exact ⟨l, hl, rfl, Nat.le_refl _⟩
      | some f =>
        obtain ⟨cap, ho⟩ := hown
        have hne : l ≠ o.leaf f.lots := by
          rintro rfl; exact hb hlo.symm
        refine ⟨l, ?_, rfl, Nat.le_refl _⟩
        rcases ho.book with ⟨_, _, e⟩ | ⟨x, R, _, _, e, e2⟩
        · rw [e] at hl
          exact (insKey_mem hl).resolve_left hne
        · rw [e] at hl
          have hl := (insKey_mem hl).resolve_left hne
          cases hs : o.side with
          | bid => rw [hs] at e2; simp only at e2; rw [e2]; simp [hl]
          | ask => rw [hs] at e2; simp only at e2; rw [e2]; simp [hl]
    · have : sd = o.side.other := by revert hsd; cases sd <;> cases o.side <;> simp [Side.other]
      subst this
      obtain ⟨y, hy, e, hle⟩ := takeFront_mem h.opp (mem_bestFirst.2 hl)
      exact ⟨y, mem_bestFirst.1 hy, e, hle⟩
  · rw [baseClaim_eq, baseClaim_eq, h.queue, evSum_append, hf, hlk, hsum, hsum]
    cases hsd : o.side with
    | bid =>
      rw [hsd] at hopp
      simp only [Side.other] at hopp ⊢
      have e0 : sumBy (fun t => if t.filled then touchLock .ask s.mkt (only b) t else 0) ts =
          sumBy (fun t : Touch => if t.filled then (if only b t.maker.owner then
            Trade.baseGiven s.mkt ⟨.ask, t.maker.owner, t.maker.key, t.maker.price, t.lots⟩ else 0) else 0) ts := rfl
      have e1 : sumBy (fun t : Touch => if t.filled then (if only b t.maker.owner then
            Trade.baseGot s.mkt ⟨.ask, t.maker.owner, t.maker.key, t.maker.price, t.lots⟩ else 0) else 0) ts = 0 :=
        sumBy_zero fun t _ => by simp [Trade.baseGot]
      omega
    | ask =>
      rw [hsd] at hown
      simp only [Side.other] at hown ⊢
      have e0 : sumBy (fun t => if t.filled then (if only b t.maker.owner then t.received .ask s.mkt else 0) else 0) ts =
          sumBy (fun t : Touch => if t.filled then (if only b t.maker.owner then
            Trade.baseGot s.mkt ⟨.bid, t.maker.owner, t.maker.key, t.maker.price, t.lots⟩ else 0) else 0) ts := by
        refine sumBy_congr' fun t ht => ?_
        split
        · rename_i hfl
          have : wmul t.lots s.mkt.coinLot = t.lots * s.mkt.coinLot := by
            refine Nat.mod_eq_of_lt (Nat.lt_of_le_of_lt ?_ (hw hsd))
            exact Nat.mul_le_mul_right _ (total_mono_mem ht hfl)
          simp only [Touch.received, Trade.baseGot, this]
        · rfl
      have e1 : sumBy (fun t : Touch => if t.filled then (if only b t.maker.owner then
            Trade.baseGiven s.mkt ⟨.bid, t.maker.owner, t.maker.key, t.maker.price, t.lots⟩ else 0) else 0) ts = 0 :=
        sumBy_zero fun t _ => by simp [Trade.baseGiven]
      simp at hown
      omega
  · rw [quoteClaim_eq, quoteClaim_eq, h.queue, evSum_append, hf, hlk, hsum, hsum]
    cases hsd : o.side with
    | ask =>
      rw [hsd] at hopp
      simp only [Side.other] at hopp ⊢
      have e0 : sumBy (fun t => if t.filled then touchLock .bid s.mkt (only b) t else 0) ts =
          sumBy (fun t : Touch => if t.filled then (if only b t.maker.owner then
            Trade.quoteGiven s.mkt ⟨.bid, t.maker.owner, t.maker.key, t.maker.price, t.lots⟩ else 0) else 0) ts := rfl
      have e1 : sumBy (fun t : Touch => if t.filled then (if only b t.maker.owner then
            Trade.quoteGot s.mkt ⟨.bid, t.maker.owner, t.maker.key, t.maker.price, t.lots⟩ else 0) else 0) ts = 0 :=
        sumBy_zero fun t _ => by simp [Trade.quoteGot]
      omega
    | bid =>
      rw [hsd] at hown
      simp only [Side.other] at hown ⊢
      have e0 : sumBy (fun t => if t.filled then (if only b t.maker.owner then t.received .bid s.mkt else 0) else 0) ts =
          sumBy (fun t : Touch => if t.filled then (if only b t.maker.owner then
            Trade.quoteGot s.mkt ⟨.ask, t.maker.owner, t.maker.key, t.maker.price, t.lots⟩ else 0) else 0) ts := rfl
      have e1 : sumBy (fun t : Touch => if t.filled then (if only b t.maker.owner then
            Trade.quoteGiven s.mkt ⟨.ask, t.maker.owner, t.maker.key, t.maker.price, t.lots⟩ else 0) else 0) ts = 0 :=
        sumBy_zero fun t _ => by simp [Trade.quoteGiven]
      simp at hown
      omega
  · rw [rebateClaim_eq, rebateClaim_eq, h.queue, evSum_append, hr, hreb]; omega

/-! ### Withdrawing -/

theorem side_nodup {m : Market} {B A : List Leaf} (h : BookOk m B A) (sd : Side) : (sideOf sd B A).Nodup := by
  refine (side_sorted h sd).imp ?_
  rintro a b hab rfl
  omega

/-- A sum over a book side: what stays plus what was withdrawn. -/
theorem total_without {sd : Side} {L : List Leaf} (hL : L.Nodup) {ls : List (Side × Leaf)} (hn : ls.Nodup)
    (hm : ∀ l, (sd, l) ∈ ls → l ∈ L) (g : Leaf → Nat) :
    sumBy g L = sumBy g (without ls sd L) + sumBy (fun x : Side × Leaf => if x.1 = sd then g x.2 else 0) ls := by
  have h1 : sumBy g L = sumBy g (without ls sd L) + sumBy g (L.filter fun x => ls.contains (sd, x)) := by
    unfold without
    rw [sumBy_filter, sumBy_filter, ← sumBy_add']
    refine sumBy_congr' fun x _ => ?_
    cases ls.contains (sd, x) <;> simp
  have h2 : (L.filter fun x => ls.contains (sd, x)).Perm ((ls.filter fun x => x.1 = sd).map (·.2)) := by
    refine (List.perm_ext_iff_of_nodup (hL.filter _) ?_).2 ?_
    · refine List.pairwise_map.2 (List.Pairwise.imp_of_mem ?_ (hn.filter _))
      rintro ⟨d1, x⟩ ⟨d2, y⟩ hx hy hne e
      have h1 := of_decide_eq_true (List.mem_filter.1 hx).2
      have h2 := of_decide_eq_true (List.mem_filter.1 hy).2
      simp only at h1 h2 e
      subst h1 h2 e
      exact hne rfl
    · intro x
      simp only [List.mem_filter, List.mem_map, List.contains_iff_mem, decide_eq_true_eq]
      constructor
      · rintro ⟨_, h⟩; exact ⟨(sd, x), ⟨h, rfl⟩, rfl⟩
      · rintro ⟨⟨sd', y⟩, ⟨h, rfl⟩, rfl⟩; exact ⟨hm _ h, h⟩
  rw [h1, sumBy_perm _ h2, sumBy_map, sumBy_filter]
  simp only [decide_eq_true_eq]

/-- Withdrawing orders keeps everybody's claims. -/
theorem Withdrawn.filled {P : Params} {s s' : State conc} (h : Reach P s) (hq : s.seq ≤ W64) {a : Nat}
    {ls : List (Side × Leaf)} (hw : Withdrawn s s' a ls) (b : Nat) : OnlyFilled s s' b [] := by
  obtain ⟨vs, _, _, hi⟩ := h.view hq
  have hbk := hi.shape.book
  have hnd : ∀ sd, (resting s sd).Nodup := fun sd => by
    have := side_nodup hbk sd
    cases sd <;> exact this
  obtain ⟨o, ho, ho'⟩ := hw.account
  have hlock : ∀ sd, bookLock sd s.mkt (only b) (resting s sd) = bookLock sd s.mkt (only b) (resting s' sd) +
      (if b = a then sumBy (fun x : Side × Leaf => if x.1 = sd then lockedValue sd s.mkt x.2.price x.2.quantity else 0) ls
        else 0) := by
    intro sd
    unfold bookLock
    rw [hw.books, total_without (hnd sd) hw.nodup (fun l hl => (hw.theirs sd l hl).1)]
    congr 1
    split
    · rename_i e
      refine sumBy_congr' fun x hx => ?_
      have := (hw.theirs x.1 x.2 hx).2
      unfold leafLock only
      simp [this, e]
    · rename_i e
      refine sumBy_zero fun x hx => ?_
      have := (hw.theirs x.1 x.2 hx).2
      unfold leafLock only
      simp only [this, beq_iff_eq]
      rw [if_neg (fun e' : a = b => e e'.symm)]
      simp
  have hev : ∀ w : EventView → Nat, (∀ x, w (outEvent s.mkt x) = 0) →
      evSum w (only b) (pending s') = evSum w (only b) (pending s) := by
    intro w hz
    rw [hw.events, evSum_append]
    have : evSum w (only b) (ls.map (outEvent s.mkt)) = 0 := by
      unfold evSum
      rw [sumBy_map]
      exact sumBy_zero fun x _ => by rw [hz]; simp
    omega
  have hz : ∀ sd x, EventView.free sd (outEvent s.mkt x) = 0 := by
    rintro sd ⟨sd', l⟩; cases sd' <;> rfl
  have hc : sumBy (fun x : Side × Leaf => if x.1 = .ask then lockedValue .ask s.mkt x.2.price x.2.quantity else 0) ls =
      total (baseWorth s.mkt) ls := sumBy_congr' fun x _ => by
    obtain ⟨sd, l⟩ := x; cases sd <;> rfl
  have hp : sumBy (fun x : Side × Leaf => if x.1 = .bid then lockedValue .bid s.mkt x.2.price x.2.quantity else 0) ls =
      total (quoteWorth s.mkt) ls := sumBy_congr' fun x _ => by
    obtain ⟨sd, l⟩ := x; cases sd <;> rfl
  have hf : freeOf s' b = ((freeOf s b).1 + (if b = a then total (baseWorth s.mkt) ls else 0),
      (freeOf s b).2 + (if b = a then total (quoteWorth s.mkt) ls else 0)) := by
    unfold freeOf
    by_cases e : b = a
    · subst e; rw [ho', ho]; simp [released]
    · rw [hw.others b e, if_neg e, if_neg e]; rfl
  have hr : rebatesOf s' b = rebatesOf s b := by
    unfold rebatesOf
    by_cases e : b = a
    · subst e; rw [ho', ho]; rfl
    · rw [hw.others b e]
  refine ⟨by simp, ?_, ?_, ?_, ?_, by rw [hw.mkt]; exact ⟨rfl, rfl⟩⟩
  · intro sd l hl _
    rw [hw.books] at hl
    exact ⟨l, (mem_without.1 hl).1, rfl, Nat.le_refl _⟩
  · have := hlock .ask
    rw [hc] at this
    rw [baseClaim_eq, baseClaim_eq, hev _ (hz _), hf, hw.mkt, this]
    show _ + 0 = _ + 0
    simp only
    omega
  · have := hlock .bid
    rw [hp] at this
    rw [quoteClaim_eq, quoteClaim_eq, hev _ (hz _), hf, hw.mkt, this]
    show _ + 0 = _ + 0
    simp only
    omega
  · rw [rebateClaim_eq, rebateClaim_eq, hr, hev]
    rintro ⟨sd, l⟩; cases sd <;> rfl

/-- Delivering events keeps everybody's claims. -/
theorem crank_filled {P : Params} {s s' : State conc} (h : Reach P s) (hq : s.seq ≤ W64) {env : Env}
    {accts : List AccMeta} {n : Nat}
    (hx : consumeEvents conc P env s accts n = .ok s' ∨ consumeEventsPermissioned conc P env s accts n = .ok s')
    {b : Nat} {o : OpenOrders} (ho : ooAt s.oos b = some o) :
    ∃ o', ooAt s'.oos b = some o' ∧ o'.owner = o.owner ∧ o.coinFree ≤ o'.coinFree ∧ o.pcFree ≤ o'.pcFree ∧
      o.rebates ≤ o'.rebates ∧ OnlyFilled s s' b [] := by
  obtain ⟨k, _, _, hp, _, _, hd, hm, _, hb, hk, _⟩ := crank_delivers h hq hx
  obtain ⟨o', ho', d⟩ := hd b o ho
  have hrest : ∀ sd, resting s' sd = resting s sd := by
    intro sd; cases sd
    · unfold resting; rw [hb]
    · unfold resting; rw [hk]
  have hev : ∀ g : EventView → Nat, total g (eventsOf b (pending s)) =
      total g (eventsOf b ((pending s).take k)) + total g (eventsOf b (pending s')) := by
    intro g
    rw [← total_append, hp]
    unfold eventsOf
    rw [← List.filter_append, List.take_append_drop]
  have c1 := d.coinFree
  have c2 := d.pcFree
  have c3 := d.rebates
  refine ⟨o', ho', d.owner, by omega, by omega, by omega, by simp, ?_, ?_, ?_, ?_, by rw [hm]; exact ⟨rfl, rfl⟩⟩
  · intro sd l hl _
    rw [hrest] at hl
    exact ⟨l, hl, rfl, Nat.le_refl _⟩
  · unfold baseClaim ordersOf freeOf
    rw [ho, ho', hrest, hm, hev baseDue]
    show _ + 0 = _ + 0
    simp only
    omega
  · unfold quoteClaim ordersOf freeOf
    rw [ho, ho', hrest, hm, hev quoteDue]
    show _ + 0 = _ + 0
    simp only
    omega
  · unfold rebateClaim rebatesOf
    rw [ho, ho', hev rebateDue]
    simp only
    omega

/-! ### C33: balances -/

/-- Account `b` is left alone between `s` and `s'`: it keeps its owner, its free balances and rebates do not
shrink, and nothing changed what belongs to it but trades of its resting orders at their own price. -/
def LeftAlone (s s' : State conc) (b : Nat) : Prop :=
  ∀ o, ooAt s.oos b = some o → ∃ o' ts, ooAt s'.oos b = some o' ∧ o'.owner = o.owner ∧ o.coinFree ≤ o'.coinFree ∧
    o.pcFree ≤ o'.pcFree ∧ o.rebates ≤ o'.rebates ∧ OnlyFilled s s' b ts

/-- No signature of the account's owner is among the accounts. -/
def NotSigned (s : State conc) (accts : List AccMeta) (b : Nat) : Prop :=
  ∀ o, ooAt s.oos b = some o → ∀ m ∈ accts, m.signer = true → m.key ≠ o.owner

theorem act_alone {P : Params} {env : Env} {accts : List AccMeta} {s s' : State conc} (h : Reach P s)
    (hn : NotVault P s.mkt accts) (hq : s'.seq ≤ W64) (ha : Act P env accts s s') {b : Nat}
    (hb : NotSigned s accts b) : LeftAlone s s' b := by
  intro o ho
  have hs : s.seq ≤ W64 := Nat.le_trans ha.seq hq
  have hsig := hb o ho
  have keep : (ooAt s'.oos b = ooAt s.oos b) → (ts : List Trade) → OnlyFilled s s' b ts →
      ∃ o' ts, ooAt s'.oos b = some o' ∧ o'.owner = o.owner ∧ o.coinFree ≤ o'.coinFree ∧
        o.pcFree ≤ o'.pcFree ∧ o.rebates ≤ o'.rebates ∧ OnlyFilled s s' b ts :=
    fun e ts f => ⟨o, ts, e.trans ho, rfl, Nat.le_refl _, Nat.le_refl _, Nat.le_refl _, f⟩
  have wd : ∀ {a ls}, Withdrawn s s' a ls → ∃ o' ts, ooAt s'.oos b = some o' ∧ o'.owner = o.owner ∧
      o.coinFree ≤ o'.coinFree ∧ o.pcFree ≤ o'.pcFree ∧ o.rebates ≤ o'.rebates ∧ OnlyFilled s s' b ts := by
    intro a ls w
    by_cases e : b = a
    · subst e
      obtain ⟨p, hp, hp'⟩ := w.account
      rw [ho] at hp
      cases hp
      exact ⟨_, [], hp', rfl, Nat.le_add_right _ _, Nat.le_add_right _ _, Nat.le_refl _, w.filled h hs b⟩
    · exact keep (w.others b e) [] (w.filled h hs b)
  have same : (∀ sd, resting s' sd = resting s sd) → pending s' = pending s → ooAt s'.oos b = ooAt s.oos b →
      s'.mkt.coinLot = s.mkt.coinLot ∧ s'.mkt.pcLot = s.mkt.pcLot → _ :=
    fun h1 h2 h3 h4 => keep h3 [] (.same h1 h2 h3 h4)
  cases ha with
  | idle e => subst e; exact same (fun _ => rfl) rfl rfl ⟨rfl, rfl⟩
  | place hl hv hx =>
    have hlt : s.seq < W64 := by have := (newOrderV3_keeps hx).2.1; omega
    obtain ⟨a, tier, p, p', slot, d, ts, f, evs, e⟩ := place_effect h hlt hv (hn.subset hl) hx
    rename_i l ix
    have hne : b ≠ a.oo.key := by
      rintro rfl
      rcases loadOrders_inv e.args.load with ⟨g, _⟩ | ⟨g, _⟩
      · have g' : ooAt s.oos a.oo.key = some p := g
        rw [ho] at g'
        cases g'
        refine hsig a.owner (hl ?_) e.args.signed e.owner.2.symm
        have hp := e.args.parse
        unfold parseNewOrder at hp
        split at hp
        · split at hp
          · cases hp; simp
          · cases hp
        · cases hp
      · have g' : ooAt s.oos a.oo.key = none := g
        rw [ho] at g'; cases g'
    refine keep (e.others b hne) _ (e.matched.filled hne (e.others b hne) fun hs => ?_)
    have m := e.ask hs
    exact Nat.lt_of_le_of_lt (Nat.mul_le_mul_right _ (by have := m.size; omega)) m.fits
  | take hl hv hx =>
    have hlt : s.seq < W64 := by have := (sendTake_keeps hx).2.1; omega
    obtain ⟨a, tier, ts, evs, e⟩ := take_effect h hlt hv (hn.subset hl) hx
    have hne : b ≠ 0 := by
      rintro rfl
      obtain ⟨vs, _, _, hi⟩ := h.view hs
      exact hi.shape.zero (List.mem_map_of_mem (f := (·.1)) (ooAt_mem ho))
    exact keep (by rw [e.accounts]) _ (e.matched.filled hne (by rw [e.accounts]) fun _ => e.lots)
  | cancel hl hx => obtain ⟨_, _, _, _, _, _, _, _, _, w⟩ := cancel_withdrawn h hs (.inl ⟨_, _, hx⟩); exact wd w
  | cancelBy hl hx => obtain ⟨_, _, _, _, _, _, _, _, _, w⟩ := cancel_withdrawn h hs (.inr (.inl ⟨_, hx⟩)); exact wd w
  | batch hl hx => obtain ⟨_, _, _, _, _, _, _, _, _, w⟩ := cancel_withdrawn h hs (.inr (.inr ⟨_, hx⟩)); exact wd w
  | prune hl hx => obtain ⟨_, _, _, _, _, _, _, _, _, _, _, _, _, _, _, w, _⟩ := prune_effect h hs hx; exact wd w
  | crank hl hx =>
    obtain ⟨o', h1, h2, h3, h4, h5, h6⟩ := crank_filled h hs hx ho
    exact ⟨o', [], h1, h2, h3, h4, h5, h6⟩
  | settle hl hx =>
    obtain ⟨m, oo, owner, cv, pv, cw, pw, vsA, tp, refer, p, rfl, _, hsg, how, st⟩ := settle_effect h hs hx
    have hne : b ≠ oo.key := by
      rintro rfl
      have g := st.account
      rw [ho] at g
      cases g
      exact hsig owner (hl (by simp)) hsg how.symm
    refine same (fun sd => ?_) ?_ (st.others b hne) ?_
    · cases sd
      · unfold resting; rw [st.rest.1]
      · unfold resting; rw [st.rest.2.1]
    · unfold pending; rw [st.rest.2.2.1]
    · rw [st.mkt]; exact ⟨rfl, rfl⟩
  | disable hl hx =>
    obtain ⟨_, _, _, _, _, _, e⟩ := disable_inv hx
    subst e
    exact same (fun sd => by cases sd <;> rfl) rfl rfl ⟨rfl, rfl⟩
  | sweep hl hx =>
    obtain ⟨m, pv, auth, w, vsA, tp, l, rfl, h1, h2, h3, e⟩ := sweep_effect h hs hx
    subst e
    exact same (fun sd => by cases sd <;> rfl) rfl rfl ⟨rfl, rfl⟩
  | close hl hx =>
    obtain ⟨oo, owner, dest, m, p, rfl, hsg, hp, _, how, _, _, _, e⟩ := (close_is_safe h hs).1 _ _ _ hx
    have hne : b ≠ oo.key := by
      rintro rfl
      rw [ho] at hp
      cases hp
      exact hsig owner (hl (by simp)) hsg how.symm
    subst e
    exact same (fun sd => by cases sd <;> rfl) rfl (by rw [ooAt_setOo, if_neg hne]) ⟨rfl, rfl⟩
  | init hl hx =>
    obtain ⟨oo, owner, m, rent, rest, rfl, hsg, _, hcase⟩ := init_inv hx
    rcases hcase with ⟨e, _⟩ | ⟨e, hnone, _⟩
    · subst e; exact same (fun _ => rfl) rfl rfl ⟨rfl, rfl⟩
    · have hne : b ≠ oo.key := by
        rintro rfl
        rw [ho] at hnone; cases hnone
      subst e
      exact same (fun sd => by cases sd <;> rfl) rfl (by rw [ooAt_setOo, if_neg hne]) ⟨rfl, rfl⟩

/-- C33 (balances). In every reachable state and for every successful instruction, an account whose owner did
not sign it keeps its owner, loses no free balance, and what belongs to it (free, behind resting orders, or due
from queued events) changes only by trades of its own resting orders at their own prices. -/
theorem others_left_alone {P : Params} {env : Env} {accts : List AccMeta} {ix : Instruction} {s s' : State conc}
    (h : Reach P s) (hn : NotVault P s.mkt accts) (hv : IxValid ix) (hx : process conc P env s accts ix = .ok s')
    (hq : s'.seq ≤ W64) {b : Nat} (hb : NotSigned s accts b) : LeftAlone s s' b := by
  refine (process_acts h hn hv hx).induct (Q := fun s s' => NotSigned s accts b → LeftAlone s s' b) ?_ ?_
    (fun _ _ hr hn hq ha => act_alone hr hn hq ha) hq hb
  · intro s hr _ o ho
    exact ⟨o, [], ho, rfl, Nat.le_refl _, Nat.le_refl _, Nat.le_refl _, .same (fun _ => rfl) rfl rfl ⟨rfl, rfl⟩⟩
  · intro x y z h1 h2 hb o ho
    obtain ⟨o1, t1, a1, a2, a3, a4, a5, a6⟩ := h1 hb o ho
    have hb' : NotSigned y accts b := by
      intro o' ho'
      rw [a1] at ho'
      cases ho'
      rw [a2]
      exact hb o ho
    obtain ⟨o2, t2, b1, b2, b3, b4, b5, b6⟩ := h2 hb' o1 a1
    exact ⟨o2, _, b1, b2.trans a2, Nat.le_trans a3 b3, Nat.le_trans a4 b4, Nat.le_trans a5 b5, a6.trans b6⟩

/-! ### C33: wallets -/

/-- The token account keeps its mint, owner and delegation, and loses nothing. -/
def Grows (l l' : Ledger) (w : Nat) : Prop :=
  ∀ t, l w = some t → ∃ n, t.amount ≤ n ∧ l' w = some { t with amount := n }

theorem Grows.refl (l : Ledger) (w : Nat) : Grows l l w := fun t ht => ⟨t.amount, Nat.le_refl _, ht⟩

theorem Grows.trans {l l1 l2 : Ledger} {w : Nat} (h : Grows l l1 w) (g : Grows l1 l2 w) : Grows l l2 w := by
  intro t ht
  obtain ⟨n, h1, h2⟩ := h t ht
  obtain ⟨k, g1, g2⟩ := g _ h2
  exact ⟨k, Nat.le_trans h1 g1, g2⟩

theorem Paid.grows' {l l' : Ledger} {src dst n w : Nat} (h : Paid l l' src dst n) (hw : w ≠ src) : Grows l l' w := by
  intro t ht
  by_cases hs : src = dst
  · rw [h.self hs]; exact ⟨_, Nat.le_refl _, ht⟩
  · by_cases hd : w = dst
    · subst hd
      exact ⟨_, Nat.le_add_right _ _, h.grows hs t ht⟩
    · exact ⟨_, Nat.le_refl _, by rw [h.others w hw hd]; exact ht⟩

theorem depositIn_auth {l l' : Ledger} {src v auth n : Nat} (h : depositIn l src v auth n = .ok l') :
    l' = l ∨ ∃ t, l src = some t ∧ (t.owner = auth ∨ t.delegate = some auth) := by
  unfold depositIn at h
  split at h
  · cases h; exact .inl rfl
  · split at h
    · cases h
    · cases h
    · rename_i l1 h1
      right
      unfold splTransfer at h1
      cases hs : l src with
      | none => rw [hs] at h1; cases h1
      | some t =>
        refine ⟨t, rfl, ?_⟩
        cases hd : l v with
        | none => rw [hs, hd] at h1; cases h1
        | some d =>
          rw [hs, hd] at h1
          simp only at h1
          split at h1
          · cases h1
          · split at h1
            · cases h1
            · split at h1
              · cases h1
              · unfold debitTok at h1
                by_cases hg : t.delegate = some auth
                · exact .inr hg
                · rw [if_neg hg] at h1
                  by_cases ho : t.owner = auth
                  · exact .inl ho
                  · rw [if_pos ho] at h1; cases h1

theorem depositIn_grows {l l' : Ledger} {src v auth n w : Nat} (h : depositIn l src v auth n = .ok l')
    (hw : ∀ t, l w = some t → auth ≠ t.owner ∧ t.delegate ≠ some auth) : Grows l l' w := by
  rcases depositIn_paid h with ⟨_, e⟩ | ⟨_, _, hp⟩
  · rw [e]; exact .refl _ _
  · by_cases e : w = src
    · subst e
      rcases depositIn_auth h with e | ⟨t, ht, ho⟩
      · rw [e]; exact .refl _ _
      · obtain ⟨h1, h2⟩ := hw t ht
        rcases ho with ho | ho
        · exact absurd ho.symm h1
        · exact absurd ho h2
    · exact hp.grows' e

theorem PaidOut.grows {l l' : Ledger} {v dst n w : Nat} (h : PaidOut l l' v dst n) (hw : w ≠ v) : Grows l l' w := by
  rcases h with ⟨_, e⟩ | ⟨_, hp⟩
  · rw [e]; exact .refl _ _
  · exact hp.grows' hw

/-- Neither owner nor delegate of the token account signed. -/
def WalletNotSigned (l : Ledger) (accts : List AccMeta) (w : Nat) : Prop :=
  ∀ t, l w = some t → ∀ m ∈ accts, m.signer = true → m.key ≠ t.owner ∧ t.delegate ≠ some m.key

theorem act_wallet {P : Params} {env : Env} {accts : List AccMeta} {s s' : State conc} (h : Reach P s)
    (hn : NotVault P s.mkt accts) (hq : s'.seq ≤ W64) (ha : Act P env accts s s') {w : Nat}
    (hc : w ≠ s.mkt.coinVault) (hp : w ≠ s.mkt.pcVault) (hw : WalletNotSigned s.toks accts w) :
    Grows s.toks s'.toks w := by
  have hs : s.seq ≤ W64 := Nat.le_trans ha.seq hq
  have wd : ∀ {a ls}, Withdrawn s s' a ls → Grows s.toks s'.toks w := fun x => by rw [x.toks]; exact .refl _ _
  have hdv : ∀ sd, w ≠ s.mkt.depositVault sd := fun sd => match sd with | .bid => hp | .ask => hc
  cases ha with
  | idle e => subst e; exact .refl _ _
  | place hl hv hx =>
    have hlt : s.seq < W64 := by have := (newOrderV3_keeps hx).2.1; omega
    obtain ⟨a, tier, p, p', slot, d, ts, f, evs, e⟩ := place_effect h hlt hv (hn.subset hl) hx
    have hmem : a.owner ∈ accts := by
      refine hl ?_
      have hp := e.args.parse
      unfold parseNewOrder at hp
      split at hp
      · split at hp
        · cases hp; simp
        · cases hp
      · cases hp
    exact depositIn_grows e.signedPay fun t ht => hw t ht _ hmem e.args.signed
  | take hl hv hx =>
    have hlt : s.seq < W64 := by have := (sendTake_keeps hx).2.1; omega
    obtain ⟨a, tier, ts, evs, e⟩ := take_effect h hlt hv (hn.subset hl) hx
    have hmem : a.signer ∈ accts := by
      refine hl ?_
      have hp := e.args.parse
      unfold parseSendTake at hp
      split at hp
      · split at hp
        · cases hp; simp
        · cases hp
      · cases hp
    obtain ⟨l, n, h1, k, h2⟩ := e.signedPay
    exact (depositIn_grows h1 fun t ht => hw t ht _ hmem e.args.signed).trans (h2.grows (hdv _))
  | cancel hl hx => obtain ⟨_, _, _, _, _, _, _, _, _, w⟩ := cancel_withdrawn h hs (.inl ⟨_, _, hx⟩); exact wd w
  | cancelBy hl hx => obtain ⟨_, _, _, _, _, _, _, _, _, w⟩ := cancel_withdrawn h hs (.inr (.inl ⟨_, hx⟩)); exact wd w
  | batch hl hx => obtain ⟨_, _, _, _, _, _, _, _, _, w⟩ := cancel_withdrawn h hs (.inr (.inr ⟨_, hx⟩)); exact wd w
  | prune hl hx => obtain ⟨_, _, _, _, _, _, _, _, _, _, _, _, _, _, _, w, _⟩ := prune_effect h hs hx; exact wd w
  | crank hl hx =>
    obtain ⟨_, _, _, _, _, _, _, _, e, _⟩ := crank_delivers h hs hx
    rw [e]; exact .refl _ _
  | settle hl hx =>
    obtain ⟨m, oo, owner, cv, pv, cw, pw, vsA, tp, refer, p, rfl, _, hsg, how, st⟩ := settle_effect h hs hx
    obtain ⟨l1, l2, h1, h2, h3⟩ := st.paid
    refine (h1.grows' hc).trans ((h2.grows' hp).trans ?_)
    revert h3
    cases (if 0 < p.rebates then (refer.map (·.key)).head? else none) with
    | none => intro h3; simp only at h3; rw [h3]; exact .refl _ _
    | some r => intro h3; exact h3.grows' hp
  | disable hl hx =>
    obtain ⟨_, _, _, _, _, _, e⟩ := disable_inv hx
    subst e
    exact .refl _ _
  | sweep hl hx =>
    obtain ⟨m, pv, auth, w, vsA, tp, l, rfl, h1, h2, h3, e⟩ := sweep_effect h hs hx
    subst e
    exact h3.grows' hp
  | close hl hx =>
    obtain ⟨_, _, _, _, _, _, _, _, _, _, _, _, _, e⟩ := (close_is_safe h hs).1 _ _ _ hx
    subst e
    exact .refl _ _
  | init hl hx =>
    obtain ⟨_, _, _, _, _, _, _, _, hcase⟩ := init_inv hx
    rcases hcase with ⟨e, _⟩ | ⟨e, _⟩ <;> subst e <;> exact .refl _ _

/-- C33 (wallets). No instruction takes tokens out of a token account, other than the vaults, unless its owner
or delegate signed; nor does it change its owner or delegation. -/
theorem wallets_left_alone {P : Params} {env : Env} {accts : List AccMeta} {ix : Instruction} {s s' : State conc}
    (h : Reach P s) (hn : NotVault P s.mkt accts) (hv : IxValid ix) (hx : process conc P env s accts ix = .ok s')
    (hq : s'.seq ≤ W64) {w : Nat} (hc : w ≠ s.mkt.coinVault) (hp : w ≠ s.mkt.pcVault)
    (hw : WalletNotSigned s.toks accts w) : Grows s.toks s'.toks w := by
  refine ((process_acts h hn hv hx).induct
    (Q := fun s s' => Keeps s s' ∧ (w ≠ s.mkt.coinVault → w ≠ s.mkt.pcVault → WalletNotSigned s.toks accts w →
      Grows s.toks s'.toks w)) ?_ ?_ ?_ hq).2 hc hp hw
  · intro s _; exact ⟨.refl _, fun _ _ _ => .refl _ _⟩
  · intro x y z ⟨k1, h1⟩ ⟨k2, h2⟩
    refine ⟨k1.trans k2, fun g1 g2 g3 t0 ht0 => ?_⟩
    have a1 := h1 g1 g2 g3
    have e1 : y.mkt.coinVault = x.mkt.coinVault := by rw [k1.eq]
    have e2 : y.mkt.pcVault = x.mkt.pcVault := by rw [k1.eq]
    have : WalletNotSigned y.toks accts w := by
      intro t ht
      obtain ⟨n, _, e⟩ := a1 t0 ht0
      rw [ht] at e
      cases e
      exact g3 t0 ht0
    exact (a1.trans (h2 (by rw [e1]; exact g1) (by rw [e2]; exact g2) this)) t0 ht0
  · intro x y hr hn hq ha
    exact ⟨ha.keeps, act_wallet hr hn hq ha⟩

end Serum.Props
