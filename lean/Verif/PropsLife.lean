import Verif.PropsJournal

/-!
C78: the life of an order. Over any history of a market there is a record of the orders placed, the trades made and
the orders taken off the book, each entry backed by what happened at that moment. Every lot that was ever open is
accounted for by it, and so nobody's order ever trades beyond its size, beyond its price, twice, or after it is gone.
-/

namespace Serum.Props

/-! ### Records -/

/-- Why lots left the book other than in a trade. -/
inductive Cause where
  /-- A cancel signed by the owner. -/
  | withdrawn
  /-- A prune signed by the prune authority. -/
  | pruned
  /-- An order of the same account, signed by its owner, met it. -/
  | ownOrder
  /-- The side was full, and it was the worst order there. -/
  | crowdedOut

/-- An order as it was placed: what was asked for, the trades made at once with the fee, and the lots put on the book. -/
structure Placed where
  account : Nat
  side : Side
  id : Nat
  price : Nat
  size : Nat
  /-- The most quote units a buyer pays, fees included. -/
  budget : Nat
  took : List Trade
  fee : Nat
  rested : Nat

/-- An entry of the record. -/
inductive Note where
  | placed (p : Placed)
  /-- A trade with the resting order described by `t`. -/
  | filled (t : Trade)
  /-- Lots of a resting order were taken off. -/
  | gone (sd : Side) (owner id lots : Nat) (why : Cause)

/-- Lots on a side of the book, counted with a weight that depends on the order's id and owner. -/
def openLots (s : State conc) (sd : Side) (w : Nat → Nat → Nat) : Nat :=
  total (fun l => w l.key l.owner * l.quantity) (resting s sd)

/-- Lots an entry puts on the book. -/
def Note.added (sd : Side) (w : Nat → Nat → Nat) : Note → Nat
  | .placed p => if p.side = sd then w p.id p.account * p.rested else 0
  | _ => 0

/-- Lots of resting orders an entry trades. -/
def Note.traded (sd : Side) (w : Nat → Nat → Nat) : Note → Nat
  | .filled t => if t.side = sd then w t.id t.owner * t.lots else 0
  | _ => 0

/-- Lots an entry takes off the book without a trade. -/
def Note.dropped (sd : Side) (w : Nat → Nat → Nat) : Note → Nat
  | .gone sd' owner id lots _ => if sd' = sd then w id owner * lots else 0
  | _ => 0

/-- The entries of one act and what backs them. -/
inductive Noted (P : Params) (env : Env) (accts : List AccMeta) (s s' : State conc) : List Note → Prop where
  /-- Both sides of the book are as before. -/
  | quiet (books : ∀ sd, resting s' sd = resting s sd) : Noted P env accts s s' []
  /-- An order, signed by the owner of the account. It got the next number; every trade was with an order resting
  at that moment, at its price, within the limit, and not with an order of the account; what was traded and what was put
  on the book is within the size and, for a buyer, within the budget. It displaced at most one order of its own
  side, the worst there, and only if it was itself put on the book. -/
  | order {l : List AccMeta} {ix : NewOrderIx} (p : Placed) (signer : AccMeta) (o' : OpenOrders) (tier : FeeTier)
      (own : List (Nat × Nat)) (out : Option Leaf)
      (sub : l ⊆ accts) (ran : newOrderV3 conc P env s l ix = .ok s')
      (asked : p.side = ix.side ∧ p.price = ix.limitPrice ∧ p.size = ix.maxCoinQty ∧ p.budget = ix.maxPcQty)
      (id : p.id = genOrderId s.seq p.price p.side) (priced : p.price < W64) (seq : s'.seq = s.seq + 1)
      (mem : signer ∈ accts) (signed : signer.signer = true) (account : ooAt s'.oos p.account = some o')
      (owner : o'.owner = signer.key)
      (tier_ : Due P s.toCore signer.key accts (advertised tier))
      (met : ∀ t ∈ p.took, t.side = otherSide p.side ∧ t.With s ∧ withinLimit p.side p.price t.price ∧
        t.owner ≠ p.account)
      (fee : p.fee = total (fun t => tier.takerFee (t.value s.mkt)) p.took)
      (size : total (·.lots) p.took + p.rested ≤ p.size)
      (budget : p.side = .bid →
        total (Trade.value s.mkt) p.took + p.fee + p.rested * p.price * s.mkt.pcLot ≤ p.budget)
      (theirs : ∀ x ∈ own, ∃ y ∈ resting s (otherSide p.side), y.key = x.1 ∧ y.owner = p.account ∧ 0 < x.2 ∧
        x.2 ≤ y.quantity)
      (worst : ∀ y, out = some y → 0 < p.rested ∧ y ∈ resting s p.side ∧
        ∀ z ∈ resting s p.side, withinLimit p.side z.price y.price) :
      Noted P env accts s s'
        (.placed p :: (p.took.map .filled ++ own.map (fun x => .gone (otherSide p.side) p.account x.1 x.2 .ownOrder)
          ++ out.toList.map fun y => .gone p.side y.owner y.key y.quantity .crowdedOut))
  /-- A take, signed: every trade was with an order resting at that moment, at its price and within the limit. -/
  | take {l : List AccMeta} {ix : SendTakeIx} (signer : AccMeta) (took : List Trade)
      (sub : l ⊆ accts) (ran : sendTake conc P s l ix = .ok s')
      (mem : signer ∈ accts) (signed : signer.signer = true)
      (met : ∀ t ∈ took, t.side = otherSide ix.side ∧ t.With s ∧ withinLimit ix.side ix.limitPrice t.price)
      (size : total (·.lots) took ≤ ix.maxCoinQty) :
      Noted P env accts s s' (took.map .filled)
  /-- Whole orders of one account were cancelled with the signature of its owner. -/
  | withdrawn (a : Nat) (signer : AccMeta) (o : OpenOrders) (ls : List (Side × Leaf))
      (mem : signer ∈ accts) (signed : signer.signer = true) (account : ooAt s.oos a = some o)
      (owner : o.owner = signer.key) (theirs : ∀ sd l, (sd, l) ∈ ls → l ∈ resting s sd ∧ l.owner = a)
      (once : ls.Nodup) :
      Noted P env accts s s' (ls.map fun x => .gone x.1 x.2.owner x.2.key x.2.quantity .withdrawn)
  /-- Whole orders of one account were pruned with the signature of the market's prune authority. -/
  | pruned (a : Nat) (auth : AccMeta) (ls : List (Side × Leaf))
      (mem : auth ∈ accts) (signed : auth.signer = true) (may : s.mkt.flags.testBit 9 = true)
      (key : s.mkt.pruneAuthority = auth.key) (theirs : ∀ sd l, (sd, l) ∈ ls → l ∈ resting s sd ∧ l.owner = a)
      (once : ls.Nodup) :
      Noted P env accts s s' (ls.map fun x => .gone x.1 x.2.owner x.2.key x.2.quantity .pruned)

/-- A record of what happened between `s` and `s'`. -/
inductive Record (P : Params) (s : State conc) : State conc → List Note → Prop where
  | nil : Record P s s []
  | act {s1 s2 : State conc} {N L : List Note} {env : Env} {accts : List AccMeta} (r : Record P s s1 N)
      (ha : Act P env accts s1 s2) (hn : Noted P env accts s1 s2 L) : Record P s s2 (N ++ L)
  | purge {s1 : State conc} {N : List Note} {a : Nat} {o : OpenOrders} (r : Record P s s1 N)
      (ho : ooAt s1.oos a = some o) (hc : o.closed = true) : Record P s { s1 with oos := purgeOo s1.oos a } N
  | token {s1 : State conc} {N : List Note} {signs : Nat → Bool} {ix : TokIx} {l : Ledger} (r : Record P s s1 N)
      (h : tokExec signs s1.toks ix = some l) : Record P s { s1 with toks := l } N

/-- What is open plus what was traded and dropped is what was open plus what was added, however it is counted. -/
def Balanced (s s' : State conc) (N : List Note) : Prop :=
  ∀ sd w, openLots s' sd w + total (Note.traded sd w) N + total (Note.dropped sd w) N =
    openLots s sd w + total (Note.added sd w) N

/-! ### One act -/

theorem Balanced.trans {s s1 s2 : State conc} {N L : List Note} (h : Balanced s s1 N) (k : Balanced s1 s2 L) :
    Balanced s s2 (N ++ L) := by
  intro sd w
  have h1 := h sd w
  have h2 := k sd w
  simp only [total_append]
  omega

theorem openLots_congr {s s' : State conc} {sd : Side} (h : resting s' sd = resting s sd) (w : Nat → Nat → Nat) :
    openLots s' sd w = openLots s sd w := by
  unfold openLots; rw [h]

theorem Balanced.quiet {s s' : State conc} (h : ∀ sd, resting s' sd = resting s sd) : Balanced s s' [] := by
  intro sd w
  rw [openLots_congr (h sd)]
  rfl

theorem Balanced.same {s s1 s2 : State conc} {N : List Note} (h : Balanced s s1 N)
    (hb : ∀ sd, resting s2 sd = resting s1 sd) : Balanced s s2 N := by
  intro sd w
  rw [openLots_congr (hb sd)]
  exact h sd w

theorem takeFront_open {w : Nat → Nat → Nat} {ts : List Touch} : ∀ {L L' : List Leaf}, takeFront L ts = some L' →
    sumBy (fun l => w l.key l.owner * l.quantity) L' + sumBy (fun t => w t.maker.key t.maker.owner * t.lots) ts =
      sumBy (fun l => w l.key l.owner * l.quantity) L := by
  induction ts with
  | nil => intro L L' h; cases h; rfl
  | cons t ts ih =>
    intro L L' h
    cases L with
    | nil => cases h
    | cons l L =>
      simp only [takeFront] at h
      split at h
      · rename_i hc
        have := ih h
        rw [sumBy_cons, sumBy_cons, hc.1]
        split at this
        · rename_i e
          rw [e]; omega
        · rw [sumBy_cons] at this
          simp only at this
          rw [Nat.mul_sub] at this
          have hle : w l.key l.owner * t.lots ≤ w l.key l.owner * l.quantity := Nat.mul_le_mul_left _ hc.2.2
          omega
      · cases h

theorem openLots_bestFirst (s : State conc) (sd : Side) (w : Nat → Nat → Nat) :
    openLots s sd w = sumBy (fun l => w l.key l.owner * l.quantity) (bestFirst s sd) := by
  unfold openLots
  cases sd
  · exact (sumBy_perm _ (List.reverse_perm _)).symm
  · rfl

/-- The lots of an account's own orders that were met. -/
def ownMet (ts : List Touch) : List (Nat × Nat) := (ts.filter (fun t => !t.filled)).map fun t => (t.maker.key, t.lots)

theorem touch_split (w : Nat → Nat → Nat) {o : OrderParams} {sd : Side} {ts : List Touch} (h : ∀ t ∈ ts, TouchOk o t) :
    sumBy (fun t => w t.maker.key t.maker.owner * t.lots) ts =
      sumBy (fun t : Trade => w t.id t.owner * t.lots) (tradesOf sd ts) +
      sumBy (fun x => w x.1 o.owner * x.2) (ownMet ts) := by
  unfold tradesOf ownMet
  rw [sumBy_map, sumBy_map, sumBy_filter, sumBy_filter, ← sumBy_add']
  refine sumBy_congr' fun t ht => ?_
  cases hf : t.filled with
  | true => simp
  | false =>
    have : o.owner = t.maker.owner := Classical.byContradiction fun hc => by
      have := (h t ht).who.2 hc
      rw [hf] at this; cases this
    simp [this]

theorem sum_filled (sd sd' : Side) (w : Nat → Nat → Nat) (ts : List Trade) (h : ∀ t ∈ ts, t.side = sd') :
    total (Note.traded sd w) (ts.map .filled) = if sd' = sd then sumBy (fun t => w t.id t.owner * t.lots) ts else 0 := by
  rw [total_map]
  split
  · rename_i e
    exact sumBy_congr' fun t ht => by simp only [Note.traded]; rw [if_pos ((h t ht).trans e)]
  · rename_i e
    exact sumBy_zero fun t ht => by simp only [Note.traded]; rw [if_neg (by rw [h t ht]; exact e)]

theorem sum_silent {α : Type} (f : Note → Nat) (g : α → Note) (h : ∀ x, f (g x) = 0) (L : List α) :
    total f (L.map g) = 0 := by
  rw [total_map]; exact sumBy_zero fun x _ => h x

theorem sum_own (sd sd' : Side) (w : Nat → Nat → Nat) (a : Nat) (why : Cause) (L : List (Nat × Nat)) :
    total (Note.dropped sd w) (L.map fun x => .gone sd' a x.1 x.2 why) =
      if sd' = sd then sumBy (fun x => w x.1 a * x.2) L else 0 := by
  rw [total_map]
  split
  · rename_i e
    exact sumBy_congr' fun t _ => by simp only [Note.dropped]; rw [if_pos e]
  · rename_i e
    exact sumBy_zero fun t _ => by simp only [Note.dropped]; rw [if_neg e]

theorem sum_dropped (sd : Side) (w : Nat → Nat → Nat) (why : Cause) (ls : List (Side × Leaf)) :
    total (Note.dropped sd w) (ls.map fun x => .gone x.1 x.2.owner x.2.key x.2.quantity why) =
      sumBy (fun x : Side × Leaf => if x.1 = sd then w x.2.key x.2.owner * x.2.quantity else 0) ls := by
  rw [total_map]
  exact sumBy_congr' fun t _ => rfl

theorem resting_sorted {P : Params} {s : State conc} (h : Reach P s) (hq : s.seq ≤ W64) (sd : Side) :
    (resting s sd).Pairwise (fun a b => a.key < b.key) := by
  obtain ⟨vs, _, _, hi⟩ := h.view hq
  have := side_sorted hi.shape.book sd
  cases sd <;> exact this

theorem resting_nodup {P : Params} {s : State conc} (h : Reach P s) (hq : s.seq ≤ W64) (sd : Side) :
    (resting s sd).Nodup := by
  refine (resting_sorted h hq sd).imp ?_
  rintro a b hab rfl
  omega

theorem resting_fresh {P : Params} {s : State conc} (h : Reach P s) (hq : s.seq < W64) (sd : Side) (p : Nat) :
    ∀ l ∈ resting s sd, l.key ≠ genOrderId s.seq p sd := by
  obtain ⟨vs, _, _, hi⟩ := h.view (Nat.le_of_lt hq)
  have := hi.shape.fresh (sd := sd) (p := p) hq
  intro l hl e
  refine this (List.mem_map.2 ⟨l, ?_, e⟩)
  cases sd <;> exact hl

theorem resting_pos {P : Params} {s : State conc} (h : Reach P s) (hq : s.seq ≤ W64) {sd : Side} {l : Leaf}
    (hl : l ∈ resting s sd) : 0 < l.quantity := by
  obtain ⟨vs, _, _, hi⟩ := h.view hq
  cases sd
  · exact hi.shape.book.bidQty l hl
  · exact hi.shape.book.askQty l hl

theorem resting_key_lt {P : Params} {s : State conc} (h : Reach P s) (hq : s.seq ≤ W64) (sd : Side) :
    ∀ l ∈ resting s sd, l.key < W128 := by
  obtain ⟨vs, _, _, hi⟩ := h.view hq
  intro l hl
  exact Shape.key_lt hi.shape.slots hi.shape.ids hi.shape.book (sd := sd) (by cases sd <;> exact hl)

theorem Withdrawn.balanced {P : Params} {s s' : State conc} {a : Nat} {ls : List (Side × Leaf)} (h : Reach P s)
    (hq : s.seq ≤ W64) (hw : Withdrawn s s' a ls) (why : Cause) :
    Balanced s s' (ls.map fun x => .gone x.1 x.2.owner x.2.key x.2.quantity why) := by
  intro sd w
  rw [sum_dropped, sum_silent _ _ (fun _ => rfl), sum_silent _ _ (fun _ => rfl)]
  have := total_without (resting_nodup h hq sd) hw.nodup (fun l hl => (hw.theirs sd l hl).1)
    (fun l => w l.key l.owner * l.quantity)
  unfold openLots
  rw [hw.books]
  show sumBy _ _ + 0 + _ = sumBy _ _ + 0
  rw [this]
  omega

theorem Matched.opp_open {s s' : State conc} {o : OrderParams} {limit : Nat} {ts : List Touch} {f : Option Posting}
    {evs : List EventView} (h : Matched s s' o limit ts f evs) (w : Nat → Nat → Nat) :
    openLots s' o.side.other w + sumBy (fun t : Trade => w t.id t.owner * t.lots) (tradesOf o.side.other ts) +
      sumBy (fun x => w x.1 o.owner * x.2) (ownMet ts) = openLots s o.side.other w := by
  rw [openLots_bestFirst, openLots_bestFirst, ← takeFront_open (w := w) h.opp, touch_split w h.touches (sd := o.side.other)]
  omega

def evictedOf (f : Option Posting) : Option Leaf := f.bind (·.evicted)

theorem Matched.own_open {s s' : State conc} {o : OrderParams} {limit : Nat} {ts : List Touch} {f : Option Posting}
    {evs : List EventView} (h : Matched s s' o limit ts f evs) (w : Nat → Nat → Nat)
    (hs : (resting s o.side).Pairwise (fun a b => a.key < b.key)) (hf : ∀ l ∈ resting s o.side, l.key ≠ o.orderId) :
    openLots s' o.side w + sumBy (fun y : Leaf => w y.key y.owner * y.quantity) (evictedOf f).toList =
      openLots s o.side w + w o.orderId o.owner * postedLots f := by
  have hw := h.own
  cases f with
  | none => rw [openLots_congr hw]; rfl
  | some f =>
    obtain ⟨cap, pk⟩ := hw
    have ins : ∀ R : List Leaf, R.Pairwise (fun a b => a.key < b.key) → (∀ l ∈ R, l.key ≠ o.orderId) →
        sumBy (fun y : Leaf => w y.key y.owner * y.quantity) (insKey (o.leaf f.lots) R) =
          w o.orderId o.owner * f.lots + sumBy (fun y : Leaf => w y.key y.owner * y.quantity) R := by
      intro R h1 h2
      rw [sumBy_perm _ (insKey_perm h1 (fun hm => by
        obtain ⟨x, hx, e⟩ := List.mem_map.1 hm
        exact h2 x hx e))]
      rfl
    rcases pk.book with ⟨e1, _, e2⟩ | ⟨l, R, _, e1, e2, e3⟩
    · unfold openLots evictedOf
      rw [e2]
      show sumBy _ _ + sumBy _ (Option.toList (f.evicted)) = sumBy _ _ + _
      rw [e1, ins _ hs hf]
      show _ + 0 = _ + w o.orderId o.owner * f.lots
      omega
    · unfold openLots evictedOf
      rw [e2]
      show sumBy _ _ + sumBy _ (Option.toList (f.evicted)) = sumBy _ _ + _
      rw [e1]
      show sumBy _ _ + sumBy _ [l] = sumBy _ _ + w o.orderId o.owner * f.lots
      cases hsd : o.side with
      | bid =>
        rw [hsd] at e3 hs hf
        simp only at e3
        rw [e3] at hs hf
        rw [ins R (List.pairwise_cons.1 hs).2 (fun x hx => hf x (List.mem_cons_of_mem _ hx)), e3, sumBy_cons, sumBy_cons,
          sumBy_nil]
        omega
      | ask =>
        rw [hsd] at e3 hs hf
        simp only at e3
        rw [e3] at hs hf
        rw [ins R (List.pairwise_append.1 hs).1 (fun x hx => hf x (List.mem_append_left _ hx)), e3, sumBy_append, sumBy_cons,
          sumBy_nil]
        omega

theorem evicted_worst {s s' : State conc} {o : OrderParams} {limit : Nat} {ts : List Touch} {f : Option Posting}
    {evs : List EventView} (h : Matched s s' o limit ts f evs)
    (hs : (resting s o.side).Pairwise (fun a b => a.key < b.key)) (hk : ∀ l ∈ resting s o.side, l.key < W128)
    {y : Leaf} (hy : evictedOf f = some y) :
    0 < postedLots f ∧ y ∈ resting s o.side ∧ ∀ z ∈ resting s o.side, withinLimit o.side z.price y.price := by
  have hw := h.own
  cases f with
  | none => cases hy
  | some f =>
    obtain ⟨cap, pk⟩ := hw
    have hy : f.evicted = some y := hy
    have mono : ∀ {a b : Leaf}, a.key ≤ b.key → b.key < W128 → a.price ≤ b.price := by
      intro a b hab hb
      unfold Leaf.price extractPrice
      rw [Nat.shiftRight_eq_div_pow, Nat.shiftRight_eq_div_pow]
      unfold W64 W128 at *
      omega
    rcases pk.book with ⟨e1, _⟩ | ⟨l, R, _, e1, _, e3⟩
    · rw [e1] at hy; cases hy
    · rw [hy] at e1
      cases e1
      refine ⟨pk.pos, ?_⟩
      cases hsd : o.side with
      | bid =>
        rw [hsd] at e3 hs hk
        simp only at e3
        rw [e3] at hs hk ⊢
        refine ⟨by simp, fun z hz => ?_⟩
        show y.price ≤ z.price
        rcases List.mem_cons.1 hz with rfl | hz
        · exact Nat.le_refl _
        · exact mono (Nat.le_of_lt ((List.pairwise_cons.1 hs).1 z hz)) (hk z (List.mem_cons_of_mem _ hz))
      | ask =>
        rw [hsd] at e3 hs hk
        simp only at e3
        rw [e3] at hs hk ⊢
        refine ⟨by simp, fun z hz => ?_⟩
        show z.price ≤ y.price
        rcases List.mem_append.1 hz with hz | hz
        · exact mono (Nat.le_of_lt ((List.pairwise_append.1 hs).2.2 z hz y (by simp))) (hk y (by simp))
        · rw [List.mem_singleton.1 hz]; exact Nat.le_refl _

theorem side_ne_other (sd : Side) : sd.other ≠ sd := by cases sd <;> simp [Side.other]
theorem side_or_other (sd x : Side) : x = sd ∨ x = sd.other := by cases sd <;> cases x <;> simp [Side.other]

/-- The order as it was placed. -/
def placedBy (s : State conc) (ix : NewOrderIx) (a : Nat) (tier : FeeTier) (ts : List Touch) (f : Option Posting) : Placed :=
  { account := a, side := ix.side, id := genOrderId s.seq ix.limitPrice ix.side, price := ix.limitPrice,
    size := ix.maxCoinQty, budget := ix.maxPcQty, took := tradesOf ix.side.other ts,
    fee := takerFees s.mkt tier ts, rested := postedLots f }

/-- Its entries. -/
def placeNotes (s : State conc) (ix : NewOrderIx) (a : Nat) (tier : FeeTier) (ts : List Touch) (f : Option Posting) :
    List Note :=
  .placed (placedBy s ix a tier ts f) :: ((tradesOf ix.side.other ts).map .filled ++
    (ownMet ts).map (fun x => .gone (otherSide ix.side) a x.1 x.2 .ownOrder) ++
    (evictedOf f).toList.map fun y => .gone ix.side y.owner y.key y.quantity .crowdedOut)

theorem place_notes {P : Params} {env : Env} {accts l : List AccMeta} {s s' : State conc} {ix : NewOrderIx}
    {a : NewOrderAccts} {tier : FeeTier} {p p' : OpenOrders} {slot d : Nat} {ts : List Touch} {f : Option Posting}
    {evs : List EventView} (h : Reach P s) (hs : s.seq ≤ W64) (hl : l ⊆ accts) (hv : OrderValid ix) (hlt : s.seq < W64)
    (hx : newOrderV3 conc P env s l ix = .ok s') (e : PlaceEffect P env s s' l ix a tier p p' slot d ts f evs) :
    Noted P env accts s s' (placeNotes s ix a.oo.key tier ts f) ∧ Balanced s s' (placeNotes s ix a.oo.key tier ts f) := by
  have hside : ix.side.other = otherSide ix.side := by cases ix.side <;> rfl
  have m := e.matched
  have hpr : ix.limitPrice < W64 := hv.1.2
  let pl : Placed := placedBy s ix a.oo.key tier ts f
  refine ⟨.order (l := l) (ix := ix) pl a.owner p' tier (ownMet ts) (evictedOf f) hl hx ⟨rfl, rfl, rfl, rfl⟩ rfl hpr e.seq
    (hl (parse_order_owner e.args.parse)) e.args.signed e.account (e.owner.1.trans e.owner.2)
    ((order_due e.args).subset hl) (fun t ht => ?_) ?_ ?_ ?_ ?_ ?_, ?_⟩
  · obtain ⟨h1, h2, h3, h4⟩ := m.trades ht
    refine ⟨h1.trans hside, h2, ?_, h4⟩
    have h3' : priceOk (newOrderReq ix (genOrderId s.seq ix.limitPrice ix.side) a.oo.key slot tier) t.price := h3
    unfold priceOk at h3'
    simp only [newOrderReq] at h3'
    rw [extractPrice_genOrderId hlt hpr] at h3'
    exact h3'
  · exact (tradesOf_fees s.mkt tier ix.side.other ts).symm
  · show total (·.lots) (tradesOf ix.side.other ts) + postedLots f ≤ ix.maxCoinQty
    rw [tradesOf_lots]
    cases hsd : ix.side with
    | bid => exact (e.bid hsd).size
    | ask => exact (e.ask hsd).size
  · intro hb
    show total (Trade.value s.mkt) (tradesOf ix.side.other ts) + takerFees s.mkt tier ts + _ ≤ ix.maxPcQty
    rw [tradesOf_value]
    exact (e.bid hb).budget
  · intro x hx
    obtain ⟨t, ht, rfl⟩ := List.mem_map.1 hx
    obtain ⟨ht, hnf⟩ := List.mem_filter.1 ht
    obtain ⟨y, hy, e1, e2⟩ := takeFront_maker m.opp ht
    obtain ⟨l1, l2⟩ := takeFront_lots m.opp ht
    refine ⟨y, by show y ∈ resting s (otherSide ix.side); rw [← hside]; exact mem_bestFirst.1 hy, ?_, ?_, l1, Nat.le_trans l2 e2⟩
    · show y.key = t.maker.key
      rw [e1]
    · have : (newOrderReq ix (genOrderId s.seq ix.limitPrice ix.side) a.oo.key slot tier).owner = t.maker.owner :=
        Classical.byContradiction fun hc => by
          have := (m.touches t ht).who.2 hc
          rw [this] at hnf; cases hnf
      have e3 : y.owner = t.maker.owner := by rw [e1]
      rw [e3]; exact this.symm
  · intro y hy
    exact evicted_worst m (resting_sorted h hs ix.side) (resting_key_lt h hs ix.side) hy
  · intro sd w
    have k1 := m.opp_open w
    have k2 := m.own_open w (resting_sorted h hs ix.side) (resting_fresh h hlt ix.side ix.limitPrice)
    simp only [newOrderReq] at k1 k2
    have g1 := sum_filled sd ix.side.other w (tradesOf ix.side.other ts) (fun t ht => (m.trades ht).1)
    have g2 := sum_own sd ix.side.other w a.oo.key .ownOrder (ownMet ts)
    have g3 : total (Note.dropped sd w) ((evictedOf f).toList.map fun y =>
        .gone ix.side y.owner y.key y.quantity .crowdedOut) =
        if ix.side = sd then sumBy (fun y : Leaf => w y.key y.owner * y.quantity) (evictedOf f).toList else 0 := by
      rw [total_map]
      split
      · rename_i e
        exact sumBy_congr' fun t _ => by simp only [Note.dropped]; rw [if_pos e]
      · rename_i e
        exact sumBy_zero fun t _ => by simp only [Note.dropped]; rw [if_neg e]
    have z1 := sum_silent (Note.dropped sd w) Note.filled (fun _ => rfl) (tradesOf ix.side.other ts)
    have z2 := sum_silent (Note.added sd w) Note.filled (fun _ => rfl) (tradesOf ix.side.other ts)
    have z3 := sum_silent (Note.traded sd w) (fun x : Nat × Nat => Note.gone ix.side.other a.oo.key x.1 x.2 .ownOrder)
      (fun _ => rfl) (ownMet ts)
    have z4 := sum_silent (Note.added sd w) (fun x : Nat × Nat => Note.gone ix.side.other a.oo.key x.1 x.2 .ownOrder)
      (fun _ => rfl) (ownMet ts)
    have z5 := sum_silent (Note.traded sd w) (fun y : Leaf => Note.gone ix.side y.owner y.key y.quantity .crowdedOut)
      (fun _ => rfl) (evictedOf f).toList
    have z6 := sum_silent (Note.added sd w) (fun y : Leaf => Note.gone ix.side y.owner y.key y.quantity .crowdedOut)
      (fun _ => rfl) (evictedOf f).toList
    show openLots s' sd w + total (Note.traded sd w) (.placed pl :: ((tradesOf ix.side.other ts).map .filled ++
        (ownMet ts).map (fun x => .gone (otherSide ix.side) a.oo.key x.1 x.2 .ownOrder) ++
        (evictedOf f).toList.map fun y => .gone ix.side y.owner y.key y.quantity .crowdedOut)) +
      total (Note.dropped sd w) (.placed pl :: ((tradesOf ix.side.other ts).map .filled ++
        (ownMet ts).map (fun x => .gone (otherSide ix.side) a.oo.key x.1 x.2 .ownOrder) ++
        (evictedOf f).toList.map fun y => .gone ix.side y.owner y.key y.quantity .crowdedOut)) =
      openLots s sd w + total (Note.added sd w) (.placed pl :: ((tradesOf ix.side.other ts).map .filled ++
        (ownMet ts).map (fun x => .gone (otherSide ix.side) a.oo.key x.1 x.2 .ownOrder) ++
        (evictedOf f).toList.map fun y => .gone ix.side y.owner y.key y.quantity .crowdedOut))
    rw [← hside]
    simp only [total_cons, total_append, g1, g2, g3, z1, z2, z3, z4, z5, z6]
    simp only [Note.traded, Note.dropped, Note.added, pl, placedBy]
    rcases side_or_other ix.side sd with e1 | e1
    · subst e1
      rw [if_neg (side_ne_other _), if_neg (side_ne_other _), if_pos rfl, if_pos rfl]
      omega
    · subst e1
      rw [if_pos rfl, if_pos rfl, if_neg (fun e => side_ne_other _ e.symm), if_neg (fun e => side_ne_other _ e.symm)]
      omega

theorem take_notes {P : Params} {env : Env} {accts l : List AccMeta} {s s' : State conc} {ix : SendTakeIx} {a : SendTakeAccts}
    {tier : FeeTier} {ts : List Touch} {evs : List EventView} (hl : l ⊆ accts) (hv : TakeValid ix) (hlt : s.seq < W64)
    (hx : sendTake conc P s l ix = .ok s') (e : TakeEffect P s s' l ix a tier ts evs) :
    Noted P env accts s s' ((tradesOf ix.side.other ts).map .filled) ∧
    Balanced s s' ((tradesOf ix.side.other ts).map .filled) := by
  have hside : ix.side.other = otherSide ix.side := by cases ix.side <;> rfl
  have m := e.matched
  have hown : ownMet ts = [] := by
    unfold ownMet
    rw [List.filter_eq_nil_iff.2 fun t ht => ?_]
    · rfl
    · intro hf
      have hf : t.filled = false := by simpa using hf
      rcases (m.touches t ht).self hf with h1 | ⟨h1, _⟩ <;> cases h1
  refine ⟨.take (l := l) (ix := ix) a.signer (tradesOf ix.side.other ts) hl hx (hl (parse_take_signer e.args.parse))
    e.args.signed (fun t ht => ?_) (by rw [tradesOf_lots]; exact e.size), fun sd w => ?_⟩
  · obtain ⟨h1, h2, h3, _⟩ := m.trades ht
    refine ⟨h1.trans hside, h2, ?_⟩
    unfold priceOk at h3
    simp only [sendTakeReq, extractPrice_genOrderId hlt hv.1.2] at h3
    exact h3
  · have k1 := m.opp_open w
    rw [hown] at k1
    simp only [sendTakeReq, sumBy_nil] at k1
    rw [sum_filled sd ix.side.other w (tradesOf ix.side.other ts) (fun t ht => (m.trades ht).1),
      sum_silent (Note.dropped sd w) Note.filled (fun _ => rfl), sum_silent (Note.added sd w) Note.filled (fun _ => rfl)]
    rcases side_or_other ix.side sd with e1 | e1
    · subst e1
      rw [if_neg (side_ne_other _), openLots_congr (show resting s' ix.side = resting s ix.side from m.own)]
    · subst e1
      rw [if_pos rfl]
      omega

/-- Neither placed nor traded. -/
def Note.still : Note → Bool
  | .gone .. => true
  | _ => false

theorem still_notes {P : Params} {env : Env} {accts : List AccMeta} {s s' : State conc} (h : Reach P s)
    (hn : NotVault P s.mkt accts) (hq : s'.seq ≤ W64) (ha : Act P env accts s s') :
    Deals P env accts s s' ∨ ∃ L, Noted P env accts s s' L ∧ Balanced s s' L ∧ L.all Note.still = true := by
  have hs : s.seq ≤ W64 := Nat.le_trans ha.seq hq
  have quiet : (∀ sd, resting s' sd = resting s sd) → ∃ L, Noted P env accts s s' L ∧ Balanced s s' L ∧ L.all Note.still = true :=
    fun hb => ⟨[], .quiet hb, .quiet hb, rfl⟩
  have wd : ∀ {l : List AccMeta}, l ⊆ accts → (∃ (oo signer : AccMeta) (o : OpenOrders) (ls : List (Side × Leaf)),
      oo ∈ l ∧ signer ∈ l ∧ signer.signer = true ∧ ooAt s.oos oo.key = some o ∧
      o.owner = signer.key ∧ Withdrawn s s' oo.key ls) → ∃ L, Noted P env accts s s' L ∧ Balanced s s' L ∧ L.all Note.still = true := by
    rintro l hl ⟨oo, signer, o, ls, _, h2, h3, h4, h5, w⟩
    exact ⟨_, .withdrawn oo.key signer o ls (hl h2) h3 h4 h5 w.theirs w.nodup, w.balanced h hs .withdrawn,
      by simp [Note.still]⟩
  cases ha with
  | idle e => exact .inr <| quiet (fun _ => by rw [e])
  | place hl hv hx => exact .inl (.inl ⟨_, _, hl, hv, hx⟩)
  | take hl hv hx => exact .inl (.inr ⟨_, _, hl, hv, hx⟩)
  | cancel hl hx => exact .inr <| wd hl (cancel_withdrawn h hs (.inl ⟨_, _, hx⟩))
  | cancelBy hl hx => exact .inr <| wd hl (cancel_withdrawn h hs (.inr (.inl ⟨_, hx⟩)))
  | batch hl hx => exact .inr <| wd hl (cancel_withdrawn h hs (.inr (.inr ⟨_, hx⟩)))
  | prune hl hx =>
    obtain ⟨_, _, _, auth, oo, _, _, _, ls, rfl, h1, h2, h3, _, _, w, _⟩ := prune_effect h hs hx
    exact .inr ⟨_, .pruned oo.key auth ls (hl (by simp)) h1 h2 h3 w.theirs w.nodup, w.balanced h hs .pruned, by simp [Note.still]⟩
  | crank hl hx =>
    obtain ⟨_, _, _, _, _, _, _, _, _, hbi, hak, _⟩ := crank_delivers h hs hx
    refine .inr <| quiet fun sd => ?_
    cases sd
    · unfold resting; rw [hbi]
    · unfold resting; rw [hak]
  | settle hl hx =>
    obtain ⟨m, oo, owner, cv, pv, cw, pw, vsA, tp, refer, o, rfl, _, hsg, how, st⟩ := settle_effect h hs hx
    refine .inr <| quiet fun sd => ?_
    cases sd
    · unfold resting; rw [st.rest.1]
    · unfold resting; rw [st.rest.2.1]
  | disable hl hx =>
    obtain ⟨_, _, _, _, _, _, e⟩ := disable_inv hx
    subst e
    exact .inr <| quiet fun sd => by cases sd <;> rfl
  | sweep hl hx =>
    obtain ⟨m, pv, auth, w, vsA, tp, l, rfl, h1, h2, h3, e⟩ := sweep_effect h hs hx
    subst e
    exact .inr <| quiet fun sd => by cases sd <;> rfl
  | close hl hx =>
    obtain ⟨oo, owner, dest, m, p, rfl, hsg, hp, _, how, _, _, _, e⟩ := (close_is_safe h hs).1 _ _ _ hx
    subst e
    exact .inr <| quiet fun sd => by cases sd <;> rfl
  | init hl hx =>
    obtain ⟨oo, owner, m, rent, rest, rfl, hsg, _, hcase⟩ := init_inv hx
    rcases hcase with ⟨e, _⟩ | ⟨e, hnone, _⟩
    · subst e
      exact .inr <| quiet fun sd => rfl
    · subst e
      exact .inr <| quiet fun sd => by cases sd <;> rfl

/-- Every act leaves entries that account for it. -/
theorem act_notes {P : Params} {env : Env} {accts : List AccMeta} {s s' : State conc} (h : Reach P s)
    (hn : NotVault P s.mkt accts) (hq : s'.seq ≤ W64) (ha : Act P env accts s s') :
    ∃ L, Noted P env accts s s' L ∧ Balanced s s' L := by
  have hs : s.seq ≤ W64 := Nat.le_trans ha.seq hq
  rcases still_notes h hn hq ha with (⟨l, ix, hl, hv, hx⟩ | ⟨l, ix, hl, hv, hx⟩) | ⟨L, h1, h2, _⟩
  · have hlt : s.seq < W64 := by have := (newOrderV3_keeps hx).2.1; omega
    obtain ⟨_, _, _, _, _, _, _, _, _, e⟩ := place_effect h hlt hv (hn.subset hl) hx
    exact ⟨_, place_notes h hs hl hv hlt hx e⟩
  · have hlt : s.seq < W64 := by have := (sendTake_keeps hx).2.1; omega
    obtain ⟨_, _, _, _, e⟩ := take_effect h hlt hv (hn.subset hl) hx
    exact ⟨_, take_notes hl hv hlt hx e⟩
  · exact ⟨L, h1, h2⟩

/-! ### Whole histories -/

theorem Acts.recorded {P : Params} {env : Env} {accts : List AccMeta} {s s1 s2 : State conc} {N : List Note}
    (h : Record P s s1 N ∧ Balanced s s1 N) (ha : Acts P env accts s1 s2) (hq : s2.seq ≤ W64) :
    ∃ N', Record P s s2 N' ∧ Balanced s s2 N' := by
  induction ha generalizing N with
  | nil _ => exact ⟨N, h⟩
  | cons hr hn ha t ih =>
    obtain ⟨L, e, st⟩ := act_notes hr hn (Nat.le_trans t.seq hq) ha
    exact ih (N := N ++ L) ⟨h.1.act ha e, h.2.trans st⟩ hq

/-- C78. From any reachable state to any later one there is a record of orders placed, trades made and lots dropped,
each backed by what happened at that moment, and it explains both sides of the book completely: however orders are
weighted by id and owner, what is open now plus what was traded and dropped is what was open before plus what was put on
the book. -/
theorem orders_recorded {P : Params} {s s' : State conc} (h : Reach P s) (hl : Later P s s') (hq : s'.seq ≤ W64) :
    ∃ N, Record P s s' N ∧ Balanced s s' N := by
  induction hl with
  | refl => exact ⟨[], .nil, .quiet fun _ => rfl⟩
  | step hl hs ih =>
    have hr := hl.reach h
    cases hs with
    | instr hn hx =>
      obtain ⟨ix, _, hv, hp⟩ := step_instr hx
      have ha := process_acts hr hn hv hp
      obtain ⟨N, hN⟩ := ih (Nat.le_trans ha.seq hq)
      exact ha.recorded hN hq
    | purge ho hc =>
      obtain ⟨N, r, b⟩ := ih hq
      refine ⟨N, r.purge ho hc, ?_⟩
      exact b.same fun sd => by cases sd <;> rfl
    | token hn hx =>
      obtain ⟨N, r, b⟩ := ih hq
      refine ⟨N, r.token hx, ?_⟩
      exact b.same fun sd => by cases sd <;> rfl

theorem Noted.seq_le {P : Params} {env : Env} {accts : List AccMeta} {s s' : State conc} {L : List Note}
    (h : Noted P env accts s s' L) {p : Placed} (hp : .placed p ∈ L) :
    p.id = genOrderId s.seq p.price p.side ∧ p.price < W64 ∧ s'.seq = s.seq + 1 ∧
      (∀ t ∈ p.took, t.side = otherSide p.side ∧ t.With s ∧ withinLimit p.side p.price t.price ∧ t.owner ≠ p.account) ∧
      total (·.lots) p.took + p.rested ≤ p.size ∧
      (p.side = .bid → total (Trade.value s.mkt) p.took + p.fee + p.rested * p.price * s.mkt.pcLot ≤ p.budget) ∧
      ∃ R, L = .placed p :: R ∧ ∀ q, .placed q ∉ R := by
  cases h with
  | quiet => cases hp
  | order q signer o' tier own out sub ran asked id priced seq mem signed account owner tier_ met fee size budget =>
    have hq : ∀ r : Placed, Note.placed r ∉ (q.took.map .filled ++
        own.map (fun x => .gone (otherSide q.side) q.account x.1 x.2 .ownOrder) ++
        out.toList.map fun y => .gone q.side y.owner y.key y.quantity .crowdedOut) := by
      intro r hr
      rcases List.mem_append.1 hr with hr | hr
      · rcases List.mem_append.1 hr with hr | hr
        · obtain ⟨_, _, e⟩ := List.mem_map.1 hr; cases e
        · obtain ⟨_, _, e⟩ := List.mem_map.1 hr; cases e
      · obtain ⟨_, _, e⟩ := List.mem_map.1 hr; cases e
    rcases List.mem_cons.1 hp with e | hp
    · cases e
      exact ⟨id, priced, seq, met, size, budget, _, rfl, hq⟩
    · exact absurd hp (hq p)
  | take => obtain ⟨_, _, e⟩ := List.mem_map.1 hp; cases e
  | withdrawn => obtain ⟨_, _, e⟩ := List.mem_map.1 hp; cases e
  | pruned => obtain ⟨_, _, e⟩ := List.mem_map.1 hp; cases e

theorem Record.seq {P : Params} {s s' : State conc} {N : List Note} (h : Record P s s' N) : s.seq ≤ s'.seq := by
  induction h with
  | nil => exact Nat.le_refl _
  | act r ha hn ih => exact Nat.le_trans ih ha.seq
  | purge r ho hc ih => exact ih
  | token r h ih => exact ih

theorem Record.lots {P : Params} {s s' : State conc} {N : List Note} (h : Record P s s' N) :
    s'.mkt.pcLot = s.mkt.pcLot := by
  induction h with
  | nil => rfl
  | act r ha hn ih => rw [ha.keeps.eq]; exact ih
  | purge r ho hc ih => exact ih
  | token r h ih => exact ih

/-- What holds of every order as it was placed. -/
structure Placed.Fair (m : Market) (p : Placed) : Prop where
  priced : p.price < W64
  takes : ∀ t ∈ p.took, t.side = otherSide p.side ∧ withinLimit p.side p.price t.price ∧ t.owner ≠ p.account ∧ 0 < t.lots
  size : total (·.lots) p.took + p.rested ≤ p.size
  budget : p.side = .bid → total (Trade.value m) p.took + p.fee + p.rested * p.price * m.pcLot ≤ p.budget

theorem value_congr {m m' : Market} (h : m'.pcLot = m.pcLot) : Trade.value m' = Trade.value m := by
  funext t; unfold Trade.value; rw [h]

theorem Record.fair {P : Params} {s s' : State conc} {N : List Note} (h : Record P s s' N) {p : Placed}
    (hp : .placed p ∈ N) :
    p.Fair s.mkt ∧ ∃ n, s.seq ≤ n ∧ n < s'.seq ∧ p.id = genOrderId n p.price p.side := by
  induction h with
  | nil => cases hp
  | act r ha hn ih =>
    rcases List.mem_append.1 hp with hp | hp
    · obtain ⟨h1, n, h2, h3, h4⟩ := ih hp
      exact ⟨h1, n, h2, Nat.lt_of_lt_of_le h3 ha.seq, h4⟩
    · obtain ⟨h1, h2, h3, h4, h5, h6, _⟩ := hn.seq_le hp
      refine ⟨⟨h2, fun t ht => ?_, h5, fun hb => ?_⟩, _, r.seq, by omega, h1⟩
      · obtain ⟨a1, ⟨_, _, _, _, _, a2, _⟩, a3, a4⟩ := h4 t ht
        exact ⟨a1, a3, a4, a2⟩
      · have := h6 hb
        rw [value_congr r.lots, r.lots] at this
        exact this
  | purge r ho hc ih => exact ih hp
  | token r h ih => exact ih hp

/-- No two orders of a side have the same id. -/
def Apart (a b : Note) : Prop := ∀ p q, a = .placed p → b = .placed q → p.side = q.side → p.id ≠ q.id

theorem Record.apart {P : Params} {s s' : State conc} {N : List Note} (h : Record P s s' N) (hq : s'.seq ≤ W64) :
    N.Pairwise Apart := by
  induction h with
  | nil => exact .nil
  | act r ha hn ih =>
    rename_i s1 s2 N L env accts
    refine List.pairwise_append.2 ⟨ih (Nat.le_trans ha.seq hq), ?_, ?_⟩
    · by_cases hex : ∃ p, Note.placed p ∈ L
      · obtain ⟨p, hp⟩ := hex
        obtain ⟨_, _, _, _, _, _, R, e, hR⟩ := hn.seq_le hp
        rw [e]
        refine List.pairwise_cons.2 ⟨fun a ha p q _ e2 => absurd (e2 ▸ ha) (hR q), ?_⟩
        exact List.Pairwise.imp_of_mem (R := fun _ _ => True) (fun ha _ _ p q e1 => absurd (e1 ▸ ha) (hR p))
          (List.pairwise_of_forall fun _ _ => trivial)
      · exact List.Pairwise.imp_of_mem (R := fun _ _ => True) (fun ha _ _ p q e1 => absurd ⟨p, e1 ▸ ha⟩ hex)
          (List.pairwise_of_forall fun _ _ => trivial)
    · intro a ha' b hb p q e1 e2 hs
      subst e1; subst e2
      obtain ⟨_, n, _, h2, h3⟩ := r.fair ha'
      obtain ⟨k1, _, k3, _⟩ := hn.seq_le hb
      rw [h3, k1, hs]
      exact genOrderId_fresh h2 (by omega)
  | purge r ho hc ih => exact ih hq
  | token r h ih => exact ih hq

theorem Noted.filled {P : Params} {env : Env} {accts : List AccMeta} {s s' : State conc} {L : List Note}
    (h : Noted P env accts s s' L) {t : Trade} (ht : .filled t ∈ L) : t.With s := by
  cases h with
  | quiet => cases ht
  | order q signer o' tier own out sub ran asked id priced seq mem signed account owner tier_ met fee size budget =>
    rcases List.mem_cons.1 ht with e | ht
    · cases e
    · rcases List.mem_append.1 ht with ht | ht
      · rcases List.mem_append.1 ht with ht | ht
        · obtain ⟨_, hm, e⟩ := List.mem_map.1 ht; cases e; exact (met t hm).2.1
        · obtain ⟨_, _, e⟩ := List.mem_map.1 ht; cases e
      · obtain ⟨_, _, e⟩ := List.mem_map.1 ht; cases e
  | take _ _ _ _ _ _ met => obtain ⟨_, hm, e⟩ := List.mem_map.1 ht; cases e; exact (met t hm).2.1
  | withdrawn => obtain ⟨_, _, e⟩ := List.mem_map.1 ht; cases e
  | pruned => obtain ⟨_, _, e⟩ := List.mem_map.1 ht; cases e

theorem Record.filled {P : Params} {s s' : State conc} {N : List Note} (h : Record P s s' N) {t : Trade}
    (ht : .filled t ∈ N) : t.price = extractPrice t.id ∧ 0 < t.lots := by
  induction h with
  | nil => cases ht
  | act r ha hn ih =>
    rcases List.mem_append.1 ht with ht | ht
    · exact ih ht
    · obtain ⟨l, _, h1, _, h3, h4, _⟩ := hn.filled ht
      refine ⟨?_, h4⟩
      rw [← h3, ← h1]; rfl
  | purge r ho hc ih => exact ih ht
  | token r h ih => exact ih ht

/-- Counts the lots of one order. -/
def onlyOrder (id : Nat) : Nat → Nat → Nat := fun k _ => if k = id then 1 else 0

theorem resting_issued {P : Params} {s : State conc} (h : Reach P s) (hq : s.seq ≤ W64) {sd : Side} {l : Leaf}
    (hl : l ∈ resting s sd) : ∃ n p, n < s.seq ∧ l.key = genOrderId n p sd := by
  obtain ⟨vs, _, _, hi⟩ := h.view hq
  obtain ⟨n, p, h1, _, _, _, h2⟩ := hi.shape.ids _ _ _ _ (hi.shape.leaf_slot (sd := sd) (l := l) (by cases sd <;> exact hl))
  exact ⟨n, p, h1, h2⟩

theorem added_of_placed {sd : Side} {w : Nat → Nat → Nat} {N : List Note} (h : 0 < total (Note.added sd w) N) :
    ∃ p, .placed p ∈ N ∧ p.side = sd ∧ 0 < w p.id p.account * p.rested := by
  induction N with
  | nil => cases h
  | cons x N ih =>
    rw [total_cons] at h
    by_cases hx : 0 < Note.added sd w x
    · cases x with
      | placed p =>
        simp only [Note.added] at hx
        by_cases hs : p.side = sd
        · rw [if_pos hs] at hx; exact ⟨p, by simp, hs, hx⟩
        · rw [if_neg hs] at hx; cases hx
      | filled t => cases hx
      | gone => cases hx
    · obtain ⟨p, h1, h2⟩ := ih (by omega)
      exact ⟨p, List.mem_cons_of_mem _ h1, h2⟩

/-- Only the order itself puts its lots on the book. -/
theorem added_one {N : List Note} (ha : N.Pairwise Apart) {p : Placed} (hp : .placed p ∈ N) :
    total (Note.added p.side (onlyOrder p.id)) N = p.rested := by
  induction N with
  | nil => cases hp
  | cons x N ih =>
    obtain ⟨h1, h2⟩ := List.pairwise_cons.1 ha
    rw [total_cons]
    by_cases hx : x = .placed p
    · subst hx
      have z : total (Note.added p.side (onlyOrder p.id)) N = 0 := by
        refine Nat.eq_zero_of_not_pos fun hpos => ?_
        obtain ⟨q, hq, hs, hw⟩ := added_of_placed hpos
        refine h1 _ hq p q rfl rfl hs.symm ?_
        unfold onlyOrder at hw
        by_cases e : q.id = p.id
        · exact e.symm
        · rw [if_neg e] at hw; simp at hw
      rw [z]
      simp [Note.added, onlyOrder]
    · rcases List.mem_cons.1 hp with e | hp'
      · exact absurd e.symm hx
      · rw [ih h2 hp']
        have z : Note.added p.side (onlyOrder p.id) x = 0 := by
          cases x with
          | placed q =>
            simp only [Note.added, onlyOrder]
            by_cases hs : q.side = p.side
            · rw [if_pos hs, if_neg (h1 _ hp' q p rfl rfl hs)]; simp
            · rw [if_neg hs]
          | filled t => rfl
          | gone => rfl
        omega

theorem traded_zero {sd : Side} {w : Nat → Nat → Nat} {N : List Note} (h : total (Note.traded sd w) N = 0) {t : Trade}
    (ht : .filled t ∈ N) (hs : t.side = sd) (hl : 0 < t.lots) : w t.id t.owner = 0 := by
  have := sumBy_le_mem (Note.traded sd w) ht
  have e : sumBy (Note.traded sd w) N = 0 := h
  rw [e] at this
  simp only [Note.traded] at this
  rw [if_pos hs] at this
  rcases Nat.mul_eq_zero.1 (Nat.le_zero.1 this) with h | h
  · exact h
  · omega

theorem open_zero {s : State conc} {sd : Side} {w : Nat → Nat → Nat}
    (h : ∀ l ∈ resting s sd, w l.key l.owner = 0) : openLots s sd w = 0 :=
  sumBy_zero fun l hl => by rw [h l hl]; exact Nat.zero_mul _

/-- The life of the order `p`, placed in the record `N` that ends in `s'`. -/
structure Life (m : Market) (s' : State conc) (N : List Note) (p : Placed) : Prop where
  fair : p.Fair m
  /-- Every lot it put on the book was traded, dropped, or is still there. -/
  lots : openLots s' p.side (onlyOrder p.id) + total (Note.traded p.side (onlyOrder p.id)) N +
    total (Note.dropped p.side (onlyOrder p.id)) N = p.rested
  /-- At once and later, it never traded more than its size. -/
  size : total (·.lots) p.took + total (Note.traded p.side (onlyOrder p.id)) N +
    openLots s' p.side (onlyOrder p.id) ≤ p.size
  /-- Later trades are at its own price, and for its own account. -/
  makes : ∀ t, .filled t ∈ N → t.side = p.side → t.id = p.id → t.price = p.price ∧ t.owner = p.account
  /-- A buyer never pays more than the budget: in trades at once, their fees, later trades, and what is still open. -/
  budget : p.side = .bid → total (Trade.value m) p.took + p.fee +
    (total (Note.traded .bid (onlyOrder p.id)) N + openLots s' .bid (onlyOrder p.id)) * p.price * m.pcLot ≤ p.budget

/-- C78. The life of every order placed between two states: it trades at its limit or better at once and at its
limit later, never beyond its size and, for a buyer, never beyond its budget with fees, and no lot is lost or traded twice. -/
theorem life_of_an_order {P : Params} {s s' : State conc} (h : Reach P s) (hq : s'.seq ≤ W64) {N : List Note}
    (r : Record P s s' N) (b : Balanced s s' N) {p : Placed} (hp : .placed p ∈ N) : Life s.mkt s' N p := by
  have hqs : s.seq ≤ W64 := Nat.le_trans r.seq hq
  obtain ⟨hf, n, n1, n2, n3⟩ := r.fair hp
  have hap := r.apart hq
  have hnew : ∀ l ∈ resting s p.side, l.key ≠ p.id := by
    intro l hl e
    obtain ⟨k, pr, k1, k2⟩ := resting_issued h hqs hl
    rw [k2, n3] at e
    exact genOrderId_fresh (by omega) (by omega) e
  have e0 : openLots s p.side (onlyOrder p.id) = 0 :=
    open_zero fun l hl => by unfold onlyOrder; rw [if_neg (hnew l hl)]
  have e1 := added_one hap hp
  have hb := b p.side (onlyOrder p.id)
  rw [e0, e1] at hb
  have hsz := hf.size
  refine ⟨hf, by omega, by omega, fun t ht hs hid => ?_, fun hbid => ?_⟩
  · obtain ⟨t1, t2⟩ := r.filled ht
    refine ⟨by rw [t1, hid, n3]; exact extractPrice_genOrderId (by omega) hf.priced, ?_⟩
    let w : Nat → Nat → Nat := fun k o => if k = p.id ∧ o ≠ p.account then 1 else 0
    have hb := b p.side w
    have z0 : openLots s p.side w = 0 := open_zero fun l hl => if_neg fun hc => hnew l hl hc.1
    have z1 : total (Note.added p.side w) N = 0 := by
      refine Nat.eq_zero_of_not_pos fun hpos => ?_
      obtain ⟨q, hqm, hqs, hqw⟩ := added_of_placed hpos
      by_cases hc : q.id = p.id ∧ q.account ≠ p.account
      · have hne : Note.placed q ≠ .placed p := fun e => by cases e; exact hc.2 rfl
        have sym : ∀ {L : List Note}, L.Pairwise Apart → .placed q ∈ L → .placed p ∈ L → False := by
          intro L hL
          induction L with
          | nil => intro h; cases h
          | cons x L ih =>
            intro m1 m2
            obtain ⟨g1, g2⟩ := List.pairwise_cons.1 hL
            rcases List.mem_cons.1 m1 with a1 | a1
            · rcases List.mem_cons.1 m2 with a2 | a2
              · exact hne (a1.trans a2.symm)
              · exact g1 _ a2 q p a1.symm rfl hqs hc.1
            · rcases List.mem_cons.1 m2 with a2 | a2
              · exact g1 _ a1 p q a2.symm rfl hqs.symm hc.1.symm
              · exact ih g2 a1 a2
        exact sym hap hqm hp
      · have : w q.id q.account = 0 := if_neg hc
        rw [this] at hqw; simp at hqw
    rw [z0, z1] at hb
    have := traded_zero (w := w) (by omega) ht hs t2
    exact Classical.byContradiction fun hc => by
      have e : w t.id t.owner = 1 := if_pos ⟨hid, hc⟩
      omega
  · have hbu := hf.budget hbid
    rw [hbid] at hb
    refine Nat.le_trans (Nat.add_le_add_left ?_ _) hbu
    exact Nat.mul_le_mul_right _ (Nat.mul_le_mul_right _ (by omega))

/-- C78. An order that is gone stays gone: once an id was issued and nothing of it rests on its side, no trade is ever
made with it again and nothing of it ever rests again. -/
theorem gone_for_good {P : Params} {s s' : State conc} (h : Reach P s) (hl : Later P s s') (hq : s'.seq ≤ W64)
    {N : List Note} (r : Record P s s' N) (b : Balanced s s' N) {sd : Side} {n price : Nat} (hn : n < s.seq) (hg : ∀ l ∈ resting s sd, l.key ≠ genOrderId n price sd) :
    (∀ l ∈ resting s' sd, l.key ≠ genOrderId n price sd) ∧
    ∀ t, .filled t ∈ N → t.side = sd → t.id ≠ genOrderId n price sd := by
  have hb := b sd (onlyOrder (genOrderId n price sd))
  have z0 : openLots s sd (onlyOrder (genOrderId n price sd)) = 0 := open_zero fun l hl => if_neg (hg l hl)
  have z1 : total (Note.added sd (onlyOrder (genOrderId n price sd))) N = 0 := by
    refine Nat.eq_zero_of_not_pos fun hpos => ?_
    obtain ⟨q, hqm, hqs, hqw⟩ := added_of_placed hpos
    obtain ⟨_, k, k1, k2, k3⟩ := r.fair hqm
    unfold onlyOrder at hqw
    by_cases e : q.id = genOrderId n price sd
    · rw [k3, hqs] at e
      exact genOrderId_fresh (by omega) (by omega) e.symm
    · rw [if_neg e] at hqw; simp at hqw
  rw [z0, z1] at hb
  refine ⟨fun l hl e => ?_, fun t ht hs e => ?_⟩
  · have hpos : 0 < l.quantity := resting_pos (‹Later P s s'›.reach h) hq hl
    have := sumBy_le_mem (fun l : Leaf => onlyOrder (genOrderId n price sd) l.key l.owner * l.quantity) hl
    have e2 : sumBy (fun l : Leaf => onlyOrder (genOrderId n price sd) l.key l.owner * l.quantity) (resting s' sd) = 0 := by
      show openLots s' sd _ = 0
      omega
    rw [e2] at this
    simp only [onlyOrder, if_pos e] at this
    omega
  · have := traded_zero (w := onlyOrder (genOrderId n price sd)) (by omega) ht hs (r.filled ht).2
    simp only [onlyOrder, if_pos e] at this
    omega

theorem placed_before {P : Params} {s s' : State conc} (h : Genesis P s) (hr : Reach P s')
    (hq : s'.seq ≤ W64) {N : List Note} (r : Record P s s' N) (b : Balanced s s' N) :
      (∀ t, .filled t ∈ N → ∃ p, .placed p ∈ N ∧ p.side = t.side ∧ p.id = t.id ∧ p.account = t.owner ∧ p.price = t.price) ∧
      (∀ sd, ∀ l ∈ resting s' sd, ∃ p, .placed p ∈ N ∧ p.side = sd ∧ p.id = l.key ∧ p.account = l.owner ∧
        p.price = l.price ∧ l.quantity ≤ p.rested) := by
  have e0 : ∀ sd w, openLots s sd w = 0 := by
    intro sd w
    refine open_zero fun l hl => ?_
    obtain ⟨n, _, hn, _⟩ := resting_issued (.start h) (by rw [h.seq]; exact Nat.zero_le _) hl
    rw [h.seq] at hn; cases hn
  let w : Nat → Nat → Nat → Nat → Nat := fun id a k o => if k = id ∧ o = a then 1 else 0
  have find : ∀ sd id a, 0 < total (Note.traded sd (w id a)) N + openLots s' sd (w id a) →
      ∃ p, .placed p ∈ N ∧ p.side = sd ∧ p.id = id ∧ p.account = a ∧ p.price = extractPrice id := by
    intro sd id a hpos
    have hb := b sd (w id a)
    rw [e0] at hb
    obtain ⟨p, h1, h2, h3⟩ := added_of_placed (sd := sd) (w := w id a) (N := N) (by omega)
    by_cases hc : p.id = id ∧ p.account = a
    · obtain ⟨hf, n, _, n2, n3⟩ := r.fair h1
      refine ⟨p, h1, h2, hc.1, hc.2, ?_⟩
      rw [← hc.1, n3]
      exact (extractPrice_genOrderId (by omega) hf.priced).symm
    · have : w id a p.id p.account = 0 := if_neg hc
      rw [this] at h3; simp at h3
  refine ⟨fun t ht => ?_, fun sd l hl' => ?_⟩
  · obtain ⟨t1, t2⟩ := r.filled ht
    have := sumBy_le_mem (Note.traded t.side (w t.id t.owner)) ht
    have e : Note.traded t.side (w t.id t.owner) (.filled t) = t.lots := by
      simp only [Note.traded, w, if_true, and_self]; exact Nat.one_mul _
    rw [e] at this
    have e2 : sumBy (Note.traded t.side (w t.id t.owner)) N = total (Note.traded t.side (w t.id t.owner)) N := rfl
    obtain ⟨p, h1, h2, h3, h4, h5⟩ := find t.side t.id t.owner (by omega)
    exact ⟨p, h1, h2, h3, h4, h5.trans t1.symm⟩
  · have hpos : 0 < l.quantity := resting_pos hr hq hl'
    have := sumBy_le_mem (fun x : Leaf => w l.key l.owner x.key x.owner * x.quantity) hl'
    have e : w l.key l.owner l.key l.owner = 1 := if_pos ⟨rfl, rfl⟩
    simp only [e, Nat.one_mul] at this
    have e2 : sumBy (fun x : Leaf => w l.key l.owner x.key x.owner * x.quantity) (resting s' sd) =
      openLots s' sd (w l.key l.owner) := rfl
    obtain ⟨p, h1, h2, h3, h4, h5⟩ := find sd l.key l.owner (by omega)
    refine ⟨p, h1, h2, h3, h4, h5, ?_⟩
    have lf := (life_of_an_order (.start h) hq r b h1).lots
    have := sumBy_le_mem (fun x : Leaf => onlyOrder p.id x.key x.owner * x.quantity) hl'
    simp only [onlyOrder, h3, if_true, Nat.one_mul] at this
    rw [h2] at lf
    have e3 : sumBy (fun x : Leaf => (if x.key = l.key then 1 else 0) * x.quantity) (resting s' sd) =
      openLots s' sd (onlyOrder l.key) := rfl
    rw [h3] at lf
    omega

/-- C78. In a market's whole life, every trade was with an order that was placed, for the account that placed it and at
its price; and so is everything that rests. -/
theorem every_trade_was_placed {P : Params} {s s' : State conc} (h : Genesis P s) (hl : Later P s s')
    (hq : s'.seq ≤ W64) {N : List Note} (r : Record P s s' N) (b : Balanced s s' N) :
      (∀ t, .filled t ∈ N → ∃ p, .placed p ∈ N ∧ p.side = t.side ∧ p.id = t.id ∧ p.account = t.owner ∧ p.price = t.price) ∧
      (∀ sd, ∀ l ∈ resting s' sd, ∃ p, .placed p ∈ N ∧ p.side = sd ∧ p.id = l.key ∧ p.account = l.owner ∧
        p.price = l.price ∧ l.quantity ≤ p.rested) :=
  placed_before h (hl.reach (.start h)) hq r b

/-! ### Accounts -/

/-- Quote units account `b` paid as a buyer: in trades its orders made at once, with their fees, and in trades with its
resting orders. -/
def Note.spent (m : Market) (b : Nat) : Note → Nat
  | .placed p => if p.side = .bid ∧ p.account = b then total (Trade.value m) p.took + p.fee else 0
  | .filled t => if t.side = .bid ∧ t.owner = b then t.value m else 0
  | _ => 0

/-- Quote units account `b` allowed its orders to spend. -/
def Note.allowed (b : Nat) : Note → Nat
  | .placed p => if p.side = .bid ∧ p.account = b then p.budget else 0
  | _ => 0

/-- Lots account `b` sold. -/
def Note.sold (b : Nat) : Note → Nat
  | .placed p => if p.side = .ask ∧ p.account = b then total (·.lots) p.took else 0
  | .filled t => if t.side = .ask ∧ t.owner = b then t.lots else 0
  | _ => 0

/-- Lots account `b` offered for sale. -/
def Note.offered (b : Nat) : Note → Nat
  | .placed p => if p.side = .ask ∧ p.account = b then p.size else 0
  | _ => 0

/-- Quote units in the resting bids of account `b`. -/
def bidsOpen (s : State conc) (b : Nat) : Nat :=
  total (fun l => if l.owner = b then l.quantity * l.price * s.mkt.pcLot else 0) (resting s .bid)

/-- Lots in the resting asks of account `b`. -/
def asksOpen (s : State conc) (b : Nat) : Nat :=
  total (fun l => if l.owner = b then l.quantity else 0) (resting s .ask)

theorem total_mono {f g : Note → Nat} {L : List Note} (h : ∀ a ∈ L, f a ≤ g a) : total f L ≤ total g L := by
  induction L with
  | nil => exact Nat.le_refl _
  | cons x L ih =>
    rw [total_cons, total_cons]
    exact Nat.add_le_add (h x (by simp)) (ih fun a ha => h a (List.mem_cons_of_mem _ ha))

/-- C78. Nobody ever spends more than they allowed or sells more than they offered: over any history, what an account
paid as a buyer (fees included) and what its bids still hold is within what its bids held before plus the budgets of the
orders placed for it since; and the same for lots sold against sizes. -/
theorem never_overspends {P : Params} {s s' : State conc} (hq : s'.seq ≤ W64) {N : List Note} (r : Record P s s' N)
    (bal : Balanced s s' N) (b : Nat) :
      total (Note.spent s.mkt b) N + bidsOpen s' b ≤ bidsOpen s b + total (Note.allowed b) N ∧
      total (Note.sold b) N + asksOpen s' b ≤ asksOpen s b + total (Note.offered b) N := by
  refine ⟨?_, ?_⟩
  · let w : Nat → Nat → Nat := fun k o => if o = b then extractPrice k * s.mkt.pcLot else 0
    have hb := bal .bid w
    have o1 : ∀ x : State conc, x.mkt.pcLot = s.mkt.pcLot → openLots x .bid w = bidsOpen x b := by
      intro x hx
      unfold openLots bidsOpen
      refine sumBy_congr' fun l _ => ?_
      simp only [w]
      split
      · rw [hx]
        show extractPrice l.key * s.mkt.pcLot * l.quantity = l.quantity * extractPrice l.key * s.mkt.pcLot
        rw [Nat.mul_comm, ← Nat.mul_assoc]
      · exact Nat.zero_mul _
    rw [o1 s rfl, o1 s' r.lots] at hb
    have key : total (Note.spent s.mkt b) N + total (Note.added .bid w) N ≤
        total (Note.allowed b) N + total (Note.traded .bid w) N := by
      rw [← total_add, ← total_add]
      refine total_mono fun x hx => ?_
      cases x with
      | placed p =>
        obtain ⟨hf, n, _, n2, n3⟩ := r.fair hx
        simp only [Note.spent, Note.added, Note.allowed, Note.traded, w]
        by_cases h1 : p.side = .bid
        · by_cases h2 : p.account = b
          · rw [if_pos ⟨h1, h2⟩, if_pos h1, if_pos h2, if_pos ⟨h1, h2⟩]
            have hp : extractPrice p.id = p.price := by rw [n3]; exact extractPrice_genOrderId (by omega) hf.priced
            have := hf.budget h1
            rw [hp]
            have e : p.price * s.mkt.pcLot * p.rested = p.rested * p.price * s.mkt.pcLot := by
              rw [Nat.mul_comm, ← Nat.mul_assoc]
            omega
          · rw [if_neg (fun h => h2 h.2), if_pos h1, if_neg h2]
            omega
        · rw [if_neg (fun h => h1 h.1), if_neg h1]
          omega
      | filled t =>
        obtain ⟨t1, _⟩ := r.filled hx
        simp only [Note.spent, Note.added, Note.allowed, Note.traded, w]
        by_cases h1 : t.side = .bid
        · by_cases h2 : t.owner = b
          · rw [if_pos ⟨h1, h2⟩, if_pos h1, if_pos h2, ← t1]
            unfold Trade.value
            have e : t.price * s.mkt.pcLot * t.lots = t.lots * t.price * s.mkt.pcLot := by
              rw [Nat.mul_comm, ← Nat.mul_assoc]
            omega
          · rw [if_neg (fun h => h2 h.2)]
            omega
        · rw [if_neg (fun h => h1 h.1)]
          omega
      | gone => exact Nat.le_refl _
    omega
  · let w : Nat → Nat → Nat := fun _ o => if o = b then 1 else 0
    have hb := bal .ask w
    have o1 : ∀ x : State conc, openLots x .ask w = asksOpen x b := by
      intro x
      unfold openLots asksOpen
      refine sumBy_congr' fun l _ => ?_
      simp only [w]
      split
      · exact Nat.one_mul _
      · exact Nat.zero_mul _
    rw [o1, o1] at hb
    have key : total (Note.sold b) N + total (Note.added .ask w) N ≤
        total (Note.offered b) N + total (Note.traded .ask w) N := by
      rw [← total_add, ← total_add]
      refine total_mono fun x hx => ?_
      cases x with
      | placed p =>
        obtain ⟨hf, _⟩ := r.fair hx
        simp only [Note.sold, Note.added, Note.offered, Note.traded, w]
        have := hf.size
        by_cases h1 : p.side = .ask
        · by_cases h2 : p.account = b
          · rw [if_pos ⟨h1, h2⟩, if_pos h1, if_pos h2, if_pos ⟨h1, h2⟩]
            omega
          · rw [if_neg (fun h => h2 h.2), if_pos h1, if_neg h2]
            omega
        · rw [if_neg (fun h => h1 h.1), if_neg h1]
          omega
      | filled t =>
        simp only [Note.sold, Note.added, Note.offered, Note.traded, w]
        by_cases h1 : t.side = .ask
        · by_cases h2 : t.owner = b
          · rw [if_pos ⟨h1, h2⟩, if_pos h1, if_pos h2]
            omega
          · rw [if_neg (fun h => h2 h.2)]
            omega
        · rw [if_neg (fun h => h1 h.1)]
          omega
      | gone => exact Nat.le_refl _
    omega

-- nine instructions: the first ask had five lots, two were traded, three still rest
theorem Demo.later9 : Later Demo.P Demo.s0 Demo.s9 := by
  have l1 : Later Demo.P Demo.s0 Demo.s1 := Demo.later .refl (Demo.valid (by decide)) (by decide +kernel) (by decide)
  have l2 : Later Demo.P Demo.s0 Demo.s2 := Demo.later l1 (Demo.valid (by decide)) (by decide +kernel) (by decide)
  have l3 : Later Demo.P Demo.s0 Demo.s3 := Demo.later l2 (Demo.valid (by decide)) (by decide +kernel) (by decide)
  have l4 : Later Demo.P Demo.s0 Demo.s4 := Demo.later l3 (by decide : U16 4) (by decide +kernel) (by decide)
  have l5 : Later Demo.P Demo.s0 Demo.s5 := Demo.later l4 (by decide : U128 Demo.bidId) (by decide +kernel) (by decide)
  have l6 : Later Demo.P Demo.s0 Demo.s6 := Demo.later l5 (by decide : U16 4) (by decide +kernel) (by decide)
  have l7 : Later Demo.P Demo.s0 Demo.s7 := Demo.later l6 trivial (by decide +kernel) (by decide)
  have l8 : Later Demo.P Demo.s0 Demo.s8 := Demo.later l7 trivial (by decide +kernel) (by decide)
  exact Demo.later l8 trivial (by decide +kernel) (by decide)

example : openLots Demo.s1 .ask (onlyOrder 18446744073709551616000) = 5 ∧
    openLots Demo.s9 .ask (onlyOrder 18446744073709551616000) = 3 ∧ asksOpen Demo.s9 41 = 3 ∧
    ∃ N, Record Demo.P Demo.s0 Demo.s9 N ∧ Balanced Demo.s0 Demo.s9 N ∧
      3 + total (Note.traded .ask (onlyOrder 18446744073709551616000)) N +
        total (Note.dropped .ask (onlyOrder 18446744073709551616000)) N =
        total (Note.added .ask (onlyOrder 18446744073709551616000)) N := by
  refine ⟨by decide +kernel, by decide +kernel, by decide +kernel, ?_⟩
  obtain ⟨N, r, b⟩ := orders_recorded (.start Demo.genesis) Demo.later9 (by decide +kernel)
  refine ⟨N, r, b, ?_⟩
  have := b .ask (onlyOrder 18446744073709551616000)
  rw [show openLots Demo.s9 .ask (onlyOrder 18446744073709551616000) = 3 by decide +kernel,
    show openLots Demo.s0 .ask (onlyOrder 18446744073709551616000) = 0 by decide +kernel] at this
  omega

end Serum.Props
