import Verif.PropsAhead

/-! Best execution: nobody could have bought the same lots for less, or sold them for more, from the orders on the book. -/
namespace Serum.Props
open Serum

/-- For somebody buying, `a` is no more than `b`; for somebody selling, no less. -/
def NoWorse : Side → Nat → Nat → Prop
  | .bid, a, b => a ≤ b
  | .ask, a, b => b ≤ a

theorem NoWorse.refl (sd : Side) (a : Nat) : NoWorse sd a a := by cases sd <;> exact Nat.le_refl _

theorem NoWorse.trans {sd : Side} {a b c : Nat} (h : NoWorse sd a b) (k : NoWorse sd b c) : NoWorse sd a c := by
  cases sd
  · exact Nat.le_trans h k
  · exact Nat.le_trans k h

theorem NoWorse.add {sd : Side} {a b c d : Nat} (h : NoWorse sd a b) (k : NoWorse sd c d) : NoWorse sd (a + c) (b + d) := by
  cases sd
  · exact Nat.add_le_add h k
  · exact Nat.add_le_add h k

theorem swap_le {n q P p : Nat} (hn : n ≤ q) (hp : P ≤ p) : q * P + p * n ≤ n * P + p * q := by
  obtain ⟨a, rfl⟩ := Nat.exists_eq_add_of_le hn
  obtain ⟨b, rfl⟩ := Nat.exists_eq_add_of_le hp
  simp only [Nat.add_mul, Nat.mul_add, Nat.mul_comm P]
  omega

theorem NoWorse.swap {sd : Side} {n q P p : Nat} (hn : n ≤ q) (hp : NoWorse sd P p) :
    NoWorse sd (q * P + p * n) (n * P + p * q) := by
  cases sd
  · exact swap_le hn hp
  · have := swap_le hn (show p ≤ P from hp)
    show n * P + p * q ≤ q * P + p * n
    simp only [Nat.mul_comm p, Nat.mul_comm _ P] at this ⊢
    omega

/-- A list of lots that could be taken from a list of orders: from nobody's more than there is, nothing from one's own. -/
def Picks (me : Nat) : List Leaf → List Nat → Prop
  | [], [] => True
  | l :: L, n :: ns => n ≤ l.quantity ∧ (l.owner = me → n = 0) ∧ Picks me L ns
  | _, _ => False

/-- Quote lots of a list of picks. -/
def cost : List Leaf → List Nat → Nat
  | l :: L, n :: ns => n * l.price + cost L ns
  | _, _ => 0

/-- Quote lots traded in a touch. -/
def touchCost (t : Touch) : Nat := t.traded * t.maker.price

theorem threshold {sd : Side} {L L' : List Leaf} {ts : List Touch} (h : takeFront L ts = some L')
    (hs : L.Pairwise (fun a b => NoWorse sd a.price b.price)) (hne : ts ≠ []) :
    ∃ p, (∀ t ∈ ts, NoWorse sd t.maker.price p) ∧ ∀ l ∈ L', NoWorse sd p l.price := by
  induction ts generalizing L with
  | nil => exact absurd rfl hne
  | cons t ts ih =>
    cases L with
    | nil => cases h
    | cons l L =>
      simp only [takeFront] at h
      split at h
      · rename_i hc
        obtain ⟨rfl, _, _⟩ := hc
        rw [List.pairwise_cons] at hs
        have hs2 : (if t.lots = t.maker.quantity then L else
            { t.maker with quantity := t.maker.quantity - t.lots } :: L).Pairwise
            (fun a b => NoWorse sd a.price b.price) ∧
            ∀ x ∈ (if t.lots = t.maker.quantity then L else
            { t.maker with quantity := t.maker.quantity - t.lots } :: L), NoWorse sd t.maker.price x.price := by
          split
          · exact ⟨hs.2, hs.1⟩
          · refine ⟨List.pairwise_cons.2 ⟨fun b hb => hs.1 b hb, hs.2⟩, ?_⟩
            intro x hx
            rcases List.mem_cons.1 hx with rfl | hx
            · exact NoWorse.refl _ _
            · exact hs.1 x hx
        by_cases hts : ts = []
        · subst hts
          refine ⟨t.maker.price, ?_, ?_⟩
          · intro t' ht'
            rw [List.mem_singleton.1 ht']
            exact NoWorse.refl _ _
          · have e : L' = _ := (Option.some.inj h).symm
            rw [e]
            exact hs2.2
        · obtain ⟨p, h1, h2⟩ := ih h hs2.1 hts
          refine ⟨p, ?_, h2⟩
          intro t' ht'
          rcases List.mem_cons.1 ht' with rfl | ht'
          · cases ts with
            | nil => exact absurd rfl hts
            | cons u us =>
              have hu := h1 u List.mem_cons_self
              refine NoWorse.trans (hs2.2 u.maker ?_) hu
              revert h
              generalize (if t'.lots = t'.maker.quantity then L else
                { t'.maker with quantity := t'.maker.quantity - t'.lots } :: L) = M
              intro h
              cases M with
              | nil => cases h
              | cons x M =>
                simp only [takeFront] at h
                split at h
                · rename_i hx; rw [hx.1]; exact List.mem_cons_self
                · cases h
          · exact h1 t' ht'
      · cases h

/-- Against a price that everything traded beats and everything left does not, the trades beat any other picks. -/
theorem picks_beaten {sd : Side} {me p : Nat} {L L' : List Leaf} {ts : List Touch} (h : takeFront L ts = some L')
    (hf : ∀ t ∈ ts, t.filled = true ↔ me ≠ t.maker.owner) (hp : ∀ t ∈ ts, NoWorse sd t.maker.price p)
    (hl : ∀ l ∈ L', NoWorse sd p l.price) {ns : List Nat} (hn : Picks me L ns) :
    NoWorse sd (total touchCost ts + p * ns.sum) (cost L ns + p * total Touch.traded ts) := by
  induction ts generalizing L ns with
  | nil =>
    have e : L' = L := by cases L <;> exact (Option.some.inj h).symm
    subst e
    clear h hf hp
    induction L' generalizing ns with
    | nil => cases ns with
      | nil => exact NoWorse.refl _ _
      | cons n ns => cases hn
    | cons l L ih =>
      cases ns with
      | nil => cases hn
      | cons n ns =>
        have h1 := ih (fun x hx => hl x (List.mem_cons_of_mem _ hx)) hn.2.2
        have h2 : NoWorse sd (p * n) (n * l.price) := by
          have := hl l List.mem_cons_self
          rw [Nat.mul_comm p]
          cases sd
          · exact Nat.mul_le_mul_left _ this
          · exact Nat.mul_le_mul_left _ this
        have h3 := h2.add h1
        simp only [total, List.map_nil, List.sum_nil, Nat.zero_add, Nat.mul_zero, Nat.add_zero, List.sum_cons, cost,
          Nat.mul_add] at h3 ⊢
        exact h3
  | cons t ts ih =>
    cases L with
    | nil => cases h
    | cons l L =>
      cases ns with
      | nil => cases hn
      | cons n ns =>
        simp only [takeFront] at h
        split at h
        · rename_i hc
          obtain ⟨rfl, _, hq⟩ := hc
          obtain ⟨n1, n2, n3⟩ := hn
          have hf' := fun t ht => hf t (List.mem_cons_of_mem _ ht)
          have hp' := fun t ht => hp t (List.mem_cons_of_mem _ ht)
          have ht := hp t List.mem_cons_self
          -- what is bought here: at most `t.traded` of the `n`, then `n - t.lots` later
          have key : ∃ k, Picks me (if t.lots = t.maker.quantity then L else
              { t.maker with quantity := t.maker.quantity - t.lots } :: L) k ∧
              NoWorse sd (t.traded * t.maker.price + p * n + p * ns.sum + cost
                (if t.lots = t.maker.quantity then L else
                  { t.maker with quantity := t.maker.quantity - t.lots } :: L) k)
                (n * t.maker.price + p * t.traded + p * k.sum + cost L ns) := by
            by_cases hme : t.maker.owner = me
            · have hz := n2 hme
              have hff : t.traded = 0 := by
                unfold Touch.traded
                have := hf t List.mem_cons_self
                rw [if_neg (by rw [this]; simp [hme])]
              subst hz
              split
              · refine ⟨ns, n3, ?_⟩
                simp only [hff, Nat.zero_mul, Nat.mul_zero, Nat.zero_add]
                exact NoWorse.refl _ _
              · refine ⟨0 :: ns, ⟨Nat.zero_le _, fun _ => rfl, n3⟩, ?_⟩
                simp only [hff, Nat.zero_mul, Nat.mul_zero, Nat.zero_add, List.sum_cons, cost]
                exact NoWorse.refl _ _
            · have hff : t.traded = t.lots := by
                unfold Touch.traded
                rw [if_pos ((hf t List.mem_cons_self).2 (Ne.symm hme))]
              rw [hff]
              split
              · rename_i e
                refine ⟨ns, n3, ?_⟩
                have := (NoWorse.swap (n := n) (by omega : n ≤ t.lots) ht).add (NoWorse.refl sd (p * ns.sum + cost L ns))
                simp only [Nat.add_assoc] at this ⊢
                exact this
              · refine ⟨(n - t.lots) :: ns, ⟨by show _ ≤ t.maker.quantity - t.lots; omega, fun e => absurd e hme, n3⟩, ?_⟩
                simp only [List.sum_cons, cost, Nat.mul_add]
                have := (NoWorse.swap (n := n) (by omega : n ≤ t.lots + (n - t.lots)) ht).add
                  (NoWorse.refl sd (p * ns.sum + cost L ns))
                simp only [Nat.mul_add, Nat.add_mul] at this
                have ep : ({ t.maker with quantity := t.maker.quantity - t.lots } : Leaf).price = t.maker.price := rfl
                rw [ep]
                cases sd <;> simp only [NoWorse] at this ⊢ <;> omega
          obtain ⟨k, k1, k2⟩ := key
          have := (ih h hf' hp' k1).add k2
          rw [total_cons, total_cons, List.sum_cons]
          simp only [cost, touchCost, Nat.mul_add] at this ⊢
          cases sd <;> simp only [NoWorse] at this ⊢ <;> omega
        · cases h

theorem picks_of {me : Nat} {L : List Leaf} {n : Leaf → Nat} (h : ∀ l ∈ L, n l ≤ l.quantity ∧ (l.owner = me → n l = 0)) :
    Picks me L (L.map n) ∧ cost L (L.map n) = total (fun l => n l * l.price) L := by
  induction L with
  | nil => exact ⟨trivial, rfl⟩
  | cons l L ih =>
    obtain ⟨h1, h2⟩ := ih fun x hx => h x (List.mem_cons_of_mem _ hx)
    refine ⟨⟨(h l List.mem_cons_self).1, (h l List.mem_cons_self).2, h1⟩, ?_⟩
    rw [total_cons, ← h2]
    rfl

/-- Lots that somebody, `me`, could have taken from the orders resting on a side: from each no more than it has, nothing
from their own. -/
def Choice (s : State conc) (sd : Side) (me : Nat) (n : Leaf → Nat) : Prop :=
  ∀ l ∈ resting s sd, n l ≤ l.quantity ∧ (l.owner = me → n l = 0)

/-- How many lots a choice is. -/
def chosenLots (s : State conc) (sd : Side) (n : Leaf → Nat) : Nat := total n (resting s sd)
/-- What they are worth at the prices of their orders. -/
def chosenQuote (s : State conc) (sd : Side) (n : Leaf → Nat) : Nat :=
  total (fun l => n l * l.price * s.mkt.pcLot) (resting s sd)

/-- The trades could not have been had at better prices: buying at least as many lots would have cost at least as much,
selling at most as many would have brought at most as much. -/
def BestDeal (s : State conc) (side : Side) (me : Nat) (ts : List Touch) : Prop :=
  ∀ n, Choice s side.other me n →
    match side with
    | .bid => tradedLots ts ≤ chosenLots s .ask n → tradedQuote s.mkt ts ≤ chosenQuote s .ask n
    | .ask => chosenLots s .bid n ≤ tradedLots ts → chosenQuote s .bid n ≤ tradedQuote s.mkt ts

theorem total_bestFirst {s : State conc} {sd : Side} {f : Leaf → Nat} : total f (bestFirst s sd) = total f (resting s sd) := by
  unfold bestFirst
  cases sd
  · simp [total]
  · rfl

theorem quote_touch (m : Market) (ts : List Touch) : tradedQuote m ts = total touchCost ts * m.pcLot := by
  unfold tradedQuote
  rw [← total_mul]
  refine total_congr fun t _ => ?_
  unfold Touch.tradedPc touchCost Touch.traded Touch.pc
  split <;> simp

theorem cost_zero {L : List Leaf} {ns : List Nat} (h : ns.sum = 0) : cost L ns = 0 := by
  induction L generalizing ns with
  | nil => cases ns <;> rfl
  | cons l L ih =>
    cases ns with
    | nil => rfl
    | cons n ns =>
      rw [List.sum_cons] at h
      unfold cost
      rw [ih (by omega), show n = 0 by omega]
      simp

theorem matched_beats {P : Params} {s s' : State conc} (h : Reach P s) (hq : s.seq ≤ W64) {o : OrderParams} {limit : Nat}
    {ts : List Touch} {f : Option Posting} {evs : List EventView} (hm : Matched s s' o limit ts f evs) {ns : List Nat}
    (hn : Picks o.owner (bestFirst s o.side.other) ns) (hl : NoWorse o.side (tradedLots ts) ns.sum) :
    NoWorse o.side (total touchCost ts) (cost (bestFirst s o.side.other) ns) := by
  have hsort : (bestFirst s o.side.other).Pairwise (fun a b => NoWorse o.side a.price b.price) := by
    refine List.Pairwise.imp ?_ (bestFirst_ok h hq o.side.other).1
    intro a b hab
    cases hs : o.side <;> rw [hs] at hab <;> exact hab
  by_cases hne : ts = []
  · subst hne
    cases hs : o.side
    · exact Nat.zero_le _
    · rw [hs] at hl
      rw [cost_zero (Nat.le_zero.1 hl)]
      exact Nat.zero_le _
  · obtain ⟨p, p1, p2⟩ := threshold hm.opp hsort hne
    have hmain := picks_beaten hm.opp (fun t ht => (hm.touches t ht).who) p1 p2 hn
    change NoWorse o.side (total touchCost ts + p * ns.sum) (cost _ ns + p * tradedLots ts) at hmain
    revert hmain hl
    generalize cost (bestFirst s o.side.other) ns = c
    intro hl hmain
    cases hs : o.side <;> rw [hs] at hl hmain <;> simp only [NoWorse] at hl hmain ⊢ <;>
      have e := Nat.mul_le_mul_left p hl <;> omega

theorem matched_best {P : Params} {s s' : State conc} (h : Reach P s) (hq : s.seq ≤ W64) {o : OrderParams} {limit : Nat}
    {ts : List Touch} {f : Option Posting} {evs : List EventView} (hm : Matched s s' o limit ts f evs) :
    BestDeal s o.side o.owner ts := by
  intro n hn
  have hmem : ∀ l ∈ bestFirst s o.side.other, n l ≤ l.quantity ∧ (l.owner = o.owner → n l = 0) := by
    intro l hl
    refine hn l ?_
    unfold bestFirst at hl
    cases hs : o.side.other <;> rw [hs] at hl <;> simpa using hl
  obtain ⟨h1, h2⟩ := picks_of hmem
  have hlots : ((bestFirst s o.side.other).map n).sum = chosenLots s o.side.other n := total_bestFirst
  have hquote : total (fun l => n l * l.price) (bestFirst s o.side.other) * s.mkt.pcLot = chosenQuote s o.side.other n := by
    rw [total_bestFirst, ← total_mul]
    rfl
  have main := matched_beats h hq hm h1
  rw [hlots, h2] at main
  have hq2 := quote_touch s.mkt ts
  cases hs : o.side <;> rw [hs] at main hquote <;> simp only [Side.other] at main hquote <;> intro hle <;>
    rw [hq2, ← hquote] <;> exact Nat.mul_le_mul_right _ (main hle)

/-- The trades of a run as picks from the book it met, for anybody who owns none of the orders traded with. -/
theorem trades_picks {me : Nat} {L L' : List Leaf} {ts : List Touch} (h : takeFront L ts = some L')
    (hf : ∀ t ∈ ts, t.filled = true → t.maker.owner ≠ me) :
    ∃ ns, Picks me L ns ∧ ns.sum = tradedLots ts ∧ cost L ns = total touchCost ts := by
  have none_of : ∀ L : List Leaf, ∃ ns, Picks me L ns ∧ ns.sum = 0 := by
    intro L
    induction L with
    | nil => exact ⟨[], trivial, rfl⟩
    | cons l L ih =>
      obtain ⟨ns, h1, h2⟩ := ih
      exact ⟨0 :: ns, ⟨Nat.zero_le _, fun _ => rfl, h1⟩, by rw [List.sum_cons, h2]⟩
  induction ts generalizing L with
  | nil =>
    obtain ⟨ns, h1, h2⟩ := none_of L
    exact ⟨ns, h1, h2, cost_zero h2⟩
  | cons t ts ih =>
    cases L with
    | nil => cases h
    | cons l L =>
      simp only [takeFront] at h
      split at h
      · rename_i hc
        obtain ⟨rfl, _, hq⟩ := hc
        have hown : t.maker.owner = me → t.traded = 0 := by
          intro e
          unfold Touch.traded
          split
          · rename_i hff; exact absurd e (hf t List.mem_cons_self hff)
          · rfl
        have hle : t.traded ≤ t.lots := by unfold Touch.traded; split <;> omega
        obtain ⟨ns, h1, h2, h3⟩ := ih h fun t ht => hf t (List.mem_cons_of_mem _ ht)
        have e1 : tradedLots (t :: ts) = t.traded + tradedLots ts := total_cons _ _ _
        rw [e1, total_cons, ← h2, ← h3]
        clear h h2 h3
        split at h1
        · rename_i e
          rw [if_pos e]
          exact ⟨t.traded :: ns, ⟨by omega, hown, h1⟩, by rw [List.sum_cons], rfl⟩
        · rename_i e
          rw [if_neg e]
          cases ns with
          | nil => cases h1
          | cons n ns =>
            obtain ⟨k1, k2, k3⟩ := h1
            change n ≤ t.maker.quantity - t.lots at k1
            refine ⟨(t.traded + n) :: ns, ⟨by omega, fun e => by rw [hown e, k2 e], k3⟩, ?_, ?_⟩
            · rw [List.sum_cons, List.sum_cons]; omega
            · unfold cost touchCost
              rw [Nat.add_mul]
              show t.traded * t.maker.price + n * t.maker.price + cost L ns =
                t.traded * t.maker.price + (n * t.maker.price + cost L ns)
              omega
      · cases h

theorem picks_sublist {me : Nat} {L M : List Leaf} (h : List.Sublist L M) : ∀ {ns : List Nat}, Picks me L ns →
    ∃ ks, Picks me M ks ∧ ks.sum = ns.sum ∧ cost M ks = cost L ns := by
  induction h with
  | slnil => intro ns h; exact ⟨ns, h, rfl, rfl⟩
  | cons a _ ih =>
    intro ns h
    obtain ⟨ks, h1, h2, h3⟩ := ih h
    refine ⟨0 :: ks, ⟨Nat.zero_le _, fun _ => rfl, h1⟩, by rw [List.sum_cons, h2]; simp, ?_⟩
    show 0 * a.price + cost _ ks = _
    rw [h3, Nat.zero_mul, Nat.zero_add]
  | cons_cons a _ ih =>
    intro ns h
    cases ns with
    | nil => cases h
    | cons n ns =>
      obtain ⟨ks, h1, h2, h3⟩ := ih h.2.2
      exact ⟨n :: ks, ⟨h.1, h.2.1, h1⟩, by rw [List.sum_cons, List.sum_cons, h2], by unfold cost; rw [h3]⟩

/-- A deeper book never makes a trade dearer: take two states, one of whose sides holds all the orders of the
other's and perhaps more, and two takers, of whatever accounts, sizes, tiers and limits. If the taker at the deeper book
buys no more lots than the other, they pay no more for them; if they sell no fewer, they are paid no less. -/
theorem deeper_no_worse {P' : Params} {s s' t t' : State conc} (ht : Reach P' t) (hq' : t.seq ≤ W64) {o o' : OrderParams} {limit limit' : Nat} {ts us : List Touch} {f f' : Option Posting}
    {evs evs' : List EventView} (hm : Matched s s' o limit ts f evs) (hm' : Matched t t' o' limit' us f' evs')
    (hside : o'.side = o.side) (hbook : List.Sublist (resting s o.side.other) (resting t o.side.other))
    (hlot : t.mkt.pcLot = s.mkt.pcLot) (hown : ∀ x ∈ ts, x.filled = true → x.maker.owner ≠ o'.owner)
    (hl : NoWorse o.side (tradedLots us) (tradedLots ts)) :
    NoWorse o.side (tradedQuote t.mkt us) (tradedQuote s.mkt ts) := by
  obtain ⟨ns, n1, n2, n3⟩ := trades_picks hm.opp hown
  have hb : List.Sublist (bestFirst s o.side.other) (bestFirst t o.side.other) := by
    unfold bestFirst
    revert hbook
    cases o.side.other
    · exact fun h => h.reverse
    · exact fun h => h
  obtain ⟨ks, k1, k2, k3⟩ := picks_sublist hb n1
  have := matched_beats ht hq' hm' (ns := ks) (by rw [hside]; exact k1) (by rw [hside, k2, n2]; exact hl)
  rw [hside, k3, n3] at this
  rw [quote_touch, quote_touch, hlot]
  cases hs : o.side <;> rw [hs] at this <;> exact Nat.mul_le_mul_right _ this

/-- C108, new orders. -/
theorem order_best_deal {P : Params} {s s' : State conc} (h : Reach P s) (hq : s.seq < W64) {env : Env}
    {accts : List AccMeta} {ix : NewOrderIx} (hv : OrderValid ix) (hn : NotVault P s.mkt accts)
    (hx : newOrderV3 conc P env s accts ix = .ok s') :
    ∃ a tier o o' slot d ts f evs, PlaceEffect P env s s' accts ix a tier o o' slot d ts f evs ∧
      BestDeal s ix.side a.oo.key ts := by
  obtain ⟨a, tier, o, o', slot, d, ts, f, evs, he, _⟩ := order_by_the_book h hq hv hn hx
  exact ⟨a, tier, o, o', slot, d, ts, f, evs, he, matched_best h (Nat.le_of_lt hq) he.matched⟩

/-- C108, send-takes. -/
theorem take_best_deal {P : Params} {s s' : State conc} (h : Reach P s) (hq : s.seq < W64)
    {accts : List AccMeta} {ix : SendTakeIx} (hv : TakeValid ix) (hn : NotVault P s.mkt accts)
    (hx : sendTake conc P s accts ix = .ok s') :
    ∃ a tier ts evs, TakeEffect P s s' accts ix a tier ts evs ∧ BestDeal s ix.side 0 ts := by
  obtain ⟨a, tier, ts, evs, he, _⟩ := send_take_by_the_book h hq hv hn hx
  exact ⟨a, tier, ts, evs, he, matched_best h (Nat.le_of_lt hq) he.matched⟩

/-- C108. Two orders on the same side in two states, the second of whose books holds all the orders of the first on the
side they trade with, and perhaps more; the second sender owns none of what the first trades with. If the second buys no
more lots, they pay no more for them before fees; if the second sells no fewer, they get no less before fees. -/
theorem deeper_order {P P' : Params} {s s' t t' : State conc} (hs : Reach P s) (hq : s.seq < W64) (ht : Reach P' t)
    (hq' : t.seq < W64) {env env' : Env} {accts accts' : List AccMeta} {ix ix' : NewOrderIx} (hv : OrderValid ix)
    (hv' : OrderValid ix') (hn : NotVault P s.mkt accts) (hn' : NotVault P' t.mkt accts')
    (hx : newOrderV3 conc P env s accts ix = .ok s') (hx' : newOrderV3 conc P' env' t accts' ix' = .ok t')
    (hside : ix'.side = ix.side) (hbook : List.Sublist (resting s ix.side.other) (resting t ix.side.other))
    (hlot : t.mkt.pcLot = s.mkt.pcLot) :
    ∃ a tier o o' slot d ts f evs a' tier' p p' slot' d' us f' evs',
      PlaceEffect P env s s' accts ix a tier o o' slot d ts f evs ∧
      PlaceEffect P' env' t t' accts' ix' a' tier' p p' slot' d' us f' evs' ∧
      ((∀ x ∈ ts, x.filled = true → x.maker.owner ≠ a'.oo.key) →
        NoWorse ix.side (tradedLots us) (tradedLots ts) →
        NoWorse ix.side (tradedQuote t.mkt us) (tradedQuote s.mkt ts)) := by
  obtain ⟨a, tier, o, o', slot, d, ts, f, evs, he, _⟩ := order_by_the_book hs hq hv hn hx
  obtain ⟨a', tier', p, p', slot', d', us, f', evs', he', _⟩ := order_by_the_book ht hq' hv' hn' hx'
  exact ⟨a, tier, o, o', slot, d, ts, f, evs, a', tier', p, p', slot', d', us, f', evs', he, he', fun hown hl =>
    deeper_no_worse ht (Nat.le_of_lt hq') he.matched he'.matched hside hbook hlot hown hl⟩

/-- C108. The same for send-takes, whose sender owns no resting order. -/
theorem deeper_take {P P' : Params} {s s' t t' : State conc} (hs : Reach P s) (hq : s.seq < W64) (ht : Reach P' t)
    (hq' : t.seq < W64) {accts accts' : List AccMeta} {ix ix' : SendTakeIx} (hv : TakeValid ix)
    (hv' : TakeValid ix') (hn : NotVault P s.mkt accts) (hn' : NotVault P' t.mkt accts')
    (hx : sendTake conc P s accts ix = .ok s') (hx' : sendTake conc P' t accts' ix' = .ok t')
    (hside : ix'.side = ix.side) (hbook : List.Sublist (resting s ix.side.other) (resting t ix.side.other))
    (hlot : t.mkt.pcLot = s.mkt.pcLot) :
    ∃ a tier ts evs a' tier' us evs',
      TakeEffect P s s' accts ix a tier ts evs ∧ TakeEffect P' t t' accts' ix' a' tier' us evs' ∧
      (NoWorse ix.side (tradedLots us) (tradedLots ts) →
        NoWorse ix.side (tradedQuote t.mkt us) (tradedQuote s.mkt ts)) := by
  obtain ⟨a, tier, ts, evs, he, _⟩ := send_take_by_the_book hs hq hv hn hx
  obtain ⟨a', tier', us, evs', he', _⟩ := send_take_by_the_book ht hq' hv' hn' hx'
  refine ⟨a, tier, ts, evs, a', tier', us, evs', he, he', fun hl =>
    deeper_no_worse ht (Nat.le_of_lt hq') he.matched he'.matched hside hbook hlot (fun x hx hf e => ?_) hl⟩
  exact ((he.matched.touches x hx).who.1 hf) e.symm

end Serum.Props

namespace Serum.Demo
open Serum Props

/-- Another way to buy seven lots: four at 1050 and three at 1000. -/
def dearer (l : Leaf) : Nat := if l.price = 1050 then 4 else 3

/-- On a book with asks of 5 lots at 1000 and of 4 at 1050, a buyer of 7 lots gets the best deal; another way to buy them
would have cost 72 000. -/
theorem best_demo :
    (∃ a tier o o' slot d ts f evs, PlaceEffect P env behind1 sevenBehind a2 sevenIx a tier o o' slot d ts f evs ∧
      BestDeal behind1 .bid a.oo.key ts) ∧
    (resting behind1 .ask).map (fun l => (l.price, l.quantity, l.owner)) = [(1000, 5, 41), (1050, 4, 41)] ∧
    Choice behind1 .ask 42 dearer ∧ chosenLots behind1 .ask dearer = 7 ∧ chosenQuote behind1 .ask dearer = 72000 := by
  have hr : Reach P behind1 := next r1 (valid (by decide)) (by decide +kernel) (by decide)
  have h2 : process conc P env behind1 a2 (.newOrderV3 sevenIx) = .ok sevenBehind := run_eq (by decide +kernel)
  refine ⟨order_best_deal hr (by decide +kernel) (ix := sevenIx) (valid (by decide)) (notVault _ (by decide)) h2,
    by decide +kernel, ?_, by decide +kernel, by decide +kernel⟩
  · have : ((resting behind1 .ask).all fun l => decide (dearer l ≤ l.quantity ∧ l.owner ≠ 42)) = true := by decide +kernel
    intro l hl
    have := List.all_eq_true.1 this l hl
    simp only [decide_eq_true_eq] at this
    exact ⟨this.1, fun e => absurd e this.2⟩

/-- A further ask, of 8 lots at 990. -/
def cheaper1 : State conc := run behind1 a1 (.newOrderV3 (order .ask 990 8 1 10))
def sevenCheaper : State conc := run cheaper1 a2 (.newOrderV3 sevenIx)

/-- The same buyer on the deeper book: seven lots in both cases, 71 000 against 69 300 (and fees of 29 and 28). -/
theorem deeper_demo :
    (∃ a tier o o' slot d ts f evs a' tier' p p' slot' d' us f' evs',
      PlaceEffect P env behind1 sevenBehind a2 sevenIx a tier o o' slot d ts f evs ∧
      PlaceEffect P env cheaper1 sevenCheaper a2 sevenIx a' tier' p p' slot' d' us f' evs' ∧
      ((∀ x ∈ ts, x.filled = true → x.maker.owner ≠ a'.oo.key) →
        tradedLots us ≤ tradedLots ts → tradedQuote cheaper1.mkt us ≤ tradedQuote behind1.mkt ts)) ∧
    (ooAt sevenBehind.oos 42).map (·.coinFree) = some 700 ∧ (ooAt sevenCheaper.oos 42).map (·.coinFree) = some 700 ∧
    (ooAt sevenBehind.oos 42).map (·.pcFree) = some 18971 ∧ (ooAt sevenCheaper.oos 42).map (·.pcFree) = some 20672 := by
  have hr : Reach P behind1 := next r1 (valid (by decide)) (by decide +kernel) (by decide)
  have hr2 : Reach P cheaper1 := next hr (valid (by decide)) (by decide +kernel) (by decide)
  have h2 : process conc P env behind1 a2 (.newOrderV3 sevenIx) = .ok sevenBehind := run_eq (by decide +kernel)
  have h3 : process conc P env cheaper1 a2 (.newOrderV3 sevenIx) = .ok sevenCheaper := run_eq (by decide +kernel)
  refine ⟨deeper_order (ix := sevenIx) (ix' := sevenIx) hr (by decide +kernel) hr2 (by decide +kernel) (valid (by decide))
    (valid (by decide)) (notVault _ (by decide)) (notVault _ (by decide)) h2 h3 rfl ?_ (by decide +kernel),
    by decide +kernel, by decide +kernel, by decide +kernel, by decide +kernel⟩
  have : List.isSublist (resting behind1 .ask) (resting cheaper1 .ask) = true := by decide +kernel
  exact List.isSublist_iff_sublist.1 this

end Serum.Demo
