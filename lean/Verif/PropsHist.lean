import Verif.Demo
import Verif.PropsIds

/-!
Properties of every reachable state: C20 (no crossed book), C26-C28 (conservation and solvency), C29
(account totals), C30 (slots), C36 (closing), C42 (rebates).

`Reach P s` is the set of states of all histories of a market (`Verif.History`). `s.seq ≤ W64` says that
at most 2^64 order ids were drawn so far.
-/

namespace Serum.Props

/-! ### Reading a state -/

/-- The queued events, oldest first, as the crank decodes them. -/
def pending (s : State conc) : List EventView := s.q.iter.filterMap fun e => e.asView.toOption

/-- Sum of a quantity over a list. -/
def total {α : Type} (f : α → Nat) (l : List α) : Nat := (l.map f).sum

/-- Base units the owner of an event is still to be credited with: bought in a resting bid, or released
by the end of an ask. -/
def baseDue : EventView → Nat
  | .fill .bid true _ received _ _ _ _ _ _ => received
  | .out .ask true unlocked _ _ _ _ _ => unlocked
  | _ => 0

/-- Quote units the owner of an event is still to be credited with: earned by a resting ask, rebate of a
resting bid, or released by the end of a bid. -/
def quoteDue : EventView → Nat
  | .fill .ask true _ received _ _ _ _ _ _ => received
  | .fill .bid true _ _ rebate _ _ _ _ _ => rebate
  | .out .bid true unlocked _ _ _ _ _ => unlocked
  | _ => 0

/-- Base units an event will take out of the locked part of its owner's total: sold by a resting ask, or
released. -/
def baseLocked : EventView → Nat
  | .fill .ask true paid _ _ _ _ _ _ _ => paid
  | .out .ask true unlocked _ _ _ _ _ => unlocked
  | _ => 0

/-- Quote units an event will take out of the locked part of its owner's total. -/
def quoteLocked : EventView → Nat
  | .fill .bid true paid _ rebate _ _ _ _ _ => paid + rebate
  | .out .bid true unlocked _ _ _ _ _ => unlocked
  | _ => 0

/-- Referrer rebate that a queued taker fill will record for its owner: a fifth of the fee. -/
def rebateDue : EventView → Nat
  | .fill _ false _ _ fee _ _ _ _ _ => fee / 5
  | _ => 0

/-- Base units behind a resting ask. -/
def askValue (m : Market) (l : Leaf) : Nat := l.quantity * m.coinLot
/-- Quote units behind a resting bid. -/
def bidValue (m : Market) (l : Leaf) : Nat := l.quantity * l.price * m.pcLot

/-- An out event that ends its order. -/
def endsOrder : EventView → Bool
  | .out _ _ _ 0 _ _ _ _ => true
  | _ => false

/-! ### From the invariant to the specification -/

theorem free_ask (v : EventView) : EventView.free .ask v = baseDue v := by
  cases v with
  | fill s mk => cases s <;> cases mk <;> rfl
  | out s r => cases s <;> cases r <;> rfl
theorem free_bid (v : EventView) : EventView.free .bid v = quoteDue v := by
  cases v with
  | fill s mk => cases s <;> cases mk <;> rfl
  | out s r => cases s <;> cases r <;> rfl
theorem lock_ask (v : EventView) : EventView.lock .ask v = baseLocked v := by
  cases v with
  | fill s mk => cases s <;> cases mk <;> rfl
  | out s r => cases s <;> cases r <;> rfl
theorem lock_bid (v : EventView) : EventView.lock .bid v = quoteLocked v := by
  cases v with
  | fill s mk => cases s <;> cases mk <;> rfl
  | out s r => cases s <;> cases r <;> rfl
theorem rebate_due (v : EventView) : EventView.rebate v = rebateDue v := by
  cases v with
  | fill s mk => cases mk <;> rfl
  | out s r => rfl
theorem ends_eq (v : EventView) : endsOrder v = v.final := by
  cases v with
  | fill s mk => rfl
  | out s r u still => cases still <;> rfl

theorem evSum_every (w f : EventView → Nat) (h : ∀ v, w v = f v) (evs : List EventView) :
    evSum w every evs = total f evs := by
  unfold evSum every total sumBy
  simp [h]

theorem evSum_only (w f : EventView → Nat) (h : ∀ v, w v = f v) (a : Nat) (evs : List EventView) :
    evSum w (only a) evs = total f (evs.filter fun v => v.owner == a) := by
  unfold evSum total
  rw [show ((evs.filter fun v => v.owner == a).map f).sum = sumBy f (evs.filter fun v => v.owner == a)
    from rfl, sumBy_filter]
  simp only [only, h]

theorem askLock_every (m : Market) (L : List Leaf) : bookLock .ask m every L = total (askValue m) L := by
  unfold bookLock leafLock every total sumBy askValue lockedValue; simp
theorem bidLock_every (m : Market) (L : List Leaf) : bookLock .bid m every L = total (bidValue m) L := by
  unfold bookLock leafLock every total sumBy bidValue lockedValue; simp
theorem askLock_only (m : Market) (a : Nat) (L : List Leaf) :
    bookLock .ask m (only a) L = total (askValue m) (L.filter fun l => l.owner == a) := by
  unfold bookLock leafLock total
  rw [show ((L.filter fun l => l.owner == a).map (askValue m)).sum =
    sumBy (askValue m) (L.filter fun l => l.owner == a) from rfl, sumBy_filter]
  simp only [only, askValue, lockedValue]
  rfl
theorem bidLock_only (m : Market) (a : Nat) (L : List Leaf) :
    bookLock .bid m (only a) L = total (bidValue m) (L.filter fun l => l.owner == a) := by
  unfold bookLock leafLock total
  rw [show ((L.filter fun l => l.owner == a).map (bidValue m)).sum =
    sumBy (bidValue m) (L.filter fun l => l.owner == a) from rfl, sumBy_filter]
  simp only [only, bidValue, lockedValue]
  rfl

theorem _root_.Serum.Good.view {P : Params} {s : State conc} (h : Good P s) :
    ∃ vs, P.vaultSigner s.mkt.ownAddress s.mkt.vaultSignerNonce = some vs ∧
      s.q.iter = (pending s).map Event.new ∧
      Inv vs s.mkt s.seq s.oos s.toks s.bids.contents s.asks.contents (pending s) := by
  obtain ⟨hr, vs, evs, h1, h2, h3⟩ := h
  have hi : s.q.iter = evs.map Event.new := by
    rw [Queue.iter_eq hr.q.1]; exact h2
  have hp : pending s = evs := by
    unfold pending
    rw [hi, List.filterMap_map]
    have : (fun e => e.asView.toOption) ∘ Event.new = (some : EventView → Option EventView) := by
      funext v
      simp [Function.comp, Event.asView_new, Except.toOption]
    rw [this, List.filterMap_some]
  refine ⟨vs, h1, by rw [hp]; exact hi, ?_⟩
  rw [hp]
  exact h3

theorem _root_.Serum.Reach.view {P : Params} {s : State conc} (h : Reach P s) (hq : s.seq ≤ W64) :
    ∃ vs, P.vaultSigner s.mkt.ownAddress s.mkt.vaultSignerNonce = some vs ∧
      s.q.iter = (pending s).map Event.new ∧
      Inv vs s.mkt s.seq s.oos s.toks s.bids.contents s.asks.contents (pending s) :=
  (h.good hq).view

/-! ### C20 -/

/-- C20. In every reachable state every resting bid is priced strictly below every resting ask; in
particular the best bid that the engine finds is below the best ask it finds. -/
theorem book_never_crosses {P : Params} {s : State conc} (h : Reach P s) (hq : s.seq ≤ W64) :
    (∀ b ∈ s.bids.contents, ∀ a ∈ s.asks.contents, b.price < a.price) ∧
    (∀ b a, conc.best .bid s.bids = .ok (some b) → conc.best .ask s.asks = .ok (some a) →
      b.price < a.price) := by
  obtain ⟨vs, _, _, hi⟩ := h.view hq
  have hg := h.good hq
  refine ⟨hi.shape.noCross, ?_⟩
  intro b a hb ha
  obtain ⟨_, h1, h2⟩ := Sim.ok_right (concLst.best .bid hg.rs.bids) hb
  obtain ⟨_, h3, h4⟩ := Sim.ok_right (concLst.best .ask hg.rs.asks) ha
  subst h2; subst h4
  simp only [lst, Except.ok.injEq] at h1 h3
  exact hi.shape.noCross b (List.mem_of_getLast? h1) a (List.mem_of_head? h3)

-- a reachable state with orders on both sides
example : Reach Demo.P Demo.s3 ∧ Demo.s3.seq ≤ W64 ∧
    (Demo.s3.bids.contents.map (·.price), Demo.s3.asks.contents.map (·.price)) = ([900], [1000]) :=
  ⟨Demo.r3, by decide +kernel, by decide +kernel⟩

/-! ### C26, C27 -/

/-- C26. Recorded base deposits equal all free base, all base behind resting asks and all base due from
queued events. -/
theorem base_conservation {P : Params} {s : State conc} (h : Reach P s) (hq : s.seq ≤ W64) :
    s.mkt.coinDeposits = total (fun x => x.2.coinFree) s.oos + total (askValue s.mkt) s.asks.contents +
      total baseDue (pending s) := by
  obtain ⟨vs, _, _, hi⟩ := h.view hq
  have := hi.money.coin
  rw [askLock_every, evSum_every _ _ free_ask] at this
  exact this

/-- C27, deposits. Recorded quote deposits equal all free quote, all quote behind resting bids and all
quote due from queued events. -/
theorem quote_conservation {P : Params} {s : State conc} (h : Reach P s) (hq : s.seq ≤ W64) :
    s.mkt.pcDeposits = total (fun x => x.2.pcFree) s.oos + total (bidValue s.mkt) s.bids.contents +
      total quoteDue (pending s) := by
  obtain ⟨vs, _, _, hi⟩ := h.view hq
  have := hi.money.pc
  rw [bidLock_every, evSum_every _ _ free_bid] at this
  exact this

-- the terms of both equations in a reachable state: 500 = 200 + 300 + 0 and 60000 = 13000 + 27000 + 20000
example : Reach Demo.P Demo.s3 ∧
    (total (fun x => x.2.coinFree) Demo.s3.oos, total (askValue Demo.s3.mkt) Demo.s3.asks.contents,
      total baseDue (pending Demo.s3)) = (200, 300, 0) ∧
    (total (fun x => x.2.pcFree) Demo.s3.oos, total (bidValue Demo.s3.mkt) Demo.s3.bids.contents,
      total quoteDue (pending Demo.s3)) = (13000, 27000, 20000) :=
  ⟨Demo.r3, by decide +kernel, by decide +kernel⟩

/-! ### C28 -/

/-- C28. The vaults hold what the market owes. If both vaults are one account it holds both debts. The
vaults stay under the sole control of the vault signer. -/
theorem vault_solvency {P : Params} {s : State conc} (h : Reach P s) (hq : s.seq ≤ W64) :
    s.mkt.coinDeposits ≤ bal s.toks s.mkt.coinVault ∧
    s.mkt.pcDeposits + s.mkt.pcFees + s.mkt.referrerRebates ≤ bal s.toks s.mkt.pcVault ∧
    (s.mkt.coinVault = s.mkt.pcVault →
      s.mkt.coinDeposits + s.mkt.pcDeposits + s.mkt.pcFees + s.mkt.referrerRebates ≤
        bal s.toks s.mkt.coinVault) ∧
    (∀ v, v = s.mkt.coinVault ∨ v = s.mkt.pcVault → ∃ t, s.toks v = some t ∧ t.delegate = none ∧
      t.closeAuth = none ∧ P.vaultSigner s.mkt.ownAddress s.mkt.vaultSignerNonce = some t.owner) := by
  obtain ⟨vs, hv, _, hi⟩ := h.view hq
  have h1 := hi.funds.solvent s.mkt.coinVault
  have h2 := hi.funds.solvent s.mkt.pcVault
  unfold owed at h1 h2
  rw [if_pos rfl] at h1
  rw [if_pos (rfl : s.mkt.pcVault = s.mkt.pcVault)] at h2
  refine ⟨by omega, by omega, ?_, ?_⟩
  · intro e
    rw [if_pos e] at h1
    omega
  · rintro v (rfl | rfl)
    · obtain ⟨t, e1, e2, e3, e4⟩ := hi.funds.coin
      exact ⟨t, e1, e3, e4, by rw [e2]; exact hv⟩
    · obtain ⟨t, e1, e2, e3, e4⟩ := hi.funds.pc
      exact ⟨t, e1, e3, e4, by rw [e2]; exact hv⟩

-- the quote vault holds 60008 = 60000 + 7 + 1 in a reachable state
example : Reach Demo.P Demo.s3 ∧ (bal Demo.s3.toks 51, bal Demo.s3.toks 52) = (500, 60008) ∧
    (Demo.s3.mkt.pcDeposits, Demo.s3.mkt.pcFees, Demo.s3.mkt.referrerRebates) = (60000, 7, 1) :=
  ⟨Demo.r3, by decide +kernel, by decide +kernel⟩

/-! ### C29 -/

/-- What an account holds of the base token: free, behind its resting asks, or not yet taken out of its
total because the event is still queued. -/
def baseHeld (s : State conc) (a : Nat) (o : OpenOrders) : Nat :=
  o.coinFree + total (askValue s.mkt) (s.asks.contents.filter fun l => l.owner == a) +
    total baseLocked ((pending s).filter fun v => v.owner == a)
/-- The same for the quote token. -/
def quoteHeld (s : State conc) (a : Nat) (o : OpenOrders) : Nat :=
  o.pcFree + total (bidValue s.mkt) (s.bids.contents.filter fun l => l.owner == a) +
    total quoteLocked ((pending s).filter fun v => v.owner == a)

theorem total_mem {α : Type} (f : α → Nat) {l : List α} {x : α} (h : x ∈ l) : f x ≤ total f l := by
  induction l with
  | nil => cases h
  | cons y l ih =>
    have : total f (y :: l) = f y + total f l := by simp [total]
    rcases List.mem_cons.1 h with rfl | h
    · omega
    · have := ih h; omega

/-- C29. The recorded totals of an account equal what it holds, modulo 2^64; its free amounts plus what
its resting orders lock never exceed what the market has recorded as deposited. -/
theorem totals_are_backed {P : Params} {s : State conc} (h : Reach P s) (hq : s.seq ≤ W64) {a : Nat}
    {o : OpenOrders} (ho : ooAt s.oos a = some o) :
    o.coinTotal = baseHeld s a o % 2 ^ 64 ∧ o.pcTotal = quoteHeld s a o % 2 ^ 64 ∧
    o.coinFree + total (askValue s.mkt) (s.asks.contents.filter fun l => l.owner == a) ≤
      s.mkt.coinDeposits ∧
    o.pcFree + total (bidValue s.mkt) (s.bids.contents.filter fun l => l.owner == a) ≤
      s.mkt.pcDeposits := by
  obtain ⟨vs, _, _, hi⟩ := h.view hq
  have h1 := hi.money.coinTot a o ho
  have h2 := hi.money.pcTot a o ho
  rw [askLock_only, evSum_only _ _ lock_ask] at h1
  rw [bidLock_only, evSum_only _ _ lock_bid] at h2
  have hsub : ∀ (f : Leaf → Nat) (L : List Leaf) (p : Leaf → Bool), total f (L.filter p) ≤ total f L := by
    intro f L p
    show sumBy f (L.filter p) ≤ sumBy f L
    rw [sumBy_filter]
    induction L with
    | nil => exact Nat.le_refl _
    | cons x L ih =>
      simp only [sumBy_cons]
      split <;> omega
  have c := base_conservation h hq
  have q := quote_conservation h hq
  have m1 : o.coinFree ≤ _ := total_mem (fun x => x.2.coinFree) (ooAt_mem ho)
  have m2 : o.pcFree ≤ _ := total_mem (fun x => x.2.pcFree) (ooAt_mem ho)
  have b1 := hsub (askValue s.mkt) s.asks.contents (fun l => l.owner == a)
  have b2 := hsub (bidValue s.mkt) s.bids.contents (fun l => l.owner == a)
  exact ⟨h1, h2, by omega, by omega⟩

-- account 41 has total base 500: 300 in its ask and 200 in a queued fill
example : Reach Demo.P Demo.s3 ∧ (ooAt Demo.s3.oos 41).map (fun o =>
    (o.coinTotal, baseHeld Demo.s3 41 o, o.coinFree)) = some (500, 500, 0) :=
  ⟨Demo.r3, by decide +kernel⟩

/-! ### C30 -/

/-- Orders resting on a side. -/
def resting (s : State conc) : Side → List Leaf
  | .bid => s.bids.contents
  | .ask => s.asks.contents

/-- Resting orders of a side that name a slot. -/
def restingAt (s : State conc) (sd : Side) (a i : Nat) : List Leaf :=
  (resting s sd).filter fun l => l.owner == a && l.ownerSlot == i

/-- Queued events for a slot, oldest first. -/
def pendingAt (s : State conc) (a i : Nat) : List EventView :=
  (pending s).filter fun v => v.owner == a && v.slot == i

def otherSide : Side → Side
  | .bid => .ask
  | .ask => .bid

/-- An event about a given order. -/
def concerns (sd : Side) (id : Nat) (v : EventView) : Prop := v.side = sd ∧ v.id = id

/-- The order is on the book, and none of its queued events ends it. -/
structure OnBook (s : State conc) (a i : Nat) (sd : Side) (id : Nat) : Prop where
  resting : ∃ l, restingAt s sd a i = [l] ∧ l.key = id
  other : restingAt s (otherSide sd) a i = []
  events : ∀ v ∈ pendingAt s a i, concerns sd id v ∧ endsOrder v = false

/-- The order has left the book and its queued events end with the one that ends it. -/
structure Leaving (s : State conc) (a i : Nat) (sd : Side) (id : Nat) : Prop where
  resting : restingAt s sd a i = []
  other : restingAt s (otherSide sd) a i = []
  events : ∃ es v, pendingAt s a i = es ++ [v] ∧ concerns sd id v ∧ endsOrder v = true ∧
    ∀ w ∈ es, concerns sd id w ∧ endsOrder w = false

theorem slot_of_slots {o : OpenOrders} (ho : OoOk o) {i : Nat} :
    o.slot i = (slots o i).map fun x => (x.1, x.2.1) := by
  unfold OpenOrders.slot slots
  by_cases hi : i < 128
  · rw [if_pos hi, if_pos hi]
    have h1 : i < o.orders.length := by rw [ho.orders]; exact hi
    rw [List.getElem?_eq_getElem h1]
    cases o.slotSide i with
    | none => rfl
    | some sd => simp [List.getD_eq_getElem?_getD, h1]
  · rw [if_neg hi, if_neg hi]; rfl

theorem tagged_at (s : State conc) (a i : Nat) :
    (tagged s.bids.contents s.asks.contents).filter (leafIsAt a i) =
      (restingAt s .bid a i).map (fun l => (Side.bid, l)) ++
      (restingAt s .ask a i).map (fun l => (Side.ask, l)) := by
  unfold tagged restingAt resting leafIsAt
  rw [List.filter_append, List.filter_map, List.filter_map]
  rfl

/-- C30. Every in-use slot belongs to exactly one order, which rests on the recorded side or is leaving;
every free slot is referred to by nothing; every resting order and queued event names an open account and
an in-use slot with the same side and id. -/
theorem slots_are_live_orders {P : Params} {s : State conc} (h : Reach P s) (hq : s.seq ≤ W64) :
    (∀ a o i sd id cid, ooAt s.oos a = some o → slots o i = some (sd, id, cid) →
      OnBook s a i sd id ∨ Leaving s a i sd id) ∧
    (∀ a o i, ooAt s.oos a = some o → slots o i = none →
      restingAt s .bid a i = [] ∧ restingAt s .ask a i = [] ∧ pendingAt s a i = []) ∧
    (∀ sd, ∀ l ∈ resting s sd, ∃ o cid, ooAt s.oos l.owner = some o ∧ o.closed = false ∧
      slots o l.ownerSlot = some (sd, l.key, cid)) ∧
    (∀ v ∈ pending s, ∃ o cid, ooAt s.oos v.owner = some o ∧ o.closed = false ∧
      slots o v.slot = some (v.side, v.id, cid)) := by
  obtain ⟨vs, _, _, hi⟩ := h.view hq
  have hs := hi.shape
  have hsl := hs.slots
  have named : ∀ a i sd id, slotsOf s.oos a i = some (sd, id) → ∃ o cid, ooAt s.oos a = some o ∧
      o.closed = false ∧ slots o i = some (sd, id, cid) := by
    intro a i sd id hx
    unfold slotsOf at hx
    cases ho : ooAt s.oos a with
    | none => rw [ho] at hx; cases hx
    | some o =>
      rw [ho] at hx
      simp only at hx
      have hok := hs.accts a o ho
      have hx' := hx
      rw [slot_of_slots hok] at hx
      cases hz : slots o i with
      | none => rw [hz] at hx; cases hx
      | some x =>
        obtain ⟨x1, x2, x3⟩ := x
        rw [hz] at hx
        simp only [Option.map_some, Option.some.injEq, Prod.mk.injEq] at hx
        refine ⟨o, x3, rfl, ?_, by rw [hx.1, hx.2] at hz; exact hz⟩
        cases hc : o.closed with
        | false => rfl
        | true =>
          have := slot_none_of_allOnes (hok.closed hc).1 i
          rw [this] at hx'; cases hx'
  refine ⟨?_, ?_, ?_, ?_⟩
  · intro a o i sd id cid ho hz
    have hk : slotsOf s.oos a i = some (sd, id) := by
      unfold slotsOf
      rw [ho]
      show o.slot i = _
      rw [slot_of_slots (hs.accts a o ho), hz]; rfl
    have h1 := hsl a i
    rw [hk, tagged_at, show (pending s).filter (EventView.isAt a i) = pendingAt s a i from rfl] at h1
    generalize hE : pendingAt s a i = E at h1
    generalize hL : (restingAt s .bid a i).map (fun l => (Side.bid, l)) ++
      (restingAt s .ask a i).map (fun l => (Side.ask, l)) = L at h1
    cases h1 with
    | @live _ l _ hh =>
      left
      have hb : restingAt s sd a i = [l] ∧ restingAt s (otherSide sd) a i = [] := by
        cases sd with
        | bid =>
          cases e1 : restingAt s .bid a i with
          | nil =>
            rw [e1] at hL
            cases e2 : restingAt s .ask a i with
            | nil => rw [e2] at hL; cases hL
            | cons y ys => rw [e2] at hL; cases hL
          | cons x xs =>
            rw [e1] at hL
            simp only [List.map_cons, List.cons_append, List.cons.injEq, Prod.mk.injEq, true_and,
              List.append_eq_nil_iff, List.map_eq_nil_iff] at hL
            obtain ⟨rfl, rfl, hh2⟩ := hL
            exact ⟨rfl, hh2⟩
        | ask =>
          cases e1 : restingAt s .bid a i with
          | nil =>
            rw [e1] at hL
            cases e2 : restingAt s .ask a i with
            | nil => rw [e2] at hL; cases hL
            | cons y ys =>
              rw [e2] at hL
              simp only [List.map_nil, List.nil_append, List.map_cons, List.cons.injEq, Prod.mk.injEq,
                true_and, List.map_eq_nil_iff] at hL
              obtain ⟨rfl, rfl⟩ := hL
              exact ⟨rfl, e1⟩
          | cons x xs => rw [e1] at hL; cases hL
      refine ⟨⟨l, hb.1, rfl⟩, hb.2, ?_⟩
      rw [hE]
      intro v hv
      rw [ends_eq]
      exact hh v hv
    | @done _ _ es v hh ht hv =>
      right
      rw [List.append_eq_nil_iff, List.map_eq_nil_iff, List.map_eq_nil_iff] at hL
      refine ⟨?_, ?_, es, v, hE, ht, by rw [ends_eq]; exact hv, fun w hw => ?_⟩
      · cases sd
        · exact hL.1
        · exact hL.2
      · cases sd
        · exact hL.2
        · exact hL.1
      · rw [ends_eq]; exact hh w hw
  · intro a o i ho hz
    have hk : slotsOf s.oos a i = none := by
      unfold slotsOf
      rw [ho]
      show o.slot i = _
      rw [slot_of_slots (hs.accts a o ho), hz]; rfl
    have h1 := hsl a i
    rw [hk, tagged_at, show (pending s).filter (EventView.isAt a i) = pendingAt s a i from rfl] at h1
    generalize pendingAt s a i = E at *
    generalize hL : (restingAt s .bid a i).map (fun l => (Side.bid, l)) ++
      (restingAt s .ask a i).map (fun l => (Side.ask, l)) = L at h1
    cases h1
    rw [List.append_eq_nil_iff, List.map_eq_nil_iff, List.map_eq_nil_iff] at hL
    exact ⟨hL.1, hL.2, rfl⟩
  · intro sd l hl
    have hmem : (sd, l) ∈ tagged s.bids.contents s.asks.contents := by
      unfold tagged
      cases sd
      · simp only [List.mem_append, List.mem_map]; exact .inl ⟨l, hl, rfl⟩
      · simp only [List.mem_append, List.mem_map]; exact .inr ⟨l, hl, rfl⟩
    obtain ⟨p, q, e⟩ := List.append_of_mem hmem
    have hp : (tagged s.bids.contents s.asks.contents).Perm ((sd, l) :: (p ++ q)) := by
      rw [e]; exact List.perm_middle
    exact named _ _ _ _ (hsl.perm hp).at_leaf.2.1
  · intro v hv
    have h1 := hsl v.owner v.slot
    have hvm : v ∈ (pending s).filter (EventView.isAt v.owner v.slot) :=
      List.mem_filter.2 ⟨hv, isAt_iff.2 ⟨rfl, rfl⟩⟩
    generalize hE : (pending s).filter (EventView.isAt v.owner v.slot) = E at *
    generalize (tagged s.bids.contents s.asks.contents).filter (leafIsAt v.owner v.slot) = L at h1
    generalize hS : slotsOf s.oos v.owner v.slot = S at h1
    generalize hx : ((none : Option (Nat × Nat)) == some (v.owner, v.slot)) = x at h1
    have key : ∀ sd id, S = some (sd, id) → v.tells sd id → slotsOf s.oos v.owner v.slot = some (v.side, v.id) := by
      rintro sd id e ⟨rfl, rfl⟩
      rw [hS, e]
    apply named
    cases h1 with
    | free => cases hvm
    | live hh => exact key _ _ rfl (hh v hvm).1
    | done hh ht _ =>
      rcases List.mem_append.1 hvm with hm | hm
      · exact key _ _ rfl (hh v hm).1
      · rw [List.mem_singleton] at hm
        subst hm
        exact key _ _ rfl ht
    | flight => cases hx

-- account 42 has a leaving order in slot 0 and a resting one in slot 1
example : Reach Demo.P Demo.s3 ∧
    ((restingAt Demo.s3 .bid 42 0).length, (pendingAt Demo.s3 42 0).map endsOrder) = (0, [false, true]) ∧
    ((restingAt Demo.s3 .bid 42 1).length, (pendingAt Demo.s3 42 1).map endsOrder) = (1, [false]) :=
  ⟨Demo.r3, by decide +kernel, by decide +kernel⟩

/-! ### C36 -/

/-- C36. Closing needs the recorded owner's signature, no in-use slot and zero totals, and only marks the
account closed. In every reachable state an account in that condition, closed or not, has no free funds,
no resting order and no queued event. -/
theorem close_is_safe {P : Params} {s : State conc} (h : Reach P s) (hq : s.seq ≤ W64) :
    (∀ env accts s', closeOpenOrders conc env s accts = .ok s' →
      ∃ oo owner dest m o, accts = [oo, owner, dest, m] ∧ owner.signer = true ∧
        ooAt s.oos oo.key = some o ∧ o.closed = false ∧ o.owner = owner.key ∧
        (∀ i, slots o i = none) ∧ o.coinTotal = 0 ∧ o.pcTotal = 0 ∧
        s' = { s with oos := setOo s.oos oo.key { o with closed := true } }) ∧
    (∀ a o, ooAt s.oos a = some o →
      (o.closed = true ∨ ((∀ i, slots o i = none) ∧ o.coinTotal = 0 ∧ o.pcTotal = 0)) →
      o.coinFree = 0 ∧ o.pcFree = 0 ∧ (∀ sd, ∀ l ∈ resting s sd, l.owner ≠ a) ∧
      ∀ v ∈ pending s, v.owner ≠ a) := by
  obtain ⟨vs, _, _, hi⟩ := h.view hq
  have hslots : ∀ (o : OpenOrders), OoOk o → (o.freeBits = BitVec.allOnes 128 ↔ ∀ i, slots o i = none) := by
    intro o hok
    rw [freeBits_allOnes_iff]
    constructor
    · intro hh i
      unfold slots
      split
      · rename_i hi'; rw [hh i hi']; rfl
      · rfl
    · intro hh i hi'
      have := hh i
      unfold slots at this
      rw [if_pos hi'] at this
      simpa using this
  constructor
  · intro env accts s' hc
    unfold closeOpenOrders at hc
    split at hc
    · rename_i oo owner dest m
      obtain ⟨_, hsig, hc⟩ := bind_ok hc
      obtain ⟨_, _, hc⟩ := bind_ok hc
      obtain ⟨o, hl, hc⟩ := bind_ok hc
      obtain ⟨_, hcl, hc⟩ := bind_ok hc
      cases hc
      obtain ⟨h1, h2, h3⟩ | ⟨_, _, hr, _⟩ := loadOrders_inv hl
      · unfold checkClosable at hcl
        split at hcl
        · cases hcl
        · rename_i hn
          simp only [not_or, Decidable.not_not] at hn
          refine ⟨oo, owner, dest, m, o, rfl, ?_, h1, h2, ?_, (hslots o (hi.shape.accts _ _ h1)).1 hn.1,
            hn.2.1, hn.2.2, rfl⟩
          · unfold signed checkAssert at hsig
            cases hx : owner.signer with
            | true => rfl
            | false => rw [hx] at hsig; cases hsig
          · simp only [reduceCtorEq, false_or, Option.some.injEq] at h3; exact h3.symm
      · cases hr
    · cases hc
  · intro a o ho hcond
    have hok := hi.shape.accts _ _ ho
    have hall : o.freeBits = BitVec.allOnes 128 ∧ o.coinTotal = 0 ∧ o.pcTotal = 0 := by
      rcases hcond with hc | ⟨h1, h2⟩
      · exact hok.closed hc
      · exact ⟨(hslots o hok).2 h1, h2⟩
    have hn : ∀ i, slotsOf s.oos a i = none := by
      intro i; unfold slotsOf; rw [ho]; exact slot_none_of_allOnes hall.1 i
    obtain ⟨q1, q2, q3⟩ := hi.quiet hn
    have t := totals_are_backed h hq ho
    have z3 : ∀ f : EventView → Nat, total f ((pending s).filter fun v => v.owner == a) = 0 := by
      intro f
      rw [List.filter_eq_nil_iff.2 (fun v hv => by simpa using q3 v hv)]; rfl
    have z4 : ∀ (f : Leaf → Nat) (L : List Leaf), (∀ l ∈ L, l.owner ≠ a) →
        total f (L.filter fun l => l.owner == a) = 0 := by
      intro f L hL
      rw [List.filter_eq_nil_iff.2 (fun v hv => by simpa using hL v hv)]; rfl
    unfold baseHeld quoteHeld at t
    rw [z3, z3, z4 _ _ q1, z4 _ _ q2, hall.2.1, hall.2.2] at t
    have f1 := hok.coinFree
    have f2 := hok.pcFree
    unfold W64 at f1 f2
    refine ⟨by omega, by omega, ?_, q3⟩
    intro sd
    cases sd
    · exact q1
    · exact q2

-- trader 12 cancels, has the events processed, settles and closes
example : Reach Demo.P Demo.s7 ∧ closeOpenOrders conc Demo.env Demo.s7 (Demo.closeAccts 42 12 12) = .ok Demo.s8 ∧
    (ooAt Demo.s8.oos 42).map (·.closed) = some true ∧ Demo.s8.asks.contents.length = 1 :=
  ⟨Demo.r7, Demo.e8, by decide +kernel, by decide +kernel⟩

/-! ### C42 -/

/-- C42. The market's recorded referrer rebates cover what all accounts are recorded to be owed plus what
queued taker fills will add; so each account's rebate is covered. -/
theorem rebates_are_covered {P : Params} {s : State conc} (h : Reach P s) (hq : s.seq ≤ W64) :
    total (fun x => x.2.rebates) s.oos + total rebateDue (pending s) ≤ s.mkt.referrerRebates ∧
    ∀ a o, ooAt s.oos a = some o → o.rebates ≤ s.mkt.referrerRebates := by
  obtain ⟨vs, _, _, hi⟩ := h.view hq
  have h1 := hi.money.rebates
  rw [evSum_every _ _ rebate_due] at h1
  have h2 : total (fun x => x.2.rebates) s.oos + total rebateDue (pending s) ≤ s.mkt.referrerRebates := h1
  refine ⟨h2, fun a o ho => ?_⟩
  have : o.rebates ≤ _ := total_mem (fun x => x.2.rebates) (ooAt_mem ho)
  omega

-- one rebate unit recorded, due from the queued taker fill
example : Reach Demo.P Demo.s3 ∧ (Demo.s3.mkt.referrerRebates, total rebateDue (pending Demo.s3)) = (1, 1) :=
  ⟨Demo.r3, by decide +kernel⟩

end Serum.Props
