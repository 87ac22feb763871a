import Verif.MatchReport

/-
The life of an order slot: how the slots of open-orders accounts, the resting orders and the queued
events fit together, and how the matching engine keeps them fitting.
-/

namespace Serum

/-- Address of the account an event is for. -/
def EventView.owner : EventView → Nat
  | .fill _ _ _ _ _ _ o _ _ _ => o
  | .out _ _ _ _ _ o _ _ => o
/-- Slot an event is for. -/
def EventView.slot : EventView → Nat
  | .fill _ _ _ _ _ _ _ s _ _ => s
  | .out _ _ _ _ _ _ s _ => s
/-- Id of the order an event is about. -/
def EventView.id : EventView → Nat
  | .fill _ _ _ _ _ i _ _ _ _ => i
  | .out _ _ _ _ i _ _ _ => i
/-- Is this the last event of an order? Consuming it frees the slot. -/
def EventView.final : EventView → Bool
  | .fill .. => false
  | .out _ _ _ s .. => s == 0

/-- Is the event for this slot? -/
def EventView.isAt (a i : Nat) (v : EventView) : Bool := v.owner == a && v.slot == i
/-- Does the resting order name this slot? -/
def leafIsAt (a i : Nat) (x : Side × Leaf) : Bool := x.2.owner == a && x.2.ownerSlot == i

/-- All resting orders, with their sides. -/
def tagged (bids asks : List Leaf) : List (Side × Leaf) :=
  bids.map (fun l => (Side.bid, l)) ++ asks.map (fun l => (Side.ask, l))

/-- An event about the order `id` of side `sd`. -/
def EventView.tells (v : EventView) (sd : Side) (id : Nat) : Prop := v.side = sd ∧ v.id = id

/-- The states a slot can be in: what the account records, the resting orders naming the slot, the
queued events for it, oldest first, and whether its order is just being matched. -/
inductive SlotState : Option (Side × Nat) → List (Side × Leaf) → List EventView → Bool → Prop where
  | free : SlotState none [] [] false
  | live {sd : Side} {l : Leaf} {evs : List EventView}
      (h : ∀ v ∈ evs, v.tells sd l.key ∧ v.final = false) :
      SlotState (some (sd, l.key)) [(sd, l)] evs false
  | done {sd : Side} {id : Nat} {evs : List EventView} {v : EventView}
      (h : ∀ v ∈ evs, v.tells sd id ∧ v.final = false) (ht : v.tells sd id) (hv : v.final = true) :
      SlotState (some (sd, id)) [] (evs ++ [v]) false
  | flight {sd : Side} {id : Nat} {evs : List EventView}
      (h : ∀ v ∈ evs, v.tells sd id ∧ v.final = false) :
      SlotState (some (sd, id)) [] evs true

/-- Slots of all accounts. -/
abbrev SlotMap := Nat → Nat → Option (Side × Nat)

/-- Every slot is in one of its states; `x` is the slot of the order being matched. -/
def SlotOk (σ : SlotMap) (x : Option (Nat × Nat)) (L : List (Side × Leaf)) (evs : List EventView) :
    Prop :=
  ∀ a i, SlotState (σ a i) (L.filter (leafIsAt a i)) (evs.filter (EventView.isAt a i))
    (x == some (a, i))

theorem SlotState.perm {c L L' evs x} (h : SlotState c L evs x) (hp : L.Perm L') :
    SlotState c L' evs x := by
  cases h with
  | free => rw [List.nil_perm.1 hp]; exact .free
  | live h => rw [← List.singleton_perm.1 hp]; exact .live h
  | done h ht hv => rw [List.nil_perm.1 hp]; exact .done h ht hv
  | flight h => rw [List.nil_perm.1 hp]; exact .flight h

theorem SlotOk.perm {σ x L L' evs} (h : SlotOk σ x L evs) (hp : L.Perm L') : SlotOk σ x L' evs :=
  fun a i => (h a i).perm (hp.filter _)

theorem isAt_iff {a i : Nat} {v : EventView} : v.isAt a i = true ↔ v.owner = a ∧ v.slot = i := by
  simp [EventView.isAt]
theorem leafIsAt_iff {a i : Nat} {x : Side × Leaf} :
    leafIsAt a i x = true ↔ x.2.owner = a ∧ x.2.ownerSlot = i := by
  simp [leafIsAt]

/-- An event addressed to the slot of a resting order. -/
structure About (v : EventView) (sd : Side) (l : Leaf) : Prop where
  owner : v.owner = l.owner
  slot : v.slot = l.ownerSlot
  tells : v.tells sd l.key

theorem filter_snoc_other {a i : Nat} {v : EventView} {evs : List EventView}
    (h : ¬ v.isAt a i = true) :
    (evs ++ [v]).filter (EventView.isAt a i) = evs.filter (EventView.isAt a i) := by
  rw [List.filter_append, List.filter_cons_of_neg h]; simp

theorem filter_snoc_same {a i : Nat} {v : EventView} {evs : List EventView} (h : v.isAt a i = true) :
    (evs ++ [v]).filter (EventView.isAt a i) = evs.filter (EventView.isAt a i) ++ [v] := by
  rw [List.filter_append, List.filter_cons_of_pos h]; simp

theorem mem_snoc {P : EventView → Prop} {evs : List EventView} {v : EventView}
    (h : ∀ v ∈ evs, P v) (hv : P v) : ∀ w ∈ evs ++ [v], P w := by
  intro w hw
  rw [List.mem_append, List.mem_singleton] at hw
  rcases hw with hw | rfl
  · exact h w hw
  · exact hv

/-- The state of a slot named by a resting order. -/
theorem SlotOk.at_leaf {σ x sd l R evs} (h : SlotOk σ x ((sd, l) :: R) evs) :
    R.filter (leafIsAt l.owner l.ownerSlot) = [] ∧ σ l.owner l.ownerSlot = some (sd, l.key) ∧
    (x == some (l.owner, l.ownerSlot)) = false ∧
    ∀ v ∈ evs.filter (EventView.isAt l.owner l.ownerSlot), v.tells sd l.key ∧ v.final = false := by
  have h1 := h l.owner l.ownerSlot
  have hl : leafIsAt l.owner l.ownerSlot (sd, l) = true := by rw [leafIsAt_iff]; exact ⟨rfl, rfl⟩
  rw [List.filter_cons_of_pos hl] at h1
  generalize hF : R.filter (leafIsAt l.owner l.ownerSlot) = F at h1
  generalize hE : evs.filter (EventView.isAt l.owner l.ownerSlot) = E at h1
  generalize hX : (x == some (l.owner, l.ownerSlot)) = X at h1
  generalize hS : σ l.owner l.ownerSlot = S at h1
  cases h1 with
  | live h => exact ⟨rfl, rfl, rfl, h⟩

/-- A resting order changes its quantity and gets a non-final event. -/
theorem SlotOk.shrink {σ x sd l R evs v} (h : SlotOk σ x ((sd, l) :: R) evs) (n : Nat)
    (hv : About v sd l) (hf : v.final = false) :
    SlotOk σ x ((sd, { l with quantity := n }) :: R) (evs ++ [v]) := by
  obtain ⟨h1, h2, h3, h4⟩ := h.at_leaf
  intro a i
  by_cases hai : l.owner = a ∧ l.ownerSlot = i
  · obtain ⟨rfl, rfl⟩ := hai
    have hl : leafIsAt l.owner l.ownerSlot (sd, { l with quantity := n }) = true := by
      rw [leafIsAt_iff]; exact ⟨rfl, rfl⟩
    rw [List.filter_cons_of_pos hl, h1, filter_snoc_same (isAt_iff.2 ⟨hv.owner, hv.slot⟩), h2, h3]
    exact SlotState.live (l := { l with quantity := n }) (mem_snoc h4 ⟨hv.tells, hf⟩)
  · have hl : ¬ leafIsAt a i (sd, { l with quantity := n }) = true := by
      rw [leafIsAt_iff]; exact hai
    have hl' : ¬ leafIsAt a i (sd, l) = true := by rw [leafIsAt_iff]; exact hai
    have he : ¬ v.isAt a i = true := by rw [isAt_iff, hv.owner, hv.slot]; exact hai
    rw [List.filter_cons_of_neg hl, filter_snoc_other he]
    have := h a i
    rw [List.filter_cons_of_neg hl'] at this
    exact this

/-- A resting order leaves the book with a final event. -/
theorem SlotOk.leave {σ x sd l R evs v} (h : SlotOk σ x ((sd, l) :: R) evs)
    (hv : About v sd l) (hf : v.final = true) : SlotOk σ x R (evs ++ [v]) := by
  obtain ⟨h1, h2, h3, h4⟩ := h.at_leaf
  intro a i
  by_cases hai : l.owner = a ∧ l.ownerSlot = i
  · obtain ⟨rfl, rfl⟩ := hai
    rw [h1, filter_snoc_same (isAt_iff.2 ⟨hv.owner, hv.slot⟩), h2, h3]
    exact SlotState.done h4 hv.tells hf
  · have hl' : ¬ leafIsAt a i (sd, l) = true := by rw [leafIsAt_iff]; exact hai
    have he : ¬ v.isAt a i = true := by rw [isAt_iff, hv.owner, hv.slot]; exact hai
    rw [filter_snoc_other he]
    have := h a i
    rw [List.filter_cons_of_neg hl'] at this
    exact this

/-- The state of the slot of the order being matched. -/
theorem SlotOk.at_flight {σ : SlotMap} {a i : Nat} {L evs} (h : SlotOk σ (some (a, i)) L evs) :
    ∃ sd id, σ a i = some (sd, id) ∧ L.filter (leafIsAt a i) = [] ∧
      ∀ v ∈ evs.filter (EventView.isAt a i), v.tells sd id ∧ v.final = false := by
  have h1 := h a i
  rw [beq_self_eq_true] at h1
  generalize hF : L.filter (leafIsAt a i) = F at h1
  generalize hE : evs.filter (EventView.isAt a i) = E at h1
  generalize hS : σ a i = S at h1
  cases h1 with
  | flight h => exact ⟨_, _, rfl, rfl, h⟩

theorem flight_ne {a i b j : Nat} (h : ¬ (a = b ∧ i = j)) :
    ((some (a, i) : Option (Nat × Nat)) == some (b, j)) = false := by
  simpa [Prod.mk.injEq] using h

/-- A non-final event for the order being matched. -/
theorem SlotOk.own {σ : SlotMap} {a i : Nat} {sd : Side} {id : Nat} {L evs v}
    (h : SlotOk σ (some (a, i)) L evs) (hs : σ a i = some (sd, id)) (ho : v.owner = a)
    (hi : v.slot = i) (ht : v.tells sd id) (hf : v.final = false) :
    SlotOk σ (some (a, i)) L (evs ++ [v]) := by
  obtain ⟨sd', id', h1, h2, h3⟩ := h.at_flight
  rw [hs] at h1
  cases h1
  intro b j
  by_cases hai : a = b ∧ i = j
  · obtain ⟨rfl, rfl⟩ := hai
    rw [h2, filter_snoc_same (isAt_iff.2 ⟨ho, hi⟩), hs, beq_self_eq_true]
    exact SlotState.flight (mem_snoc h3 ⟨ht, hf⟩)
  · have he : ¬ v.isAt b j = true := by rw [isAt_iff, ho, hi]; exact hai
    rw [filter_snoc_other he]
    exact h b j

/-- The final event for the order being matched. -/
theorem SlotOk.ownDone {σ : SlotMap} {a i : Nat} {sd : Side} {id : Nat} {L evs v}
    (h : SlotOk σ (some (a, i)) L evs) (hs : σ a i = some (sd, id)) (ho : v.owner = a)
    (hi : v.slot = i) (ht : v.tells sd id) (hf : v.final = true) :
    SlotOk σ none L (evs ++ [v]) := by
  obtain ⟨sd', id', h1, h2, h3⟩ := h.at_flight
  rw [hs] at h1
  cases h1
  intro b j
  by_cases hai : a = b ∧ i = j
  · obtain ⟨rfl, rfl⟩ := hai
    rw [h2, filter_snoc_same (isAt_iff.2 ⟨ho, hi⟩), hs]
    exact SlotState.done h3 ht hf
  · have he : ¬ v.isAt b j = true := by rw [isAt_iff, ho, hi]; exact hai
    rw [filter_snoc_other he]
    have := h b j
    rw [flight_ne hai] at this
    exact this

/-- The order being matched comes to rest. -/
theorem SlotOk.post {σ : SlotMap} {sd : Side} {l : Leaf} {L evs}
    (h : SlotOk σ (some (l.owner, l.ownerSlot)) L evs)
    (hs : σ l.owner l.ownerSlot = some (sd, l.key)) : SlotOk σ none ((sd, l) :: L) evs := by
  obtain ⟨sd', id', h1, h2, h3⟩ := h.at_flight
  rw [hs] at h1
  cases h1
  intro b j
  by_cases hai : l.owner = b ∧ l.ownerSlot = j
  · obtain ⟨rfl, rfl⟩ := hai
    have hl : leafIsAt l.owner l.ownerSlot (sd, l) = true := by rw [leafIsAt_iff]; exact ⟨rfl, rfl⟩
    rw [List.filter_cons_of_pos hl, h2, hs]
    exact SlotState.live h3
  · have hl : ¬ leafIsAt b j (sd, l) = true := by rw [leafIsAt_iff]; exact hai
    rw [List.filter_cons_of_neg hl]
    have := h b j
    rw [flight_ne hai] at this
    exact this

/-! ### Touches -/

/-- A trade against a resting order: a fill event, and a final event if the order is used up. -/
theorem SlotOk.fill {σ x sd l R evs v w} (h : SlotOk σ x ((sd, l) :: R) evs) (n : Nat)
    (hv : About v sd l) (hf : v.final = false) (hw : About w sd l) (hw' : w.final = true) :
    SlotOk σ x ((Serum.shrink l n).map (fun l => (sd, l)) ++ R)
      (evs ++ [v] ++ (if l.quantity = n then [w] else [])) := by
  unfold Serum.shrink
  by_cases hq : l.quantity = n
  · rw [if_pos hq, if_pos hq]
    have h1 := h.shrink l.quantity hv hf
    exact SlotOk.leave (l := l) h1 hw hw'
  · rw [if_neg hq, if_neg hq, List.append_nil]
    exact h.shrink _ hv hf

/-- Self-trade protection takes lots from a resting order. -/
theorem SlotOk.cut {σ x sd l R evs v} (h : SlotOk σ x ((sd, l) :: R) evs) (n : Nat)
    (hv : About v sd l) (hf : v.final = true ↔ l.quantity = n) :
    SlotOk σ x ((Serum.shrink l n).map (fun l => (sd, l)) ++ R) (evs ++ [v]) := by
  unfold Serum.shrink
  by_cases hq : l.quantity = n
  · rw [if_pos hq]; exact h.leave hv (hf.2 hq)
  · rw [if_neg hq]
    exact h.shrink _ hv (by cases hx : v.final with | false => rfl | true => exact absurd (hf.1 hx) hq)

/-! ### Positions in the book -/

theorem tagged_bid_last (B asks : List Leaf) (S : List Leaf) :
    (tagged (B ++ S) asks).Perm (S.map (fun l => (Side.bid, l)) ++ tagged B asks) := by
  unfold tagged
  rw [List.map_append, List.append_assoc]
  exact (List.perm_append_comm_assoc _ _ _)

theorem tagged_bid_first (B asks : List Leaf) (l : Leaf) :
    (tagged (l :: B) asks) = ((Side.bid, l) :: tagged B asks) := rfl

theorem tagged_ask_first (bids A S : List Leaf) :
    (tagged bids (S ++ A)).Perm (S.map (fun l => (Side.ask, l)) ++ tagged bids A) := by
  unfold tagged
  rw [List.map_append]
  exact (List.perm_append_comm_assoc _ _ _)

theorem tagged_ask_last (bids A : List Leaf) (l : Leaf) :
    (tagged bids (A ++ [l])).Perm ((Side.ask, l) :: tagged bids A) := by
  unfold tagged
  rw [List.map_append, ← List.append_assoc]
  exact List.perm_append_comm

theorem tagged_perm {b b' a a' : List Leaf} (h1 : b.Perm b') (h2 : a.Perm a') :
    (tagged b a).Perm (tagged b' a') := (h1.map _).append (h2.map _)

/-! ### A round of the engine -/

/-- The slot of the order being matched; a send-take has none. -/
def flightOf (o : OrderParams) : Option (Nat × Nat) :=
  if o.owner = 0 then none else some (o.owner, o.ownerSlot)

theorem flightOf_some {o : OrderParams} (h : o.owner ≠ 0) : flightOf o = some (o.owner, o.ownerSlot) := by
  simp [flightOf, h]
theorem flightOf_none {o : OrderParams} (h : o.owner = 0) : flightOf o = none := by
  simp [flightOf, h]

/-- The account of the order being matched records it. -/
def Recorded (σ : SlotMap) (o : OrderParams) : Prop :=
  o.owner ≠ 0 → σ o.owner o.ownerSlot = some (o.side, o.orderId)

theorem about_out (l : Leaf) (sd : Side) (r : Bool) (u s : Nat) : About (l.out sd r u s) sd l :=
  ⟨rfl, rfl, rfl, rfl⟩

theorem final_out (l : Leaf) (sd : Side) (r : Bool) (u s : Nat) :
    (l.out sd r u s).final = true ↔ s = 0 := by
  simp [Leaf.out, EventView.final]

/-- The in-flight mark after a round. -/
def flightAfter (o : OrderParams) : Option Remaining → Option (Nat × Nat)
  | some _ => flightOf o
  | none => none

theorem push_items (ob : Ob lst) (evs vs : List EventView) (hq : ob.q.items = evs.map Event.new) :
    (ob.push vs).q.items = (evs ++ vs).map Event.new := by
  show ob.q.items ++ vs.map Event.new = _
  rw [hq, List.map_append]

theorem round_slots {o : OrderParams} {po : Bool} {ob ob' : Ob lst} {coin pc : Nat}
    {r : Option Remaining} {ts : List Touch} {f : Option Posting} (hi : RoundIn o ob coin pc)
    (h : Round o po ob coin pc ob' r ts f) {σ : SlotMap} {evs : List EventView}
    (hq : ob.q.items = evs.map Event.new) (hrec : Recorded σ o)
    (hz : o.owner = 0 → ∀ l ∈ opposite o.side ob.bids.items ob.asks.items, l.owner ≠ 0)
    (hs : SlotOk σ (flightOf o) (tagged ob.bids.items ob.asks.items) evs) :
    ∃ evs', ob'.q.items = (evs ++ evs').map Event.new ∧
      SlotOk σ (flightAfter o r) (tagged ob'.bids.items ob'.asks.items) (evs ++ evs') := by
  obtain ⟨hm, hb, hc0, hcl, hpl, hval, hfr⟩ := hi
  have hco : (o.iter coin pc po).coinQty = coin := rfl
  have hown' : (o.iter coin pc po).owner = o.owner := rfl
  unfold Round at h
  cases hside : o.side with
  | ask =>
    rw [hside] at h hfr
    simp only at h
    have hfr' : ((o.iter coin pc po).leaf coin).key ∉ ob.asks.items.map (·.key) := hfr
    have hrec' : o.owner ≠ 0 → σ o.owner o.ownerSlot = some (.ask, o.orderId) := by
      intro h0; rw [hrec h0, hside]
    cases h with
    | post hlim hpa hns hcap =>
      refine ⟨[], by rw [List.append_nil]; exact hq, ?_⟩
      rw [List.append_nil]
      have hp : (tagged ob.bids.items (insKey ((o.iter coin pc po).leaf coin) ob.asks.items)).Perm
          ((Side.ask, (o.iter coin pc po).leaf coin) :: tagged ob.bids.items ob.asks.items) :=
        (tagged_perm (.refl _) (insKey_perm hb.askSort hfr')).trans
          (tagged_ask_first _ _ [(o.iter coin pc po).leaf coin])
      refine SlotOk.perm ?_ hp.symm
      rw [flightOf_some hns] at hs
      exact SlotOk.post (l := (o.iter coin pc po).leaf coin) hs (hrec' hns)
    | evict A l hlim hpa hns hcap hA =>
      refine ⟨_, push_items _ _ _ hq, ?_⟩
      have hfA : ((o.iter coin pc po).leaf coin).key ∉ A.map (·.key) := by
        intro hin; apply hfr'; rw [hA, List.map_append]; exact List.mem_append_left _ hin
      have hsA : A.Pairwise (fun a b => a.key < b.key) :=
        hb.askSort.sublist (by rw [hA]; simp)
      have hp : (tagged ob.bids.items (insKey ((o.iter coin pc po).leaf coin) A)).Perm
          ((Side.ask, (o.iter coin pc po).leaf coin) :: tagged ob.bids.items A) :=
        (tagged_perm (.refl _) (insKey_perm hsA hfA)).trans
          (tagged_ask_first _ _ [(o.iter coin pc po).leaf coin])
      refine SlotOk.perm ?_ hp.symm
      rw [hA, flightOf_some hns] at hs
      have h1 := (hs.perm (tagged_ask_last _ _ _)).leave (v := l.out .ask true (l.quantity * ob.mkt.coinLot) 0)
        (about_out _ _ _ _ _) ((final_out _ _ _ _ _).2 rfl)
      exact SlotOk.post (l := (o.iter coin pc po).leaf coin) h1 (hrec' hns)
    | release hlim hwhy hns hb' =>
      refine ⟨_, push_items _ _ _ hq, ?_⟩
      rw [flightOf_some hns] at hs
      exact SlotOk.ownDone hs (hrec' hns) rfl rfl ⟨rfl, rfl⟩ rfl
    | stop hlim h0 =>
      refine ⟨[], by rw [List.append_nil]; exact hq, ?_⟩
      rw [List.append_nil]
      rw [flightOf_none h0] at hs
      exact hs
    | selfTrade B best provide take hB hpr hpo hown hst hb' =>
      refine ⟨_, push_items _ _ _ hq, ?_⟩
      rw [hB] at hs hb
      have hbm : best ∈ B ++ [best] := by simp
      have hns : o.owner ≠ 0 := by
        intro h0
        have h2 := hz h0 best
        rw [hside, hB] at h2
        exact h2 (by simp [opposite]) (by rw [← hown]; exact h0)
      have hle : provide ≤ best.quantity := by
        rcases hst with ⟨_, h, _⟩ | ⟨_, h, _⟩ <;> omega
      have hle' : take ≤ coin := by
        rcases hst with ⟨_, _, h⟩ | ⟨_, _, h⟩ <;> omega
      have hfin : (best.out .bid true (provide * best.price * ob.mkt.pcLot)
            ((best.quantity - provide) * best.price * ob.mkt.pcLot)).final = true ↔
            best.quantity = provide := by
        rw [final_out, Nat.mul_eq_zero, Nat.mul_eq_zero]
        have := hb.bidPrice best hbm
        have := hm.pcLot
        constructor
        · intro h; omega
        · intro h; left; left; omega
      have h1 := (hs.perm (tagged_bid_last _ _ [best])).cut provide (about_out _ _ _ _ _) hfin
      have h2 := h1.perm (tagged_bid_last _ _ _).symm
      rw [flightOf_some hns] at h2
      have h3 : (evs ++ [best.out .bid true (provide * best.price * ob.mkt.pcLot)
            ((best.quantity - provide) * best.price * ob.mkt.pcLot),
           (o.iter coin pc po).out .ask (wmul take ob.mkt.coinLot) ((o.iter coin pc po).coinQty - take)]) =
          (evs ++ [best.out .bid true (provide * best.price * ob.mkt.pcLot)
            ((best.quantity - provide) * best.price * ob.mkt.pcLot)]) ++
          [(o.iter coin pc po).out .ask (wmul take ob.mkt.coinLot) ((o.iter coin pc po).coinQty - take)] := by
        simp
      rw [h3, hco]
      by_cases hct : coin = take
      · rw [if_pos hct]
        have he : ((o.iter coin pc po).out .ask (wmul take ob.mkt.coinLot) (coin - take)).final = true := by
          simp [IterParams.out, EventView.final, hct]
        exact SlotOk.ownDone h2 (hrec' hns) rfl rfl ⟨rfl, rfl⟩ he
      · rw [if_neg hct]
        have he : ((o.iter coin pc po).out .ask (wmul take ob.mkt.coinLot) (coin - take)).final = false := by
          simp [IterParams.out, EventView.final]; omega
        show SlotOk σ (flightOf o) _ _
        rw [flightOf_some hns]
        exact SlotOk.own h2 (hrec' hns) rfl rfl ⟨rfl, rfl⟩ he
    | fill B best tq fee hB hpr hpo hown htq hfee hb1 hb2 =>
      refine ⟨_, push_items _ _ _ hq, ?_⟩
      rw [hB] at hs hb
      unfold askFillEvs
      rw [hown', hco, ← List.append_assoc, ← List.append_assoc, ← List.append_assoc]
      have h1 := (hs.perm (tagged_bid_last _ _ [best])).fill
        (v := .fill .bid true (tq * best.price * ob.mkt.pcLot) (wmul tq ob.mkt.coinLot) 0 best.key best.owner
          best.ownerSlot best.feeTier best.clientId) tq ⟨rfl, rfl, rfl, rfl⟩ rfl
        (about_out best .bid true 0 0) ((final_out _ _ _ _ _).2 rfl)
      have h2 := h1.perm (tagged_bid_last _ _ _).symm
      by_cases h0 : o.owner = 0
      · simp only [h0, if_true, List.append_nil]
        rw [flightOf_none h0] at h2
        have : flightAfter o (if coin = tq then none else some ⟨coin - tq, 0⟩) = none := by
          split
          · rfl
          · exact flightOf_none h0
        rw [this]
        exact h2
      · rw [if_neg h0, if_neg h0]
        rw [flightOf_some h0] at h2
        have h3 := SlotOk.own h2 (v := .fill .ask false (wmul tq ob.mkt.coinLot)
          (tq * best.price * ob.mkt.pcLot - o.feeTier.takerFee (tq * best.price * ob.mkt.pcLot))
          (o.feeTier.takerFee (tq * best.price * ob.mkt.pcLot)) o.orderId o.owner o.ownerSlot o.feeTier
          o.clientId) (hrec' h0) rfl rfl ⟨rfl, rfl⟩ rfl
        by_cases hct : coin = tq
        · rw [if_pos hct, if_pos hct]
          exact SlotOk.ownDone h3 (hrec' h0) rfl rfl ⟨rfl, rfl⟩ rfl
        · simp only [hct, if_false, List.append_nil]
          show SlotOk σ (flightOf o) _ _
          rw [flightOf_some h0]
          exact h3
  | bid =>
    rw [hside] at h hfr
    simp only at h
    have hfr' : ∀ n, ((o.iter coin pc po).leaf n).key ∉ ob.bids.items.map (·.key) := fun _ => hfr
    have hrec' : o.owner ≠ 0 → σ o.owner o.ownerSlot = some (.bid, o.orderId) := by
      intro h0; rw [hrec h0, hside]
    have hlp : ∀ n, ((o.iter coin pc po).leaf n).price = (o.iter coin pc po).limitPrice := fun _ => rfl
    cases h with
    | post qty hlim hpa hns hqty hq0 hle hb' hcap =>
      refine ⟨_, push_items _ _ _ hq, ?_⟩
      have hp : (tagged (insKey ((o.iter coin pc po).leaf qty) ob.bids.items) ob.asks.items).Perm
          ((Side.bid, (o.iter coin pc po).leaf qty) :: tagged ob.bids.items ob.asks.items) :=
        tagged_perm (insKey_perm hb.bidSort (hfr' qty)) (.refl _)
      refine SlotOk.perm ?_ hp.symm
      rw [flightOf_some hns] at hs
      have hstill : qty * (o.iter coin pc po).limitPrice * ob.mkt.pcLot ≠ 0 := by
        have h1 : (o.iter coin pc po).limitPrice ≠ 0 := by
          intro h0; rw [h0, Nat.div_zero] at hqty; omega
        have h2 := hm.pcLot
        intro h
        rcases Nat.mul_eq_zero.1 h with h | h
        · rcases Nat.mul_eq_zero.1 h with h | h <;> omega
        · omega
      have h1 := SlotOk.own hs (v := (o.iter coin pc po).out .bid
          ((o.iter coin pc po).pcLocked - qty * (o.iter coin pc po).limitPrice * ob.mkt.pcLot)
          (qty * (o.iter coin pc po).limitPrice * ob.mkt.pcLot)) (hrec' hns) rfl rfl ⟨rfl, rfl⟩
          (by simpa [IterParams.out, EventView.final] using hstill)
      exact SlotOk.post (l := (o.iter coin pc po).leaf qty) h1 (hrec' hns)
    | evict qty B l hlim hpa hns hqty hq0 hle hb' hcap hB =>
      refine ⟨_, push_items _ _ _ hq, ?_⟩
      have hfB : ((o.iter coin pc po).leaf qty).key ∉ B.map (·.key) := by
        intro hin; apply hfr' qty; rw [hB, List.map_cons]; exact List.mem_cons_of_mem _ hin
      have hsB : B.Pairwise (fun a b => a.key < b.key) :=
        hb.bidSort.sublist (by rw [hB]; simp)
      have hp : (tagged (insKey ((o.iter coin pc po).leaf qty) B) ob.asks.items).Perm
          ((Side.bid, (o.iter coin pc po).leaf qty) :: tagged B ob.asks.items) :=
        tagged_perm (insKey_perm hsB hfB) (.refl _)
      refine SlotOk.perm ?_ hp.symm
      rw [hB, tagged_bid_first, flightOf_some hns] at hs
      have hstill : qty * (o.iter coin pc po).limitPrice * ob.mkt.pcLot ≠ 0 := by
        have h1 : (o.iter coin pc po).limitPrice ≠ 0 := by
          intro h0; rw [h0, Nat.div_zero] at hqty; omega
        have h2 := hm.pcLot
        intro h
        rcases Nat.mul_eq_zero.1 h with h | h
        · rcases Nat.mul_eq_zero.1 h with h | h <;> omega
        · omega
      have h1 := SlotOk.own hs (v := (o.iter coin pc po).out .bid
          ((o.iter coin pc po).pcLocked - qty * (o.iter coin pc po).limitPrice * ob.mkt.pcLot)
          (qty * (o.iter coin pc po).limitPrice * ob.mkt.pcLot)) (hrec' hns) rfl rfl ⟨rfl, rfl⟩
          (by simpa [IterParams.out, EventView.final] using hstill)
      have h2 := h1.leave (v := l.out .bid true (l.quantity * l.price * ob.mkt.pcLot) 0)
        (about_out _ _ _ _ _) ((final_out _ _ _ _ _).2 rfl)
      rw [List.append_assoc] at h2
      exact SlotOk.post (l := (o.iter coin pc po).leaf qty) h2 (hrec' hns)
    | release hlim hwhy hns hb' =>
      refine ⟨_, push_items _ _ _ hq, ?_⟩
      rw [flightOf_some hns] at hs
      exact SlotOk.ownDone hs (hrec' hns) rfl rfl ⟨rfl, rfl⟩ rfl
    | stop hlim h0 =>
      refine ⟨[], by rw [List.append_nil]; exact hq, ?_⟩
      rw [List.append_nil]
      rw [flightOf_none h0] at hs
      exact hs
    | selfTrade A best provide take unlocked still hA hpr hpo hown htq hst hle0 hgo hb' =>
      refine ⟨_, push_items _ _ _ hq, ?_⟩
      rw [hA] at hs hb
      have hbm : best ∈ best :: A := by simp
      have hns : o.owner ≠ 0 := by
        intro h0
        have h2 := hz h0 best
        rw [hside, hA] at h2
        exact h2 (by simp [opposite]) (by rw [← hown]; exact h0)
      have hle : provide ≤ best.quantity := by
        rcases hst with ⟨_, h, _⟩ | ⟨_, h, _⟩
        · rw [h]; unfold bidTradeQty; omega
        · omega
      have hfin : (best.out .ask true (provide * ob.mkt.coinLot)
            ((best.quantity - provide) * ob.mkt.coinLot)).final = true ↔ best.quantity = provide := by
        rw [final_out, Nat.mul_eq_zero]
        have := hm.coinLot
        constructor
        · intro h; omega
        · intro h; left; omega
      have h1 := (hs.perm (tagged_ask_first _ _ [best])).cut provide (about_out _ _ _ _ _) hfin
      have h2 := h1.perm (tagged_ask_first _ _ _).symm
      rw [flightOf_some hns] at h2
      have h3 : (evs ++ [best.out .ask true (provide * ob.mkt.coinLot)
            ((best.quantity - provide) * ob.mkt.coinLot), (o.iter coin pc po).out .bid unlocked still]) =
          (evs ++ [best.out .ask true (provide * ob.mkt.coinLot)
            ((best.quantity - provide) * ob.mkt.coinLot)]) ++
          [(o.iter coin pc po).out .bid unlocked still] := by
        simp
      rw [h3]
      by_cases hct : still = 0
      · rw [if_pos hct]
        exact SlotOk.ownDone h2 (hrec' hns) rfl rfl ⟨rfl, rfl⟩ (by simp [IterParams.out, EventView.final, hct])
      · rw [if_neg hct]
        show SlotOk σ (flightOf o) _ _
        rw [flightOf_some hns]
        exact SlotOk.own h2 (hrec' hns) rfl rfl ⟨rfl, rfl⟩ (by simp [IterParams.out, EventView.final, hct])
    | fill A best tq pc' fee left hA hpr hpo hown htq htpos hpc hfee hleft hb1 hb2 =>
      refine ⟨_, push_items _ _ _ hq, ?_⟩
      rw [hA] at hs hb
      unfold bidFillEvs
      rw [hown', hco, ← List.append_assoc, ← List.append_assoc, ← List.append_assoc]
      have h1 := (hs.perm (tagged_ask_first _ _ [best])).fill
        (v := .fill .ask true (tq * ob.mkt.coinLot) (tq * best.price * ob.mkt.pcLot) 0 best.key best.owner
          best.ownerSlot best.feeTier best.clientId) tq ⟨rfl, rfl, rfl, rfl⟩ rfl
        (about_out best .ask true 0 0) ((final_out _ _ _ _ _).2 rfl)
      have h2 := h1.perm (tagged_ask_first _ _ _).symm
      by_cases h0 : o.owner = 0
      · simp only [h0, if_true, List.append_nil]
        rw [flightOf_none h0] at h2
        have : flightAfter o (if coin ≠ tq ∧ left ≠ 0 then some ⟨coin - tq, left⟩ else none) = none := by
          split
          · exact flightOf_none h0
          · rfl
        rw [this]
        exact h2
      · rw [if_neg h0, if_neg h0]
        rw [flightOf_some h0] at h2
        have h3 := SlotOk.own h2 (v := .fill .bid false
          (tq * best.price * ob.mkt.pcLot + o.feeTier.takerFee (tq * best.price * ob.mkt.pcLot))
          (tq * ob.mkt.coinLot) (o.feeTier.takerFee (tq * best.price * ob.mkt.pcLot))
          o.orderId o.owner o.ownerSlot o.feeTier o.clientId) (hrec' h0) rfl rfl ⟨rfl, rfl⟩ rfl
        by_cases hct : coin ≠ tq ∧ left ≠ 0
        · simp only [if_pos hct, List.append_nil]
          show SlotOk σ (flightOf o) _ _
          rw [flightOf_some h0]
          exact h3
        · rw [if_neg hct, if_neg hct]
          exact SlotOk.ownDone h3 (hrec' h0) rfl rfl ⟨rfl, rfl⟩ rfl

theorem hz_next {L L' : List Leaf} {ts : List Touch}
    (h : takeFront L ts = some L') (hz : ∀ l ∈ L, l.owner ≠ 0) : ∀ l ∈ L', l.owner ≠ 0 := by
  intro l hl
  obtain ⟨y, hy, he, _⟩ := takeFront_mem h hl
  rw [he]
  exact hz y hy

theorem path_slots {o : OrderParams} (ho : OrderOk o) {limit : Nat} {ob ob' : Ob lst} {coin pc : Nat}
    {ts : List Touch} {f : Option Posting} (hi : RoundIn o ob coin pc)
    (h : Path o limit ob coin pc ob' ts f) {σ : SlotMap} {evs : List EventView}
    (hq : ob.q.items = evs.map Event.new) (hrec : Recorded σ o)
    (hz : o.owner = 0 → ∀ l ∈ opposite o.side ob.bids.items ob.asks.items, l.owner ≠ 0)
    (hs : SlotOk σ (flightOf o) (tagged ob.bids.items ob.asks.items) evs) :
    ∃ evs', ob'.q.items = (evs ++ evs').map Event.new ∧
      SlotOk σ none (tagged ob'.bids.items ob'.asks.items) (evs ++ evs') := by
  induction h generalizing evs with
  | last h => exact round_slots hi h hq hrec hz hs
  | stop h => exact round_slots hi h hq hrec hz hs
  | more h _ ih =>
    obtain ⟨e1, h1, h2⟩ := round_slots hi h hq hrec hz hs
    have ht := (round_touches hi (fun h => h) h).1
    obtain ⟨e2, h3, h4⟩ := ih ((round_pres ho hi h).2.2.2 _ rfl) h1
      (fun h0 => hz_next ht (hz h0)) h2
    exact ⟨e1 ++ e2, by rw [← List.append_assoc]; exact h3, by rw [← List.append_assoc]; exact h4⟩

end Serum
