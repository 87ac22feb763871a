import Verif.Slots

/-
What a run of the matching engine does to the funds behind resting orders and queued events, summed over
the accounts that satisfy a predicate.
-/

namespace Serum

/-- Funds of side `sd` (base for asks, quote for bids) locked behind a resting order, counted for the
accounts in `P`. -/
def leafLock (sd : Side) (m : Market) (P : Nat → Bool) (l : Leaf) : Nat :=
  if P l.owner then lockedValue sd m l.price l.quantity else 0

/-- The same for a side of the book. -/
def bookLock (sd : Side) (m : Market) (P : Nat → Bool) (L : List Leaf) : Nat :=
  sumBy (leafLock sd m P) L

/-- By how much consuming the event will lower the locked funds (total minus free) of its account. -/
def EventView.lock (sd : Side) : EventView → Nat
  | .fill s true paid _ fee .. => if s = sd then paid + (if sd = .bid then fee else 0) else 0
  | .out s true unlocked .. => if s = sd then unlocked else 0
  | _ => 0

/-- By how much consuming the event will raise the free funds of its account. -/
def EventView.free (sd : Side) : EventView → Nat
  | .fill s true _ received fee .. => if s = sd then (if sd = .bid then fee else 0) else received
  | .out s true unlocked .. => if s = sd then unlocked else 0
  | _ => 0

/-- By how much consuming the event will raise the referrer rebates of its account. -/
def EventView.rebate : EventView → Nat
  | .fill _ false _ _ fee .. => referrerRebate fee
  | _ => 0

/-- An event weight summed over the events for accounts in `P`. -/
def evSum (w : EventView → Nat) (P : Nat → Bool) (evs : List EventView) : Nat :=
  sumBy (fun v => if P v.owner then w v else 0) evs

@[simp] theorem evSum_append (w P a b) : evSum w P (a ++ b) = evSum w P a + evSum w P b := by
  simp [evSum]
@[simp] theorem evSum_nil (w P) : evSum w P [] = 0 := rfl
@[simp] theorem evSum_cons (w P v vs) :
    evSum w P (v :: vs) = (if P v.owner then w v else 0) + evSum w P vs := by
  simp [evSum]

theorem sumBy_map {α β : Type} (f : β → Nat) (g : α → β) (L : List α) :
    sumBy f (L.map g) = sumBy (fun x => f (g x)) L := by
  induction L with
  | nil => rfl
  | cons x xs ih => simp [ih]

theorem sumBy_filter {α : Type} (f : α → Nat) (p : α → Bool) (L : List α) :
    sumBy f (L.filter p) = sumBy (fun x => if p x then f x else 0) L := by
  induction L with
  | nil => rfl
  | cons x xs ih =>
    rw [List.filter_cons]
    split <;> rename_i h <;> simp [ih, h]

theorem sumBy_add' {α : Type} (f g : α → Nat) (L : List α) :
    sumBy (fun x => f x + g x) L = sumBy f L + sumBy g L := by
  induction L with
  | nil => rfl
  | cons x xs ih => simp [ih]; omega

theorem sumBy_congr' {α : Type} {f g : α → Nat} {L : List α} (h : ∀ x ∈ L, f x = g x) :
    sumBy f L = sumBy g L := by
  induction L with
  | nil => rfl
  | cons x xs ih =>
    simp only [sumBy_cons]
    rw [h x (by simp), ih (fun y hy => h y (by simp [hy]))]

theorem sumBy_zero {α : Type} {f : α → Nat} {L : List α} (h : ∀ x ∈ L, f x = 0) : sumBy f L = 0 := by
  induction L with
  | nil => rfl
  | cons x xs ih =>
    simp only [sumBy_cons]
    rw [h x (by simp), ih (fun y hy => h y (by simp [hy]))]

theorem sumBy_flatMap {α β : Type} (f : β → Nat) (g : α → List β) (L : List α) :
    sumBy f (L.flatMap g) = sumBy (fun x => sumBy f (g x)) L := by
  induction L with
  | nil => rfl
  | cons x xs ih => simp [ih]

/-- The four classes of events. -/
theorem sumBy_classes (f : EventView → Nat) (evs : List EventView) :
    sumBy f evs = sumBy f (evs.filter EventView.isMakerFill) + sumBy f (evs.filter EventView.isTakerFill) +
      sumBy f (evs.filter EventView.isRelease) + sumBy f (evs.filter EventView.isReport) := by
  induction evs with
  | nil => rfl
  | cons v vs ih =>
    rw [sumBy_cons, ih]
    cases v with
    | fill s mk =>
      cases mk <;> simp [EventView.isMakerFill, EventView.isTakerFill, EventView.isRelease,
        EventView.isReport, List.filter_cons] <;> omega
    | out s rel =>
      cases rel <;> simp [EventView.isMakerFill, EventView.isTakerFill, EventView.isRelease,
        EventView.isReport, List.filter_cons] <;> omega

/-- A sum over events when only maker fills and releases count. -/
theorem evSum_report {o : OrderParams} {m : Market} {ts : List Touch} {f : Option Posting}
    {evs : List EventView} (hr : EvReport o m ts f evs) (w : EventView → Nat) (P : Nat → Bool)
    (h1 : ∀ v, v.isTakerFill = true → w v = 0) (h2 : ∀ v, v.isReport = true → w v = 0) :
    evSum w P evs =
      sumBy (fun t => if t.filled then (if P t.maker.owner then w (t.makerFill o.side m) else 0) else 0) ts +
      sumBy (fun t => evSum w P (t.release o.side m)) ts + evSum w P (evictRelease o.side m f) := by
  unfold evSum
  rw [sumBy_classes, hr.makers, hr.releases]
  have z1 : sumBy (fun v => if P v.owner = true then w v else 0) (evs.filter EventView.isTakerFill) = 0 :=
    sumBy_zero (fun v hv => by rw [h1 v (List.mem_filter.1 hv).2]; simp)
  have z2 : sumBy (fun v => if P v.owner = true then w v else 0) (evs.filter EventView.isReport) = 0 :=
    sumBy_zero (fun v hv => by rw [h2 v (List.mem_filter.1 hv).2]; simp)
  rw [z1, z2, sumBy_map, sumBy_filter, sumBy_append, sumBy_flatMap]
  have : (fun t : Touch => if t.filled = true then
        (if P (t.makerFill o.side m).owner = true then w (t.makerFill o.side m) else 0) else 0) =
      (fun t : Touch => if t.filled = true then
        (if P t.maker.owner = true then w (t.makerFill o.side m) else 0) else 0) := by
    funext t
    have : (t.makerFill o.side m).owner = t.maker.owner := by
      unfold Touch.makerFill; cases o.side <;> rfl
    rw [this]
  rw [this]
  omega

theorem lockedValue_add (sd : Side) (m : Market) (p a b : Nat) :
    lockedValue sd m p (a + b) = lockedValue sd m p a + lockedValue sd m p b := by
  unfold lockedValue
  cases sd <;> simp only [Nat.add_mul]

/-- Funds lost by resting orders. -/
def touchLock (sd : Side) (m : Market) (P : Nat → Bool) (t : Touch) : Nat :=
  if P t.maker.owner then lockedValue sd m t.maker.price t.lots else 0

theorem takeFront_lock (sd : Side) (m : Market) (P : Nat → Bool) {L L' : List Leaf} {ts : List Touch}
    (h : takeFront L ts = some L') :
    bookLock sd m P L = bookLock sd m P L' + sumBy (touchLock sd m P) ts := by
  induction ts generalizing L with
  | nil => simp only [takeFront, Option.some.injEq] at h; subst h; rfl
  | cons t ts ih =>
    cases L with
    | nil => cases h
    | cons l L =>
      simp only [takeFront] at h
      split at h
      · rename_i hc
        obtain ⟨hl, h0, hle⟩ := hc
        have h1 := ih h
        subst hl
        have key : bookLock sd m P (t.maker :: L) =
            bookLock sd m P (if t.lots = t.maker.quantity then L else
              { t.maker with quantity := t.maker.quantity - t.lots } :: L) + touchLock sd m P t := by
          by_cases hq : t.lots = t.maker.quantity
          · rw [if_pos hq]
            unfold bookLock leafLock touchLock
            rw [sumBy_cons, hq]; omega
          · rw [if_neg hq]
            unfold bookLock leafLock touchLock
            rw [sumBy_cons, sumBy_cons]
            simp only
            have hp : ({ t.maker with quantity := t.maker.quantity - t.lots } : Leaf).price = t.maker.price := rfl
            rw [hp]
            have e : t.maker.quantity = (t.maker.quantity - t.lots) + t.lots := by omega
            split
            · have := lockedValue_add sd m t.maker.price (t.maker.quantity - t.lots) t.lots
              rw [← e] at this
              omega
            · omega
        rw [key, h1, sumBy_cons]; omega
      · cases h

theorem bookLock_perm {sd : Side} {m : Market} {P : Nat → Bool} {L L' : List Leaf} (h : L.Perm L') :
    bookLock sd m P L = bookLock sd m P L' := sumBy_perm _ h
@[simp] theorem bookLock_cons (sd m P l L) :
    bookLock sd m P (l :: L) = leafLock sd m P l + bookLock sd m P L := by simp [bookLock]
@[simp] theorem bookLock_nil (sd m P) : bookLock sd m P [] = 0 := rfl
@[simp] theorem bookLock_append (sd m P a b) :
    bookLock sd m P (a ++ b) = bookLock sd m P a + bookLock sd m P b := by simp [bookLock]

theorem opposite_perm (side : Side) (bids asks : List Leaf) :
    (opposite side bids asks).Perm (match side with | .bid => asks | .ask => bids) := by
  unfold opposite
  cases side with
  | bid => exact .refl _
  | ask => exact List.reverse_perm _

/-- What a posted remainder locks, and what an eviction releases. -/
theorem own_lock {o : OrderParams} {ob ob' : Ob lst} {f : Option Posting}
    (hsort : (ob.own o.side).items.Pairwise (fun a b => a.key < b.key))
    (hfr : o.orderId ∉ (ob.own o.side).items.map (·.key)) (h : OwnReport o ob ob' f) (m : Market)
    (P : Nat → Bool) (w : EventView → Nat)
    (hw : ∀ s, ∀ u, w (.out o.side true u s 0 0 0 0) = u)
    (hw' : ∀ u s a b c d, w (.out o.side true u s a b c d) = w (.out o.side true u s 0 0 0 0)) :
    bookLock o.side m P (ob.own o.side).items +
        (if P o.owner then lockedValue o.side m (extractPrice o.orderId) (postedLots f) else 0) =
      bookLock o.side m P (ob'.own o.side).items + evSum w P (evictRelease o.side m f) := by
  obtain ⟨hcap, h⟩ := h
  cases f with
  | none =>
    simp only at h
    rw [h]
    have : lockedValue o.side m (extractPrice o.orderId) (postedLots none) = 0 := by
      unfold lockedValue postedLots; cases o.side <;> simp
    rw [this]; simp [evictRelease]
  | some f =>
    simp only at h
    have hleaf : leafLock o.side m P (o.leaf f.lots) =
        if P o.owner then lockedValue o.side m (extractPrice o.orderId) f.lots else 0 := rfl
    have hk : (o.leaf f.lots).key = o.orderId := rfl
    rcases h.book with ⟨h1, h2, h3⟩ | ⟨l, R, h1, h2, h3, h4⟩
    · rw [h3, bookLock_perm (insKey_perm hsort hfr), bookLock_cons, hleaf]
      have : evictRelease o.side m (some f) = [] := by
        obtain ⟨n, e⟩ := f; simp only at h1; subst h1; rfl
      rw [this]
      simp only [postedLots, evSum_nil]
      omega
    · have hperm : (ob.own o.side).items.Perm (l :: R) := by
        cases hs : o.side with
        | bid => rw [hs] at h4; simp only at h4; rw [h4]
        | ask => rw [hs] at h4; simp only at h4; rw [h4]; exact List.perm_append_comm
      have hR : R.Sublist (ob.own o.side).items := by
        cases hs : o.side with
        | bid => rw [hs] at h4; simp only at h4; rw [h4]; simp
        | ask => rw [hs] at h4; simp only at h4; rw [h4]; simp
      have hfR : (o.leaf f.lots).key ∉ R.map (·.key) := fun hin => hfr ((hR.map _).subset hin)
      rw [h3, bookLock_perm (insKey_perm (hsort.sublist hR) hfR), bookLock_cons, hleaf,
        bookLock_perm hperm, bookLock_cons]
      have : evictRelease o.side m (some f) = [.out o.side true (lockedValue o.side m l.price l.quantity) 0
          l.key l.owner l.ownerSlot l.clientId] := by
        obtain ⟨n, e⟩ := f; simp only at h2; subst h2; rfl
      rw [this, evSum_cons, evSum_nil, hw', hw]
      by_cases hP : P l.owner = true <;> simp [postedLots, EventView.owner, leafLock, hP] <;> omega

/-- Amount the maker of a touch receives. -/
def Touch.received (side : Side) (m : Market) (t : Touch) : Nat :=
  match side with
  | .ask => wmul t.lots m.coinLot
  | .bid => t.pc m

theorem other_ne (s : Side) : s.other ≠ s := by cases s <;> simp [Side.other]

/-- The money report of a run. -/
structure SumReport (o : OrderParams) (m : Market) (P : Nat → Bool) (own own' opp opp' : List Leaf)
    (ts : List Touch) (f : Option Posting) (evs : List EventView) : Prop where
  oppLock : bookLock o.side.other m P opp =
    bookLock o.side.other m P opp' + evSum (EventView.lock o.side.other) P evs
  ownLock : bookLock o.side m P own +
      (if P o.owner then lockedValue o.side m (extractPrice o.orderId) (postedLots f) else 0) =
    bookLock o.side m P own' + evSum (EventView.lock o.side) P evs
  oppFree : bookLock o.side.other m P opp =
    bookLock o.side.other m P opp' + evSum (EventView.free o.side.other) P evs +
      sumBy (fun t => if t.filled then touchLock o.side.other m P t else 0) ts
  ownFree : bookLock o.side m P own +
      (if P o.owner then lockedValue o.side m (extractPrice o.orderId) (postedLots f) else 0) +
      sumBy (fun t => if t.filled then (if P t.maker.owner then t.received o.side m else 0) else 0) ts =
    bookLock o.side m P own' + evSum (EventView.free o.side) P evs
  rebate : evSum EventView.rebate P evs =
    if o.owner ≠ 0 ∧ P o.owner = true then sumBy (Touch.ref m o.feeTier) ts else 0

theorem sum_report {o : OrderParams} {ob ob' : Ob lst} {ts : List Touch} {f : Option Posting}
    {evs : List EventView}
    (hsort : (ob.own o.side).items.Pairwise (fun a b => a.key < b.key))
    (hfr : o.orderId ∉ (ob.own o.side).items.map (·.key)) (hown : OwnReport o ob ob' f)
    (ht : takeFront (opposite o.side ob.bids.items ob.asks.items) ts =
        some (opposite o.side ob'.bids.items ob'.asks.items))
    (hr : EvReport o ob.mkt ts f evs) (P : Nat → Bool) :
    SumReport o ob.mkt P (ob.own o.side).items (ob'.own o.side).items
      (opposite o.side ob.bids.items ob.asks.items) (opposite o.side ob'.bids.items ob'.asks.items)
      ts f evs := by
  have hev : ∀ (w : EventView → Nat), (∀ u s a b c d, w (.out o.side true u s a b c d) = 0) →
      evSum w P (evictRelease o.side ob.mkt f) = 0 := by
    intro w hw
    unfold evictRelease
    split
    · simp [hw]
    · rfl
  have hrelo : ∀ (w : EventView → Nat), (∀ u s a b c d, w (.out o.side.other true u s a b c d) = 0) →
      ∀ t, evSum w P (Touch.release o.side ob.mkt t) = 0 := by
    intro w hw t
    unfold Touch.release
    split
    · split
      · simp [hw]
      · rfl
    · simp [hw]
  have hrel : ∀ (w : EventView → Nat), (∀ u s a b c d, w (.out o.side.other true u s a b c d) = u) →
      ∀ t, evSum w P (Touch.release o.side ob.mkt t) =
        if t.filled then 0 else touchLock o.side.other ob.mkt P t := by
    intro w hw t
    unfold Touch.release touchLock
    split
    · split
      · simp [hw]
      · rfl
    · simp [hw, EventView.owner]
  have tk : ∀ (sd : Side) (v : EventView), v.isTakerFill = true → v.lock sd = 0 ∧ v.free sd = 0 := by
    intro sd v hv
    cases v with
    | fill s mk => cases mk with
      | false => exact ⟨rfl, rfl⟩
      | true => cases hv
    | out => cases hv
  have rp : ∀ (sd : Side) (v : EventView), v.isReport = true → v.lock sd = 0 ∧ v.free sd = 0 := by
    intro sd v hv
    cases v with
    | fill s mk => cases mk <;> cases hv
    | out s rel => cases rel with
      | false => exact ⟨rfl, rfl⟩
      | true => cases hv
  have htl := takeFront_lock o.side.other ob.mkt P ht
  refine ⟨?_, ?_, ?_, ?_, ?_⟩
  · rw [htl, evSum_report hr (EventView.lock o.side.other) P (fun v hv => (tk _ v hv).1) (fun v hv => (rp _ v hv).1),
      hev _ (by intros; simp [EventView.lock, (other_ne o.side).symm]), Nat.add_zero, ← sumBy_add']
    congr 1
    apply sumBy_congr'
    intro t _
    rw [hrel _ (by intros; simp [EventView.lock])]
    have : (t.makerFill o.side ob.mkt).lock o.side.other =
        lockedValue o.side.other ob.mkt t.maker.price t.lots := by
      unfold Touch.makerFill
      cases o.side <;> simp [EventView.lock, Side.other, lockedValue, Touch.pc]
    rw [this]
    unfold touchLock
    cases t.filled <;> simp
  · rw [own_lock hsort hfr hown ob.mkt P (EventView.lock o.side) (by intros; simp [EventView.lock])
        (by intros; simp [EventView.lock]),
      evSum_report hr (EventView.lock o.side) P (fun v hv => (tk _ v hv).1) (fun v hv => (rp _ v hv).1)]
    congr 1
    rw [sumBy_zero (f := fun t => evSum (EventView.lock o.side) P (Touch.release o.side ob.mkt t))
      (fun t _ => hrelo _ (by intros; simp [EventView.lock, other_ne]) t), sumBy_zero]
    · omega
    · intro t _
      have : (t.makerFill o.side ob.mkt).lock o.side = 0 := by
        unfold Touch.makerFill
        cases o.side <;> simp [EventView.lock]
      rw [this]; simp
  · rw [htl, evSum_report hr (EventView.free o.side.other) P (fun v hv => (tk _ v hv).2) (fun v hv => (rp _ v hv).2),
      hev _ (by intros; simp [EventView.free, (other_ne o.side).symm]), Nat.add_zero,
      Nat.add_assoc, ← sumBy_add', ← sumBy_add']
    congr 1
    apply sumBy_congr'
    intro t _
    rw [hrel _ (by intros; simp [EventView.free])]
    have : (t.makerFill o.side ob.mkt).free o.side.other = 0 := by
      unfold Touch.makerFill
      cases o.side <;> simp [EventView.free, Side.other]
    rw [this]
    split <;> simp
  · rw [own_lock hsort hfr hown ob.mkt P (EventView.free o.side) (by intros; simp [EventView.free])
        (by intros; simp [EventView.free]),
      evSum_report hr (EventView.free o.side) P (fun v hv => (tk _ v hv).2) (fun v hv => (rp _ v hv).2)]
    rw [sumBy_zero (f := fun t => evSum (EventView.free o.side) P (Touch.release o.side ob.mkt t))
      (fun t _ => hrelo _ (by intros; simp [EventView.free, other_ne]) t)]
    have : ∀ t : Touch, (t.makerFill o.side ob.mkt).free o.side = t.received o.side ob.mkt := by
      intro t
      unfold Touch.makerFill Touch.received
      cases o.side <;> simp [EventView.free]
    simp only [this]
    omega
  · unfold evSum
    rw [sumBy_classes, hr.takers]
    have z1 : sumBy (fun v => if P v.owner = true then v.rebate else 0)
        (evs.filter EventView.isMakerFill) = 0 := by
      apply sumBy_zero
      intro v hv
      have := (List.mem_filter.1 hv).2
      cases v with
      | fill s mk => cases mk with
        | false => cases this
        | true => simp [EventView.rebate]
      | out => cases this
    have z2 : sumBy (fun v => if P v.owner = true then v.rebate else 0)
        (evs.filter EventView.isRelease) = 0 := by
      apply sumBy_zero
      intro v hv
      cases v with
      | fill => cases (List.mem_filter.1 hv).2 
      | out => simp [EventView.rebate]
    have z3 : sumBy (fun v => if P v.owner = true then v.rebate else 0)
        (evs.filter EventView.isReport) = 0 := by
      apply sumBy_zero
      intro v hv
      cases v with
      | fill => cases (List.mem_filter.1 hv).2 
      | out => simp [EventView.rebate]
    rw [z1, z2, z3]
    by_cases h0 : o.owner = 0
    · simp [h0]
    · rw [if_neg h0, sumBy_map, sumBy_filter]
      have e : ∀ t : Touch, (t.takerFill o ob.mkt).owner = o.owner ∧
          (t.takerFill o ob.mkt).rebate = referrerRebate (o.feeTier.takerFee (t.pc ob.mkt)) := by
        intro t; unfold Touch.takerFill; cases o.side <;> exact ⟨rfl, rfl⟩
      simp only [e]
      by_cases hP : P o.owner = true
      · simp only [hP, if_true, ne_eq, h0, not_false_eq_true, and_self, Nat.zero_add, Nat.add_zero]
        apply sumBy_congr'
        intro t _
        unfold Touch.ref Touch.fee
        split
        · rfl
        · rfl
      · simp only [hP, ne_eq, h0, and_false, Bool.false_eq_true, if_false, Nat.zero_add, Nat.add_zero]
        apply sumBy_zero
        intro t _
        split <;> rfl

end Serum
