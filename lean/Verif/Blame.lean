import Verif.Textbook

/-
What the errors of the matching engine tell: how much room in the event queue a step asks for, and which
order the sender would have traded with.
-/

namespace Serum

/-- Capacity and length of the event queue. -/
def Ob.fullness (ob : Ob lst) : Nat × Nat := (ob.q.cap, ob.q.items.length)

/-- `x` fails only for reasons in `R`, and otherwise gives a queue `f` of the same capacity with at most `n`
more events than `q`; if the queue is called full, it had no room for `n`. -/
def Uses {α : Type} (R : Err → Prop) (q : Nat × Nat) (n : Nat) (f : α → Nat × Nat) (x : Except Err α) : Prop :=
  match x with
  | .ok a => (f a).1 = q.1 ∧ (f a).2 ≤ q.2 + n
  | .error e => R e ∨ (e = .eventQueueFull ∧ q.1 < q.2 + n)

/-- Reasons that have nothing to do with the order or the queue. -/
def Dull (e : Err) : Prop := e = .panic ∨ e = .assertion

namespace Uses
variable {α β : Type} {R : Err → Prop} {q : Nat × Nat} {n m : Nat} {f : α → Nat × Nat} {g : β → Nat × Nat}

theorem bind {x : Except Err α} {k : α → Except Err β} (h : Uses R q n f x)
    (hk : ∀ a, x = .ok a → Uses R (f a) m g (k a)) : Uses R q (n + m) g (x >>= k) := by
  cases x with
  | error e =>
    show R e ∨ _
    rcases h with h | ⟨h1, h2⟩
    · exact .inl h
    · exact .inr ⟨h1, by omega⟩
  | ok a =>
    have h1 : (f a).1 = q.1 ∧ (f a).2 ≤ q.2 + n := h
    have h2 := hk a rfl
    show Uses R q (n + m) g (k a)
    cases hx : k a with
    | ok b =>
      rw [hx] at h2
      have h2 : (g b).1 = (f a).1 ∧ (g b).2 ≤ (f a).2 + m := h2
      exact ⟨by omega, by omega⟩
    | error e =>
      rw [hx] at h2
      rcases h2 with h2 | ⟨h2, h3⟩
      · exact .inl h2
      · exact .inr ⟨h2, by omega⟩

theorem le {x : Except Err α} (h : Uses R q n f x) (hn : n ≤ m) : Uses R q m f x := by
  cases x with
  | error e =>
    rcases h with h | ⟨h1, h2⟩
    · exact .inl h
    · exact .inr ⟨h1, by omega⟩
  | ok a =>
    have h1 : (f a).1 = q.1 ∧ (f a).2 ≤ q.2 + n := h
    exact ⟨h1.1, by omega⟩

theorem mono {S : Err → Prop} {x : Except Err α} (h : Uses R q n f x) (hs : ∀ e, R e → S e) :
    Uses S q n f x := by
  cases x with
  | error e => exact h.imp (hs e) id
  | ok a => exact h

/-- A computation that leaves the queue alone. -/
theorem still {x : Except Err α} (h : ∀ e, x = .error e → R e) : Uses R q 0 (fun _ => q) x := by
  cases x with
  | error e => exact .inl (h e rfl)
  | ok a => exact ⟨rfl, Nat.le_refl _⟩

theorem ok {a : α} (h : f a = q) : Uses R q 0 f (.ok a) := by
  show (f a).1 = q.1 ∧ _
  rw [h]
  exact ⟨rfl, Nat.le_refl _⟩

theorem pure {a : α} (h : f a = q) : Uses R q 0 f (pure a : Except Err α) := ok h

/-- Run a computation that leaves the queue alone, then the rest. -/
theorem skip {x : Except Err α} {k : α → Except Err β} (h : ∀ e, x = .error e → R e)
    (hk : ∀ a, x = .ok a → Uses R q m g (k a)) : Uses R q m g (x >>= k) := by
  have := bind (n := 0) (still (q := q) h) hk
  rwa [Nat.zero_add] at this

end Uses

theorem dull_unwrap {α : Type} {o : Option α} {e : Err} (h : unwrap o = .error e) : Dull e := by
  cases o with
  | none => cases h; exact .inl rfl
  | some => cases h

theorem dull_check {b : Bool} {e : Err} (h : checkAssert b = .error e) : Dull e := by
  unfold checkAssert at h
  split at h
  · cases h
  · cases h; exact .inr rfl

theorem dull_rust {b : Bool} {e : Err} (h : rustAssert b = .error e) : Dull e := by
  unfold rustAssert at h
  split at h
  · cases h
  · cases h; exact .inl rfl

theorem dull_nz {l : Leaf} {e : Err} (h : nzPrice l = .error e) : Dull e := by
  unfold nzPrice at h
  split at h
  · cases h; exact .inl rfl
  · cases h

theorem dull_bind_pure {α β : Type} {x : Except Err α} {k : α → β} {e : Err}
    (hx : ∀ e, x = .error e → Dull e) (h : (x >>= fun a => (pure (k a) : Except Err β)) = .error e) : Dull e := by
  cases x with
  | error e' => cases h; exact hx _ rfl
  | ok a => cases h

theorem dull_map {α β : Type} {x : Except Err α} {k : α → β} {e : Err} (hx : ∀ e, x = .error e → Dull e)
    (h : x.map k = .error e) : Dull e := by
  cases x with
  | error e' => cases h; exact hx _ rfl
  | ok a => cases h

section
variable {R : Err → Prop} (hR : ∀ e, Dull e → R e)
include hR

omit hR in
theorem uses_pushEv {ob : Ob lst} {v : EventView} : Uses R ob.fullness 1 Ob.fullness (pushEv lst ob v) := by
  unfold pushEv
  simp only
  split
  · rename_i q hq
    split at hq
    · cases hq
      exact ⟨rfl, by simp [Ob.fullness]⟩
    · cases hq
  · rename_i hq
    split at hq
    · cases hq
    · exact .inr ⟨rfl, by simp only [Ob.fullness]; omega⟩

omit hR in
theorem uses_pushIf (c : Bool) (ob : Ob lst) (v : EventView) :
    Uses R ob.fullness (if c then 1 else 0) Ob.fullness (pushIf lst c ob v) := by
  unfold pushIf
  cases c with
  | false => exact .ok rfl
  | true => exact uses_pushEv

theorem uses_postAsk (ob : Ob lst) (p : IterParams) (n : Nat) :
    Uses R ob.fullness 1 Ob.fullness (postAsk lst ob p n) := by
  unfold postAsk
  refine .skip (fun e h => ?_) fun a _ => ?_
  · simp only at h; split at h <;> cases h
  obtain ⟨b, done⟩ := a
  cases done with
  | true => exact (Uses.ok rfl).le (Nat.zero_le _)
  | false =>
    refine .skip (fun e h => by cases h) fun a _ => ?_
    refine .skip (fun e h => hR e (dull_unwrap h)) fun l _ => ?_
    refine .bind (n := 1) (m := 0) uses_pushEv fun ob1 _ => ?_
    refine .skip (fun e h => ?_) fun a _ => ?_
    · simp only at h; split at h <;> cases h
    refine .skip (fun e h => hR e (dull_rust h)) fun _ _ => ?_
    exact .ok rfl

theorem uses_postBid (ob : Ob lst) (p : IterParams) (n : Nat) :
    Uses R ob.fullness 1 Ob.fullness (postBid lst ob p n) := by
  unfold postBid
  refine .skip (fun e h => ?_) fun a _ => ?_
  · simp only at h; split at h <;> cases h
  obtain ⟨b, done⟩ := a
  cases done with
  | true => exact (Uses.ok rfl).le (Nat.zero_le _)
  | false =>
    refine .skip (fun e h => by cases h) fun a _ => ?_
    refine .skip (fun e h => hR e (dull_unwrap h)) fun l _ => ?_
    refine .skip (fun e h => hR e (dull_nz h)) fun _ _ => ?_
    refine .bind (n := 1) (m := 0) uses_pushEv fun ob1 _ => ?_
    refine .skip (fun e h => ?_) fun a _ => ?_
    · simp only at h; split at h <;> cases h
    refine .skip (fun e h => hR e (dull_rust h)) fun _ _ => ?_
    exact .ok rfl

omit hR in
theorem uses_settled {n : Nat} {ob : Ob lst} {x : Nat} {p : IterParams} {v : EventView} (h : 0 < x → 1 ≤ n) :
    Uses R ob.fullness n Ob.fullness (pushIf lst (decide (x > 0) && !p.isSendTake) ob v) := by
  refine (uses_pushIf _ _ _).le ?_
  by_cases hx : 0 < x
  · have := h hx
    split <;> omega
  · simp [show x = 0 by omega]

theorem uses_askSettle (ob : Ob lst) (p : IterParams) (u acc reb n : Nat) (h : 0 < acc → 1 ≤ n) :
    Uses R ob.fullness n Ob.fullness (askSettle lst ob p u acc reb) := by
  unfold askSettle Proceeds.creditPc Proceeds.addDebitCoin
  simp only
  refine .skip (fun e h => hR e (dull_bind_pure (fun e => dull_unwrap) h)) fun _ _ => ?_
  refine .skip (fun e h => hR e (dull_bind_pure (fun e => dull_unwrap) h)) fun _ _ => ?_
  refine .bind (n := n) (m := 0) (uses_settled (ob := { ob with pr := _ }) fun hx => ?_) fun _ _ => .ok rfl
  refine h (Nat.pos_of_ne_zero ?_)
  rintro rfl
  simp [wmul] at hx

theorem uses_bidSettle (ob : Ob lst) (p : IterParams) (c sp reb n : Nat) (h : 0 < sp → 1 ≤ n) :
    Uses R ob.fullness n (fun x => x.1.fullness) (bidSettle lst ob p c sp reb) := by
  unfold bidSettle Proceeds.creditCoin Proceeds.addDebitPc
  simp only
  refine .skip (fun e h => hR e (dull_bind_pure (fun e => dull_unwrap) h)) fun _ _ => ?_
  refine .skip (fun e h => hR e (dull_bind_pure (fun e => dull_unwrap) h)) fun _ _ => ?_
  refine .bind (n := n) (m := 0) (uses_settled (ob := { ob with pr := _ }) fun hx => ?_) fun _ _ => .ok rfl
  refine h (Nat.pos_of_ne_zero ?_)
  rintro rfl
  simp [wmul] at hx

theorem uses_askRest (ob : Ob lst) (p : IterParams) (u : Nat) (crossed : Bool) :
    Uses R ob.fullness 1 Ob.fullness (askRest lst ob p u crossed) := by
  unfold askRest Proceeds.unlockCoin
  split
  · exact .skip (fun e h => hR e (dull_check h)) fun _ _ => uses_postAsk hR _ _ _
  · split
    · exact (Uses.ok rfl).le (Nat.zero_le _)
    · refine .skip (fun e h => hR e (dull_bind_pure (fun e => dull_unwrap) h)) fun _ _ => ?_
      exact uses_pushEv (ob := { ob with pr := _ })

theorem uses_bidRelease (ob : Ob lst) (p : IterParams) (pc keep : Nat) :
    Uses R ob.fullness 1 Ob.fullness (bidRelease lst ob p pc keep) := by
  unfold bidRelease Proceeds.unlockPc
  split
  · exact (Uses.ok rfl).le (Nat.zero_le _)
  · refine .skip (fun e h => hR e (dull_bind_pure (fun e => dull_unwrap) h)) fun _ _ => ?_
    exact uses_pushEv (ob := { ob with pr := _ })

theorem uses_bidRest (ob : Ob lst) (p : IterParams) (c pc : Nat) (crossed : Bool) :
    Uses R ob.fullness (if crossed then 1 else 2) Ob.fullness (bidRest lst ob p c pc crossed) := by
  unfold bidRest
  cases crossed with
  | true =>
    refine .bind (n := 1) (m := 0) (uses_bidRelease hR _ _ _ _) fun ob1 _ => ?_
    rw [if_neg (by simp [bidPostQty, wmul])]
    exact .ok rfl
  | false =>
    refine .bind (n := 1) (m := 1) (uses_bidRelease hR _ _ _ _) fun ob1 _ => ?_
    split
    · exact uses_postBid hR _ _ _
    · exact (Uses.ok rfl).le (Nat.zero_le _)

/-- A round's result: a round that leaves something to do counts one event more. -/
def roundFull (x : Ob lst × Option Remaining) : Nat × Nat :=
  (x.1.q.cap, x.1.q.items.length + (if x.2.isSome then 1 else 0))

theorem uses_askFinish (ob : Ob lst) (p : IterParams) (u acc reb n : Nat) (done crossed : Bool)
    (h : 0 < acc → 1 ≤ n) :
    Uses R ob.fullness (n + 1) roundFull (askFinish lst ob p u acc reb done crossed) := by
  unfold askFinish
  refine .bind (uses_askSettle hR _ _ _ _ _ n h) fun ob1 _ => ?_
  split
  · exact ⟨rfl, Nat.le_refl _⟩
  · exact .bind (n := 1) (m := 0) (uses_askRest hR _ _ _ _) fun _ _ => .ok rfl

theorem uses_bidFinish (ob : Ob lst) (p : IterParams) (c sp reb n : Nat) (done crossed : Bool)
    (h : 0 < sp → 1 ≤ n) :
    Uses R ob.fullness (n + (if crossed then 1 else 2)) roundFull (bidFinish lst ob p c sp reb done crossed) := by
  unfold bidFinish
  refine .bind (uses_bidSettle hR _ _ _ _ _ n h) fun x _ => ?_
  obtain ⟨ob1, pc⟩ := x
  have h1 := uses_bidRest hR ob1 p c pc crossed
  have h2 : 1 ≤ (if crossed then 1 else 2) := by split <;> omega
  generalize (if crossed then 1 else 2) = k at h1 h2 ⊢
  simp only
  split
  · exact (show Uses R ob1.fullness 1 roundFull (.ok (ob1, some _)) from ⟨rfl, Nat.le_refl _⟩).le h2
  · exact .bind (m := 0) h1 fun _ _ => .ok rfl

theorem uses_shrinkBest (ob : Ob lst) (side : Side) (id rest : Nat) :
    Uses R ob.fullness 0 Ob.fullness (shrinkBest lst ob side id rest) := by
  unfold shrinkBest
  cases side <;> simp only <;> split
  · refine .skip (fun e h => by cases h) fun _ _ => ?_
    exact .skip (fun e h => hR e (dull_unwrap h)) fun _ _ => .ok rfl
  · exact .skip (fun e h => hR e (dull_map (fun e => dull_unwrap) h)) fun _ _ => .ok rfl
  · refine .skip (fun e h => by cases h) fun _ _ => ?_
    exact .skip (fun e h => hR e (dull_unwrap h)) fun _ _ => .ok rfl
  · exact .skip (fun e h => hR e (dull_map (fun e => dull_unwrap) h)) fun _ _ => .ok rfl

theorem uses_fillBest (ob : Ob lst) (side : Side) (best : Leaf) (n : Nat) :
    Uses R ob.fullness 1 Ob.fullness (fillBest lst ob side best n) := by
  unfold fillBest
  simp only
  cases side <;> simp only
  · refine .skip (fun e h => hR e (dull_map (fun e => dull_unwrap) h)) fun b _ => ?_
    split
    · refine .bind (n := 1) (m := 0) (uses_pushEv (ob := { ob with bids := b })) fun ob1 _ => ?_
      refine .skip (fun e h => by cases h) fun _ _ => ?_
      exact .skip (fun e h => hR e (dull_unwrap h)) fun _ _ => .ok rfl
    · exact (Uses.ok rfl).le (Nat.zero_le _)
  · refine .skip (fun e h => hR e (dull_map (fun e => dull_unwrap) h)) fun b _ => ?_
    split
    · refine .bind (n := 1) (m := 0) (uses_pushEv (ob := { ob with asks := b })) fun ob1 _ => ?_
      refine .skip (fun e h => by cases h) fun _ _ => ?_
      exact .skip (fun e h => hR e (dull_unwrap h)) fun _ _ => .ok rfl
    · exact (Uses.ok rfl).le (Nat.zero_le _)

theorem uses_askSelfTrade (ob : Ob lst) (p : IterParams) (best : Leaf) (price n : Nat)
    (ha : p.stb = .abortTransaction → R .wouldSelfTrade) :
    Uses R ob.fullness 3 roundFull (askSelfTrade lst ob p best price n) := by
  unfold askSelfTrade Proceeds.unlockCoin
  refine .skip (fun e h => ?_) fun x _ => ?_
  · unfold selfTradeQty at h
    split at h
    · cases h
    · cases h
    · rename_i h1
      cases h
      exact ha h1
  refine .bind (n := 1) (m := 2) uses_pushEv fun ob1 _ => ?_
  refine .bind (n := 0) (m := 2) (uses_shrinkBest hR _ _ _ _) fun ob2 _ => ?_
  refine .bind (n := 1) (m := 1) uses_pushEv fun ob3 _ => ?_
  refine .skip (fun e h => hR e (dull_bind_pure (fun e => dull_unwrap) h)) fun _ _ => ?_
  refine ⟨rfl, ?_⟩
  have hb (b : Bool) : (if b then 1 else 0) ≤ 1 := by cases b <;> decide
  exact Nat.add_le_add_left (hb _) _

theorem uses_bidSelfTrade (ob : Ob lst) (p : IterParams) (best : Leaf) (price n : Nat)
    (ha : p.stb = .abortTransaction → R .wouldSelfTrade) :
    Uses R ob.fullness 3 roundFull (bidSelfTrade lst ob p best price n) := by
  unfold bidSelfTrade Proceeds.unlockPc
  refine .skip (fun e h => ?_) fun x _ => ?_
  · unfold selfTradeQty at h
    split at h
    · cases h
    · cases h
    · rename_i h1
      cases h
      exact ha h1
  refine .bind (n := 1) (m := 2) uses_pushEv fun ob1 _ => ?_
  refine .bind (n := 0) (m := 2) (uses_shrinkBest hR _ _ _ _) fun ob2 _ => ?_
  refine .skip (fun e h => hR e (dull_bind_pure (fun e => dull_unwrap) h)) fun _ _ => ?_
  refine .bind (n := 1) (m := 1) (uses_pushEv (ob := { ob2 with pr := _ })) fun ob3 _ => ?_
  refine ⟨rfl, ?_⟩
  have hb (b : Bool) : (if b then 1 else 0) ≤ 1 := by cases b <;> decide
  exact Nat.add_le_add_left (hb _) _

end

/-- The order that a round meets would be the sender's own, who asked not to trade with themselves. -/
structure OwnAhead (o : OrderParams) (ob : Ob lst) (coin pc : Nat) (po : Bool) : Prop where
  stb : o.stb = .abortTransaction
  notPo : po = false
  ahead : ∃ l L, opposite o.side ob.bids.items ob.asks.items = l :: L ∧ l.owner = o.owner ∧
    (Want.of o ob.mkt).accepts l.price = true ∧ (Want.of o ob.mkt).lots l coin pc ≠ 0

/-- There is an order that a round meets. -/
def Meets (o : OrderParams) (ob : Ob lst) (coin pc : Nat) : Prop :=
  ∃ l L, opposite o.side ob.bids.items ob.asks.items = l :: L ∧
    (Want.of o ob.mkt).accepts l.price = true ∧ (Want.of o ob.mkt).lots l coin pc ≠ 0

/-- What a round's error tells. A round asks for room for two events, or four if it meets an order. -/
theorem step_blame {o : OrderParams} {ob : Ob lst} {coin pc : Nat} {po : Bool} (hp : 0 < extractPrice o.orderId)
    {k : Nat} (h24 : 2 ≤ k) (hk : po = false → Meets o ob coin pc → 4 ≤ k) :
    Uses (fun e => Dull e ∨ (e = .wouldSelfTrade ∧ OwnAhead o ob coin pc po)) ob.fullness
      k roundFull (newOrderStep lst ob o coin pc po) := by
  have hR : ∀ e, Dull e → (Dull e ∨ (e = .wouldSelfTrade ∧ OwnAhead o ob coin pc po)) := fun e h => .inl h
  unfold newOrderStep
  cases hs : o.side with
  | ask =>
    simp only
    refine .skip (fun e h => hR e (dull_rust h)) fun _ _ => ?_
    refine .skip (fun e h => hR e (dull_rust h)) fun _ _ => ?_
    unfold newAsk
    refine .skip (fun e h => by cases h) fun b hb => ?_
    cases b with
    | none => exact (uses_askFinish hR _ _ _ _ _ 0 _ _ (by omega)).le (by omega)
    | some best =>
      simp only
      refine .skip (fun e h => hR e (dull_nz h)) fun price hpr => ?_
      split
      · exact (uses_askFinish hR _ _ _ _ _ 0 _ _ (by omega)).le (by omega)
      rename_i hc
      simp only [Bool.or_eq_true, Bool.not_eq_true', decide_eq_false_iff_not, not_or, Bool.not_eq_true,
        Decidable.not_not] at hc
      have hc1 : extractPrice o.orderId ≤ price := hc.1
      have hc2 : po = false := hc.2
      split
      · exact (uses_askFinish hR _ _ _ _ _ 0 _ _ (by omega)).le (by omega)
      rename_i hq
      simp only [OrderParams.iter, beq_iff_eq] at hq
      obtain ⟨rfl, _⟩ := nzPrice_ok hpr
      simp only [Except.ok.injEq] at hb
      obtain ⟨L, hL⟩ := List.getLast?_eq_some_iff.1 hb
      have m1 : opposite o.side ob.bids.items ob.asks.items = best :: L.reverse := by rw [hs]; simp [opposite, hL]
      have m2 : (Want.of o ob.mkt).accepts best.price = true := by simpa [Want.accepts, Want.of, hs] using hc1
      have m3 : (Want.of o ob.mkt).lots best coin pc ≠ 0 := by simpa [Want.lots, Want.of, hs] using hq
      refine Uses.le ?_ (hk hc2 ⟨best, L.reverse, m1, m2, m3⟩)
      split
      · rename_i hw
        exact (uses_askSelfTrade hR _ _ _ _ _ fun ha => .inr ⟨rfl, ha, hc2, best, L.reverse, m1,
          (beq_iff_eq.1 hw).symm, m2, m3⟩).le (by omega)
      · refine .bind (n := 1) (m := 3) uses_pushEv fun ob1 _ => ?_
        refine .bind (n := 1) (m := 2) (uses_fillBest hR _ _ _ _) fun ob2 _ => ?_
        exact uses_askFinish hR _ _ _ _ _ 1 _ _ (by omega)
  | bid =>
    simp only
    refine .skip (fun e h => hR e (dull_rust h)) fun _ _ => ?_
    unfold newBid
    refine .skip (fun e h => hR e (dull_check h)) fun _ _ => ?_
    refine .skip (fun e h => hR e (dull_rust h)) fun _ _ => ?_
    refine .skip (fun e h => by cases h) fun b hb => ?_
    have hfin : ∀ (b : Bool), 0 + (if b then 1 else 2) ≤ k := by
      intro b; split <;> omega
    cases b with
    | none => exact (uses_bidFinish hR _ _ _ _ _ 0 _ _ (by omega)).le (hfin _)
    | some best =>
      simp only
      refine .skip (fun e h => hR e (dull_nz h)) fun price hpr => ?_
      split
      · exact (uses_bidFinish hR _ _ _ _ _ 0 _ _ (by omega)).le (hfin _)
      rename_i hc
      simp only [Bool.or_eq_true, Bool.not_eq_true', Bool.or_eq_false_iff, decide_eq_false_iff_not, not_or,
        not_and, Bool.not_eq_true, Decidable.not_not] at hc
      have hc1 : price ≤ extractPrice o.orderId := hc.1 (fun k => by
        have k : extractPrice o.orderId = 0 := k
        omega)
      have hc2 : po = false := hc.2
      split
      · exact (uses_bidFinish hR _ _ _ _ _ 0 _ _ (by omega)).le (hfin _)
      rename_i hq
      simp only [OrderParams.iter, beq_iff_eq] at hq
      obtain ⟨rfl, _⟩ := nzPrice_ok hpr
      simp only [Except.ok.injEq] at hb
      obtain ⟨L, hL⟩ := List.head?_eq_some_iff.1 hb
      have m1 : opposite o.side ob.bids.items ob.asks.items = best :: L := by rw [hs]; simp [opposite, hL]
      have m2 : (Want.of o ob.mkt).accepts best.price = true := by simpa [Want.accepts, Want.of, hs] using hc1
      have m3 : (Want.of o ob.mkt).lots best coin pc ≠ 0 := by
        rw [div_swap] at hq
        simpa only [Want.lots, Want.of, hs] using hq
      refine Uses.le ?_ (hk hc2 ⟨best, L, m1, m2, m3⟩)
      split
      · rename_i hw
        exact (uses_bidSelfTrade hR _ _ _ _ _ fun ha => .inr ⟨rfl, ha, hc2, best, L, m1,
          (beq_iff_eq.1 hw).symm, m2, m3⟩).le (by omega)
      · refine .bind (n := 1) (m := 3) uses_pushEv fun ob1 _ => ?_
        refine .bind (n := 1) (m := 2) (uses_fillBest hR _ _ _ _) fun ob2 _ => ?_
        have hcr : (decide ((o.iter coin pc po).limitPrice = 0) ||
            decide (best.price ≤ (o.iter coin pc po).limitPrice)) = true := by
          have : best.price ≤ (o.iter coin pc po).limitPrice := hc1
          simp [this]
        rw [hcr]
        exact uses_bidFinish hR ob2 (o.iter coin pc po) _ _ _ 1 false true (by omega)

/-- What the engine's error tells: either it has nothing to do with the order, or the sender asked not to
trade with themselves and would have, or the event queue has no room for three events for every order that
is met and two more. -/
theorem loop_blame {o : OrderParams} (ho : OrderOk o) {limit : Nat} {ob : Ob lst} {coin pc : Nat}
    (hi : RoundIn o ob coin pc) (hpc : o.side = .ask → pc = 0) {e : Err}
    (h : newOrderLoop lst o limit ob coin pc = .error e) :
    Dull e ∨ (e = .wouldSelfTrade ∧ o.stb = .abortTransaction ∧
        ∃ t ∈ (Want.of o ob.mkt).takes limit (opposite o.side ob.bids.items ob.asks.items) coin pc,
          t.maker.owner = o.owner) ∨
      (e = .eventQueueFull ∧ ob.q.cap < ob.q.items.length +
        (3 * ((Want.of o ob.mkt).takes limit (opposite o.side ob.bids.items ob.asks.items) coin pc).length + 2)) := by
  induction limit generalizing ob coin pc with
  | zero =>
    unfold newOrderLoop at h
    have hb := step_blame (o := o) (ob := ob) (coin := coin) (pc := pc) (po := true) ho.price (Nat.le_refl 2)
      (fun h => by cases h)
    cases hx : newOrderStep lst ob o coin pc true with
    | ok a => rw [hx] at h; cases h
    | error e' =>
      rw [hx] at h hb
      cases h
      rcases hb with (hb | ⟨_, hb⟩) | ⟨h1, h2⟩
      · exact .inl hb
      · have := hb.notPo; cases this
      · exact .inr (.inr ⟨h1, by simpa [Want.takes, Ob.fullness] using h2⟩)
  | succ n ih =>
    unfold newOrderLoop at h
    obtain ⟨ts, hts⟩ : ∃ ts, ts = (Want.of o ob.mkt).takes (n + 1) (opposite o.side ob.bids.items ob.asks.items) coin pc :=
      ⟨_, rfl⟩
    have hne : (o.orderType == .postOnly) = false → Meets o ob coin pc → 1 ≤ ts.length := by
      rintro hpo ⟨l, L, m1, m2, m3⟩
      rw [hts, m1]
      unfold Want.takes
      have hk : (Want.of o ob.mkt).kind ≠ .postOnly := by
        intro k
        have k' : (o.orderType == .postOnly) = true := beq_iff_eq.2 k
        rw [hpo] at k'
        cases k'
      rw [if_pos ⟨hk, m2, m3⟩]
      simp
    have hb := step_blame (o := o) (ob := ob) (coin := coin) (pc := pc) (po := o.orderType == .postOnly) ho.price
      (k := 3 * ts.length + 2) (by omega) (fun h1 h2 => by have := hne h1 h2; omega)
    have hb4 := step_blame (o := o) (ob := ob) (coin := coin) (pc := pc) (po := o.orderType == .postOnly) ho.price
      (k := 4) (by omega) (fun _ _ => Nat.le_refl 4)
    cases hx : newOrderStep lst ob o coin pc (o.orderType == .postOnly) with
    | error e' =>
      rw [hx] at h hb
      cases h
      rcases hb with (hb | ⟨h1, hb⟩) | ⟨h1, h2⟩
      · exact .inl hb
      · refine .inr (.inl ⟨h1, hb.stb, ?_⟩)
        obtain ⟨l, L, e1, e2, e3, e4⟩ := hb.ahead
        refine ⟨(Want.of o ob.mkt).meet l coin pc, ?_, ?_⟩
        · rw [e1]
          unfold Want.takes
          have hk : (Want.of o ob.mkt).kind ≠ .postOnly := by
            intro k
            have k' : (o.orderType == .postOnly) = true := beq_iff_eq.2 k
            rw [hb.notPo] at k'
            cases k'
          rw [if_pos ⟨hk, e3, e4⟩]
          exact List.mem_cons_self
        · have : ((Want.of o ob.mkt).meet l coin pc).maker = l := by
            unfold Want.meet
            split <;> (try split) <;> rfl
          rw [this]
          exact e2
      · refine .inr (.inr ⟨h1, ?_⟩)
        rw [← hts]
        exact h2
    | ok a =>
      obtain ⟨ob1, r⟩ := a
      rw [hx] at h hb4
      cases r with
      | none => cases h
      | some r =>
        have h : newOrderLoop lst o n ob1 r.coin r.pc = .error e := h
        have hb4 : ob1.q.cap = ob.q.cap ∧ ob1.q.items.length + 1 ≤ ob.q.items.length + 4 := hb4
        obtain ⟨ts, f, hr⟩ := round_of_step ho hi hx
        rcases round_takes ho hi (by simp) hpc hr with ⟨rfl, g⟩ | ⟨t, rfl, g⟩
        · have := g.over; cases this
        obtain ⟨L1, e1, e2⟩ := g.first
        obtain ⟨n1, n2⟩ := g.next _ rfl
        have hs := (round_pres ho hi hr).1
        have ew : Want.of o ob1.mkt = Want.of o ob.mkt := by
          unfold Want.of; rw [hs.pcLot]
        have hk : (Want.of o ob.mkt).kind ≠ .postOnly := by
          intro k
          have k' : (o.orderType == .postOnly) = true := beq_iff_eq.2 k
          rw [g.notPo] at k'
          cases k'
        rcases ih ((round_pres ho hi hr).2.2.2 _ rfl) (fun k => by rw [n2, hpc k]; simp) h with
          k | ⟨k1, k2, t', k3, k4⟩ | ⟨k1, k2⟩
        · exact .inl k
        · refine .inr (.inl ⟨k1, k2, t', ?_, k4⟩)
          rw [ew, n1, n2, e2] at k3
          rw [e1]
          unfold Want.takes
          rw [if_pos ⟨hk, g.ok, g.pos⟩, ← g.what]
          exact List.mem_cons_of_mem _ k3
        · refine .inr (.inr ⟨k1, ?_⟩)
          rw [ew, n1, n2, e2] at k2
          rw [e1]
          unfold Want.takes
          rw [if_pos ⟨hk, g.ok, g.pos⟩, ← g.what, List.length_cons]
          omega

end Serum
