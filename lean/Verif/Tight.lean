import Verif.Blame
import Verif.Embed

/-
An instruction that goes through with one length of the event queue goes through with another exactly if the
events it leaves pending fit; otherwise it fails with `EventQueueFull`.
-/

namespace Serum

/-- `x` is `y` done with a queue of length `c`, starting with `n` events, where `f` counts the events afterwards and
`sh` sets the length of the queue to `c`. -/
def Tight {α : Type} (c n : Nat) (f : α → Nat) (sh : α → α) (x y : Except Err α) : Prop :=
  match y with
  | .ok b => n ≤ f b ∧ (n ≤ c → x = if f b ≤ c then .ok (sh b) else .error .eventQueueFull)
  | .error e => n ≤ c → x = .error e ∨ x = .error .eventQueueFull ∨ e = .eventQueueFull

namespace Tight
variable {α β : Type} {c n : Nat} {f : α → Nat} {g : β → Nat} {sh : α → α} {sh' : β → β}

theorem bind {x y : Except Err α} {k k' : α → Except Err β} (h : Tight c n f sh x y)
    (hk : ∀ a, Tight c (f a) g sh' (k (sh a)) (k' a)) : Tight c n g sh' (x >>= k) (y >>= k') := by
  cases y with
  | error e =>
    intro hn
    rcases h hn with rfl | rfl | rfl
    · exact .inl rfl
    · exact .inr (.inl rfl)
    · exact .inr (.inr rfl)
  | ok a =>
    have h : n ≤ f a ∧ (n ≤ c → x = if f a ≤ c then .ok (sh a) else .error .eventQueueFull) := h
    have hk := hk a
    show Tight c n g sh' (x >>= k) (k' a)
    cases hy : k' a with
    | error e =>
      rw [hy] at hk
      intro hn
      by_cases ha : f a ≤ c
      · rw [h.2 hn, if_pos ha]
        exact hk ha
      · rw [h.2 hn, if_neg ha]
        exact .inr (.inl rfl)
    | ok b =>
      rw [hy] at hk
      have hk : f a ≤ g b ∧ (f a ≤ c → k (sh a) = if g b ≤ c then .ok (sh' b) else .error .eventQueueFull) := hk
      refine ⟨Nat.le_trans h.1 hk.1, fun hn => ?_⟩
      by_cases ha : f a ≤ c
      · rw [h.2 hn, if_pos ha]
        exact hk.2 ha
      · rw [h.2 hn, if_neg ha, if_neg (by omega)]
        rfl

/-- Something that does not look at the queue, and then the rest. -/
theorem skip {x : Except Err α} {k k' : α → Except Err β} (hk : ∀ a, x = .ok a → Tight c n g sh' (k a) (k' a)) :
    Tight c n g sh' (x >>= k) (x >>= k') := by
  cases x with
  | error e => exact fun _ => .inl rfl
  | ok a => exact hk a rfl

theorem same {x : Except Err α} (h : ∀ a, x = .ok a → f a = n ∧ sh a = a) : Tight c n f sh x x := by
  cases x with
  | error e => exact fun _ => .inl rfl
  | ok a =>
    obtain ⟨h1, h2⟩ := h a rfl
    exact ⟨Nat.le_of_eq h1.symm, fun hn => by rw [if_pos (by omega), h2]⟩

theorem ok {x y : Except Err α} (a : α) (hx : x = .ok (sh a)) (hy : y = .ok a) (h : f a = n) : Tight c n f sh x y := by
  subst hx hy
  exact ⟨Nat.le_of_eq h.symm, fun hn => by rw [if_pos (by omega)]⟩

theorem err {e : Err} : Tight c n f sh (.error e) (.error e) := fun _ => .inl rfl

theorem ite {p : Prop} [Decidable p] {x x' y y' : Except Err α} (h : Tight c n f sh x y) (h' : Tight c n f sh x' y') :
    Tight c n f sh (if p then x else x') (if p then y else y') := by
  split <;> assumption

end Tight

/-- The same with a queue of length `c`. -/
abbrev Ob.fit (c : Nat) (ob : Ob lst) : Ob lst := { ob with q := ⟨ob.q.items, c⟩ }

/-- The number of events. -/
abbrev Ob.evs (ob : Ob lst) : Nat := ob.q.items.length

section
variable (c : Nat)

abbrev fit2 {α : Type} (x : Ob lst × α) : Ob lst × α := (x.1.fit c, x.2)

abbrev evs2 {α : Type} (x : Ob lst × α) : Nat := x.1.evs

theorem tight_pushEv (ob : Ob lst) (v : EventView) :
    Tight c ob.evs Ob.evs (Ob.fit c) (pushEv lst (ob.fit c) v) (pushEv lst ob v) := by
  unfold pushEv
  simp only [lst]
  by_cases h1 : ob.q.items.length < ob.q.cap
  · simp only [h1, if_true]
    refine ⟨?_, fun hn => ?_⟩
    · simp [Ob.evs]
    · have hn : ob.q.items.length ≤ c := hn
      by_cases h2 : ob.q.items.length < c
      · rw [if_pos h2, if_pos (by simp [Ob.evs]; omega)]
      · rw [if_neg h2, if_neg (by simp [Ob.evs]; omega)]
  · simp only [h1, if_false]
    exact fun _ => .inr (.inr rfl)

theorem tight_pushIf (b : Bool) (ob : Ob lst) (v : EventView) :
    Tight c ob.evs Ob.evs (Ob.fit c) (pushIf lst b (ob.fit c) v) (pushIf lst b ob v) := by
  unfold pushIf
  exact Tight.ite (tight_pushEv c ob v) (.ok ob rfl rfl rfl)

theorem tight_postAsk (ob : Ob lst) (p : IterParams) (q : Nat) :
    Tight c ob.evs Ob.evs (Ob.fit c) (postAsk lst (ob.fit c) p q) (postAsk lst ob p q) := by
  unfold postAsk
  refine .skip fun a _ => ?_
  obtain ⟨b, done⟩ := a
  cases done with
  | true => exact .ok { ob with asks := b } rfl rfl rfl
  | false =>
    refine .skip fun a _ => ?_
    refine .skip fun l _ => ?_
    refine .bind (tight_pushEv c { ob with asks := a.1 } _) fun ob1 => ?_
    refine .skip fun a _ => ?_
    refine .skip fun _ _ => ?_
    exact .ok { ob1 with asks := a.1 } rfl rfl rfl

theorem tight_postBid (ob : Ob lst) (p : IterParams) (q : Nat) :
    Tight c ob.evs Ob.evs (Ob.fit c) (postBid lst (ob.fit c) p q) (postBid lst ob p q) := by
  unfold postBid
  refine .skip fun a _ => ?_
  obtain ⟨b, done⟩ := a
  cases done with
  | true => exact .ok { ob with bids := b } rfl rfl rfl
  | false =>
    refine .skip fun a _ => ?_
    refine .skip fun l _ => ?_
    refine .skip fun _ _ => ?_
    refine .bind (tight_pushEv c { ob with bids := a.1 } _) fun ob1 => ?_
    refine .skip fun a _ => ?_
    refine .skip fun _ _ => ?_
    exact .ok { ob1 with bids := a.1 } rfl rfl rfl

theorem tight_askSettle (ob : Ob lst) (p : IterParams) (u a r : Nat) :
    Tight c ob.evs Ob.evs (Ob.fit c) (askSettle lst (ob.fit c) p u a r) (askSettle lst ob p u a r) := by
  unfold askSettle
  refine .skip fun _ _ => ?_
  refine .skip fun pr _ => ?_
  refine .bind (tight_pushIf c _ { ob with pr } _) fun ob1 => ?_
  exact .ok { ob1 with mkt := _ } rfl rfl rfl

theorem tight_bidSettle (ob : Ob lst) (p : IterParams) (u a r : Nat) :
    Tight c ob.evs evs2 (fit2 c) (bidSettle lst (ob.fit c) p u a r) (bidSettle lst ob p u a r) := by
  unfold bidSettle
  refine .skip fun _ _ => ?_
  refine .skip fun pr _ => ?_
  refine .bind (tight_pushIf c _ { ob with pr } _) fun ob1 => ?_
  exact .ok ({ ob1 with mkt := _ }, _) rfl rfl rfl

theorem tight_askRest (ob : Ob lst) (p : IterParams) (u : Nat) (b : Bool) :
    Tight c ob.evs Ob.evs (Ob.fit c) (askRest lst (ob.fit c) p u b) (askRest lst ob p u b) := by
  unfold askRest
  refine .ite ?_ (.ite (.ok ob rfl rfl rfl) ?_)
  · exact .skip fun _ _ => tight_postAsk c ob p _
  · exact .skip fun pr _ => tight_pushEv c { ob with pr } _

theorem tight_askFinish (ob : Ob lst) (p : IterParams) (u a r : Nat) (d b : Bool) :
    Tight c ob.evs evs2 (fit2 c) (askFinish lst (ob.fit c) p u a r d b) (askFinish lst ob p u a r d b) := by
  unfold askFinish
  refine .bind (tight_askSettle c ob p u a r) fun ob1 => ?_
  refine .ite (.ok (ob1, _) rfl rfl rfl) ?_
  refine .bind (tight_askRest c ob1 p u b) fun ob2 => ?_
  exact .ok (ob2, _) rfl rfl rfl

theorem tight_shrinkBest (ob : Ob lst) (side : Side) (id rest : Nat) :
    Tight c ob.evs Ob.evs (Ob.fit c) (shrinkBest lst (ob.fit c) side id rest) (shrinkBest lst ob side id rest) := by
  unfold shrinkBest
  cases side with
  | bid =>
    refine .ite ?_ ?_
    · refine .skip fun a _ => ?_
      exact .skip fun _ _ => .ok { ob with bids := a.1 } rfl rfl rfl
    · exact .skip fun b _ => .ok { ob with bids := b } rfl rfl rfl
  | ask =>
    refine .ite ?_ ?_
    · refine .skip fun a _ => ?_
      exact .skip fun _ _ => .ok { ob with asks := a.1 } rfl rfl rfl
    · exact .skip fun b _ => .ok { ob with asks := b } rfl rfl rfl

theorem tight_fillBest (ob : Ob lst) (side : Side) (best : Leaf) (n : Nat) :
    Tight c ob.evs Ob.evs (Ob.fit c) (fillBest lst (ob.fit c) side best n) (fillBest lst ob side best n) := by
  unfold fillBest
  cases side with
  | bid =>
    refine .skip fun b _ => ?_
    refine .ite ?_ (.ok { ob with bids := b } rfl rfl rfl)
    refine .bind (tight_pushEv c { ob with bids := b } _) fun ob1 => ?_
    refine .skip fun a _ => ?_
    exact .skip fun _ _ => .ok { ob1 with bids := a.1 } rfl rfl rfl
  | ask =>
    refine .skip fun b _ => ?_
    refine .ite ?_ (.ok { ob with asks := b } rfl rfl rfl)
    refine .bind (tight_pushEv c { ob with asks := b } _) fun ob1 => ?_
    refine .skip fun a _ => ?_
    exact .skip fun _ _ => .ok { ob1 with asks := a.1 } rfl rfl rfl

theorem tight_askSelfTrade (ob : Ob lst) (p : IterParams) (best : Leaf) (price n : Nat) :
    Tight c ob.evs evs2 (fit2 c) (askSelfTrade lst (ob.fit c) p best price n) (askSelfTrade lst ob p best price n) := by
  unfold askSelfTrade
  refine .skip fun _ _ => ?_
  refine .bind (tight_pushEv c ob _) fun ob1 => ?_
  refine .bind (tight_shrinkBest c ob1 _ _ _) fun ob2 => ?_
  refine .bind (tight_pushEv c ob2 _) fun ob3 => ?_
  exact .skip fun pr _ => .ok ({ ob3 with pr }, _) rfl rfl rfl

theorem tight_newAsk (ob : Ob lst) (p : IterParams) :
    Tight c ob.evs evs2 (fit2 c) (newAsk lst (ob.fit c) p) (newAsk lst ob p) := by
  unfold newAsk
  refine .skip fun o _ => ?_
  cases o with
  | none => exact tight_askFinish c ob ..
  | some best =>
    refine .skip fun price _ => ?_
    refine .ite (tight_askFinish c ob ..) (.ite (tight_askFinish c ob ..) (.ite (tight_askSelfTrade c ob ..) ?_))
    refine .bind (tight_pushEv c ob _) fun ob1 => ?_
    refine .bind (tight_fillBest c ob1 _ _ _) fun ob2 => ?_
    exact tight_askFinish c ob2 ..

theorem tight_bidRelease (ob : Ob lst) (p : IterParams) (u k : Nat) :
    Tight c ob.evs Ob.evs (Ob.fit c) (bidRelease lst (ob.fit c) p u k) (bidRelease lst ob p u k) := by
  unfold bidRelease
  refine .ite (.ok ob rfl rfl rfl) ?_
  exact .skip fun pr _ => tight_pushEv c { ob with pr } _

theorem tight_bidRest (ob : Ob lst) (p : IterParams) (u v : Nat) (b : Bool) :
    Tight c ob.evs Ob.evs (Ob.fit c) (bidRest lst (ob.fit c) p u v b) (bidRest lst ob p u v b) := by
  unfold bidRest
  refine .bind (tight_bidRelease c ob p _ _) fun ob1 => ?_
  exact .ite (tight_postBid c ob1 ..) (.ok ob1 rfl rfl rfl)

theorem tight_bidFinish (ob : Ob lst) (p : IterParams) (u a r : Nat) (d b : Bool) :
    Tight c ob.evs evs2 (fit2 c) (bidFinish lst (ob.fit c) p u a r d b) (bidFinish lst ob p u a r d b) := by
  unfold bidFinish
  refine .bind (tight_bidSettle c ob p u a r) fun x => ?_
  obtain ⟨ob1, v⟩ := x
  refine .ite (.ok (ob1, _) rfl rfl rfl) ?_
  refine .bind (tight_bidRest c ob1 p _ _ b) fun ob2 => ?_
  exact .ok (ob2, _) rfl rfl rfl

theorem tight_bidSelfTrade (ob : Ob lst) (p : IterParams) (best : Leaf) (price n : Nat) :
    Tight c ob.evs evs2 (fit2 c) (bidSelfTrade lst (ob.fit c) p best price n) (bidSelfTrade lst ob p best price n) := by
  unfold bidSelfTrade
  refine .skip fun _ _ => ?_
  refine .bind (tight_pushEv c ob _) fun ob1 => ?_
  refine .bind (tight_shrinkBest c ob1 _ _ _) fun ob2 => ?_
  refine .skip fun pr _ => ?_
  refine .bind (tight_pushEv c { ob2 with pr } _) fun ob3 => ?_
  exact .ok (ob3, _) rfl rfl rfl

theorem tight_newBid (ob : Ob lst) (p : IterParams) :
    Tight c ob.evs evs2 (fit2 c) (newBid lst (ob.fit c) p) (newBid lst ob p) := by
  unfold newBid
  refine .skip fun _ _ => ?_
  refine .skip fun _ _ => ?_
  refine .skip fun o _ => ?_
  cases o with
  | none => exact tight_bidFinish c ob ..
  | some best =>
    refine .skip fun price _ => ?_
    refine .ite (tight_bidFinish c ob ..) (.ite (tight_bidFinish c ob ..) (.ite (tight_bidSelfTrade c ob ..) ?_))
    refine .bind (tight_pushEv c ob _) fun ob1 => ?_
    refine .bind (tight_fillBest c ob1 _ _ _) fun ob2 => ?_
    exact tight_bidFinish c ob2 ..

theorem tight_newOrderStep (ob : Ob lst) (o : OrderParams) (coin pc : Nat) (po : Bool) :
    Tight c ob.evs evs2 (fit2 c) (newOrderStep lst (ob.fit c) o coin pc po) (newOrderStep lst ob o coin pc po) := by
  unfold newOrderStep
  cases o.side with
  | bid => exact .skip fun _ _ => tight_newBid c ob _
  | ask => exact .skip fun _ _ => .skip fun _ _ => tight_newAsk c ob _

theorem tight_newOrderLoop (o : OrderParams) (limit : Nat) : ∀ (ob : Ob lst) (coin pc : Nat),
    Tight c ob.evs evs2 (fit2 c) (newOrderLoop lst o limit (ob.fit c) coin pc) (newOrderLoop lst o limit ob coin pc) := by
  induction limit with
  | zero =>
    intro ob coin pc
    unfold newOrderLoop
    refine .bind (tight_newOrderStep c ob o _ _ _) fun x => ?_
    exact .ok (x.1, x.2, 0) rfl rfl rfl
  | succ n ih =>
    intro ob coin pc
    unfold newOrderLoop
    refine .bind (tight_newOrderStep c ob o _ _ _) fun x => ?_
    obtain ⟨ob1, r⟩ := x
    cases r with
    | none => exact .ok (ob1, none, n) rfl rfl rfl
    | some r => exact ih ob1 _ _

theorem tight_cancelLeaf (ob : Ob lst) (l : Leaf) (side : Side) (oo : OpenOrders) (a id : Nat) :
    Tight c ob.evs evs2 (fit2 c) (cancelLeaf lst (ob.fit c) l side oo a id) (cancelLeaf lst ob l side oo a id) := by
  unfold cancelLeaf
  refine .ite .err ?_
  refine .skip fun _ _ => ?_
  refine .skip fun _ _ => ?_
  refine .skip fun _ _ => ?_
  refine .skip fun x _ => ?_
  refine .bind (tight_pushEv c ob _) fun ob1 => ?_
  exact .ok (ob1, _) rfl rfl rfl

theorem fit_setSide (ob : Ob lst) (side : Side) (b : LBook) :
    (ob.fit c).setSide lst side b = (ob.setSide lst side b).fit c := by
  cases side <;> rfl

theorem fit_side (ob : Ob lst) (side : Side) : (ob.fit c).side lst side = ob.side lst side := by
  cases side <;> rfl

theorem evs_setSide (ob : Ob lst) (side : Side) (b : LBook) : (ob.setSide lst side b).evs = ob.evs := by
  cases side <;> rfl

theorem tight_cancelOrderV2 (ob : Ob lst) (side : Side) (a : Nat) (oo : OpenOrders) (id : Nat) :
    Tight c ob.evs evs2 (fit2 c) (cancelOrderV2 lst (ob.fit c) side a oo id) (cancelOrderV2 lst ob side a oo id) := by
  unfold cancelOrderV2
  rw [fit_side]
  refine .skip fun x _ => ?_
  obtain ⟨b, l⟩ := x
  cases l with
  | none => exact .err
  | some l =>
    have := tight_cancelLeaf c (ob.setSide lst side b) l side oo a id
    rw [evs_setSide, ← fit_setSide] at this
    exact this

/-- Whether there is such an order has nothing to do with the queue. -/
theorem fit_notFound (ob : Ob lst) (side : Side) (a : Nat) (oo : OpenOrders) (id : Nat) :
    cancelOrderV2 lst (ob.fit c) side a oo id = .error .orderNotFound ↔
      cancelOrderV2 lst ob side a oo id = .error .orderNotFound := by
  unfold cancelOrderV2
  rw [fit_side]
  cases lst.remove (ob.side lst side) id with
  | error e => exact Iff.rfl
  | ok x =>
    obtain ⟨b, l⟩ := x
    cases l with
    | none => exact ⟨fun _ => rfl, fun _ => rfl⟩
    | some l => exact ⟨fun h => absurd h Embeds.cancelLeaf_found, fun h => absurd h Embeds.cancelLeaf_found⟩

theorem cancelMany_cons {I : Impl} (a : Nat) (id : Nat) (side : Side) (ids : List (Nat × Side)) (ob : Ob I) (oo : OpenOrders)
    (h : cancelOrderV2 I ob side a oo id ≠ .error .orderNotFound) : cancelMany I a ob oo ((id, side) :: ids) =
      cancelOrderV2 I ob side a oo id >>= fun y => cancelMany I a y.1 y.2 ids := by
  conv => lhs; unfold cancelMany
  cases hx : cancelOrderV2 I ob side a oo id with
  | ok y => rfl
  | error e => cases e <;> first | rfl | exact absurd hx h

theorem tight_cancelMany (a : Nat) (ids : List (Nat × Side)) : ∀ (ob : Ob lst) (oo : OpenOrders),
    Tight c ob.evs evs2 (fit2 c) (cancelMany lst a (ob.fit c) oo ids) (cancelMany lst a ob oo ids) := by
  induction ids with
  | nil => intro ob oo; exact .ok (ob, oo) rfl rfl rfl
  | cons e ids ih =>
    intro ob oo
    obtain ⟨id, side⟩ := e
    by_cases hnf : cancelOrderV2 lst ob side a oo id = .error .orderNotFound
    · have hnf' := (fit_notFound c ob side a oo id).2 hnf
      unfold cancelMany
      rw [hnf, hnf']
      exact ih ob oo
    · rw [cancelMany_cons _ _ _ _ _ _ hnf, cancelMany_cons _ _ _ _ _ _ fun h => hnf ((fit_notFound c ob side a oo id).1 h)]
      exact .bind (tight_cancelOrderV2 c ob side a oo id) fun x => ih x.1 x.2

theorem tight_cancelLeaves (side : Side) (a : Nat) (ls : List Leaf) : ∀ (ob : Ob lst) (oo : OpenOrders),
    Tight c ob.evs evs2 (fit2 c) (cancelLeaves lst side a (ob.fit c) oo ls) (cancelLeaves lst side a ob oo ls) := by
  induction ls with
  | nil => intro ob oo; exact .ok (ob, oo) rfl rfl rfl
  | cons l ls ih =>
    intro ob oo
    unfold cancelLeaves
    refine .skip fun id _ => ?_
    exact .bind (tight_cancelLeaf c ob l side oo a id) fun x => ih x.1 x.2

theorem tight_removeAll (ob : Ob lst) (a limit : Nat) :
    Tight c ob.evs evs2 (fit2 c) (removeAll lst (ob.fit c) a limit) (removeAll lst ob a limit) := by
  unfold removeAll
  refine .skip fun x _ => ?_
  refine .skip fun y _ => ?_
  exact .ok ({ ob with bids := x.1, asks := y.1 }, x.2, y.2) rfl rfl rfl

/-- The same with an event queue of length `c`. -/
abbrev State.fit (s : State lst) : State lst := { s with q := ⟨s.q.items, c⟩ }

/-- The number of events. -/
abbrev State.evs (s : State lst) : Nat := s.q.items.length

theorem tight_newOrderV3 (P : Params) (env : Env) (s : State lst) (accts : List AccMeta) (ix : NewOrderIx) :
    Tight c s.evs State.evs (State.fit c) (newOrderV3 lst P env (s.fit c) accts ix) (newOrderV3 lst P env s accts ix) := by
  unfold newOrderV3
  refine .skip fun a _ => ?_
  refine .skip fun x _ => ?_
  unfold newOrderExec
  refine .skip fun _ _ => ?_
  refine .skip fun _ _ => ?_
  refine .skip fun y _ => ?_
  refine .skip fun z _ => ?_
  refine .bind (tight_newOrderLoop c _ _ (s.ob lst y.1) _ _) fun r => ?_
  refine .skip fun _ _ => ?_
  refine .skip fun oo _ => ?_
  refine .skip fun toks _ => ?_
  exact .ok { s with
    mkt := r.1.mkt, seq := s.seq + 1, oos := setOo s.oos a.oo.key oo, toks := toks, bids := r.1.bids,
    asks := r.1.asks, q := r.1.q } rfl rfl rfl

theorem tight_sendTake (P : Params) (s : State lst) (accts : List AccMeta) (ix : SendTakeIx) :
    Tight c s.evs State.evs (State.fit c) (sendTake lst P (s.fit c) accts ix) (sendTake lst P s accts ix) := by
  unfold sendTake
  refine .skip fun a _ => ?_
  refine .skip fun tier _ => ?_
  unfold sendTakeExec
  refine .bind (tight_newOrderLoop c _ _ (s.ob lst s.mkt) _ _) fun r => ?_
  refine .skip fun _ _ => ?_
  refine .skip fun x _ => ?_
  refine .skip fun toks _ => ?_
  exact .ok { s with
    mkt := x.1, seq := s.seq + 1, toks := toks, bids := r.1.bids, asks := r.1.asks, q := r.1.q } rfl rfl rfl

theorem tight_cancelV2 (env : Env) (s : State lst) (accts : List AccMeta) (side : Side) (id : Nat) :
    Tight c s.evs State.evs (State.fit c) (cancelV2 lst env (s.fit c) accts side id) (cancelV2 lst env s accts side id) := by
  unfold cancelV2
  refine .skip fun a _ => ?_
  refine .skip fun oo _ => ?_
  refine .bind (tight_cancelOrderV2 c (s.ob lst s.mkt) side a.oo.key oo id) fun x => ?_
  exact .ok (s.back lst x.1 a.oo.key x.2) rfl rfl rfl

theorem tight_cancelByClientIdV2 (env : Env) (s : State lst) (accts : List AccMeta) (cid : Nat) :
    Tight c s.evs State.evs (State.fit c) (cancelByClientIdV2 lst env (s.fit c) accts cid)
      (cancelByClientIdV2 lst env s accts cid) := by
  unfold cancelByClientIdV2
  refine .skip fun a _ => ?_
  refine .skip fun _ _ => ?_
  refine .skip fun oo _ => ?_
  refine .skip fun y _ => ?_
  refine .bind (tight_cancelOrderV2 c (s.ob lst s.mkt) y.2 a.oo.key oo y.1) fun x => ?_
  exact .ok (s.back lst x.1 a.oo.key x.2) rfl rfl rfl

theorem tight_cancelByClientIds (env : Env) (s : State lst) (accts : List AccMeta) (cids : List Nat) :
    Tight c s.evs State.evs (State.fit c) (cancelByClientIds lst env (s.fit c) accts cids)
      (cancelByClientIds lst env s accts cids) := by
  unfold cancelByClientIds
  refine .skip fun a _ => ?_
  refine .skip fun oo _ => ?_
  refine .bind (tight_cancelMany c a.oo.key _ (s.ob lst s.mkt) oo) fun x => ?_
  exact .ok (s.back lst x.1 a.oo.key x.2) rfl rfl rfl

theorem tight_newOrders (P : Params) (env : Env) (accts : List AccMeta) (ixs : List NewOrderIx) : ∀ s : State lst,
    Tight c s.evs State.evs (State.fit c) (newOrders lst P env (s.fit c) accts ixs) (newOrders lst P env s accts ixs) := by
  induction ixs with
  | nil => intro s; exact .ok s rfl rfl rfl
  | cons ix ixs ih =>
    intro s
    unfold newOrders
    exact .bind (tight_newOrderV3 c P env s accts ix) fun s => ih s

theorem tight_replaceOrders (P : Params) (env : Env) (s : State lst) (accts : List AccMeta) (ixs : List NewOrderIx) :
    Tight c s.evs State.evs (State.fit c) (replaceOrders lst P env (s.fit c) accts ixs)
      (replaceOrders lst P env s accts ixs) := by
  unfold replaceOrders
  refine .skip fun a _ => ?_
  exact .bind (tight_cancelByClientIds c env s a _) fun s => tight_newOrders c P env accts ixs s

theorem tight_prune (env : Env) (s : State lst) (accts : List AccMeta) (limit : Nat) :
    Tight c s.evs State.evs (State.fit c) (prune lst env (s.fit c) accts limit) (prune lst env s accts limit) := by
  unfold prune
  split
  · rename_i oo _ _
    refine .skip fun _ _ => ?_
    refine .skip fun _ _ => ?_
    refine .skip fun _ _ => ?_
    refine .skip fun o _ => ?_
    refine .skip fun _ _ => ?_
    refine .skip fun _ _ => ?_
    refine .skip fun _ _ => ?_
    refine .bind (tight_removeAll c (s.ob lst s.mkt) oo.key limit) fun x => ?_
    refine .bind (tight_cancelLeaves c .bid oo.key _ x.1 o) fun y => ?_
    refine .bind (tight_cancelLeaves c .ask oo.key _ y.1 y.2) fun z => ?_
    exact .ok (s.back lst z.1 oo.key z.2) rfl rfl rfl
  · exact .err

theorem tight_settleFunds (P : Params) (env : Env) (s : State lst) (accts : List AccMeta) :
    Tight c s.evs State.evs (State.fit c) (settleFunds lst P env (s.fit c) accts) (settleFunds lst P env s accts) := by
  unfold settleFunds
  refine .skip fun a _ => ?_
  refine .skip fun oo _ => ?_
  unfold settleExec
  refine .skip fun ct _ => ?_
  refine .skip fun pt _ => ?_
  refine .skip fun _ _ => ?_
  refine .skip fun _ _ => ?_
  refine .skip fun x _ => ?_
  exact .ok { s with
    mkt := { x.1 with referrerRebates := wsub x.1.referrerRebates oo.rebates }
    oos := setOo s.oos a.oo.key { oo with coinFree := 0, pcFree := 0, coinTotal := ct, pcTotal := pt, rebates := 0 }
    toks := x.2 } rfl rfl rfl

theorem tight_disableMarket (P : Params) (s : State lst) (accts : List AccMeta) :
    Tight c s.evs State.evs (State.fit c) (disableMarket lst P (s.fit c) accts) (disableMarket lst P s accts) := by
  unfold disableMarket
  split
  · refine .skip fun _ _ => ?_
    refine .skip fun _ _ => ?_
    refine .skip fun _ _ => ?_
    exact .ok { s with mkt := { s.mkt with flags := s.mkt.flags ||| 128 } } rfl rfl rfl
  · exact .err

theorem tight_sweepFees (P : Params) (s : State lst) (accts : List AccMeta) :
    Tight c s.evs State.evs (State.fit c) (sweepFees lst P (s.fit c) accts) (sweepFees lst P s accts) := by
  unfold sweepFees
  split
  · iterate 7 refine .skip fun _ _ => ?_
    refine .skip fun l _ => ?_
    exact .ok { s with mkt := { s.mkt with pcFees := 0 }, toks := l } rfl rfl rfl
  · exact .err

theorem tight_closeOpenOrders (env : Env) (s : State lst) (accts : List AccMeta) :
    Tight c s.evs State.evs (State.fit c) (closeOpenOrders lst env (s.fit c) accts) (closeOpenOrders lst env s accts) := by
  unfold closeOpenOrders
  split
  · rename_i oo _ _ _
    refine .skip fun _ _ => ?_
    refine .skip fun _ _ => ?_
    refine .skip fun o _ => ?_
    refine .skip fun _ _ => ?_
    exact .ok { s with oos := setOo s.oos oo.key { o with closed := true } } rfl rfl rfl
  · exact .err

theorem tight_initOpenOrders (env : Env) (s : State lst) (accts : List AccMeta) :
    Tight c s.evs State.evs (State.fit c) (initOpenOrders lst env (s.fit c) accts) (initOpenOrders lst env s accts) := by
  unfold initOpenOrders
  split
  · rename_i oo _ _ _ _
    refine .ite ?_ .err
    refine .skip fun _ _ => ?_
    refine .skip fun _ _ => ?_
    refine .skip fun _ _ => ?_
    refine .skip fun o _ => ?_
    exact .ok { s with oos := setOo s.oos oo.key o } rfl rfl rfl
  · exact .err

/-- Any instruction but the crank's. -/
theorem tight_process (P : Params) (env : Env) (s : State lst) (accts : List AccMeta) (ix : Instruction)
    (hc : ix.isCrank = false) :
    Tight c s.evs State.evs (State.fit c) (process lst P env (s.fit c) accts ix) (process lst P env s accts ix) := by
  cases ix with
  | consumeEvents => cases hc
  | consumeEventsPermissioned => cases hc
  | initializeMarket => exact .err
  | newOrder => exact .err
  | matchOrders => exact .ok s rfl rfl rfl
  | cancelOrder => exact .err
  | settleFunds => exact tight_settleFunds c ..
  | cancelOrderByClientId => exact .err
  | disableMarket => exact tight_disableMarket c ..
  | sweepFees => exact tight_sweepFees c ..
  | newOrderV2 => exact .err
  | newOrderV3 => exact tight_newOrderV3 c ..
  | cancelOrderV2 => exact tight_cancelV2 c ..
  | cancelOrderByClientIdV2 => exact tight_cancelByClientIdV2 c ..
  | sendTake => exact tight_sendTake c ..
  | closeOpenOrders => exact tight_closeOpenOrders c ..
  | initOpenOrders => exact tight_initOpenOrders c ..
  | prune => exact tight_prune c ..
  | cancelOrdersByClientIds => exact tight_cancelByClientIds c ..
  | replaceOrderByClientId => exact tight_replaceOrders c ..
  | replaceOrdersByClientIds => exact tight_replaceOrders c ..

end

end Serum
