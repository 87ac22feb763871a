import Verif.Matching

/-
Simulation between two implementations of the book sides and the event queue: the matching engine
run on related structures gives related results and the same errors.
-/

namespace Serum

/-- Results related by `R`, or the same error. -/
def Sim {α β : Type} (R : α → β → Prop) : Except Err α → Except Err β → Prop
  | .ok a, .ok b => R a b
  | .error e, .error f => e = f
  | _, _ => False

/-- Both absent, or present and related. -/
def OSim {α β : Type} (R : α → β → Prop) : Option α → Option β → Prop
  | some a, some b => R a b
  | none, none => True
  | _, _ => False

namespace Sim
variable {α β γ δ : Type}

theorem bind {R : α → β → Prop} {S : γ → δ → Prop} {x : Except Err α} {y : Except Err β}
    {f : α → Except Err γ} {g : β → Except Err δ} (h : Sim R x y)
    (hf : ∀ a b, R a b → Sim S (f a) (g b)) : Sim S (x >>= f) (y >>= g) := by
  cases x <;> cases y <;> simp [Sim] at h
  · subst h; simp [Bind.bind, Except.bind, Sim]
  · exact hf _ _ h

theorem refl {x : Except Err α} : Sim (· = ·) x x := by cases x <;> simp [Sim]

theorem of_eq {x y : Except Err α} (h : x = y) : Sim (· = ·) x y := h ▸ refl

theorem ite {R : α → β → Prop} {c : Prop} [Decidable c] {x x' : Except Err α} {y y' : Except Err β}
    (h : Sim R x y) (h' : Sim R x' y') : Sim R (if c then x else x') (if c then y else y') := by
  split <;> assumption

theorem mono {R S : α → β → Prop} {x : Except Err α} {y : Except Err β} (h : Sim R x y)
    (hrs : ∀ a b, R a b → S a b) : Sim S x y := by
  cases x <;> cases y <;> simp [Sim] at h ⊢
  · exact h
  · exact hrs _ _ h

theorem ok_right {R : α → β → Prop} {x : Except Err α} {y : Except Err β} (h : Sim R x y) {a : α}
    (e : x = .ok a) : ∃ b, y = .ok b ∧ R a b := by
  subst e
  cases y with
  | error => cases h
  | ok b => exact ⟨b, rfl, h⟩

theorem error_right {R : α → β → Prop} {x : Except Err α} {y : Except Err β} (h : Sim R x y) {e : Err}
    (he : x = .error e) : y = .error e := by
  subst he
  cases y with
  | error => simp [Sim] at h; rw [h]
  | ok b => cases h

theorem ok_left {R : α → β → Prop} {x : Except Err α} {y : Except Err β} (h : Sim R x y) {b : β}
    (e : y = .ok b) : ∃ a, x = .ok a ∧ R a b := by
  subst e
  cases x with
  | error => cases h
  | ok b => exact ⟨b, rfl, h⟩

end Sim

/-- Implementation `J` reproduces implementation `I`. -/
structure Refines (I J : Impl) where
  RB : I.Book → J.Book → Prop
  RQ : I.Q → J.Q → Prop
  best {b c} (side : Side) : RB b c → Sim (· = ·) (I.best side b) (J.best side c)
  setBest {b c} (side : Side) (q : Nat) : RB b c → Sim RB (I.setBest side b q) (J.setBest side c q)
  remove {b c} (k : Nat) : RB b c →
    Sim (fun x y => RB x.1 y.1 ∧ x.2 = y.2) (I.remove b k) (J.remove c k)
  insert {b c} (l : Leaf) : l.key < 2 ^ 128 → RB b c →
    Sim (fun x y => RB x.1 y.1 ∧ x.2 = y.2) (I.insert b l) (J.insert c l)
  evict {b c} (side : Side) : RB b c →
    Sim (fun x y => RB x.1 y.1 ∧ x.2 = y.2) (I.evict side b) (J.evict side c)
  findBy {b c} (n : Nat) (p : Leaf → Bool) : RB b c → I.findBy b n p = J.findBy c n p
  push {q r} (e : Event) : RQ q r → OSim RQ (I.push q e) (J.push r e)
  peek {q r} : RQ q r → I.peek q = J.peek r
  /-- Whether the relation survives removing events. Only the crank needs this, so a relation that
  holds while events are added can be followed through everything else. -/
  canPop : Prop := True
  pop {q r} : canPop → RQ q r → OSim RQ (I.pop q) (J.pop r)

namespace Refines
variable {I J : Impl} (F : Refines I J)

/-- Related engine states. -/
structure RO (s : Ob I) (t : Ob J) : Prop where
  bids : F.RB s.bids t.bids
  asks : F.RB s.asks t.asks
  q : F.RQ s.q t.q
  mkt : s.mkt = t.mkt
  pr : s.pr = t.pr

/-- Related results of an engine call. -/
def RR {α : Type} (x : Ob I × α) (y : Ob J × α) : Prop := F.RO x.1 y.1 ∧ x.2 = y.2

variable {F}

theorem sim_pushEv {s : Ob I} {t : Ob J} (h : F.RO s t) (v : EventView) :
    Sim F.RO (pushEv I s v) (pushEv J t v) := by
  unfold pushEv
  have := F.push (Event.new v) h.q
  cases h1 : I.push s.q (Event.new v) <;> cases h2 : J.push t.q (Event.new v) <;>
    simp [h1, h2, OSim] at this
  · rfl
  · exact ⟨h.bids, h.asks, this, h.mkt, h.pr⟩

theorem sim_pushIf {s : Ob I} {t : Ob J} (h : F.RO s t) (c : Bool) (v : EventView) :
    Sim F.RO (pushIf I c s v) (pushIf J c t v) := by
  unfold pushIf
  exact Sim.ite (sim_pushEv h v) h

theorem sim_unwrap {α : Type} (o : Option α) : Sim (· = ·) (unwrap o) (unwrap o) := Sim.refl

theorem sim_postAsk {s : Ob I} {t : Ob J} (h : F.RO s t) (p : IterParams) (hk : p.orderId < 2 ^ 128)
    (qty : Nat) : Sim F.RO (postAsk I s p qty) (postAsk J t p qty) := by
  obtain ⟨b, a, q, m, pr⟩ := s
  obtain ⟨b', a', q', m', pr'⟩ := t
  obtain ⟨hb, ha, hq, rfl, rfl⟩ := h
  unfold postAsk
  refine (F.insert _ hk ha).bind ?_
  rintro ⟨x, b1⟩ ⟨y, b2⟩ ⟨hx, rfl⟩
  cases b1 with
  | true => exact ⟨hb, hx, hq, rfl, rfl⟩
  | false =>
    refine (F.evict .ask hx).bind ?_
    rintro ⟨x, l⟩ ⟨y, l'⟩ ⟨hx, rfl⟩
    refine (sim_unwrap l).bind ?_
    rintro l _ rfl
    refine Sim.bind (R := F.RO) (sim_pushEv ?_ _) ?_
    · exact ⟨hb, hx, hq, rfl, rfl⟩
    rintro s t h
    refine (F.insert _ hk h.asks).bind ?_
    rintro ⟨x, b1⟩ ⟨y, b2⟩ ⟨hx, rfl⟩
    refine Sim.refl.bind ?_
    rintro _ _ rfl
    exact ⟨h.bids, hx, h.q, h.mkt, h.pr⟩

theorem sim_postBid {s : Ob I} {t : Ob J} (h : F.RO s t) (p : IterParams) (hk : p.orderId < 2 ^ 128)
    (qty : Nat) : Sim F.RO (postBid I s p qty) (postBid J t p qty) := by
  obtain ⟨b, a, q, m, pr⟩ := s
  obtain ⟨b', a', q', m', pr'⟩ := t
  obtain ⟨hb, ha, hq, rfl, rfl⟩ := h
  unfold postBid
  refine (F.insert _ hk hb).bind ?_
  rintro ⟨x, b1⟩ ⟨y, b2⟩ ⟨hx, rfl⟩
  cases b1 with
  | true => exact ⟨hx, ha, hq, rfl, rfl⟩
  | false =>
    refine (F.evict .bid hx).bind ?_
    rintro ⟨x, l⟩ ⟨y, l'⟩ ⟨hx, rfl⟩
    refine (sim_unwrap l).bind ?_
    rintro l _ rfl
    refine Sim.refl.bind ?_
    rintro price _ rfl
    refine Sim.bind (R := F.RO) (sim_pushEv ?_ _) ?_
    · exact ⟨hx, ha, hq, rfl, rfl⟩
    rintro s t h
    refine (F.insert _ hk h.bids).bind ?_
    rintro ⟨x, b1⟩ ⟨y, b2⟩ ⟨hx, rfl⟩
    refine Sim.refl.bind ?_
    rintro _ _ rfl
    exact ⟨hx, h.asks, h.q, h.mkt, h.pr⟩

theorem sim_askSettle {s : Ob I} {t : Ob J} (h : F.RO s t) (p : IterParams) (u a r : Nat) :
    Sim F.RO (askSettle I s p u a r) (askSettle J t p u a r) := by
  obtain ⟨b, a, q, m, pr⟩ := s
  obtain ⟨b', a', q', m', pr'⟩ := t
  obtain ⟨hb, ha, hq, rfl, rfl⟩ := h
  unfold askSettle
  refine Sim.refl.bind ?_
  rintro pr _ rfl
  refine Sim.refl.bind ?_
  rintro pr _ rfl
  refine Sim.bind (R := F.RO) (sim_pushIf ?_ _ _) ?_
  · exact ⟨hb, ha, hq, rfl, rfl⟩
  rintro ⟨b, a, q, m, pr⟩ ⟨b', a', q', m', pr'⟩ ⟨hb, ha, hq, rfl, rfl⟩
  exact ⟨hb, ha, hq, rfl, rfl⟩

theorem sim_askRest {s : Ob I} {t : Ob J} (h : F.RO s t) (p : IterParams) (hk : p.orderId < 2 ^ 128)
    (u : Nat) (c : Bool) : Sim F.RO (askRest I s p u c) (askRest J t p u c) := by
  unfold askRest
  refine Sim.ite ?_ (Sim.ite h ?_)
  · refine Sim.refl.bind ?_
    rintro _ _ rfl
    exact sim_postAsk h p hk _
  · simp only [h.mkt, h.pr]
    refine Sim.refl.bind ?_
    rintro _ _ rfl
    refine sim_pushEv ?_ _
    exact ⟨h.bids, h.asks, h.q, rfl, rfl⟩

theorem sim_askFinish {s : Ob I} {t : Ob J} (h : F.RO s t) (p : IterParams) (hk : p.orderId < 2 ^ 128)
    (u a r : Nat) (d c : Bool) : Sim F.RR (askFinish I s p u a r d c) (askFinish J t p u a r d c) := by
  unfold askFinish
  refine (sim_askSettle h p u a r).bind ?_
  intro s t h
  refine Sim.ite ⟨h, rfl⟩ ?_
  refine (sim_askRest h p hk u c).bind ?_
  intro s t h
  exact ⟨h, rfl⟩

theorem sim_shrinkBest {s : Ob I} {t : Ob J} (h : F.RO s t) (side : Side) (id rest : Nat) :
    Sim F.RO (shrinkBest I s side id rest) (shrinkBest J t side id rest) := by
  unfold shrinkBest
  cases side with
  | bid =>
    refine Sim.ite ?_ ?_
    · refine (F.remove id h.bids).bind ?_
      rintro ⟨x, l⟩ ⟨y, l'⟩ ⟨hx, rfl⟩
      refine Sim.refl.bind ?_
      rintro _ _ rfl
      exact ⟨hx, h.asks, h.q, h.mkt, h.pr⟩
    · refine (F.setBest _ _ h.bids).bind ?_
      intro x y hx
      exact ⟨hx, h.asks, h.q, h.mkt, h.pr⟩
  | ask =>
    refine Sim.ite ?_ ?_
    · refine (F.remove id h.asks).bind ?_
      rintro ⟨x, l⟩ ⟨y, l'⟩ ⟨hx, rfl⟩
      refine Sim.refl.bind ?_
      rintro _ _ rfl
      exact ⟨h.bids, hx, h.q, h.mkt, h.pr⟩
    · refine (F.setBest _ _ h.asks).bind ?_
      intro x y hx
      exact ⟨h.bids, hx, h.q, h.mkt, h.pr⟩

theorem sim_fillBest {s : Ob I} {t : Ob J} (h : F.RO s t) (side : Side) (best : Leaf) (n : Nat) :
    Sim F.RO (fillBest I s side best n) (fillBest J t side best n) := by
  unfold fillBest
  cases side with
  | bid =>
    refine (F.setBest _ _ h.bids).bind ?_
    intro x y hx
    have h' : F.RO { s with bids := x } { t with bids := y } := ⟨hx, h.asks, h.q, h.mkt, h.pr⟩
    refine Sim.ite ?_ h'
    refine (sim_pushEv h' _).bind ?_
    intro s t h
    refine (F.remove _ h.bids).bind ?_
    rintro ⟨x, l⟩ ⟨y, l'⟩ ⟨hx, rfl⟩
    refine Sim.refl.bind ?_
    rintro _ _ rfl
    exact ⟨hx, h.asks, h.q, h.mkt, h.pr⟩
  | ask =>
    refine (F.setBest _ _ h.asks).bind ?_
    intro x y hx
    have h' : F.RO { s with asks := x } { t with asks := y } := ⟨h.bids, hx, h.q, h.mkt, h.pr⟩
    refine Sim.ite ?_ h'
    refine (sim_pushEv h' _).bind ?_
    intro s t h
    refine (F.remove _ h.asks).bind ?_
    rintro ⟨x, l⟩ ⟨y, l'⟩ ⟨hx, rfl⟩
    refine Sim.refl.bind ?_
    rintro _ _ rfl
    exact ⟨h.bids, hx, h.q, h.mkt, h.pr⟩

theorem sim_askSelfTrade {s : Ob I} {t : Ob J} (h : F.RO s t) (p : IterParams) (best : Leaf)
    (price n : Nat) : Sim F.RR (askSelfTrade I s p best price n) (askSelfTrade J t p best price n) := by
  unfold askSelfTrade
  refine Sim.refl.bind ?_
  rintro ⟨x, y⟩ _ rfl
  simp only [h.mkt]
  refine (sim_pushEv h _).bind ?_
  intro s t h
  refine (sim_shrinkBest h _ _ _).bind ?_
  intro s t h
  simp only [h.mkt]
  refine (sim_pushEv h _).bind ?_
  intro s t h
  simp only [h.pr]
  refine Sim.refl.bind ?_
  rintro _ _ rfl
  exact ⟨⟨h.bids, h.asks, h.q, h.mkt, rfl⟩, rfl⟩

theorem sim_newAsk {s : Ob I} {t : Ob J} (h : F.RO s t) (p : IterParams) (hk : p.orderId < 2 ^ 128) :
    Sim F.RR (newAsk I s p) (newAsk J t p) := by
  unfold newAsk
  refine (F.best _ h.bids).bind ?_
  rintro o _ rfl
  cases o with
  | none => exact sim_askFinish h p hk ..
  | some best =>
    refine Sim.refl.bind ?_
    rintro price _ rfl
    refine Sim.ite (sim_askFinish h p hk ..) (Sim.ite (sim_askFinish h p hk ..)
      (Sim.ite (sim_askSelfTrade h ..) ?_))
    simp only [h.mkt]
    refine (sim_pushEv h _).bind ?_
    intro s t h
    refine (sim_fillBest h _ _ _).bind ?_
    intro s t h
    exact sim_askFinish h p hk ..

theorem sim_bidSettle {s : Ob I} {t : Ob J} (h : F.RO s t) (p : IterParams) (u a r : Nat) :
    Sim F.RR (bidSettle I s p u a r) (bidSettle J t p u a r) := by
  obtain ⟨b, a, q, m, pr⟩ := s
  obtain ⟨b', a', q', m', pr'⟩ := t
  obtain ⟨hb, ha, hq, rfl, rfl⟩ := h
  unfold bidSettle
  refine Sim.refl.bind ?_
  rintro pr _ rfl
  refine Sim.refl.bind ?_
  rintro pr _ rfl
  refine Sim.bind (R := F.RO) (sim_pushIf ?_ _ _) ?_
  · exact ⟨hb, ha, hq, rfl, rfl⟩
  rintro ⟨b, a, q, m, pr⟩ ⟨b', a', q', m', pr'⟩ ⟨hb, ha, hq, rfl, rfl⟩
  exact ⟨⟨hb, ha, hq, rfl, rfl⟩, rfl⟩

theorem sim_bidRelease {s : Ob I} {t : Ob J} (h : F.RO s t) (p : IterParams) (u k : Nat) :
    Sim F.RO (bidRelease I s p u k) (bidRelease J t p u k) := by
  unfold bidRelease
  refine Sim.ite h ?_
  simp only [h.mkt, h.pr]
  refine Sim.refl.bind ?_
  rintro _ _ rfl
  refine sim_pushEv ?_ _
  exact ⟨h.bids, h.asks, h.q, rfl, rfl⟩

theorem sim_bidRest {s : Ob I} {t : Ob J} (h : F.RO s t) (p : IterParams) (hk : p.orderId < 2 ^ 128)
    (u v : Nat) (c : Bool) : Sim F.RO (bidRest I s p u v c) (bidRest J t p u v c) := by
  unfold bidRest
  simp only [h.mkt]
  refine (sim_bidRelease h p _ _).bind ?_
  intro s t h
  exact Sim.ite (sim_postBid h p hk _) h

theorem sim_bidFinish {s : Ob I} {t : Ob J} (h : F.RO s t) (p : IterParams) (hk : p.orderId < 2 ^ 128)
    (u a r : Nat) (d c : Bool) : Sim F.RR (bidFinish I s p u a r d c) (bidFinish J t p u a r d c) := by
  unfold bidFinish
  refine (sim_bidSettle h p u a r).bind ?_
  rintro ⟨s, n⟩ ⟨t, _⟩ ⟨h, rfl⟩
  refine Sim.ite ⟨h, rfl⟩ ?_
  refine (sim_bidRest h p hk _ _ c).bind ?_
  intro s t h
  exact ⟨h, rfl⟩

theorem sim_bidSelfTrade {s : Ob I} {t : Ob J} (h : F.RO s t) (p : IterParams) (best : Leaf)
    (price n : Nat) : Sim F.RR (bidSelfTrade I s p best price n) (bidSelfTrade J t p best price n) := by
  unfold bidSelfTrade
  refine Sim.refl.bind ?_
  rintro ⟨x, y⟩ _ rfl
  simp only [h.mkt]
  refine (sim_pushEv h _).bind ?_
  intro s t h
  refine (sim_shrinkBest h _ _ _).bind ?_
  rintro ⟨b, a, q, m, pr⟩ ⟨b', a', q', m', pr'⟩ ⟨hb, ha, hq, rfl, rfl⟩
  refine Sim.refl.bind ?_
  rintro _ _ rfl
  refine Sim.bind (R := F.RO) (sim_pushEv ?_ _) ?_
  · exact ⟨hb, ha, hq, rfl, rfl⟩
  intro s t h
  exact ⟨h, rfl⟩

theorem sim_newBid {s : Ob I} {t : Ob J} (h : F.RO s t) (p : IterParams) (hk : p.orderId < 2 ^ 128) :
    Sim F.RR (newBid I s p) (newBid J t p) := by
  unfold newBid
  refine Sim.bind (R := (· = ·)) Sim.refl ?_
  rintro _ _ rfl
  simp only [h.mkt]
  refine Sim.refl.bind ?_
  rintro _ _ rfl
  refine (F.best _ h.asks).bind ?_
  rintro o _ rfl
  cases o with
  | none => exact sim_bidFinish h p hk ..
  | some best =>
    refine Sim.refl.bind ?_
    rintro price _ rfl
    refine Sim.ite (sim_bidFinish h p hk ..) (Sim.ite (sim_bidFinish h p hk ..)
      (Sim.ite (sim_bidSelfTrade h ..) ?_))
    refine (sim_pushEv h _).bind ?_
    intro s t h
    refine (sim_fillBest h _ _ _).bind ?_
    intro s t h
    exact sim_bidFinish h p hk ..

theorem sim_newOrderStep {s : Ob I} {t : Ob J} (h : F.RO s t) (o : OrderParams)
    (hk : o.orderId < 2 ^ 128) (c pc : Nat) (po : Bool) :
    Sim F.RR (newOrderStep I s o c pc po) (newOrderStep J t o c pc po) := by
  unfold newOrderStep
  cases o.side with
  | bid =>
    refine Sim.refl.bind ?_
    rintro _ _ rfl
    exact sim_newBid h _ hk
  | ask =>
    refine Sim.refl.bind ?_
    rintro _ _ rfl
    refine Sim.refl.bind ?_
    rintro _ _ rfl
    exact sim_newAsk h _ hk

theorem sim_newOrderLoop (o : OrderParams) (hk : o.orderId < 2 ^ 128) (limit : Nat) :
    ∀ {s : Ob I} {t : Ob J}, F.RO s t → ∀ c pc : Nat,
      Sim F.RR (newOrderLoop I o limit s c pc) (newOrderLoop J o limit t c pc) := by
  induction limit with
  | zero =>
    intro s t h c pc
    unfold newOrderLoop
    refine (sim_newOrderStep h o hk _ _ _).bind ?_
    rintro ⟨x, r⟩ ⟨y, r'⟩ ⟨hx, rfl⟩
    exact ⟨hx, rfl⟩
  | succ n ih =>
    intro s t h c pc
    unfold newOrderLoop
    refine (sim_newOrderStep h o hk _ _ _).bind ?_
    rintro ⟨x, r⟩ ⟨y, r'⟩ ⟨hx, rfl⟩
    cases r with
    | none => exact ⟨hx, rfl⟩
    | some r => exact ih hx _ _

theorem sim_newOrder {s : Ob I} {t : Ob J} (h : F.RO s t) (o : OrderParams)
    (hk : o.orderId < 2 ^ 128) (limit : Nat) :
    Sim F.RR (newOrder I s o limit) (newOrder J t o limit) := sim_newOrderLoop o hk limit h _ _

theorem RO.side {s : Ob I} {t : Ob J} (h : F.RO s t) (side : Side) :
    F.RB (s.side I side) (t.side J side) := by
  cases side
  · exact h.bids
  · exact h.asks

theorem RO.setSide {s : Ob I} {t : Ob J} (h : F.RO s t) (side : Side) {b : I.Book} {c : J.Book}
    (hb : F.RB b c) : F.RO (s.setSide I side b) (t.setSide J side c) := by
  cases side
  · exact ⟨hb, h.asks, h.q, h.mkt, h.pr⟩
  · exact ⟨h.bids, hb, h.q, h.mkt, h.pr⟩

theorem sim_cancelLeaf {s : Ob I} {t : Ob J} (h : F.RO s t) (l : Leaf) (side : Side) (oo : OpenOrders)
    (a id : Nat) : Sim F.RR (cancelLeaf I s l side oo a id) (cancelLeaf J t l side oo a id) := by
  unfold cancelLeaf
  simp only [h.mkt]
  refine Sim.ite rfl ?_
  refine Sim.refl.bind ?_
  rintro _ _ rfl
  refine Sim.refl.bind ?_
  rintro _ _ rfl
  refine Sim.refl.bind ?_
  rintro _ _ rfl
  refine Sim.bind (R := (· = ·)) Sim.refl ?_
  rintro ⟨n, oo⟩ _ rfl
  refine (sim_pushEv h _).bind ?_
  intro s t h
  exact ⟨h, rfl⟩

theorem sim_cancelOrderV2 {s : Ob I} {t : Ob J} (h : F.RO s t) (side : Side) (a : Nat)
    (oo : OpenOrders) (id : Nat) :
    Sim F.RR (cancelOrderV2 I s side a oo id) (cancelOrderV2 J t side a oo id) := by
  unfold cancelOrderV2
  refine (F.remove _ (h.side side)).bind ?_
  rintro ⟨x, l⟩ ⟨y, l'⟩ ⟨hx, rfl⟩
  cases l with
  | none => rfl
  | some l => exact sim_cancelLeaf (h.setSide side hx) ..

theorem sim_removeKeys (ks : List Nat) : ∀ {b : I.Book} {c : J.Book}, F.RB b c →
    Sim (fun x y => F.RB x.1 y.1 ∧ x.2 = y.2) (removeKeys I b ks) (removeKeys J c ks) := by
  induction ks with
  | nil => intro b c h; exact ⟨h, rfl⟩
  | cons k ks ih =>
    intro b c h
    unfold removeKeys
    refine (F.remove _ h).bind ?_
    rintro ⟨x, l⟩ ⟨y, l'⟩ ⟨hx, rfl⟩
    refine (ih hx).bind ?_
    rintro ⟨x, ls⟩ ⟨y, ls'⟩ ⟨hx, rfl⟩
    exact ⟨hx, rfl⟩

theorem sim_removeAll {s : Ob I} {t : Ob J} (h : F.RO s t) (a limit : Nat) :
    Sim F.RR (removeAll I s a limit) (removeAll J t a limit) := by
  unfold removeAll
  rw [F.findBy _ _ h.asks]
  cases J.findBy t.asks limit (fun l => l.owner == a) with
  | mk ks n =>
  show Sim F.RR (removeKeys I s.bids (I.findBy s.bids n (fun l => l.owner == a)).1 >>= _)
    (removeKeys J t.bids (J.findBy t.bids n (fun l => l.owner == a)).1 >>= _)
  rw [F.findBy _ _ h.bids]
  refine (sim_removeKeys _ h.bids).bind ?_
  rintro ⟨x, ls⟩ ⟨y, ls'⟩ ⟨hx, rfl⟩
  refine (sim_removeKeys _ h.asks).bind ?_
  rintro ⟨x', ls⟩ ⟨y', ls'⟩ ⟨hx', rfl⟩
  exact ⟨⟨hx, hx', h.q, h.mkt, h.pr⟩, rfl⟩

end Refines
end Serum
