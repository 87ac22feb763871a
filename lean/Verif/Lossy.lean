import Verif.Live

/-
An engine call with less room in the event queue, and for an order that aborts on meeting its own side, goes as the
same call with more room and without aborting, or fails with `EventQueueFull` or `WouldSelfTrade`.
-/

namespace Serum

/-- The two failures of the engine that are not crashes. -/
def Tame (e : Err) : Prop := e = .eventQueueFull ∨ e = .wouldSelfTrade

/-- The left goes as the right, or fails tamely. -/
def Loss {α β : Type} (R : α → β → Prop) : Except Err α → Except Err β → Prop
  | .ok a, .ok b => R a b
  | .error e, .error f => e = f ∨ Tame e
  | .error e, .ok _ => Tame e
  | .ok _, .error _ => False

namespace Loss
variable {α β γ δ : Type}

theorem bind {R : α → β → Prop} {S : γ → δ → Prop} {x : Except Err α} {y : Except Err β}
    {f : α → Except Err γ} {g : β → Except Err δ} (h : Loss R x y)
    (hf : ∀ a b, R a b → Loss S (f a) (g b)) : Loss S (x >>= f) (y >>= g) := by
  cases x with
  | error e =>
    cases y with
    | error f => exact h
    | ok b =>
      show Loss S (.error e) (g b)
      cases g b with
      | error _ => exact .inr h
      | ok _ => exact h
  | ok a =>
    cases y with
    | error f => exact h.elim
    | ok b => exact hf _ _ h

theorem refl {x : Except Err α} : Loss (· = ·) x x := by
  cases x with
  | error e => exact .inl rfl
  | ok a => rfl

theorem ite {R : α → β → Prop} {c : Prop} [Decidable c] {x x' : Except Err α} {y y' : Except Err β}
    (h : Loss R x y) (h' : Loss R x' y') : Loss R (if c then x else x') (if c then y else y') := by
  split <;> assumption

/-- If the right returns, the left fails only tamely. -/
theorem tame {R : α → β → Prop} {x : Except Err α} {y : Except Err β} (h : Loss R x y) (hy : Runs y) {e : Err}
    (hx : x = .error e) : Tame e := by
  obtain ⟨b, rfl⟩ := hy
  subst hx
  exact h

end Loss

/-- What stands in for aborting. -/
def SelfTradeBehavior.relax : SelfTradeBehavior → SelfTradeBehavior
  | .abortTransaction => .cancelProvide
  | b => b

def IterParams.relax (p : IterParams) : IterParams := { p with stb := p.stb.relax }

def OrderParams.relax (o : OrderParams) : OrderParams := { o with stb := o.stb.relax }

/-- The same engine state with more room in the event queue. -/
structure Grown (s t : Ob lst) : Prop where
  bids : s.bids = t.bids
  asks : s.asks = t.asks
  q : s.q.items = t.q.items
  cap : s.q.cap ≤ t.q.cap
  mkt : s.mkt = t.mkt
  pr : s.pr = t.pr

def GrownR {α : Type} (x : Ob lst × α) (y : Ob lst × α) : Prop := Grown x.1 y.1 ∧ x.2 = y.2

namespace LF

theorem best {b c : lst.Book} (side : Side) (h : b = c) : Loss (· = ·) (lst.best side b) (lst.best side c) := h ▸ Loss.refl

theorem setBest {b c : lst.Book} (side : Side) (q : Nat) (h : b = c) :
    Loss (· = ·) (lst.setBest side b q) (lst.setBest side c q) := h ▸ Loss.refl

theorem pairs {α : Type} {x : Except Err (lst.Book × α)} : Loss (fun a b => a.1 = b.1 ∧ a.2 = b.2) x x := by
  cases x with
  | error e => exact .inl rfl
  | ok a => exact ⟨rfl, rfl⟩

theorem remove {b c : lst.Book} (k : Nat) (h : b = c) :
    Loss (fun x y => x.1 = y.1 ∧ x.2 = y.2) (lst.remove b k) (lst.remove c k) := h ▸ pairs

theorem insert {b c : lst.Book} (l : Leaf) (_ : l.key < 2 ^ 128) (h : b = c) :
    Loss (fun x y => x.1 = y.1 ∧ x.2 = y.2) (lst.insert b l) (lst.insert c l) := h ▸ pairs

theorem evict {b c : lst.Book} (side : Side) (h : b = c) :
    Loss (fun x y => x.1 = y.1 ∧ x.2 = y.2) (lst.evict side b) (lst.evict side c) := h ▸ pairs

end LF

theorem loss_selfTradeQty (stb : SelfTradeBehavior) (a b : Nat) :
    Loss (· = ·) (selfTradeQty stb a b) (selfTradeQty stb.relax a b) := by
  cases stb with
  | abortTransaction => exact .inr rfl
  | _ => exact Loss.refl

theorem loss_pushEv {s t : Ob lst} (h : Grown s t) (v : EventView) :
    Loss Grown (pushEv lst s v) (pushEv lst t v) := by
  obtain ⟨b, a, ⟨xs, c⟩, m, pr⟩ := s
  obtain ⟨b', a', ⟨xs', c'⟩, m', pr'⟩ := t
  obtain ⟨hb, ha, hq, hc, rfl, rfl⟩ := h
  cases hq
  unfold pushEv
  simp only [lst]
  by_cases h1 : xs.length < c
  · have h2 : xs.length < c' := Nat.lt_of_lt_of_le h1 hc
    simp only [h1, h2, if_true]
    exact ⟨hb, ha, rfl, hc, rfl, rfl⟩
  · simp only [h1, if_false]
    split <;> first | exact .inl rfl | exact .inr (.inl rfl)

theorem loss_pushIf {s : Ob lst} {t : Ob lst} (h : Grown s t) (c : Bool) (v : EventView) :
    Loss Grown (pushIf lst c s v) (pushIf lst c t v) := by
  unfold pushIf
  exact Loss.ite (loss_pushEv h v) h

theorem loss_unwrap {α : Type} (o : Option α) : Loss (· = ·) (unwrap o) (unwrap o) := Loss.refl

theorem loss_postAsk {s : Ob lst} {t : Ob lst} (h : Grown s t) (p : IterParams) (hk : p.orderId < 2 ^ 128)
    (qty : Nat) : Loss Grown (postAsk lst s p qty) (postAsk lst t p.relax qty) := by
  obtain ⟨b, a, q, m, pr⟩ := s
  obtain ⟨b', a', q', m', pr'⟩ := t
  obtain ⟨hb, ha, hq, hc, rfl, rfl⟩ := h
  unfold postAsk
  refine (LF.insert _ hk ha).bind ?_
  rintro ⟨x, b1⟩ ⟨y, b2⟩ ⟨hx, rfl⟩
  cases b1 with
  | true => exact ⟨hb, hx, hq, hc, rfl, rfl⟩
  | false =>
    refine (LF.evict .ask hx).bind ?_
    rintro ⟨x, l⟩ ⟨y, l'⟩ ⟨hx, rfl⟩
    refine (loss_unwrap l).bind ?_
    rintro l _ rfl
    refine Loss.bind (R := Grown) (loss_pushEv ?_ _) ?_
    · exact ⟨hb, hx, hq, hc, rfl, rfl⟩
    rintro s t h
    refine (LF.insert _ hk h.asks).bind ?_
    rintro ⟨x, b1⟩ ⟨y, b2⟩ ⟨hx, rfl⟩
    refine Loss.refl.bind ?_
    rintro _ _ rfl
    exact ⟨h.bids, hx, h.q, h.cap, h.mkt, h.pr⟩

theorem loss_postBid {s : Ob lst} {t : Ob lst} (h : Grown s t) (p : IterParams) (hk : p.orderId < 2 ^ 128)
    (qty : Nat) : Loss Grown (postBid lst s p qty) (postBid lst t p.relax qty) := by
  obtain ⟨b, a, q, m, pr⟩ := s
  obtain ⟨b', a', q', m', pr'⟩ := t
  obtain ⟨hb, ha, hq, hc, rfl, rfl⟩ := h
  unfold postBid
  refine (LF.insert _ hk hb).bind ?_
  rintro ⟨x, b1⟩ ⟨y, b2⟩ ⟨hx, rfl⟩
  cases b1 with
  | true => exact ⟨hx, ha, hq, hc, rfl, rfl⟩
  | false =>
    refine (LF.evict .bid hx).bind ?_
    rintro ⟨x, l⟩ ⟨y, l'⟩ ⟨hx, rfl⟩
    refine (loss_unwrap l).bind ?_
    rintro l _ rfl
    refine Loss.refl.bind ?_
    rintro price _ rfl
    refine Loss.bind (R := Grown) (loss_pushEv ?_ _) ?_
    · exact ⟨hx, ha, hq, hc, rfl, rfl⟩
    rintro s t h
    refine (LF.insert _ hk h.bids).bind ?_
    rintro ⟨x, b1⟩ ⟨y, b2⟩ ⟨hx, rfl⟩
    refine Loss.refl.bind ?_
    rintro _ _ rfl
    exact ⟨hx, h.asks, h.q, h.cap, h.mkt, h.pr⟩

theorem loss_askSettle {s : Ob lst} {t : Ob lst} (h : Grown s t) (p : IterParams) (u a r : Nat) :
    Loss Grown (askSettle lst s p u a r) (askSettle lst t p.relax u a r) := by
  obtain ⟨b, a, q, m, pr⟩ := s
  obtain ⟨b', a', q', m', pr'⟩ := t
  obtain ⟨hb, ha, hq, hc, rfl, rfl⟩ := h
  unfold askSettle
  refine Loss.refl.bind ?_
  rintro pr _ rfl
  refine Loss.refl.bind ?_
  rintro pr _ rfl
  refine Loss.bind (R := Grown) (loss_pushIf ?_ _ _) ?_
  · exact ⟨hb, ha, hq, hc, rfl, rfl⟩
  rintro ⟨b, a, q, m, pr⟩ ⟨b', a', q', m', pr'⟩ ⟨hb, ha, hq, hc, rfl, rfl⟩
  exact ⟨hb, ha, hq, hc, rfl, rfl⟩

theorem loss_askRest {s : Ob lst} {t : Ob lst} (h : Grown s t) (p : IterParams) (hk : p.orderId < 2 ^ 128)
    (u : Nat) (c : Bool) : Loss Grown (askRest lst s p u c) (askRest lst t p.relax u c) := by
  unfold askRest
  refine Loss.ite ?_ (Loss.ite h ?_)
  · refine Loss.refl.bind ?_
    rintro _ _ rfl
    exact loss_postAsk h p hk _
  · simp only [h.mkt, h.pr]
    refine Loss.refl.bind ?_
    rintro _ _ rfl
    refine loss_pushEv ?_ _
    exact ⟨h.bids, h.asks, h.q, h.cap, rfl, rfl⟩

theorem loss_askFinish {s : Ob lst} {t : Ob lst} (h : Grown s t) (p : IterParams) (hk : p.orderId < 2 ^ 128)
    (u a r : Nat) (d c : Bool) : Loss GrownR (askFinish lst s p u a r d c) (askFinish lst t p.relax u a r d c) := by
  unfold askFinish
  refine (loss_askSettle h p u a r).bind ?_
  intro s t h
  refine Loss.ite ⟨h, rfl⟩ ?_
  refine (loss_askRest h p hk u c).bind ?_
  intro s t h
  exact ⟨h, rfl⟩

theorem loss_shrinkBest {s : Ob lst} {t : Ob lst} (h : Grown s t) (side : Side) (id rest : Nat) :
    Loss Grown (shrinkBest lst s side id rest) (shrinkBest lst t side id rest) := by
  unfold shrinkBest
  cases side with
  | bid =>
    refine Loss.ite ?_ ?_
    · refine (LF.remove id h.bids).bind ?_
      rintro ⟨x, l⟩ ⟨y, l'⟩ ⟨hx, rfl⟩
      refine Loss.refl.bind ?_
      rintro _ _ rfl
      exact ⟨hx, h.asks, h.q, h.cap, h.mkt, h.pr⟩
    · refine (LF.setBest _ _ h.bids).bind ?_
      intro x y hx
      exact ⟨hx, h.asks, h.q, h.cap, h.mkt, h.pr⟩
  | ask =>
    refine Loss.ite ?_ ?_
    · refine (LF.remove id h.asks).bind ?_
      rintro ⟨x, l⟩ ⟨y, l'⟩ ⟨hx, rfl⟩
      refine Loss.refl.bind ?_
      rintro _ _ rfl
      exact ⟨h.bids, hx, h.q, h.cap, h.mkt, h.pr⟩
    · refine (LF.setBest _ _ h.asks).bind ?_
      intro x y hx
      exact ⟨h.bids, hx, h.q, h.cap, h.mkt, h.pr⟩

theorem loss_fillBest {s : Ob lst} {t : Ob lst} (h : Grown s t) (side : Side) (best : Leaf) (n : Nat) :
    Loss Grown (fillBest lst s side best n) (fillBest lst t side best n) := by
  unfold fillBest
  cases side with
  | bid =>
    refine (LF.setBest _ _ h.bids).bind ?_
    intro x y hx
    have h' : Grown { s with bids := x } { t with bids := y } := ⟨hx, h.asks, h.q, h.cap, h.mkt, h.pr⟩
    refine Loss.ite ?_ h'
    refine (loss_pushEv h' _).bind ?_
    intro s t h
    refine (LF.remove _ h.bids).bind ?_
    rintro ⟨x, l⟩ ⟨y, l'⟩ ⟨hx, rfl⟩
    refine Loss.refl.bind ?_
    rintro _ _ rfl
    exact ⟨hx, h.asks, h.q, h.cap, h.mkt, h.pr⟩
  | ask =>
    refine (LF.setBest _ _ h.asks).bind ?_
    intro x y hx
    have h' : Grown { s with asks := x } { t with asks := y } := ⟨h.bids, hx, h.q, h.cap, h.mkt, h.pr⟩
    refine Loss.ite ?_ h'
    refine (loss_pushEv h' _).bind ?_
    intro s t h
    refine (LF.remove _ h.asks).bind ?_
    rintro ⟨x, l⟩ ⟨y, l'⟩ ⟨hx, rfl⟩
    refine Loss.refl.bind ?_
    rintro _ _ rfl
    exact ⟨h.bids, hx, h.q, h.cap, h.mkt, h.pr⟩

theorem loss_askSelfTrade {s : Ob lst} {t : Ob lst} (h : Grown s t) (p : IterParams) (best : Leaf)
    (price n : Nat) : Loss GrownR (askSelfTrade lst s p best price n) (askSelfTrade lst t p.relax best price n) := by
  unfold askSelfTrade
  refine (loss_selfTradeQty _ _ _).bind ?_
  rintro ⟨x, y⟩ _ rfl
  simp only [h.mkt]
  refine (loss_pushEv h _).bind ?_
  intro s t h
  refine (loss_shrinkBest h _ _ _).bind ?_
  intro s t h
  simp only [h.mkt]
  refine (loss_pushEv h _).bind ?_
  intro s t h
  simp only [h.pr]
  refine Loss.refl.bind ?_
  rintro _ _ rfl
  exact ⟨⟨h.bids, h.asks, h.q, h.cap, h.mkt, rfl⟩, rfl⟩

theorem loss_newAsk {s : Ob lst} {t : Ob lst} (h : Grown s t) (p : IterParams) (hk : p.orderId < 2 ^ 128) :
    Loss GrownR (newAsk lst s p) (newAsk lst t p.relax) := by
  unfold newAsk
  refine (LF.best _ h.bids).bind ?_
  rintro o _ rfl
  cases o with
  | none => exact loss_askFinish h p hk ..
  | some best =>
    refine Loss.refl.bind ?_
    rintro price _ rfl
    refine Loss.ite (loss_askFinish h p hk ..) (Loss.ite (loss_askFinish h p hk ..)
      (Loss.ite (loss_askSelfTrade h ..) ?_))
    simp only [h.mkt]
    refine (loss_pushEv h _).bind ?_
    intro s t h
    refine (loss_fillBest h _ _ _).bind ?_
    intro s t h
    exact loss_askFinish h p hk ..

theorem loss_bidSettle {s : Ob lst} {t : Ob lst} (h : Grown s t) (p : IterParams) (u a r : Nat) :
    Loss GrownR (bidSettle lst s p u a r) (bidSettle lst t p.relax u a r) := by
  obtain ⟨b, a, q, m, pr⟩ := s
  obtain ⟨b', a', q', m', pr'⟩ := t
  obtain ⟨hb, ha, hq, hc, rfl, rfl⟩ := h
  unfold bidSettle
  refine Loss.refl.bind ?_
  rintro pr _ rfl
  refine Loss.refl.bind ?_
  rintro pr _ rfl
  refine Loss.bind (R := Grown) (loss_pushIf ?_ _ _) ?_
  · exact ⟨hb, ha, hq, hc, rfl, rfl⟩
  rintro ⟨b, a, q, m, pr⟩ ⟨b', a', q', m', pr'⟩ ⟨hb, ha, hq, hc, rfl, rfl⟩
  exact ⟨⟨hb, ha, hq, hc, rfl, rfl⟩, rfl⟩

theorem loss_bidRelease {s : Ob lst} {t : Ob lst} (h : Grown s t) (p : IterParams) (u k : Nat) :
    Loss Grown (bidRelease lst s p u k) (bidRelease lst t p.relax u k) := by
  unfold bidRelease
  refine Loss.ite h ?_
  simp only [h.mkt, h.pr]
  refine Loss.refl.bind ?_
  rintro _ _ rfl
  refine loss_pushEv ?_ _
  exact ⟨h.bids, h.asks, h.q, h.cap, rfl, rfl⟩

theorem loss_bidRest {s : Ob lst} {t : Ob lst} (h : Grown s t) (p : IterParams) (hk : p.orderId < 2 ^ 128)
    (u v : Nat) (c : Bool) : Loss Grown (bidRest lst s p u v c) (bidRest lst t p.relax u v c) := by
  unfold bidRest
  simp only [h.mkt]
  refine (loss_bidRelease h p _ _).bind ?_
  intro s t h
  exact Loss.ite (loss_postBid h p hk _) h

theorem loss_bidFinish {s : Ob lst} {t : Ob lst} (h : Grown s t) (p : IterParams) (hk : p.orderId < 2 ^ 128)
    (u a r : Nat) (d c : Bool) : Loss GrownR (bidFinish lst s p u a r d c) (bidFinish lst t p.relax u a r d c) := by
  unfold bidFinish
  refine (loss_bidSettle h p u a r).bind ?_
  rintro ⟨s, n⟩ ⟨t, _⟩ ⟨h, rfl⟩
  refine Loss.ite ⟨h, rfl⟩ ?_
  refine (loss_bidRest h p hk _ _ c).bind ?_
  intro s t h
  exact ⟨h, rfl⟩

theorem loss_bidSelfTrade {s : Ob lst} {t : Ob lst} (h : Grown s t) (p : IterParams) (best : Leaf)
    (price n : Nat) : Loss GrownR (bidSelfTrade lst s p best price n) (bidSelfTrade lst t p.relax best price n) := by
  unfold bidSelfTrade
  refine (loss_selfTradeQty _ _ _).bind ?_
  rintro ⟨x, y⟩ _ rfl
  simp only [h.mkt]
  refine (loss_pushEv h _).bind ?_
  intro s t h
  refine (loss_shrinkBest h _ _ _).bind ?_
  rintro ⟨b, a, q, m, pr⟩ ⟨b', a', q', m', pr'⟩ ⟨hb, ha, hq, hc, rfl, rfl⟩
  refine Loss.refl.bind ?_
  rintro _ _ rfl
  refine Loss.bind (R := Grown) (loss_pushEv ?_ _) ?_
  · exact ⟨hb, ha, hq, hc, rfl, rfl⟩
  intro s t h
  exact ⟨h, rfl⟩

theorem loss_newBid {s : Ob lst} {t : Ob lst} (h : Grown s t) (p : IterParams) (hk : p.orderId < 2 ^ 128) :
    Loss GrownR (newBid lst s p) (newBid lst t p.relax) := by
  unfold newBid
  refine Loss.bind (R := (· = ·)) Loss.refl ?_
  rintro _ _ rfl
  rw [show s.mkt = t.mkt from h.mkt]
  refine Loss.refl.bind ?_
  rintro _ _ rfl
  refine (LF.best _ h.asks).bind ?_
  rintro o _ rfl
  cases o with
  | none => exact loss_bidFinish h p hk ..
  | some best =>
    refine Loss.refl.bind ?_
    rintro price _ rfl
    refine Loss.ite (loss_bidFinish h p hk ..) (Loss.ite (loss_bidFinish h p hk ..)
      (Loss.ite (loss_bidSelfTrade h ..) ?_))
    refine (loss_pushEv h _).bind ?_
    intro s t h
    refine (loss_fillBest h _ _ _).bind ?_
    intro s t h
    exact loss_bidFinish h p hk ..

theorem loss_newOrderStep {s : Ob lst} {t : Ob lst} (h : Grown s t) (o : OrderParams)
    (hk : o.orderId < 2 ^ 128) (c pc : Nat) (po : Bool) :
    Loss GrownR (newOrderStep lst s o c pc po) (newOrderStep lst t o.relax c pc po) := by
  unfold newOrderStep
  rw [show o.relax.side = o.side from rfl]
  cases o.side with
  | bid =>
    refine Loss.refl.bind ?_
    rintro _ _ rfl
    exact loss_newBid h _ hk
  | ask =>
    refine Loss.refl.bind ?_
    rintro _ _ rfl
    refine Loss.refl.bind ?_
    rintro _ _ rfl
    exact loss_newAsk h _ hk

theorem loss_newOrderLoop (o : OrderParams) (hk : o.orderId < 2 ^ 128) (limit : Nat) :
    ∀ {s : Ob lst} {t : Ob lst}, Grown s t → ∀ c pc : Nat,
      Loss GrownR (newOrderLoop lst o limit s c pc) (newOrderLoop lst o.relax limit t c pc) := by
  induction limit with
  | zero =>
    intro s t h c pc
    unfold newOrderLoop
    refine (loss_newOrderStep h o hk _ _ _).bind ?_
    rintro ⟨x, r⟩ ⟨y, r'⟩ ⟨hx, rfl⟩
    exact ⟨hx, rfl⟩
  | succ n ih =>
    intro s t h c pc
    unfold newOrderLoop
    refine (loss_newOrderStep h o hk _ _ _).bind ?_
    rintro ⟨x, r⟩ ⟨y, r'⟩ ⟨hx, rfl⟩
    cases r with
    | none => exact ⟨hx, rfl⟩
    | some r => exact ih hx _ _

theorem loss_newOrder {s : Ob lst} {t : Ob lst} (h : Grown s t) (o : OrderParams)
    (hk : o.orderId < 2 ^ 128) (limit : Nat) :
    Loss GrownR (newOrder lst s o limit) (newOrder lst t o.relax limit) := loss_newOrderLoop o hk limit h _ _

end Serum
