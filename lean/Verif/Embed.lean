import Verif.ProcSim

/-
One-sided simulation: what succeeds on one book and queue also succeeds, with a related outcome, on another that has
more room. The proofs follow `Sim` and `ProcSim`, without saying anything when the first computation fails.
-/

namespace Serum

/-- If the first succeeds then so does the second, and the results are related. -/
def Le {α β : Type} (R : α → β → Prop) : Except Err α → Except Err β → Prop
  | .ok a, .ok b => R a b
  | .ok _, .error _ => False
  | .error _, _ => True

namespace Le
variable {α β γ δ : Type}

theorem bind {R : α → β → Prop} {S : γ → δ → Prop} {x : Except Err α} {y : Except Err β}
    {f : α → Except Err γ} {g : β → Except Err δ} (h : Le R x y)
    (hf : ∀ a b, R a b → Le S (f a) (g b)) : Le S (x >>= f) (y >>= g) := by
  cases x <;> cases y <;> simp [Le] at h
  · trivial
  · trivial
  · exact hf _ _ h

theorem refl {x : Except Err α} : Le (· = ·) x x := by cases x <;> simp [Le]

theorem of_eq {x y : Except Err α} (h : x = y) : Le (· = ·) x y := h ▸ refl

theorem ite {R : α → β → Prop} {c : Prop} [Decidable c] {x x' : Except Err α} {y y' : Except Err β}
    (h : Le R x y) (h' : Le R x' y') : Le R (if c then x else x') (if c then y else y') := by
  split <;> assumption

theorem mono {R S : α → β → Prop} {x : Except Err α} {y : Except Err β} (h : Le R x y)
    (hrs : ∀ a b, R a b → S a b) : Le S x y := by
  cases x <;> cases y <;> simp [Le] at h ⊢
  exact hrs _ _ h

theorem ok_right {R : α → β → Prop} {x : Except Err α} {y : Except Err β} (h : Le R x y) {a : α}
    (e : x = .ok a) : ∃ b, y = .ok b ∧ R a b := by
  subst e
  cases y with
  | error => cases h
  | ok b => exact ⟨b, rfl, h⟩

theorem of_sim {R : α → β → Prop} {x : Except Err α} {y : Except Err β} (h : Sim R x y) : Le R x y := by
  cases x <;> cases y <;> simp [Sim, Le] at h ⊢
  exact h

end Le

/-- Implementation `J` does whatever implementation `I` does, as far as adding events goes. -/
structure Embeds (I J : Impl) where
  RB : I.Book → J.Book → Prop
  RQ : I.Q → J.Q → Prop
  best {b c} (side : Side) : RB b c → Le (· = ·) (I.best side b) (J.best side c)
  setBest {b c} (side : Side) (q : Nat) : RB b c → Le RB (I.setBest side b q) (J.setBest side c q)
  /-- Both sides alike: a batch of cancellations goes on after an order that is not found. -/
  remove {b c} (k : Nat) : RB b c →
    Sim (fun x y => RB x.1 y.1 ∧ x.2 = y.2) (I.remove b k) (J.remove c k)
  insert {b c} (l : Leaf) : l.key < 2 ^ 128 → RB b c →
    Le (fun x y => RB x.1 y.1 ∧ x.2 = y.2) (I.insert b l) (J.insert c l)
  evict {b c} (side : Side) : RB b c →
    Le (fun x y => RB x.1 y.1 ∧ x.2 = y.2) (I.evict side b) (J.evict side c)
  findBy {b c} (n : Nat) (p : Leaf → Bool) : RB b c → I.findBy b n p = J.findBy c n p
  push {q r q'} (e : Event) : RQ q r → I.push q e = some q' → ∃ r', J.push r e = some r' ∧ RQ q' r'

namespace Embeds
variable {I J : Impl} (F : Embeds I J)

/-- Related engine states. -/
structure RO (s : Ob I) (t : Ob J) : Prop where
  bids : F.RB s.bids t.bids
  asks : F.RB s.asks t.asks
  q : F.RQ s.q t.q
  mkt : s.mkt = t.mkt
  pr : s.pr = t.pr

/-- Related results of an engine call. -/
def RR {α : Type} (x : Ob I × α) (y : Ob J × α) : Prop := F.RO x.1 y.1 ∧ x.2 = y.2

variable {F}

theorem le_pushEv {s : Ob I} {t : Ob J} (h : F.RO s t) (v : EventView) :
    Le F.RO (pushEv I s v) (pushEv J t v) := by
  unfold pushEv
  cases h1 : I.push s.q (Event.new v) with
  | none => trivial
  | some q =>
    obtain ⟨r, h2, h3⟩ := F.push _ h.q h1
    rw [h2]
    exact ⟨h.bids, h.asks, h3, h.mkt, h.pr⟩

theorem le_pushIf {s : Ob I} {t : Ob J} (h : F.RO s t) (c : Bool) (v : EventView) :
    Le F.RO (pushIf I c s v) (pushIf J c t v) := by
  unfold pushIf
  exact Le.ite (le_pushEv h v) h

theorem le_unwrap {α : Type} (o : Option α) : Le (· = ·) (unwrap o) (unwrap o) := Le.refl

theorem le_postAsk {s : Ob I} {t : Ob J} (h : F.RO s t) (p : IterParams) (hk : p.orderId < 2 ^ 128)
    (qty : Nat) : Le F.RO (postAsk I s p qty) (postAsk J t p qty) := by
  obtain ⟨b, a, q, m, pr⟩ := s
  obtain ⟨b', a', q', m', pr'⟩ := t
  obtain ⟨hb, ha, hq, rfl, rfl⟩ := h
  unfold postAsk
  refine (F.insert _ hk ha).bind ?_
  rintro ⟨x, b1⟩ ⟨y, b2⟩ ⟨hx, rfl⟩
  cases b1 with
  | true => exact ⟨hb, hx, hq, rfl, rfl⟩
  | false =>
    refine (F.evict .ask hx).bind ?_
    rintro ⟨x, l⟩ ⟨y, l'⟩ ⟨hx, rfl⟩
    refine (le_unwrap l).bind ?_
    rintro l _ rfl
    refine Le.bind (R := F.RO) (le_pushEv ?_ _) ?_
    · exact ⟨hb, hx, hq, rfl, rfl⟩
    rintro s t h
    refine (F.insert _ hk h.asks).bind ?_
    rintro ⟨x, b1⟩ ⟨y, b2⟩ ⟨hx, rfl⟩
    refine Le.refl.bind ?_
    rintro _ _ rfl
    exact ⟨h.bids, hx, h.q, h.mkt, h.pr⟩

theorem le_postBid {s : Ob I} {t : Ob J} (h : F.RO s t) (p : IterParams) (hk : p.orderId < 2 ^ 128)
    (qty : Nat) : Le F.RO (postBid I s p qty) (postBid J t p qty) := by
  obtain ⟨b, a, q, m, pr⟩ := s
  obtain ⟨b', a', q', m', pr'⟩ := t
  obtain ⟨hb, ha, hq, rfl, rfl⟩ := h
  unfold postBid
  refine (F.insert _ hk hb).bind ?_
  rintro ⟨x, b1⟩ ⟨y, b2⟩ ⟨hx, rfl⟩
  cases b1 with
  | true => exact ⟨hx, ha, hq, rfl, rfl⟩
  | false =>
    refine (F.evict .bid hx).bind ?_
    rintro ⟨x, l⟩ ⟨y, l'⟩ ⟨hx, rfl⟩
    refine (le_unwrap l).bind ?_
    rintro l _ rfl
    refine Le.refl.bind ?_
    rintro price _ rfl
    refine Le.bind (R := F.RO) (le_pushEv ?_ _) ?_
    · exact ⟨hx, ha, hq, rfl, rfl⟩
    rintro s t h
    refine (F.insert _ hk h.bids).bind ?_
    rintro ⟨x, b1⟩ ⟨y, b2⟩ ⟨hx, rfl⟩
    refine Le.refl.bind ?_
    rintro _ _ rfl
    exact ⟨hx, h.asks, h.q, h.mkt, h.pr⟩

theorem le_askSettle {s : Ob I} {t : Ob J} (h : F.RO s t) (p : IterParams) (u a r : Nat) :
    Le F.RO (askSettle I s p u a r) (askSettle J t p u a r) := by
  obtain ⟨b, a, q, m, pr⟩ := s
  obtain ⟨b', a', q', m', pr'⟩ := t
  obtain ⟨hb, ha, hq, rfl, rfl⟩ := h
  unfold askSettle
  refine Le.refl.bind ?_
  rintro pr _ rfl
  refine Le.refl.bind ?_
  rintro pr _ rfl
  refine Le.bind (R := F.RO) (le_pushIf ?_ _ _) ?_
  · exact ⟨hb, ha, hq, rfl, rfl⟩
  rintro ⟨b, a, q, m, pr⟩ ⟨b', a', q', m', pr'⟩ ⟨hb, ha, hq, rfl, rfl⟩
  exact ⟨hb, ha, hq, rfl, rfl⟩

theorem le_askRest {s : Ob I} {t : Ob J} (h : F.RO s t) (p : IterParams) (hk : p.orderId < 2 ^ 128)
    (u : Nat) (c : Bool) : Le F.RO (askRest I s p u c) (askRest J t p u c) := by
  unfold askRest
  refine Le.ite ?_ (Le.ite h ?_)
  · refine Le.refl.bind ?_
    rintro _ _ rfl
    exact le_postAsk h p hk _
  · simp only [h.mkt, h.pr]
    refine Le.refl.bind ?_
    rintro _ _ rfl
    refine le_pushEv ?_ _
    exact ⟨h.bids, h.asks, h.q, rfl, rfl⟩

theorem le_askFinish {s : Ob I} {t : Ob J} (h : F.RO s t) (p : IterParams) (hk : p.orderId < 2 ^ 128)
    (u a r : Nat) (d c : Bool) : Le F.RR (askFinish I s p u a r d c) (askFinish J t p u a r d c) := by
  unfold askFinish
  refine (le_askSettle h p u a r).bind ?_
  intro s t h
  refine Le.ite ⟨h, rfl⟩ ?_
  refine (le_askRest h p hk u c).bind ?_
  intro s t h
  exact ⟨h, rfl⟩

theorem le_shrinkBest {s : Ob I} {t : Ob J} (h : F.RO s t) (side : Side) (id rest : Nat) :
    Le F.RO (shrinkBest I s side id rest) (shrinkBest J t side id rest) := by
  unfold shrinkBest
  cases side with
  | bid =>
    refine Le.ite ?_ ?_
    · refine (Le.of_sim <| F.remove id h.bids).bind ?_
      rintro ⟨x, l⟩ ⟨y, l'⟩ ⟨hx, rfl⟩
      refine Le.refl.bind ?_
      rintro _ _ rfl
      exact ⟨hx, h.asks, h.q, h.mkt, h.pr⟩
    · refine (F.setBest _ _ h.bids).bind ?_
      intro x y hx
      exact ⟨hx, h.asks, h.q, h.mkt, h.pr⟩
  | ask =>
    refine Le.ite ?_ ?_
    · refine (Le.of_sim <| F.remove id h.asks).bind ?_
      rintro ⟨x, l⟩ ⟨y, l'⟩ ⟨hx, rfl⟩
      refine Le.refl.bind ?_
      rintro _ _ rfl
      exact ⟨h.bids, hx, h.q, h.mkt, h.pr⟩
    · refine (F.setBest _ _ h.asks).bind ?_
      intro x y hx
      exact ⟨h.bids, hx, h.q, h.mkt, h.pr⟩

theorem le_fillBest {s : Ob I} {t : Ob J} (h : F.RO s t) (side : Side) (best : Leaf) (n : Nat) :
    Le F.RO (fillBest I s side best n) (fillBest J t side best n) := by
  unfold fillBest
  cases side with
  | bid =>
    refine (F.setBest _ _ h.bids).bind ?_
    intro x y hx
    have h' : F.RO { s with bids := x } { t with bids := y } := ⟨hx, h.asks, h.q, h.mkt, h.pr⟩
    refine Le.ite ?_ h'
    refine (le_pushEv h' _).bind ?_
    intro s t h
    refine (Le.of_sim <| F.remove _ h.bids).bind ?_
    rintro ⟨x, l⟩ ⟨y, l'⟩ ⟨hx, rfl⟩
    refine Le.refl.bind ?_
    rintro _ _ rfl
    exact ⟨hx, h.asks, h.q, h.mkt, h.pr⟩
  | ask =>
    refine (F.setBest _ _ h.asks).bind ?_
    intro x y hx
    have h' : F.RO { s with asks := x } { t with asks := y } := ⟨h.bids, hx, h.q, h.mkt, h.pr⟩
    refine Le.ite ?_ h'
    refine (le_pushEv h' _).bind ?_
    intro s t h
    refine (Le.of_sim <| F.remove _ h.asks).bind ?_
    rintro ⟨x, l⟩ ⟨y, l'⟩ ⟨hx, rfl⟩
    refine Le.refl.bind ?_
    rintro _ _ rfl
    exact ⟨h.bids, hx, h.q, h.mkt, h.pr⟩

theorem le_askSelfTrade {s : Ob I} {t : Ob J} (h : F.RO s t) (p : IterParams) (best : Leaf)
    (price n : Nat) : Le F.RR (askSelfTrade I s p best price n) (askSelfTrade J t p best price n) := by
  unfold askSelfTrade
  refine Le.refl.bind ?_
  rintro ⟨x, y⟩ _ rfl
  simp only [h.mkt]
  refine (le_pushEv h _).bind ?_
  intro s t h
  refine (le_shrinkBest h _ _ _).bind ?_
  intro s t h
  simp only [h.mkt]
  refine (le_pushEv h _).bind ?_
  intro s t h
  simp only [h.pr]
  refine Le.refl.bind ?_
  rintro _ _ rfl
  exact ⟨⟨h.bids, h.asks, h.q, h.mkt, rfl⟩, rfl⟩

theorem le_newAsk {s : Ob I} {t : Ob J} (h : F.RO s t) (p : IterParams) (hk : p.orderId < 2 ^ 128) :
    Le F.RR (newAsk I s p) (newAsk J t p) := by
  unfold newAsk
  refine (F.best _ h.bids).bind ?_
  rintro o _ rfl
  cases o with
  | none => exact le_askFinish h p hk ..
  | some best =>
    refine Le.refl.bind ?_
    rintro price _ rfl
    refine Le.ite (le_askFinish h p hk ..) (Le.ite (le_askFinish h p hk ..)
      (Le.ite (le_askSelfTrade h ..) ?_))
    simp only [h.mkt]
    refine (le_pushEv h _).bind ?_
    intro s t h
    refine (le_fillBest h _ _ _).bind ?_
    intro s t h
    exact le_askFinish h p hk ..

theorem le_bidSettle {s : Ob I} {t : Ob J} (h : F.RO s t) (p : IterParams) (u a r : Nat) :
    Le F.RR (bidSettle I s p u a r) (bidSettle J t p u a r) := by
  obtain ⟨b, a, q, m, pr⟩ := s
  obtain ⟨b', a', q', m', pr'⟩ := t
  obtain ⟨hb, ha, hq, rfl, rfl⟩ := h
  unfold bidSettle
  refine Le.refl.bind ?_
  rintro pr _ rfl
  refine Le.refl.bind ?_
  rintro pr _ rfl
  refine Le.bind (R := F.RO) (le_pushIf ?_ _ _) ?_
  · exact ⟨hb, ha, hq, rfl, rfl⟩
  rintro ⟨b, a, q, m, pr⟩ ⟨b', a', q', m', pr'⟩ ⟨hb, ha, hq, rfl, rfl⟩
  exact ⟨⟨hb, ha, hq, rfl, rfl⟩, rfl⟩

theorem le_bidRelease {s : Ob I} {t : Ob J} (h : F.RO s t) (p : IterParams) (u k : Nat) :
    Le F.RO (bidRelease I s p u k) (bidRelease J t p u k) := by
  unfold bidRelease
  refine Le.ite h ?_
  simp only [h.mkt, h.pr]
  refine Le.refl.bind ?_
  rintro _ _ rfl
  refine le_pushEv ?_ _
  exact ⟨h.bids, h.asks, h.q, rfl, rfl⟩

theorem le_bidRest {s : Ob I} {t : Ob J} (h : F.RO s t) (p : IterParams) (hk : p.orderId < 2 ^ 128)
    (u v : Nat) (c : Bool) : Le F.RO (bidRest I s p u v c) (bidRest J t p u v c) := by
  unfold bidRest
  simp only [h.mkt]
  refine (le_bidRelease h p _ _).bind ?_
  intro s t h
  exact Le.ite (le_postBid h p hk _) h

theorem le_bidFinish {s : Ob I} {t : Ob J} (h : F.RO s t) (p : IterParams) (hk : p.orderId < 2 ^ 128)
    (u a r : Nat) (d c : Bool) : Le F.RR (bidFinish I s p u a r d c) (bidFinish J t p u a r d c) := by
  unfold bidFinish
  refine (le_bidSettle h p u a r).bind ?_
  rintro ⟨s, n⟩ ⟨t, _⟩ ⟨h, rfl⟩
  refine Le.ite ⟨h, rfl⟩ ?_
  refine (le_bidRest h p hk _ _ c).bind ?_
  intro s t h
  exact ⟨h, rfl⟩

theorem le_bidSelfTrade {s : Ob I} {t : Ob J} (h : F.RO s t) (p : IterParams) (best : Leaf)
    (price n : Nat) : Le F.RR (bidSelfTrade I s p best price n) (bidSelfTrade J t p best price n) := by
  unfold bidSelfTrade
  refine Le.refl.bind ?_
  rintro ⟨x, y⟩ _ rfl
  simp only [h.mkt]
  refine (le_pushEv h _).bind ?_
  intro s t h
  refine (le_shrinkBest h _ _ _).bind ?_
  rintro ⟨b, a, q, m, pr⟩ ⟨b', a', q', m', pr'⟩ ⟨hb, ha, hq, rfl, rfl⟩
  refine Le.refl.bind ?_
  rintro _ _ rfl
  refine Le.bind (R := F.RO) (le_pushEv ?_ _) ?_
  · exact ⟨hb, ha, hq, rfl, rfl⟩
  intro s t h
  exact ⟨h, rfl⟩

theorem le_newBid {s : Ob I} {t : Ob J} (h : F.RO s t) (p : IterParams) (hk : p.orderId < 2 ^ 128) :
    Le F.RR (newBid I s p) (newBid J t p) := by
  unfold newBid
  refine Le.bind (R := (· = ·)) Le.refl ?_
  rintro _ _ rfl
  simp only [h.mkt]
  refine Le.refl.bind ?_
  rintro _ _ rfl
  refine (F.best _ h.asks).bind ?_
  rintro o _ rfl
  cases o with
  | none => exact le_bidFinish h p hk ..
  | some best =>
    refine Le.refl.bind ?_
    rintro price _ rfl
    refine Le.ite (le_bidFinish h p hk ..) (Le.ite (le_bidFinish h p hk ..)
      (Le.ite (le_bidSelfTrade h ..) ?_))
    refine (le_pushEv h _).bind ?_
    intro s t h
    refine (le_fillBest h _ _ _).bind ?_
    intro s t h
    exact le_bidFinish h p hk ..

theorem le_newOrderStep {s : Ob I} {t : Ob J} (h : F.RO s t) (o : OrderParams)
    (hk : o.orderId < 2 ^ 128) (c pc : Nat) (po : Bool) :
    Le F.RR (newOrderStep I s o c pc po) (newOrderStep J t o c pc po) := by
  unfold newOrderStep
  cases o.side with
  | bid =>
    refine Le.refl.bind ?_
    rintro _ _ rfl
    exact le_newBid h _ hk
  | ask =>
    refine Le.refl.bind ?_
    rintro _ _ rfl
    refine Le.refl.bind ?_
    rintro _ _ rfl
    exact le_newAsk h _ hk

theorem le_newOrderLoop (o : OrderParams) (hk : o.orderId < 2 ^ 128) (limit : Nat) :
    ∀ {s : Ob I} {t : Ob J}, F.RO s t → ∀ c pc : Nat,
      Le F.RR (newOrderLoop I o limit s c pc) (newOrderLoop J o limit t c pc) := by
  induction limit with
  | zero =>
    intro s t h c pc
    unfold newOrderLoop
    refine (le_newOrderStep h o hk _ _ _).bind ?_
    rintro ⟨x, r⟩ ⟨y, r'⟩ ⟨hx, rfl⟩
    exact ⟨hx, rfl⟩
  | succ n ih =>
    intro s t h c pc
    unfold newOrderLoop
    refine (le_newOrderStep h o hk _ _ _).bind ?_
    rintro ⟨x, r⟩ ⟨y, r'⟩ ⟨hx, rfl⟩
    cases r with
    | none => exact ⟨hx, rfl⟩
    | some r => exact ih hx _ _

theorem le_newOrder {s : Ob I} {t : Ob J} (h : F.RO s t) (o : OrderParams)
    (hk : o.orderId < 2 ^ 128) (limit : Nat) :
    Le F.RR (newOrder I s o limit) (newOrder J t o limit) := le_newOrderLoop o hk limit h _ _

theorem RO.side {s : Ob I} {t : Ob J} (h : F.RO s t) (side : Side) :
    F.RB (s.side I side) (t.side J side) := by
  cases side
  · exact h.bids
  · exact h.asks

theorem RO.setSide {s : Ob I} {t : Ob J} (h : F.RO s t) (side : Side) {b : I.Book} {c : J.Book}
    (hb : F.RB b c) : F.RO (s.setSide I side b) (t.setSide J side c) := by
  cases side
  · exact ⟨hb, h.asks, h.q, h.mkt, h.pr⟩
  · exact ⟨h.bids, hb, h.q, h.mkt, h.pr⟩

theorem le_cancelLeaf {s : Ob I} {t : Ob J} (h : F.RO s t) (l : Leaf) (side : Side) (oo : OpenOrders)
    (a id : Nat) : Le F.RR (cancelLeaf I s l side oo a id) (cancelLeaf J t l side oo a id) := by
  unfold cancelLeaf
  simp only [h.mkt]
  refine Le.ite trivial ?_
  refine Le.refl.bind ?_
  rintro _ _ rfl
  refine Le.refl.bind ?_
  rintro _ _ rfl
  refine Le.refl.bind ?_
  rintro _ _ rfl
  refine Le.bind (R := (· = ·)) Le.refl ?_
  rintro ⟨n, oo⟩ _ rfl
  refine (le_pushEv h _).bind ?_
  intro s t h
  exact ⟨h, rfl⟩

theorem le_cancelOrderV2 {s : Ob I} {t : Ob J} (h : F.RO s t) (side : Side) (a : Nat)
    (oo : OpenOrders) (id : Nat) :
    Le F.RR (cancelOrderV2 I s side a oo id) (cancelOrderV2 J t side a oo id) := by
  unfold cancelOrderV2
  refine (Le.of_sim <| F.remove _ (h.side side)).bind ?_
  rintro ⟨x, l⟩ ⟨y, l'⟩ ⟨hx, rfl⟩
  cases l with
  | none => trivial
  | some l => exact le_cancelLeaf (h.setSide side hx) ..

theorem le_removeKeys (ks : List Nat) : ∀ {b : I.Book} {c : J.Book}, F.RB b c →
    Le (fun x y => F.RB x.1 y.1 ∧ x.2 = y.2) (removeKeys I b ks) (removeKeys J c ks) := by
  induction ks with
  | nil => intro b c h; exact ⟨h, rfl⟩
  | cons k ks ih =>
    intro b c h
    unfold removeKeys
    refine (Le.of_sim <| F.remove _ h).bind ?_
    rintro ⟨x, l⟩ ⟨y, l'⟩ ⟨hx, rfl⟩
    refine (ih hx).bind ?_
    rintro ⟨x, ls⟩ ⟨y, ls'⟩ ⟨hx, rfl⟩
    exact ⟨hx, rfl⟩

theorem le_removeAll {s : Ob I} {t : Ob J} (h : F.RO s t) (a limit : Nat) :
    Le F.RR (removeAll I s a limit) (removeAll J t a limit) := by
  unfold removeAll
  rw [F.findBy _ _ h.asks]
  cases J.findBy t.asks limit (fun l => l.owner == a) with
  | mk ks n =>
  show Le F.RR (removeKeys I s.bids (I.findBy s.bids n (fun l => l.owner == a)).1 >>= _)
    (removeKeys J t.bids (J.findBy t.bids n (fun l => l.owner == a)).1 >>= _)
  rw [F.findBy _ _ h.bids]
  refine (le_removeKeys _ h.bids).bind ?_
  rintro ⟨x, ls⟩ ⟨y, ls'⟩ ⟨hx, rfl⟩
  refine (le_removeKeys _ h.asks).bind ?_
  rintro ⟨x', ls⟩ ⟨y', ls'⟩ ⟨hx', rfl⟩
  exact ⟨⟨hx, hx', h.q, h.mkt, h.pr⟩, rfl⟩

variable (F)

/-- Related states. -/
structure RS (s : State I) (t : State J) : Prop where
  core : s.toCore = t.toCore
  bids : F.RB s.bids t.bids
  asks : F.RB s.asks t.asks
  q : F.RQ s.q t.q

variable {F}

theorem RS.ob {s : State I} {t : State J} (h : F.RS s t) (m : Market) :
    F.RO (s.ob I m) (t.ob J m) := ⟨h.bids, h.asks, h.q, rfl, rfl⟩

theorem RS.back {s : State I} {t : State J} (h : F.RS s t) {x : Ob I} {y : Ob J} (ho : F.RO x y)
    (a : Nat) (oo : OpenOrders) : F.RS (s.back I x a oo) (t.back J y a oo) := by
  obtain ⟨c, b, k, q⟩ := s
  obtain ⟨c', b', k', q'⟩ := t
  obtain ⟨hc, -, -, -⟩ := h
  simp only at hc
  subst hc
  refine ⟨?_, ho.bids, ho.asks, ho.q⟩
  show Core.mk _ _ _ _ _ = Core.mk _ _ _ _ _
  rw [ho.mkt]

theorem le_newOrderExec {s : State I} {t : State J} (h : F.RS s t) (env : Env) (a : NewOrderAccts)
    (ix : NewOrderIx) (hp : ix.limitPrice < W64) (tier : FeeTier) (oo : OpenOrders) :
    Le F.RS (newOrderExec I env s a ix tier oo) (newOrderExec J env t a ix tier oo) := by
  obtain ⟨c, b, k, q⟩ := s
  obtain ⟨c', b', k', q'⟩ := t
  obtain ⟨hc, hb, hk, hq⟩ := h
  simp only at hc hb hk hq
  subst hc
  unfold newOrderExec
  refine Le.refl.bind ?_
  rintro _ _ rfl
  refine Le.refl.bind ?_
  rintro _ _ rfl
  refine Le.refl.bind ?_
  rintro ⟨m, oo, d⟩ _ rfl
  refine Le.refl.bind ?_
  rintro ⟨slot, oo⟩ _ rfl
  refine Le.bind (le_newOrder (s := State.ob I ⟨c, b, k, q⟩ m) (t := State.ob J ⟨c, b', k', q'⟩ m)
    ⟨hb, hk, hq, rfl, rfl⟩ _ (Refines.orderId_lt _ hp) _) ?_
  rintro ⟨x, r, n⟩ ⟨y, r', n'⟩ ⟨hx, hr⟩
  simp only [Prod.mk.injEq] at hr
  obtain ⟨rfl, rfl⟩ := hr
  refine Le.refl.bind ?_
  rintro _ _ rfl
  have hm : x.mkt = y.mkt := hx.mkt
  have hpr : x.pr = y.pr := hx.pr
  simp only [hm, hpr]
  refine Le.refl.bind ?_
  rintro _ _ rfl
  refine Le.refl.bind ?_
  rintro _ _ rfl
  exact ⟨rfl, hx.bids, hx.asks, hx.q⟩

theorem le_newOrderV3 {s : State I} {t : State J} (h : F.RS s t) (P : Params) (env : Env)
    (accts : List AccMeta) (ix : NewOrderIx) (hp : ix.limitPrice < W64) :
    Le F.RS (newOrderV3 I P env s accts ix) (newOrderV3 J P env t accts ix) := by
  unfold newOrderV3
  refine Le.refl.bind ?_
  rintro a _ rfl
  simp only [h.core]
  refine Le.refl.bind ?_
  rintro ⟨tier, oo⟩ _ rfl
  exact le_newOrderExec h env _ ix hp tier oo

theorem le_sendTake {s : State I} {t : State J} (h : F.RS s t) (P : Params)
    (accts : List AccMeta) (ix : SendTakeIx) (hp : ix.limitPrice < W64) :
    Le F.RS (sendTake I P s accts ix) (sendTake J P t accts ix) := by
  unfold sendTake
  refine Le.refl.bind ?_
  rintro a _ rfl
  simp only [h.core]
  refine Le.refl.bind ?_
  rintro tier _ rfl
  unfold sendTakeExec
  obtain ⟨c, b, k, q⟩ := s
  obtain ⟨c', b', k', q'⟩ := t
  obtain ⟨hc, hb, hk, hq⟩ := h
  simp only at hc hb hk hq
  subst hc
  refine Le.bind (le_newOrder (s := State.ob I ⟨c, b, k, q⟩ c.mkt)
    (t := State.ob J ⟨c, b', k', q'⟩ c.mkt)
    ⟨hb, hk, hq, rfl, rfl⟩ _ (Refines.orderId_lt _ hp) _) ?_
  rintro ⟨x, r, n⟩ ⟨y, r', n'⟩ ⟨hx, hr⟩
  have hm : x.mkt = y.mkt := hx.mkt
  have hpr : x.pr = y.pr := hx.pr
  simp only [hm, hpr]
  refine Le.refl.bind ?_
  rintro _ _ rfl
  refine Le.refl.bind ?_
  rintro ⟨m, d, w⟩ _ rfl
  refine Le.refl.bind ?_
  rintro _ _ rfl
  exact ⟨rfl, hx.bids, hx.asks, hx.q⟩

theorem le_cancelV2 {s : State I} {t : State J} (h : F.RS s t) (env : Env) (accts : List AccMeta)
    (side : Side) (id : Nat) : Le F.RS (cancelV2 I env s accts side id) (cancelV2 J env t accts side id) := by
  unfold cancelV2
  refine Le.refl.bind ?_
  rintro a _ rfl
  simp only [h.core]
  refine Le.refl.bind ?_
  rintro oo _ rfl
  refine Le.bind (le_cancelOrderV2 (h.ob _) _ _ _ _) ?_
  rintro ⟨x, o⟩ ⟨y, o'⟩ ⟨hx, hr⟩
  simp only at hr
  subst hr
  exact h.back hx _ _

theorem le_cancelByClientIdV2 {s : State I} {t : State J} (h : F.RS s t) (env : Env)
    (accts : List AccMeta) (cid : Nat) :
    Le F.RS (cancelByClientIdV2 I env s accts cid) (cancelByClientIdV2 J env t accts cid) := by
  unfold cancelByClientIdV2
  refine Le.refl.bind ?_
  rintro a _ rfl
  refine Le.refl.bind ?_
  rintro _ _ rfl
  simp only [h.core]
  refine Le.refl.bind ?_
  rintro oo _ rfl
  refine Le.refl.bind ?_
  rintro ⟨id, side⟩ _ rfl
  refine Le.bind (le_cancelOrderV2 (h.ob _) _ _ _ _) ?_
  rintro ⟨x, o⟩ ⟨y, o'⟩ ⟨hx, hr⟩
  simp only at hr
  subst hr
  exact h.back hx _ _

theorem cancelLeaf_found {s : Ob I} {l : Leaf} {side : Side} {oo : OpenOrders} {a id : Nat} :
    cancelLeaf I s l side oo a id ≠ .error .orderNotFound := by
  have seq : ∀ {α β : Type} {x : Except Err α} {f : α → Except Err β} {e : Err}, x ≠ .error e → (∀ a, f a ≠ .error e) →
      (x >>= f) ≠ .error e := by
    intro α β x f e h1 h2 h
    cases x with
    | error e' => exact h1 (by cases h; rfl)
    | ok a => exact h2 a h
  have un : ∀ {α : Type} {o : Option α}, unwrap o ≠ .error .orderNotFound := by
    intro α o h; cases o <;> cases h
  have ca : ∀ {b : Bool}, checkAssert b ≠ .error .orderNotFound := by
    intro b h; cases b <;> cases h
  have ra : ∀ {b : Bool}, rustAssert b ≠ .error .orderNotFound := by
    intro b h; cases b <;> cases h
  unfold cancelLeaf
  split
  · intro h; cases h
  · refine seq un fun _ => seq ca fun _ => seq ca fun _ => seq ?_ fun x => seq ?_ fun _ h => by cases h
    · unfold unlockLeaf OpenOrders.unlockPc OpenOrders.unlockCoin nzPrice
      split
      · refine seq ?_ fun _ => seq ?_ fun _ h => by cases h
        · split <;> intro h <;> cases h
        · exact seq un fun _ => seq ra fun _ h => by cases h
      · refine seq ?_ fun _ h => by cases h
        exact seq un fun _ => seq ra fun _ h => by cases h
    · unfold pushEv
      split <;> intro h <;> cases h

theorem cancelOrderV2_none {s : Ob I} {t : Ob J} (h : F.RO s t) {side : Side} {a id : Nat} {oo : OpenOrders}
    (e : cancelOrderV2 I s side a oo id = .error .orderNotFound) :
    cancelOrderV2 J t side a oo id = .error .orderNotFound := by
  unfold cancelOrderV2 at e ⊢
  have := F.remove id (h.side side)
  cases h1 : I.remove (s.side I side) id with
  | error f =>
    have h2 := this.error_right h1
    rw [h1] at e
    rw [h2]
    cases e
    rfl
  | ok x =>
    obtain ⟨y, h2, hr, hl⟩ := this.ok_right h1
    rw [h1] at e
    rw [h2]
    obtain ⟨x, l⟩ := x
    obtain ⟨y, l'⟩ := y
    simp only at hl
    subst hl
    cases l with
    | none => rfl
    | some l => exact absurd e cancelLeaf_found

theorem le_cancelMany (a : Nat) (ids : List (Nat × Side)) {s : Ob I} {t : Ob J} (h : F.RO s t)
    (oo : OpenOrders) : Le F.RR (cancelMany I a s oo ids) (cancelMany J a t oo ids) := by
  induction ids generalizing s t oo with
  | nil => exact ⟨h, rfl⟩
  | cons e rest ih =>
    obtain ⟨id, side⟩ := e
    unfold cancelMany
    have hs := le_cancelOrderV2 h side a oo id
    cases h1 : cancelOrderV2 I s side a oo id with
    | ok x =>
      obtain ⟨y, h2, hxy⟩ := hs.ok_right h1
      rw [h2]
      obtain ⟨x, o⟩ := x
      obtain ⟨y, o'⟩ := y
      obtain ⟨hx, hr⟩ := hxy
      simp only at hr
      subst hr
      exact ih hx _
    | error e =>
      by_cases he : e = .orderNotFound
      · subst he
        rw [cancelOrderV2_none h h1]
        exact ih h oo
      · cases e <;> first | exact absurd rfl he | trivial

theorem le_cancelByClientIds {s : State I} {t : State J} (h : F.RS s t) (env : Env)
    (accts : List AccMeta) (cids : List Nat) :
    Le F.RS (cancelByClientIds I env s accts cids) (cancelByClientIds J env t accts cids) := by
  unfold cancelByClientIds
  refine Le.refl.bind ?_
  rintro a _ rfl
  simp only [h.core]
  refine Le.refl.bind ?_
  rintro oo _ rfl
  refine Le.bind (le_cancelMany _ _ (h.ob _) _) ?_
  rintro ⟨x, o⟩ ⟨y, o'⟩ ⟨hx, hr⟩
  simp only at hr
  subst hr
  exact h.back hx _ _

theorem le_newOrders (P : Params) (env : Env) (accts : List AccMeta) (ixs : List NewOrderIx)
    (hp : ∀ ix ∈ ixs, ix.limitPrice < W64) {s : State I} {t : State J} (h : F.RS s t) :
    Le F.RS (newOrders I P env s accts ixs) (newOrders J P env t accts ixs) := by
  induction ixs generalizing s t with
  | nil => exact h
  | cons ix ixs ih =>
    unfold newOrders
    refine Le.bind (le_newOrderV3 h P env accts ix (hp _ (by simp))) ?_
    intro x y hxy
    exact ih (fun i hi => hp i (by simp [hi])) hxy

theorem le_replaceOrders (P : Params) (env : Env) (accts : List AccMeta) (ixs : List NewOrderIx)
    (hp : ∀ ix ∈ ixs, ix.limitPrice < W64) {s : State I} {t : State J} (h : F.RS s t) :
    Le F.RS (replaceOrders I P env s accts ixs) (replaceOrders J P env t accts ixs) := by
  unfold replaceOrders
  refine Le.refl.bind ?_
  rintro ca _ rfl
  refine Le.bind (le_cancelByClientIds h env _ _) ?_
  intro x y hxy
  exact le_newOrders P env accts ixs hp hxy

theorem le_settleFunds {s : State I} {t : State J} (h : F.RS s t) (P : Params) (env : Env)
    (accts : List AccMeta) : Le F.RS (settleFunds I P env s accts) (settleFunds J P env t accts) := by
  unfold settleFunds
  refine Le.refl.bind ?_
  rintro a _ rfl
  simp only [h.core]
  refine Le.refl.bind ?_
  rintro oo _ rfl
  unfold settleExec
  simp only [h.core]
  refine Le.refl.bind ?_
  rintro _ _ rfl
  refine Le.refl.bind ?_
  rintro _ _ rfl
  refine Le.refl.bind ?_
  rintro _ _ rfl
  refine Le.refl.bind ?_
  rintro _ _ rfl
  refine Le.refl.bind ?_
  rintro ⟨_, _⟩ _ rfl
  exact ⟨rfl, h.bids, h.asks, h.q⟩

theorem le_disableMarket {s : State I} {t : State J} (h : F.RS s t) (P : Params)
    (accts : List AccMeta) : Le F.RS (disableMarket I P s accts) (disableMarket J P t accts) := by
  unfold disableMarket
  split
  · simp only [h.core]
    refine Le.refl.bind ?_
    rintro _ _ rfl
    refine Le.refl.bind ?_
    rintro _ _ rfl
    refine Le.refl.bind ?_
    rintro _ _ rfl
    exact ⟨rfl, h.bids, h.asks, h.q⟩
  · trivial

theorem le_sweepFees {s : State I} {t : State J} (h : F.RS s t) (P : Params)
    (accts : List AccMeta) : Le F.RS (sweepFees I P s accts) (sweepFees J P t accts) := by
  unfold sweepFees
  split
  · simp only [h.core]
    iterate 8
      refine Le.refl.bind ?_
      rintro _ _ rfl
    exact ⟨rfl, h.bids, h.asks, h.q⟩
  · trivial

theorem le_closeOpenOrders {s : State I} {t : State J} (h : F.RS s t) (env : Env)
    (accts : List AccMeta) : Le F.RS (closeOpenOrders I env s accts) (closeOpenOrders J env t accts) := by
  unfold closeOpenOrders
  split
  · simp only [h.core]
    iterate 4
      refine Le.refl.bind ?_
      rintro _ _ rfl
    exact ⟨rfl, h.bids, h.asks, h.q⟩
  · trivial

theorem le_initOpenOrders {s : State I} {t : State J} (h : F.RS s t) (env : Env)
    (accts : List AccMeta) : Le F.RS (initOpenOrders I env s accts) (initOpenOrders J env t accts) := by
  unfold initOpenOrders
  split
  · simp only [h.core]
    refine Le.ite ?_ trivial
    iterate 4
      refine Le.refl.bind ?_
      rintro _ _ rfl
    exact ⟨rfl, h.bids, h.asks, h.q⟩
  · trivial

theorem le_cancelLeaves (side : Side) (a : Nat) (ls : List Leaf) {s : Ob I} {t : Ob J} (h : F.RO s t)
    (oo : OpenOrders) : Le F.RR (cancelLeaves I side a s oo ls) (cancelLeaves J side a t oo ls) := by
  induction ls generalizing s t oo with
  | nil => exact ⟨h, rfl⟩
  | cons l ls ih =>
    unfold cancelLeaves
    refine Le.refl.bind ?_
    rintro _ _ rfl
    refine Le.bind (le_cancelLeaf h _ _ _ _ _) ?_
    rintro ⟨x, o⟩ ⟨y, o'⟩ ⟨hx, hr⟩
    simp only at hr
    subst hr
    exact ih hx _

theorem le_prune {s : State I} {t : State J} (h : F.RS s t) (env : Env)
    (accts : List AccMeta) (n : Nat) : Le F.RS (prune I env s accts n) (prune J env t accts n) := by
  unfold prune
  split
  · simp only [h.core]
    iterate 7
      refine Le.refl.bind ?_
      rintro _ _ rfl
    refine Le.bind (le_removeAll (h.ob _) _ _) ?_
    rintro ⟨x, b, k⟩ ⟨y, b', k'⟩ ⟨hx, hr⟩
    simp only [Prod.mk.injEq] at hr
    obtain ⟨rfl, rfl⟩ := hr
    refine Le.bind (le_cancelLeaves _ _ _ hx _) ?_
    rintro ⟨x, o⟩ ⟨y, o'⟩ ⟨hx, hr⟩
    simp only at hr
    subst hr
    refine Le.bind (le_cancelLeaves _ _ _ hx _) ?_
    rintro ⟨x, o⟩ ⟨y, o'⟩ ⟨hx, hr⟩
    simp only at hr
    subst hr
    exact h.back hx _ _
  · trivial

/-- Whether an instruction is one of the two cranks, the only ones to take events off the queue. -/
def _root_.Serum.Instruction.isCrank : Instruction → Bool
  | .consumeEvents _ | .consumeEventsPermissioned _ => true
  | _ => false

/-- The processor respects the simulation. -/
theorem le_process {s : State I} {t : State J} (h : F.RS s t) (P : Params) (env : Env)
    (accts : List AccMeta) (ix : Instruction) (hv : Props.IxValid ix)
    (hc : ix.isCrank = false) : Le F.RS (process I P env s accts ix) (process J P env t accts ix) := by
  unfold process
  cases ix with
  | matchOrders => exact h
  | initializeMarket | newOrder | cancelOrder | cancelOrderByClientId | newOrderV2 => trivial
  | consumeEvents n => cases hc
  | settleFunds => exact le_settleFunds h P env accts
  | disableMarket => exact le_disableMarket h P accts
  | sweepFees => exact le_sweepFees h P accts
  | newOrderV3 ix => exact le_newOrderV3 h P env accts ix hv.1.2
  | cancelOrderV2 side id => exact le_cancelV2 h env accts side id
  | cancelOrderByClientIdV2 c => exact le_cancelByClientIdV2 h env accts c
  | sendTake ix => exact le_sendTake h P accts ix hv.1.2
  | closeOpenOrders => exact le_closeOpenOrders h env accts
  | initOpenOrders => exact le_initOpenOrders h env accts
  | prune n => exact le_prune h env accts n
  | consumeEventsPermissioned n => cases hc
  | cancelOrdersByClientIds ids => exact le_cancelByClientIds h env accts ids
  | replaceOrderByClientId ix =>
    exact le_replaceOrders P env accts [ix] (fun i hi => by
      rw [List.mem_singleton] at hi; subst hi; exact hv.1.2) h
  | replaceOrdersByClientIds ixs =>
    exact le_replaceOrders P env accts ixs (fun i hi => (hv.2 i hi).1.2) h

end Embeds
end Serum
