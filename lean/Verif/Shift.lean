import Verif.ProcSim

/-
The engine reads the market only through its lot sizes and changes it only by accruing fees: two engines whose
markets differ in the running totals alone do the same, and the totals stay apart by the same amounts.
-/

namespace Serum

/-- Every implementation reproduces itself. -/
def Refines.same (I : Impl) : Refines I I where
  RB b c := b = c
  RQ q r := q = r
  best _ h := h ▸ Sim.refl
  setBest _ _ h := h ▸ Sim.refl
  remove _ h := h ▸ Sim.refl.mono (fun _ _ e => by subst e; exact ⟨rfl, rfl⟩)
  insert _ _ h := h ▸ Sim.refl.mono (fun _ _ e => by subst e; exact ⟨rfl, rfl⟩)
  evict _ h := h ▸ Sim.refl.mono (fun _ _ e => by subst e; exact ⟨rfl, rfl⟩)
  findBy _ _ h := h ▸ rfl
  push e h := by subst h; cases hp : Impl.push _ _ e <;> simp [OSim]
  peek h := h ▸ rfl
  pop _ h := by subst h; cases hp : Impl.pop _ _ <;> simp [OSim]

/-- A change of the market's totals that fee accrual does not notice. -/
class Equi (g : Market → Market) : Prop where
  coin : ∀ m, (g m).coinLot = m.coinLot
  pc : ∀ m, (g m).pcLot = m.pcLot
  fees : ∀ m f r, (g m).accrueFees f r = g (m.accrueFees f r)

namespace Shift
set_option linter.unusedSectionVars false
set_option linter.unusedSimpArgs false
variable {I : Impl} {g : Market → Market} [Equi g]

/-- The same engine state but for the market's totals. -/
structure RG (g : Market → Market) (s t : Ob I) : Prop where
  bids : s.bids = t.bids
  asks : s.asks = t.asks
  q : s.q = t.q
  mkt : t.mkt = g s.mkt
  pr : s.pr = t.pr

def RGR (g : Market → Market) {α : Type} (x y : Ob I × α) : Prop := RG g x.1 y.1 ∧ x.2 = y.2

theorem sh_pushEv {s t : Ob I} (h : RG g s t) (v : EventView) :
    Sim (RG g) (pushEv I s v) (pushEv I t v) := by
  unfold pushEv
  have := (Refines.same I).push (Event.new v) h.q
  cases h1 : I.push s.q (Event.new v) <;> cases h2 : I.push t.q (Event.new v) <;>
    simp [h1, h2, OSim] at this
  · rfl
  · exact ⟨h.bids, h.asks, this, h.mkt, h.pr⟩

theorem sh_pushIf {s t : Ob I} (h : RG g s t) (c : Bool) (v : EventView) :
    Sim (RG g) (pushIf I c s v) (pushIf I c t v) := by
  unfold pushIf
  exact Sim.ite (sh_pushEv h v) h

theorem sh_unwrap {α : Type} (o : Option α) : Sim (· = ·) (unwrap o) (unwrap o) := Sim.refl

theorem sh_postAsk {s t : Ob I} (h : RG g s t) (p : IterParams) (hk : p.orderId < 2 ^ 128)
    (qty : Nat) : Sim (RG g) (postAsk I s p qty) (postAsk I t p qty) := by
  obtain ⟨b, a, q, m, pr⟩ := s
  obtain ⟨b', a', q', m', pr'⟩ := t
  obtain ⟨hb, ha, hq, rfl, rfl⟩ := h
  unfold postAsk
  simp only [Equi.coin, Equi.pc]
  refine ((Refines.same I).insert _ hk ha).bind ?_
  rintro ⟨x, b1⟩ ⟨y, b2⟩ ⟨hx, rfl⟩
  cases b1 with
  | true => exact ⟨hb, hx, hq, rfl, rfl⟩
  | false =>
    refine ((Refines.same I).evict .ask hx).bind ?_
    rintro ⟨x, l⟩ ⟨y, l'⟩ ⟨hx, rfl⟩
    refine (sh_unwrap l).bind ?_
    rintro l _ rfl
    refine Sim.bind (R := RG g) (sh_pushEv ?_ _) ?_
    · exact ⟨hb, hx, hq, rfl, rfl⟩
    rintro s t h
    refine ((Refines.same I).insert _ hk h.asks).bind ?_
    rintro ⟨x, b1⟩ ⟨y, b2⟩ ⟨hx, rfl⟩
    refine Sim.refl.bind ?_
    rintro _ _ rfl
    exact ⟨h.bids, hx, h.q, h.mkt, h.pr⟩

theorem sh_postBid {s t : Ob I} (h : RG g s t) (p : IterParams) (hk : p.orderId < 2 ^ 128)
    (qty : Nat) : Sim (RG g) (postBid I s p qty) (postBid I t p qty) := by
  obtain ⟨b, a, q, m, pr⟩ := s
  obtain ⟨b', a', q', m', pr'⟩ := t
  obtain ⟨hb, ha, hq, rfl, rfl⟩ := h
  unfold postBid
  simp only [Equi.coin, Equi.pc]
  refine ((Refines.same I).insert _ hk hb).bind ?_
  rintro ⟨x, b1⟩ ⟨y, b2⟩ ⟨hx, rfl⟩
  cases b1 with
  | true => exact ⟨hx, ha, hq, rfl, rfl⟩
  | false =>
    refine ((Refines.same I).evict .bid hx).bind ?_
    rintro ⟨x, l⟩ ⟨y, l'⟩ ⟨hx, rfl⟩
    refine (sh_unwrap l).bind ?_
    rintro l _ rfl
    refine Sim.refl.bind ?_
    rintro price _ rfl
    refine Sim.bind (R := RG g) (sh_pushEv ?_ _) ?_
    · exact ⟨hx, ha, hq, rfl, rfl⟩
    rintro s t h
    refine ((Refines.same I).insert _ hk h.bids).bind ?_
    rintro ⟨x, b1⟩ ⟨y, b2⟩ ⟨hx, rfl⟩
    refine Sim.refl.bind ?_
    rintro _ _ rfl
    exact ⟨hx, h.asks, h.q, h.mkt, h.pr⟩

theorem sh_askSettle {s t : Ob I} (h : RG g s t) (p : IterParams) (u a r : Nat) :
    Sim (RG g) (askSettle I s p u a r) (askSettle I t p u a r) := by
  obtain ⟨b, a, q, m, pr⟩ := s
  obtain ⟨b', a', q', m', pr'⟩ := t
  obtain ⟨hb, ha, hq, rfl, rfl⟩ := h
  unfold askSettle
  simp only [Equi.coin, Equi.pc]
  refine Sim.refl.bind ?_
  rintro pr _ rfl
  refine Sim.refl.bind ?_
  rintro pr _ rfl
  refine Sim.bind (R := RG g) (sh_pushIf ?_ _ _) ?_
  · exact ⟨hb, ha, hq, rfl, rfl⟩
  rintro ⟨b, a, q, m, pr⟩ ⟨b', a', q', m', pr'⟩ ⟨hb, ha, hq, rfl, rfl⟩
  exact ⟨hb, ha, hq, Equi.fees _ _ _, rfl⟩

theorem sh_askRest {s t : Ob I} (h : RG g s t) (p : IterParams) (hk : p.orderId < 2 ^ 128)
    (u : Nat) (c : Bool) : Sim (RG g) (askRest I s p u c) (askRest I t p u c) := by
  unfold askRest
  refine Sim.ite ?_ (Sim.ite h ?_)
  · refine Sim.refl.bind ?_
    rintro _ _ rfl
    exact sh_postAsk h p hk _
  · simp only [h.mkt, h.pr, Equi.coin, Equi.pc]
    refine Sim.refl.bind ?_
    rintro _ _ rfl
    refine sh_pushEv ?_ _
    exact ⟨h.bids, h.asks, h.q, rfl, rfl⟩

theorem sh_askFinish {s t : Ob I} (h : RG g s t) (p : IterParams) (hk : p.orderId < 2 ^ 128)
    (u a r : Nat) (d c : Bool) : Sim (RGR g) (askFinish I s p u a r d c) (askFinish I t p u a r d c) := by
  unfold askFinish
  refine (sh_askSettle h p u a r).bind ?_
  intro s t h
  refine Sim.ite ⟨h, rfl⟩ ?_
  refine (sh_askRest h p hk u c).bind ?_
  intro s t h
  exact ⟨h, rfl⟩

theorem sh_shrinkBest {s t : Ob I} (h : RG g s t) (side : Side) (id rest : Nat) :
    Sim (RG g) (shrinkBest I s side id rest) (shrinkBest I t side id rest) := by
  unfold shrinkBest
  cases side with
  | bid =>
    refine Sim.ite ?_ ?_
    · refine ((Refines.same I).remove id h.bids).bind ?_
      rintro ⟨x, l⟩ ⟨y, l'⟩ ⟨hx, rfl⟩
      refine Sim.refl.bind ?_
      rintro _ _ rfl
      exact ⟨hx, h.asks, h.q, h.mkt, h.pr⟩
    · refine ((Refines.same I).setBest _ _ h.bids).bind ?_
      intro x y hx
      exact ⟨hx, h.asks, h.q, h.mkt, h.pr⟩
  | ask =>
    refine Sim.ite ?_ ?_
    · refine ((Refines.same I).remove id h.asks).bind ?_
      rintro ⟨x, l⟩ ⟨y, l'⟩ ⟨hx, rfl⟩
      refine Sim.refl.bind ?_
      rintro _ _ rfl
      exact ⟨h.bids, hx, h.q, h.mkt, h.pr⟩
    · refine ((Refines.same I).setBest _ _ h.asks).bind ?_
      intro x y hx
      exact ⟨h.bids, hx, h.q, h.mkt, h.pr⟩

theorem sh_fillBest {s t : Ob I} (h : RG g s t) (side : Side) (best : Leaf) (n : Nat) :
    Sim (RG g) (fillBest I s side best n) (fillBest I t side best n) := by
  unfold fillBest
  cases side with
  | bid =>
    refine ((Refines.same I).setBest _ _ h.bids).bind ?_
    intro x y hx
    have h' : RG g { s with bids := x } { t with bids := y } := ⟨hx, h.asks, h.q, h.mkt, h.pr⟩
    refine Sim.ite ?_ h'
    refine (sh_pushEv h' _).bind ?_
    intro s t h
    refine ((Refines.same I).remove _ h.bids).bind ?_
    rintro ⟨x, l⟩ ⟨y, l'⟩ ⟨hx, rfl⟩
    refine Sim.refl.bind ?_
    rintro _ _ rfl
    exact ⟨hx, h.asks, h.q, h.mkt, h.pr⟩
  | ask =>
    refine ((Refines.same I).setBest _ _ h.asks).bind ?_
    intro x y hx
    have h' : RG g { s with asks := x } { t with asks := y } := ⟨h.bids, hx, h.q, h.mkt, h.pr⟩
    refine Sim.ite ?_ h'
    refine (sh_pushEv h' _).bind ?_
    intro s t h
    refine ((Refines.same I).remove _ h.asks).bind ?_
    rintro ⟨x, l⟩ ⟨y, l'⟩ ⟨hx, rfl⟩
    refine Sim.refl.bind ?_
    rintro _ _ rfl
    exact ⟨h.bids, hx, h.q, h.mkt, h.pr⟩

theorem sh_askSelfTrade {s t : Ob I} (h : RG g s t) (p : IterParams) (best : Leaf)
    (price n : Nat) : Sim (RGR g) (askSelfTrade I s p best price n) (askSelfTrade I t p best price n) := by
  unfold askSelfTrade
  refine Sim.refl.bind ?_
  rintro ⟨x, y⟩ _ rfl
  simp only [h.mkt, Equi.coin, Equi.pc]
  refine (sh_pushEv h _).bind ?_
  intro s t h
  refine (sh_shrinkBest h _ _ _).bind ?_
  intro s t h
  simp only [h.mkt, Equi.coin, Equi.pc]
  refine (sh_pushEv h _).bind ?_
  intro s t h
  simp only [h.pr]
  refine Sim.refl.bind ?_
  rintro _ _ rfl
  exact ⟨⟨h.bids, h.asks, h.q, h.mkt, rfl⟩, rfl⟩

theorem sh_newAsk {s t : Ob I} (h : RG g s t) (p : IterParams) (hk : p.orderId < 2 ^ 128) :
    Sim (RGR g) (newAsk I s p) (newAsk I t p) := by
  unfold newAsk
  refine ((Refines.same I).best _ h.bids).bind ?_
  rintro o _ rfl
  cases o with
  | none => exact sh_askFinish h p hk ..
  | some best =>
    refine Sim.refl.bind ?_
    rintro price _ rfl
    refine Sim.ite (sh_askFinish h p hk ..) (Sim.ite (sh_askFinish h p hk ..)
      (Sim.ite (sh_askSelfTrade h ..) ?_))
    simp only [h.mkt, Equi.coin, Equi.pc]
    refine (sh_pushEv h _).bind ?_
    intro s t h
    refine (sh_fillBest h _ _ _).bind ?_
    intro s t h
    exact sh_askFinish h p hk ..

theorem sh_bidSettle {s t : Ob I} (h : RG g s t) (p : IterParams) (u a r : Nat) :
    Sim (RGR g) (bidSettle I s p u a r) (bidSettle I t p u a r) := by
  obtain ⟨b, a, q, m, pr⟩ := s
  obtain ⟨b', a', q', m', pr'⟩ := t
  obtain ⟨hb, ha, hq, rfl, rfl⟩ := h
  unfold bidSettle
  simp only [Equi.coin, Equi.pc]
  refine Sim.refl.bind ?_
  rintro pr _ rfl
  refine Sim.refl.bind ?_
  rintro pr _ rfl
  refine Sim.bind (R := RG g) (sh_pushIf ?_ _ _) ?_
  · exact ⟨hb, ha, hq, rfl, rfl⟩
  rintro ⟨b, a, q, m, pr⟩ ⟨b', a', q', m', pr'⟩ ⟨hb, ha, hq, rfl, rfl⟩
  exact ⟨⟨hb, ha, hq, Equi.fees _ _ _, rfl⟩, rfl⟩

theorem sh_bidRelease {s t : Ob I} (h : RG g s t) (p : IterParams) (u k : Nat) :
    Sim (RG g) (bidRelease I s p u k) (bidRelease I t p u k) := by
  unfold bidRelease
  refine Sim.ite h ?_
  simp only [h.mkt, h.pr, Equi.coin, Equi.pc]
  refine Sim.refl.bind ?_
  rintro _ _ rfl
  refine sh_pushEv ?_ _
  exact ⟨h.bids, h.asks, h.q, rfl, rfl⟩

theorem sh_bidRest {s t : Ob I} (h : RG g s t) (p : IterParams) (hk : p.orderId < 2 ^ 128)
    (u v : Nat) (c : Bool) : Sim (RG g) (bidRest I s p u v c) (bidRest I t p u v c) := by
  unfold bidRest
  simp only [h.mkt, bidPostQty, Equi.pc]
  refine (sh_bidRelease h p _ _).bind ?_
  intro s t h
  exact Sim.ite (sh_postBid h p hk _) h

theorem sh_bidFinish {s t : Ob I} (h : RG g s t) (p : IterParams) (hk : p.orderId < 2 ^ 128)
    (u a r : Nat) (d c : Bool) : Sim (RGR g) (bidFinish I s p u a r d c) (bidFinish I t p u a r d c) := by
  unfold bidFinish
  refine (sh_bidSettle h p u a r).bind ?_
  rintro ⟨s, n⟩ ⟨t, _⟩ ⟨h, rfl⟩
  refine Sim.ite ⟨h, rfl⟩ ?_
  refine (sh_bidRest h p hk _ _ c).bind ?_
  intro s t h
  exact ⟨h, rfl⟩

theorem sh_bidSelfTrade {s t : Ob I} (h : RG g s t) (p : IterParams) (best : Leaf)
    (price n : Nat) : Sim (RGR g) (bidSelfTrade I s p best price n) (bidSelfTrade I t p best price n) := by
  unfold bidSelfTrade
  refine Sim.refl.bind ?_
  rintro ⟨x, y⟩ _ rfl
  simp only [h.mkt, Equi.coin, Equi.pc]
  refine (sh_pushEv h _).bind ?_
  intro s t h
  refine (sh_shrinkBest h _ _ _).bind ?_
  rintro ⟨b, a, q, m, pr⟩ ⟨b', a', q', m', pr'⟩ ⟨hb, ha, hq, rfl, rfl⟩
  simp only [Equi.pc]
  refine Sim.refl.bind ?_
  rintro _ _ rfl
  refine Sim.bind (R := RG g) (sh_pushEv ?_ _) ?_
  · exact ⟨hb, ha, hq, rfl, rfl⟩
  intro s t h
  exact ⟨h, rfl⟩

theorem sh_newBid {s t : Ob I} (h : RG g s t) (p : IterParams) (hk : p.orderId < 2 ^ 128) :
    Sim (RGR g) (newBid I s p) (newBid I t p) := by
  unfold newBid
  refine Sim.bind (R := (· = ·)) Sim.refl ?_
  rintro _ _ rfl
  simp only [h.mkt, Equi.coin, Equi.pc]
  refine Sim.refl.bind ?_
  rintro _ _ rfl
  refine ((Refines.same I).best _ h.asks).bind ?_
  rintro o _ rfl
  cases o with
  | none => exact sh_bidFinish h p hk ..
  | some best =>
    refine Sim.refl.bind ?_
    rintro price _ rfl
    refine Sim.ite (sh_bidFinish h p hk ..) (Sim.ite (sh_bidFinish h p hk ..)
      (Sim.ite (sh_bidSelfTrade h ..) ?_))
    refine (sh_pushEv h _).bind ?_
    intro s t h
    refine (sh_fillBest h _ _ _).bind ?_
    intro s t h
    exact sh_bidFinish h p hk ..

theorem sh_newOrderStep {s t : Ob I} (h : RG g s t) (o : OrderParams)
    (hk : o.orderId < 2 ^ 128) (c pc : Nat) (po : Bool) :
    Sim (RGR g) (newOrderStep I s o c pc po) (newOrderStep I t o c pc po) := by
  unfold newOrderStep
  cases o.side with
  | bid =>
    refine Sim.refl.bind ?_
    rintro _ _ rfl
    exact sh_newBid h _ hk
  | ask =>
    refine Sim.refl.bind ?_
    rintro _ _ rfl
    refine Sim.refl.bind ?_
    rintro _ _ rfl
    exact sh_newAsk h _ hk

theorem sh_newOrderLoop (o : OrderParams) (hk : o.orderId < 2 ^ 128) (limit : Nat) :
    ∀ {s t : Ob I}, RG g s t → ∀ c pc : Nat,
      Sim (RGR g) (newOrderLoop I o limit s c pc) (newOrderLoop I o limit t c pc) := by
  induction limit with
  | zero =>
    intro s t h c pc
    unfold newOrderLoop
    refine (sh_newOrderStep h o hk _ _ _).bind ?_
    rintro ⟨x, r⟩ ⟨y, r'⟩ ⟨hx, rfl⟩
    exact ⟨hx, rfl⟩
  | succ n ih =>
    intro s t h c pc
    unfold newOrderLoop
    refine (sh_newOrderStep h o hk _ _ _).bind ?_
    rintro ⟨x, r⟩ ⟨y, r'⟩ ⟨hx, rfl⟩
    cases r with
    | none => exact ⟨hx, rfl⟩
    | some r => exact ih hx _ _

theorem sh_newOrder {s t : Ob I} (h : RG g s t) (o : OrderParams)
    (hk : o.orderId < 2 ^ 128) (limit : Nat) :
    Sim (RGR g) (newOrder I s o limit) (newOrder I t o limit) := sh_newOrderLoop o hk limit h _ _

theorem RG.side {s t : Ob I} (h : RG g s t) (side : Side) :
    (Refines.same I).RB (s.side I side) (t.side I side) := by
  cases side
  · exact h.bids
  · exact h.asks

theorem RG.setSide {s t : Ob I} (h : RG g s t) (side : Side) {b c : I.Book}
    (hb : (Refines.same I).RB b c) : RG g (s.setSide I side b) (t.setSide I side c) := by
  cases side
  · exact ⟨hb, h.asks, h.q, h.mkt, h.pr⟩
  · exact ⟨h.bids, hb, h.q, h.mkt, h.pr⟩

theorem sh_cancelLeaf {s t : Ob I} (h : RG g s t) (l : Leaf) (side : Side) (oo : OpenOrders)
    (a id : Nat) : Sim (RGR g) (cancelLeaf I s l side oo a id) (cancelLeaf I t l side oo a id) := by
  unfold cancelLeaf unlockLeaf
  simp only [h.mkt, Equi.coin, Equi.pc]
  refine Sim.ite rfl ?_
  refine Sim.refl.bind ?_
  rintro _ _ rfl
  refine Sim.refl.bind ?_
  rintro _ _ rfl
  refine Sim.refl.bind ?_
  rintro _ _ rfl
  refine Sim.bind (R := (· = ·)) Sim.refl ?_
  rintro ⟨n, oo⟩ _ rfl
  refine (sh_pushEv h _).bind ?_
  intro s t h
  exact ⟨h, rfl⟩

theorem sh_cancelOrderV2 {s t : Ob I} (h : RG g s t) (side : Side) (a : Nat)
    (oo : OpenOrders) (id : Nat) :
    Sim (RGR g) (cancelOrderV2 I s side a oo id) (cancelOrderV2 I t side a oo id) := by
  unfold cancelOrderV2
  refine ((Refines.same I).remove _ (h.side side)).bind ?_
  rintro ⟨x, l⟩ ⟨y, l'⟩ ⟨hx, rfl⟩
  cases l with
  | none => rfl
  | some l => exact sh_cancelLeaf (h.setSide side hx) ..

theorem sh_removeAll {s t : Ob I} (h : RG g s t) (a limit : Nat) :
    Sim (RGR g) (removeAll I s a limit) (removeAll I t a limit) := by
  unfold removeAll
  rw [(Refines.same I).findBy _ _ h.asks]
  cases I.findBy t.asks limit (fun l => l.owner == a) with
  | mk ks n =>
  show Sim (RGR g) (removeKeys I s.bids (I.findBy s.bids n (fun l => l.owner == a)).1 >>= _)
    (removeKeys I t.bids (I.findBy t.bids n (fun l => l.owner == a)).1 >>= _)
  rw [(Refines.same I).findBy _ _ h.bids]
  refine (Refines.sim_removeKeys (F := Refines.same I) _ h.bids).bind ?_
  rintro ⟨x, ls⟩ ⟨y, ls'⟩ ⟨hx, rfl⟩
  refine (Refines.sim_removeKeys (F := Refines.same I) _ h.asks).bind ?_
  rintro ⟨x', ls⟩ ⟨y', ls'⟩ ⟨hx', rfl⟩
  exact ⟨⟨hx, hx', h.q, h.mkt, h.pr⟩, rfl⟩



end Shift
end Serum
