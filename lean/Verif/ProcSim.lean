import Verif.Sim
import Verif.Processor
import Verif.PropsInstr

/-
The instruction processor run on related books and queues gives related states and the same errors.
-/

namespace Serum
namespace Refines
variable {I J : Impl} (F : Refines I J)

/-- Related states. -/
structure RS (s : State I) (t : State J) : Prop where
  core : s.toCore = t.toCore
  bids : F.RB s.bids t.bids
  asks : F.RB s.asks t.asks
  q : F.RQ s.q t.q

variable {F}

theorem RS.ob {s : State I} {t : State J} (h : F.RS s t) (m : Market) :
    F.RO (s.ob I m) (t.ob J m) := ⟨h.bids, h.asks, h.q, rfl, rfl⟩

theorem RS.back {s : State I} {t : State J} (h : F.RS s t) {x : Ob I} {y : Ob J} (ho : F.RO x y)
    (a : Nat) (oo : OpenOrders) : F.RS (s.back I x a oo) (t.back J y a oo) := by
  obtain ⟨c, b, k, q⟩ := s
  obtain ⟨c', b', k', q'⟩ := t
  obtain ⟨hc, -, -, -⟩ := h
  simp only at hc
  subst hc
  refine ⟨?_, ho.bids, ho.asks, ho.q⟩
  show Core.mk _ _ _ _ _ = Core.mk _ _ _ _ _
  rw [ho.mkt]

theorem orderId_lt {seq price : Nat} (side : Side) (hp : price < W64) :
    genOrderId (seq % W64) price side < 2 ^ 128 :=
  genOrderId_lt (Nat.mod_lt _ (by decide)) hp

theorem sim_newOrderExec {s : State I} {t : State J} (h : F.RS s t) (env : Env) (a : NewOrderAccts)
    (ix : NewOrderIx) (hp : ix.limitPrice < W64) (tier : FeeTier) (oo : OpenOrders) :
    Sim F.RS (newOrderExec I env s a ix tier oo) (newOrderExec J env t a ix tier oo) := by
  obtain ⟨c, b, k, q⟩ := s
  obtain ⟨c', b', k', q'⟩ := t
  obtain ⟨hc, hb, hk, hq⟩ := h
  simp only at hc hb hk hq
  subst hc
  unfold newOrderExec
  refine Sim.refl.bind ?_
  rintro _ _ rfl
  refine Sim.refl.bind ?_
  rintro _ _ rfl
  refine Sim.refl.bind ?_
  rintro ⟨m, oo, d⟩ _ rfl
  refine Sim.refl.bind ?_
  rintro ⟨slot, oo⟩ _ rfl
  refine Sim.bind (sim_newOrder (s := State.ob I ⟨c, b, k, q⟩ m) (t := State.ob J ⟨c, b', k', q'⟩ m)
    ⟨hb, hk, hq, rfl, rfl⟩ _ (orderId_lt _ hp) _) ?_
  rintro ⟨x, r, n⟩ ⟨y, r', n'⟩ ⟨hx, hr⟩
  simp only [Prod.mk.injEq] at hr
  obtain ⟨rfl, rfl⟩ := hr
  refine Sim.refl.bind ?_
  rintro _ _ rfl
  have hm : x.mkt = y.mkt := hx.mkt
  have hpr : x.pr = y.pr := hx.pr
  simp only [hm, hpr]
  refine Sim.refl.bind ?_
  rintro _ _ rfl
  refine Sim.refl.bind ?_
  rintro _ _ rfl
  exact ⟨rfl, hx.bids, hx.asks, hx.q⟩

theorem sim_newOrderV3 {s : State I} {t : State J} (h : F.RS s t) (P : Params) (env : Env)
    (accts : List AccMeta) (ix : NewOrderIx) (hp : ix.limitPrice < W64) :
    Sim F.RS (newOrderV3 I P env s accts ix) (newOrderV3 J P env t accts ix) := by
  unfold newOrderV3
  refine Sim.refl.bind ?_
  rintro a _ rfl
  simp only [h.core]
  refine Sim.refl.bind ?_
  rintro ⟨tier, oo⟩ _ rfl
  exact sim_newOrderExec h env _ ix hp tier oo

theorem sim_sendTake {s : State I} {t : State J} (h : F.RS s t) (P : Params)
    (accts : List AccMeta) (ix : SendTakeIx) (hp : ix.limitPrice < W64) :
    Sim F.RS (sendTake I P s accts ix) (sendTake J P t accts ix) := by
  unfold sendTake
  refine Sim.refl.bind ?_
  rintro a _ rfl
  simp only [h.core]
  refine Sim.refl.bind ?_
  rintro tier _ rfl
  unfold sendTakeExec
  obtain ⟨c, b, k, q⟩ := s
  obtain ⟨c', b', k', q'⟩ := t
  obtain ⟨hc, hb, hk, hq⟩ := h
  simp only at hc hb hk hq
  subst hc
  refine Sim.bind (sim_newOrder (s := State.ob I ⟨c, b, k, q⟩ c.mkt)
    (t := State.ob J ⟨c, b', k', q'⟩ c.mkt)
    ⟨hb, hk, hq, rfl, rfl⟩ _ (orderId_lt _ hp) _) ?_
  rintro ⟨x, r, n⟩ ⟨y, r', n'⟩ ⟨hx, hr⟩
  have hm : x.mkt = y.mkt := hx.mkt
  have hpr : x.pr = y.pr := hx.pr
  simp only [hm, hpr]
  refine Sim.refl.bind ?_
  rintro _ _ rfl
  refine Sim.refl.bind ?_
  rintro ⟨m, d, w⟩ _ rfl
  refine Sim.refl.bind ?_
  rintro _ _ rfl
  exact ⟨rfl, hx.bids, hx.asks, hx.q⟩

theorem sim_cancelV2 {s : State I} {t : State J} (h : F.RS s t) (env : Env) (accts : List AccMeta)
    (side : Side) (id : Nat) : Sim F.RS (cancelV2 I env s accts side id) (cancelV2 J env t accts side id) := by
  unfold cancelV2
  refine Sim.refl.bind ?_
  rintro a _ rfl
  simp only [h.core]
  refine Sim.refl.bind ?_
  rintro oo _ rfl
  refine Sim.bind (sim_cancelOrderV2 (h.ob _) _ _ _ _) ?_
  rintro ⟨x, o⟩ ⟨y, o'⟩ ⟨hx, hr⟩
  simp only at hr
  subst hr
  exact h.back hx _ _

theorem sim_cancelByClientIdV2 {s : State I} {t : State J} (h : F.RS s t) (env : Env)
    (accts : List AccMeta) (cid : Nat) :
    Sim F.RS (cancelByClientIdV2 I env s accts cid) (cancelByClientIdV2 J env t accts cid) := by
  unfold cancelByClientIdV2
  refine Sim.refl.bind ?_
  rintro a _ rfl
  refine Sim.refl.bind ?_
  rintro _ _ rfl
  simp only [h.core]
  refine Sim.refl.bind ?_
  rintro oo _ rfl
  refine Sim.refl.bind ?_
  rintro ⟨id, side⟩ _ rfl
  refine Sim.bind (sim_cancelOrderV2 (h.ob _) _ _ _ _) ?_
  rintro ⟨x, o⟩ ⟨y, o'⟩ ⟨hx, hr⟩
  simp only at hr
  subst hr
  exact h.back hx _ _

theorem sim_cancelMany (a : Nat) (ids : List (Nat × Side)) {s : Ob I} {t : Ob J} (h : F.RO s t)
    (oo : OpenOrders) : Sim F.RR (cancelMany I a s oo ids) (cancelMany J a t oo ids) := by
  induction ids generalizing s t oo with
  | nil => exact ⟨h, rfl⟩
  | cons e rest ih =>
    obtain ⟨id, side⟩ := e
    unfold cancelMany
    have hs := sim_cancelOrderV2 h side a oo id
    cases h1 : cancelOrderV2 I s side a oo id with
    | ok x =>
      obtain ⟨y, h2, hxy⟩ := hs.ok_right h1
      rw [h2]
      obtain ⟨x, o⟩ := x
      obtain ⟨y, o'⟩ := y
      obtain ⟨hx, hr⟩ := hxy
      simp only at hr
      subst hr
      exact ih hx _
    | error e =>
      rw [hs.error_right h1]
      cases e <;> first | exact ih h oo | rfl

theorem sim_cancelByClientIds {s : State I} {t : State J} (h : F.RS s t) (env : Env)
    (accts : List AccMeta) (cids : List Nat) :
    Sim F.RS (cancelByClientIds I env s accts cids) (cancelByClientIds J env t accts cids) := by
  unfold cancelByClientIds
  refine Sim.refl.bind ?_
  rintro a _ rfl
  simp only [h.core]
  refine Sim.refl.bind ?_
  rintro oo _ rfl
  refine Sim.bind (sim_cancelMany _ _ (h.ob _) _) ?_
  rintro ⟨x, o⟩ ⟨y, o'⟩ ⟨hx, hr⟩
  simp only at hr
  subst hr
  exact h.back hx _ _

theorem sim_newOrders (P : Params) (env : Env) (accts : List AccMeta) (ixs : List NewOrderIx)
    (hp : ∀ ix ∈ ixs, ix.limitPrice < W64) {s : State I} {t : State J} (h : F.RS s t) :
    Sim F.RS (newOrders I P env s accts ixs) (newOrders J P env t accts ixs) := by
  induction ixs generalizing s t with
  | nil => exact h
  | cons ix ixs ih =>
    unfold newOrders
    refine Sim.bind (sim_newOrderV3 h P env accts ix (hp _ (by simp))) ?_
    intro x y hxy
    exact ih (fun i hi => hp i (by simp [hi])) hxy

theorem sim_replaceOrders (P : Params) (env : Env) (accts : List AccMeta) (ixs : List NewOrderIx)
    (hp : ∀ ix ∈ ixs, ix.limitPrice < W64) {s : State I} {t : State J} (h : F.RS s t) :
    Sim F.RS (replaceOrders I P env s accts ixs) (replaceOrders J P env t accts ixs) := by
  unfold replaceOrders
  refine Sim.refl.bind ?_
  rintro ca _ rfl
  refine Sim.bind (sim_cancelByClientIds h env _ _) ?_
  intro x y hxy
  exact sim_newOrders P env accts ixs hp hxy

theorem sim_consumeOne {s : State I} {t : State J} (h : F.RS s t) (P : Params) (env : Env)
    (keys : List Nat) (hpop : F.canPop := by trivial) :
    Sim (OSim F.RS) (consumeOne I P env s keys) (consumeOne J P env t keys) := by
  unfold consumeOne
  rw [F.peek h.q]
  cases hp : J.peek t.q with
  | none => trivial
  | some e =>
    simp only
    refine Sim.refl.bind ?_
    rintro v _ rfl
    simp only [h.core]
    refine Sim.refl.bind ?_
    rintro r _ rfl
    cases r with
    | none => trivial
    | some oo =>
      refine Sim.refl.bind ?_
      rintro o _ rfl
      have := F.pop hpop h.q
      cases h1 : I.pop s.q <;> cases h2 : J.pop t.q <;> simp [h1, h2, OSim] at this
      · rfl
      · exact ⟨rfl, h.bids, h.asks, this⟩

theorem sim_consumeLoop (P : Params) (env : Env) (keys : List Nat) (n : Nat) {s : State I} {t : State J}
    (h : F.RS s t) (hpop : F.canPop := by trivial) :
    Sim F.RS (consumeLoop I P env keys n s) (consumeLoop J P env keys n t) := by
  induction n generalizing s t with
  | zero => exact h
  | succ n ih =>
    unfold consumeLoop
    refine Sim.bind (sim_consumeOne h P env keys hpop) ?_
    intro x y hxy
    cases x <;> cases y <;> simp [OSim] at hxy
    · exact h
    · exact ih hxy

theorem sim_consumeEvents {s : State I} {t : State J} (h : F.RS s t) (P : Params) (env : Env)
    (accts : List AccMeta) (n : Nat) (hpop : F.canPop := by trivial) :
    Sim F.RS (consumeEvents I P env s accts n) (consumeEvents J P env t accts n) := by
  unfold consumeEvents
  refine Sim.refl.bind ?_
  rintro _ _ rfl
  split
  · simp only [h.core]
    refine Sim.refl.bind ?_
    rintro _ _ rfl
    refine Sim.refl.bind ?_
    rintro _ _ rfl
    refine Sim.refl.bind ?_
    rintro _ _ rfl
    exact sim_consumeLoop P env _ n h hpop
  · rfl

theorem sim_consumeEventsPermissioned {s : State I} {t : State J} (h : F.RS s t) (P : Params) (env : Env)
    (accts : List AccMeta) (n : Nat) (hpop : F.canPop := by trivial) :
    Sim F.RS (consumeEventsPermissioned I P env s accts n)
      (consumeEventsPermissioned J P env t accts n) := by
  unfold consumeEventsPermissioned
  refine Sim.refl.bind ?_
  rintro _ _ rfl
  split
  · simp only [h.core]
    refine Sim.refl.bind ?_
    rintro _ _ rfl
    refine Sim.refl.bind ?_
    rintro _ _ rfl
    refine Sim.refl.bind ?_
    rintro _ _ rfl
    refine Sim.refl.bind ?_
    rintro _ _ rfl
    exact sim_consumeLoop P env _ n h hpop
  · rfl

theorem sim_settleFunds {s : State I} {t : State J} (h : F.RS s t) (P : Params) (env : Env)
    (accts : List AccMeta) : Sim F.RS (settleFunds I P env s accts) (settleFunds J P env t accts) := by
  unfold settleFunds
  refine Sim.refl.bind ?_
  rintro a _ rfl
  simp only [h.core]
  refine Sim.refl.bind ?_
  rintro oo _ rfl
  unfold settleExec
  simp only [h.core]
  refine Sim.refl.bind ?_
  rintro _ _ rfl
  refine Sim.refl.bind ?_
  rintro _ _ rfl
  refine Sim.refl.bind ?_
  rintro _ _ rfl
  refine Sim.refl.bind ?_
  rintro _ _ rfl
  refine Sim.refl.bind ?_
  rintro ⟨_, _⟩ _ rfl
  exact ⟨rfl, h.bids, h.asks, h.q⟩

theorem sim_disableMarket {s : State I} {t : State J} (h : F.RS s t) (P : Params)
    (accts : List AccMeta) : Sim F.RS (disableMarket I P s accts) (disableMarket J P t accts) := by
  unfold disableMarket
  split
  · simp only [h.core]
    refine Sim.refl.bind ?_
    rintro _ _ rfl
    refine Sim.refl.bind ?_
    rintro _ _ rfl
    refine Sim.refl.bind ?_
    rintro _ _ rfl
    exact ⟨rfl, h.bids, h.asks, h.q⟩
  · rfl

theorem sim_sweepFees {s : State I} {t : State J} (h : F.RS s t) (P : Params)
    (accts : List AccMeta) : Sim F.RS (sweepFees I P s accts) (sweepFees J P t accts) := by
  unfold sweepFees
  split
  · simp only [h.core]
    iterate 8
      refine Sim.refl.bind ?_
      rintro _ _ rfl
    exact ⟨rfl, h.bids, h.asks, h.q⟩
  · rfl

theorem sim_closeOpenOrders {s : State I} {t : State J} (h : F.RS s t) (env : Env)
    (accts : List AccMeta) : Sim F.RS (closeOpenOrders I env s accts) (closeOpenOrders J env t accts) := by
  unfold closeOpenOrders
  split
  · simp only [h.core]
    iterate 4
      refine Sim.refl.bind ?_
      rintro _ _ rfl
    exact ⟨rfl, h.bids, h.asks, h.q⟩
  · rfl

theorem sim_initOpenOrders {s : State I} {t : State J} (h : F.RS s t) (env : Env)
    (accts : List AccMeta) : Sim F.RS (initOpenOrders I env s accts) (initOpenOrders J env t accts) := by
  unfold initOpenOrders
  split
  · simp only [h.core]
    refine Sim.ite ?_ rfl
    iterate 4
      refine Sim.refl.bind ?_
      rintro _ _ rfl
    exact ⟨rfl, h.bids, h.asks, h.q⟩
  · rfl

theorem sim_cancelLeaves (side : Side) (a : Nat) (ls : List Leaf) {s : Ob I} {t : Ob J} (h : F.RO s t)
    (oo : OpenOrders) : Sim F.RR (cancelLeaves I side a s oo ls) (cancelLeaves J side a t oo ls) := by
  induction ls generalizing s t oo with
  | nil => exact ⟨h, rfl⟩
  | cons l ls ih =>
    unfold cancelLeaves
    refine Sim.refl.bind ?_
    rintro _ _ rfl
    refine Sim.bind (sim_cancelLeaf h _ _ _ _ _) ?_
    rintro ⟨x, o⟩ ⟨y, o'⟩ ⟨hx, hr⟩
    simp only at hr
    subst hr
    exact ih hx _

theorem sim_prune {s : State I} {t : State J} (h : F.RS s t) (env : Env)
    (accts : List AccMeta) (n : Nat) : Sim F.RS (prune I env s accts n) (prune J env t accts n) := by
  unfold prune
  split
  · simp only [h.core]
    iterate 7
      refine Sim.refl.bind ?_
      rintro _ _ rfl
    refine Sim.bind (sim_removeAll (h.ob _) _ _) ?_
    rintro ⟨x, b, k⟩ ⟨y, b', k'⟩ ⟨hx, hr⟩
    simp only [Prod.mk.injEq] at hr
    obtain ⟨rfl, rfl⟩ := hr
    refine Sim.bind (sim_cancelLeaves _ _ _ hx _) ?_
    rintro ⟨x, o⟩ ⟨y, o'⟩ ⟨hx, hr⟩
    simp only at hr
    subst hr
    refine Sim.bind (sim_cancelLeaves _ _ _ hx _) ?_
    rintro ⟨x, o⟩ ⟨y, o'⟩ ⟨hx, hr⟩
    simp only at hr
    subst hr
    exact h.back hx _ _
  · rfl

/-- The processor respects the simulation. -/
theorem sim_process {s : State I} {t : State J} (h : F.RS s t) (P : Params) (env : Env)
    (accts : List AccMeta) (ix : Instruction) (hv : Props.IxValid ix)
    (hpop : F.canPop := by trivial) : Sim F.RS (process I P env s accts ix) (process J P env t accts ix) := by
  unfold process
  cases ix with
  | matchOrders => exact h
  | initializeMarket | newOrder | cancelOrder | cancelOrderByClientId | newOrderV2 => rfl
  | consumeEvents n => exact sim_consumeEvents h P env accts n hpop
  | settleFunds => exact sim_settleFunds h P env accts
  | disableMarket => exact sim_disableMarket h P accts
  | sweepFees => exact sim_sweepFees h P accts
  | newOrderV3 ix => exact sim_newOrderV3 h P env accts ix hv.1.2
  | cancelOrderV2 side id => exact sim_cancelV2 h env accts side id
  | cancelOrderByClientIdV2 c => exact sim_cancelByClientIdV2 h env accts c
  | sendTake ix => exact sim_sendTake h P accts ix hv.1.2
  | closeOpenOrders => exact sim_closeOpenOrders h env accts
  | initOpenOrders => exact sim_initOpenOrders h env accts
  | prune n => exact sim_prune h env accts n
  | consumeEventsPermissioned n => exact sim_consumeEventsPermissioned h P env accts n hpop
  | cancelOrdersByClientIds ids => exact sim_cancelByClientIds h env accts ids
  | replaceOrderByClientId ix =>
    exact sim_replaceOrders P env accts [ix] (fun i hi => by
      rw [List.mem_singleton] at hi; subst hi; exact hv.1.2) h
  | replaceOrdersByClientIds ixs =>
    exact sim_replaceOrders P env accts ixs (fun i hi => (hv.2 i hi).1.2) h

theorem sim_processRaw {s : State I} {t : State J} (h : F.RS s t) (P : Params) (env : Env)
    (accts : List AccMeta) (data : List UInt8) (hpop : F.canPop := by trivial) :
    Sim F.RS (processRaw I P env s accts data) (processRaw J P env t accts data) := by
  unfold processRaw
  cases hu : Instruction.unpack data with
  | none => rfl
  | some ix =>
    obtain ⟨_, _, _, hv, _⟩ := Props.decoding_is_strict _ _ hu
    exact sim_process h P env accts ix hv hpop

end Refines
end Serum
