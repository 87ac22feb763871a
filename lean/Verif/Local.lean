import Verif.Sim
import Verif.Accounts

/-
An instruction reads and writes only the open-orders accounts it names: on two states that agree except for
other open-orders accounts it gives the same error, or results that agree again.
-/

namespace Serum

/-- A relation between the open-orders accounts of two states that agrees on the accounts in `K` and survives
writing one of them on both sides. -/
structure Agree (K : Nat → Prop) where
  R : List (Nat × OpenOrders) → List (Nat × OpenOrders) → Prop
  get {l k a} : R l k → K a → ooAt k a = ooAt l a
  put {l k a} (o : OpenOrders) : R l k → K a → R (setOo l a o) (setOo k a o)

/-- States that agree except for open-orders accounts, which are related. -/
structure NearBy {I : Impl} {K : Nat → Prop} (A : Agree K) (s t : State I) : Prop where
  rest : t = { s with oos := t.oos }
  rel : A.R s.oos t.oos

namespace NearBy

variable {I : Impl} {K : Nat → Prop} {A : Agree K} {s t : State I}

theorem oos (h : NearBy A s t) (a : Nat) (ha : K a) : ooAt t.oos a = ooAt s.oos a := A.get h.rel ha

theorem set (h : NearBy A s t) {a : Nat} (ha : K a) (o : OpenOrders) (m : Market) (n : Nat) (l : Ledger) (b c : I.Book)
    (q : I.Q) :
    NearBy A
      { s with mkt := m, seq := n, oos := setOo s.oos a o, toks := l, bids := b, asks := c, q := q }
      { t with mkt := m, seq := n, oos := setOo t.oos a o, toks := l, bids := b, asks := c, q := q } := by
  obtain ⟨h1, h2⟩ := h
  exact ⟨by rw [h1], A.put o h2 ha⟩

end NearBy

theorem loadOrders_near {c d : Core} (hm : d.mkt = c.mkt) {a : Nat} (ho : ooAt d.oos a = ooAt c.oos a) (env : Env)
    (w : Option Nat) (r : Bool) (au : Option Nat) : loadOrders d env a w r au = loadOrders c env a w r au := by
  unfold loadOrders
  rw [ho, hm]

/-- Computations that start alike. -/
theorem Sim.same {α β γ : Type} {R : β → γ → Prop} {x : Except Err α} {f : α → Except Err β} {g : α → Except Err γ}
    (h : ∀ a, Sim R (f a) (g a)) : Sim R (x >>= f) (x >>= g) :=
  Sim.refl.bind fun a b e => by subst e; exact h a

theorem Sim.samePost {α β γ : Type} {R : β → γ → Prop} {x : Except Err α} {f : α → Except Err β} {g : α → Except Err γ}
    (h : ∀ a, x = .ok a → Sim R (f a) (g a)) : Sim R (x >>= f) (x >>= g) := by
  cases x with
  | error => exact rfl
  | ok a => exact h a rfl

variable {I : Impl} {K : Nat → Prop} {A : Agree K}

/-- All addresses of the list are in `K`. -/
def KeysIn (K : Nat → Prop) (l : List AccMeta) : Prop := ∀ a ∈ l, K a.key

theorem near_newOrderV3 (P : Params) (env : Env) {s t : State I} (h : NearBy A s t) {accts : List AccMeta}
    (ha : KeysIn K accts) (ix : NewOrderIx) :
    Sim (NearBy A) (newOrderV3 I P env s accts ix) (newOrderV3 I P env t accts ix) := by
  obtain ⟨l, rfl⟩ : ∃ l, t = { s with oos := l } := ⟨_, h.rest⟩
  unfold newOrderV3
  refine Sim.samePost fun a hp => ?_
  have hk : K a.oo.key := by
    unfold parseNewOrder at hp
    split at hp
    · split at hp
      · cases hp; exact ha _ (by simp)
      · cases hp
    · cases hp
  have hargs : newOrderArgs P env { s.toCore with oos := l } a ix.side = newOrderArgs P env s.toCore a ix.side := by
    unfold newOrderArgs
    rw [loadOrders_near (c := s.toCore) (d := { s.toCore with oos := l }) rfl (h.oos _ hk)]
    rfl
  show Sim _ _ (newOrderArgs P env { s.toCore with oos := l } a ix.side >>= _)
  rw [hargs]
  refine Sim.same fun ⟨tier, oo⟩ => ?_
  show Sim _ (newOrderExec I env s a ix tier oo) (newOrderExec I env { s with oos := l } a ix tier oo)
  unfold newOrderExec
  refine Sim.same fun _ => Sim.same fun _ => Sim.same fun ⟨mkt, oo, dep⟩ => ?_
  refine Sim.same fun ⟨slot, oo⟩ => Sim.same fun ⟨ob, rem, _⟩ => Sim.same fun _ => Sim.same fun oo => ?_
  refine Sim.same fun l => ?_
  exact h.set (by first | assumption | exact parseCancel_key ha (by assumption) | exact ha _ (by simp)) _ _ _ _ _ _ _

theorem near_sendTake (P : Params) {s t : State I} (h : NearBy A s t) (accts : List AccMeta) (ix : SendTakeIx) :
    Sim (NearBy A) (sendTake I P s accts ix) (sendTake I P t accts ix) := by
  obtain ⟨l, rfl⟩ : ∃ l, t = { s with oos := l } := ⟨_, h.rest⟩
  unfold sendTake
  refine Sim.same fun a => ?_
  show Sim _ (sendTakeArgs P s.toCore a >>= _) (sendTakeArgs P s.toCore a >>= _)
  refine Sim.same fun tier => ?_
  unfold sendTakeExec
  refine Sim.same fun ⟨ob, _, _⟩ => Sim.same fun _ => Sim.same fun ⟨m, d, w⟩ => Sim.same fun l => ?_
  exact ⟨rfl, h.rel⟩

theorem parseCancel_key {accts : List AccMeta} (ha : KeysIn K accts) {a : CancelAccts} (hp : parseCancel accts = .ok a) :
    K a.oo.key := by
  unfold parseCancel at hp
  split at hp
  · cases hp; exact ha _ (by simp)
  · cases hp

theorem cancelArgs_near {s : State I} {l : List (Nat × OpenOrders)} {a : CancelAccts} (ho : ooAt l a.oo.key = ooAt s.oos a.oo.key)
    (env : Env) : cancelArgs env { s.toCore with oos := l } a = cancelArgs env s.toCore a := by
  unfold cancelArgs
  rw [loadOrders_near (c := s.toCore) (d := { s.toCore with oos := l }) rfl ho]
  rfl

theorem near_cancelV2 (env : Env) {s t : State I} (h : NearBy A s t) {accts : List AccMeta} (ha : KeysIn K accts) (sd : Side)
    (id : Nat) : Sim (NearBy A) (cancelV2 I env s accts sd id) (cancelV2 I env t accts sd id) := by
  obtain ⟨l, rfl⟩ : ∃ l, t = { s with oos := l } := ⟨_, h.rest⟩
  unfold cancelV2
  refine Sim.samePost fun a hp => ?_
  show Sim _ _ (cancelArgs env { s.toCore with oos := l } a >>= _)
  rw [cancelArgs_near (h.oos _ (parseCancel_key ha hp))]
  refine Sim.same fun oo => ?_
  refine Sim.same fun ⟨ob, oo⟩ => ?_
  exact h.set (by first | assumption | exact parseCancel_key ha (by assumption) | exact ha _ (by simp)) _ _ _ _ _ _ _

theorem near_cancelBy (env : Env) {s t : State I} (h : NearBy A s t) {accts : List AccMeta} (ha : KeysIn K accts) (cid : Nat) :
    Sim (NearBy A) (cancelByClientIdV2 I env s accts cid) (cancelByClientIdV2 I env t accts cid) := by
  obtain ⟨l, rfl⟩ : ∃ l, t = { s with oos := l } := ⟨_, h.rest⟩
  unfold cancelByClientIdV2
  refine Sim.samePost fun a hp => Sim.same fun _ => ?_
  show Sim _ _ (cancelArgs env { s.toCore with oos := l } a >>= _)
  rw [cancelArgs_near (h.oos _ (parseCancel_key ha hp))]
  refine Sim.same fun oo => Sim.same fun ⟨id, sd⟩ => ?_
  refine Sim.same fun ⟨ob, oo⟩ => ?_
  exact h.set (by first | assumption | exact parseCancel_key ha (by assumption) | exact ha _ (by simp)) _ _ _ _ _ _ _

theorem near_batch (env : Env) {s t : State I} (h : NearBy A s t) {accts : List AccMeta} (ha : KeysIn K accts) (cids : List Nat) :
    Sim (NearBy A) (cancelByClientIds I env s accts cids) (cancelByClientIds I env t accts cids) := by
  obtain ⟨l, rfl⟩ : ∃ l, t = { s with oos := l } := ⟨_, h.rest⟩
  unfold cancelByClientIds
  refine Sim.samePost fun a hp => ?_
  show Sim _ _ (cancelArgs env { s.toCore with oos := l } a >>= _)
  rw [cancelArgs_near (h.oos _ (parseCancel_key ha hp))]
  refine Sim.same fun oo => ?_
  refine Sim.same fun ⟨ob, oo⟩ => ?_
  exact h.set (by first | assumption | exact parseCancel_key ha (by assumption) | exact ha _ (by simp)) _ _ _ _ _ _ _

theorem near_newOrders (P : Params) (env : Env) {accts : List AccMeta} (ha : KeysIn K accts) (ixs : List NewOrderIx) :
    ∀ {s t : State I}, NearBy A s t → Sim (NearBy A) (newOrders I P env s accts ixs) (newOrders I P env t accts ixs) := by
  induction ixs with
  | nil => intro s t h; exact h
  | cons x ixs ih =>
    intro s t h
    unfold newOrders
    exact (near_newOrderV3 P env h ha x).bind fun s t h => ih h

theorem near_replace (P : Params) (env : Env) {s t : State I} (h : NearBy A s t) {accts : List AccMeta} (ha : KeysIn K accts)
    (ixs : List NewOrderIx) : Sim (NearBy A) (replaceOrders I P env s accts ixs) (replaceOrders I P env t accts ixs) := by
  unfold replaceOrders
  refine Sim.samePost fun ca hc => ?_
  have hca : KeysIn K ca := by
    unfold replaceCancelAccts at hc
    split at hc
    · rename_i h1 h2 h3 h4 h5 h6
      cases hc
      intro x hx
      simp only [List.mem_cons, List.not_mem_nil, or_false] at hx
      rcases hx with rfl | rfl | rfl | rfl | rfl | rfl <;> exact ha _ (List.mem_of_getElem? (by assumption))
    · cases hc
  exact (near_batch env h hca _).bind fun s t h => near_newOrders P env ha ixs h

theorem near_consumeOne (P : Params) (env : Env) {s t : State I} (h : NearBy A s t) {keys : List Nat} (hk : ∀ k ∈ keys, K k) :
    Sim (OSim (NearBy A)) (consumeOne I P env s keys) (consumeOne I P env t keys) := by
  obtain ⟨l, rfl⟩ : ∃ l, t = { s with oos := l } := ⟨_, h.rest⟩
  unfold consumeOne
  have hq : State.q { s with oos := l } = s.q := rfl
  rw [hq]
  cases I.peek s.q with
  | none => exact trivial
  | some e =>
    refine Sim.same fun v => ?_
    have he : eventOwner P env { s.toCore with oos := l } keys e v = eventOwner P env s.toCore keys e v := by
      unfold eventOwner
      split
      · rename_i hf
        rw [loadOrders_near (c := s.toCore) (d := { s.toCore with oos := l }) rfl (h.oos _ (hk _ (P.search.sound _ _ hf)))]
      · rfl
    show Sim _ _ (eventOwner P env { s.toCore with oos := l } keys e v >>= _)
    rw [he]
    refine Sim.samePost fun r hr => ?_
    cases r with
    | none => exact trivial
    | some oo =>
      have hko : K e.owner := by
        unfold eventOwner at hr
        split at hr
        · rename_i hf; exact hk _ (P.search.sound _ _ hf)
        · cases hr
      refine Sim.same fun oo => Sim.same fun q => ?_
      exact h.set (by first | assumption | exact parseCancel_key ha (by assumption) | exact ha _ (by simp)) _ _ _ _ _ _ _

theorem near_consumeLoop (P : Params) (env : Env) {keys : List Nat} (hk : ∀ k ∈ keys, K k) (n : Nat) :
    ∀ {s t : State I}, NearBy A s t → Sim (NearBy A) (consumeLoop I P env keys n s) (consumeLoop I P env keys n t) := by
  induction n with
  | zero => intro s t h; exact h
  | succ n ih =>
    intro s t h
    unfold consumeLoop
    refine (near_consumeOne P env h hk).bind fun r r' hr => ?_
    cases r with
    | none =>
      cases r' with
      | none => exact h
      | some _ => cases hr
    | some s =>
      cases r' with
      | none => cases hr
      | some t => exact ih hr

theorem keysIn_take {accts : List AccMeta} (ha : KeysIn K accts) (n : Nat) : ∀ k ∈ (accts.take n).map (·.key), K k := by
  intro k hk
  obtain ⟨a, h, rfl⟩ := List.mem_map.1 hk
  exact ha a (List.mem_of_mem_take h)

theorem near_consume (P : Params) (env : Env) {s t : State I} (h : NearBy A s t) {accts : List AccMeta} (ha : KeysIn K accts)
    (n : Nat) : Sim (NearBy A) (consumeEvents I P env s accts n) (consumeEvents I P env t accts n) := by
  obtain ⟨l, rfl⟩ : ∃ l, t = { s with oos := l } := ⟨_, h.rest⟩
  unfold consumeEvents
  refine Sim.same fun _ => ?_
  split
  · show Sim _ (loadMarket s.toCore _ true >>= _) (loadMarket s.toCore _ true >>= _)
    refine Sim.same fun _ => Sim.same fun _ => ?_
    show Sim _ (loadEventQ s.toCore _ >>= _) (loadEventQ s.toCore _ >>= _)
    exact Sim.same fun _ => near_consumeLoop P env (keysIn_take ha _) n h
  · exact rfl

theorem near_consumeP (P : Params) (env : Env) {s t : State I} (h : NearBy A s t) {accts : List AccMeta} (ha : KeysIn K accts)
    (n : Nat) : Sim (NearBy A) (consumeEventsPermissioned I P env s accts n) (consumeEventsPermissioned I P env t accts n) := by
  obtain ⟨l, rfl⟩ : ∃ l, t = { s with oos := l } := ⟨_, h.rest⟩
  unfold consumeEventsPermissioned
  refine Sim.same fun _ => ?_
  split
  · show Sim _ (loadMarket s.toCore _ true >>= _) (loadMarket s.toCore _ true >>= _)
    refine Sim.same fun _ => Sim.same fun _ => Sim.same fun _ => ?_
    show Sim _ (loadEventQ s.toCore _ >>= _) (loadEventQ s.toCore _ >>= _)
    exact Sim.same fun _ => near_consumeLoop P env (keysIn_take ha _) n h
  · exact rfl

theorem near_settle (P : Params) (env : Env) {s t : State I} (h : NearBy A s t) {accts : List AccMeta} (ha : KeysIn K accts) :
    Sim (NearBy A) (settleFunds I P env s accts) (settleFunds I P env t accts) := by
  obtain ⟨l, rfl⟩ : ∃ l, t = { s with oos := l } := ⟨_, h.rest⟩
  unfold settleFunds
  refine Sim.samePost fun a hp => ?_
  have hk : K a.oo.key := by
    unfold parseSettle at hp
    split at hp
    · cases hp; exact ha _ (by simp)
    · cases hp; exact ha _ (by simp)
    · cases hp
  have hargs : settleArgs P env { s.toCore with oos := l } a = settleArgs P env s.toCore a := by
    unfold settleArgs
    rw [loadOrders_near (c := s.toCore) (d := { s.toCore with oos := l }) rfl (h.oos _ hk)]
    rfl
  show Sim _ _ (settleArgs P env { s.toCore with oos := l } a >>= _)
  rw [hargs]
  refine Sim.same fun oo => ?_
  unfold settleExec
  refine Sim.same fun ct => Sim.same fun pt => Sim.same fun l1 => Sim.same fun l2 => Sim.same fun ⟨m, l3⟩ => ?_
  exact h.set (by first | assumption | exact parseCancel_key ha (by assumption) | exact ha _ (by simp)) _ _ _ _ _ _ _

theorem near_disable (P : Params) {s t : State I} (h : NearBy A s t) (accts : List AccMeta) :
    Sim (NearBy A) (disableMarket I P s accts) (disableMarket I P t accts) := by
  obtain ⟨l, rfl⟩ : ∃ l, t = { s with oos := l } := ⟨_, h.rest⟩
  unfold disableMarket
  split
  · show Sim _ (loadMarket s.toCore _ false >>= _) (loadMarket s.toCore _ false >>= _)
    exact Sim.same fun _ => Sim.same fun _ => Sim.same fun _ => ⟨rfl, h.rel⟩
  · exact rfl

theorem near_sweep (P : Params) {s t : State I} (h : NearBy A s t) (accts : List AccMeta) :
    Sim (NearBy A) (sweepFees I P s accts) (sweepFees I P t accts) := by
  obtain ⟨l, rfl⟩ : ∃ l, t = { s with oos := l } := ⟨_, h.rest⟩
  unfold sweepFees
  split
  · show Sim _ (loadMarket s.toCore _ false >>= _) (loadMarket s.toCore _ false >>= _)
    refine Sim.same fun _ => ?_
    show Sim _ (pcVault s.toCore _ >>= _) (pcVault s.toCore _ >>= _)
    refine Sim.same fun _ => ?_
    show Sim _ (pcWallet s.toCore _ >>= _) (pcWallet s.toCore _ >>= _)
    refine Sim.same fun _ => ?_
    show Sim _ (vaultSignerAcct P s.toCore _ >>= _) (vaultSignerAcct P s.toCore _ >>= _)
    refine Sim.same fun _ => Sim.same fun _ => Sim.same fun _ => Sim.same fun _ => ?_
    show Sim _ (sendFromVault P s.mkt s.toks _ _ _ >>= _) (sendFromVault P s.mkt s.toks _ _ _ >>= _)
    exact Sim.same fun _ => ⟨rfl, h.rel⟩
  · exact rfl

theorem near_close (env : Env) {s t : State I} (h : NearBy A s t) {accts : List AccMeta} (ha : KeysIn K accts) :
    Sim (NearBy A) (closeOpenOrders I env s accts) (closeOpenOrders I env t accts) := by
  obtain ⟨l, rfl⟩ : ∃ l, t = { s with oos := l } := ⟨_, h.rest⟩
  unfold closeOpenOrders
  split
  · refine Sim.same fun _ => ?_
    show Sim _ (loadMarket s.toCore _ true >>= _) (loadMarket s.toCore _ true >>= _)
    refine Sim.same fun _ => ?_
    rw [loadOrders_near (c := s.toCore) (d := { s.toCore with oos := l }) rfl (h.oos _ (ha _ List.mem_cons_self))]
    exact Sim.same fun o => Sim.same fun _ => h.set (by first | assumption | exact parseCancel_key ha (by assumption) | exact ha _ (by simp)) _ _ _ _ _ _ _
  · exact rfl

theorem near_initOo (env : Env) {s t : State I} (h : NearBy A s t) {accts : List AccMeta} (ha : KeysIn K accts) :
    Sim (NearBy A) (initOpenOrders I env s accts) (initOpenOrders I env t accts) := by
  obtain ⟨l, rfl⟩ : ∃ l, t = { s with oos := l } := ⟨_, h.rest⟩
  unfold initOpenOrders
  split
  · split
    · refine Sim.same fun _ => Sim.same fun _ => ?_
      show Sim _ (loadMarket s.toCore _ false >>= _) (loadMarket s.toCore _ false >>= _)
      refine Sim.same fun _ => ?_
      rw [loadOrders_near (c := s.toCore) (d := { s.toCore with oos := l }) rfl (h.oos _ (ha _ List.mem_cons_self))]
      exact Sim.same fun o => h.set (by first | assumption | exact parseCancel_key ha (by assumption) | exact ha _ (by simp)) _ _ _ _ _ _ _
    · exact rfl
  · exact rfl

theorem near_prune (env : Env) {s t : State I} (h : NearBy A s t) {accts : List AccMeta} (ha : KeysIn K accts) (n : Nat) :
    Sim (NearBy A) (prune I env s accts n) (prune I env t accts n) := by
  obtain ⟨l, rfl⟩ : ∃ l, t = { s with oos := l } := ⟨_, h.rest⟩
  unfold prune
  split
  · rename_i m b a auth oo owner eq
    refine Sim.same fun _ => ?_
    show Sim _ (loadMarket s.toCore _ false >>= _) (loadMarket s.toCore _ false >>= _)
    refine Sim.same fun _ => Sim.same fun _ => ?_
    rw [loadOrders_near (c := s.toCore) (d := { s.toCore with oos := l }) rfl (h.oos oo.key (ha oo (by simp)))]
    refine Sim.same fun o => ?_
    show Sim _ (orAssert (loadBids s.toCore _) >>= _) (orAssert (loadBids s.toCore _) >>= _)
    refine Sim.same fun _ => ?_
    show Sim _ (orAssert (loadAsks s.toCore _) >>= _) (orAssert (loadAsks s.toCore _) >>= _)
    refine Sim.same fun _ => ?_
    show Sim _ (loadEventQ s.toCore _ >>= _) (loadEventQ s.toCore _ >>= _)
    refine Sim.same fun _ => Sim.same fun ⟨ob, bl, al⟩ => Sim.same fun ⟨ob, o⟩ => Sim.same fun ⟨ob, o⟩ => ?_
    exact h.set (by first | assumption | exact parseCancel_key ha (by assumption) | exact ha _ (by simp)) _ _ _ _ _ _ _
  · exact rfl

/-- An instruction gives the same error or related results on states whose accounts are related. -/
theorem nearBy_process (P : Params) (env : Env) {s t : State I} (h : NearBy A s t) {accts : List AccMeta} (ha : KeysIn K accts)
    (ix : Instruction) : Sim (NearBy A) (process I P env s accts ix) (process I P env t accts ix) := by
  cases ix with
  | initializeMarket => exact rfl
  | newOrder => exact rfl
  | matchOrders => exact h
  | consumeEvents => exact near_consume P env h ha _
  | cancelOrder => exact rfl
  | settleFunds => exact near_settle P env h ha
  | cancelOrderByClientId => exact rfl
  | disableMarket => exact near_disable P h _
  | sweepFees => exact near_sweep P h _
  | newOrderV2 => exact rfl
  | newOrderV3 => exact near_newOrderV3 P env h ha _
  | cancelOrderV2 => exact near_cancelV2 env h ha _ _
  | cancelOrderByClientIdV2 => exact near_cancelBy env h ha _
  | sendTake => exact near_sendTake P h _ _
  | closeOpenOrders => exact near_close env h ha
  | initOpenOrders => exact near_initOo env h ha
  | prune => exact near_prune env h ha _
  | consumeEventsPermissioned => exact near_consumeP P env h ha _
  | cancelOrdersByClientIds => exact near_batch env h ha _
  | replaceOrderByClientId => exact near_replace P env h ha _
  | replaceOrdersByClientIds => exact near_replace P env h ha _

/-! ### Agreeing on the named accounts -/

/-- States that agree except for open-orders accounts at addresses outside `K`. -/
structure Near {I : Impl} (K : Nat → Prop) (s t : State I) : Prop where
  rest : t = { s with oos := t.oos }
  oos : ∀ a, K a → ooAt t.oos a = ooAt s.oos a

/-- The weakest such relation. -/
def agreeOn (K : Nat → Prop) : Agree K where
  R l k := ∀ a, K a → ooAt k a = ooAt l a
  get h ha := h _ ha
  put o h _ x hx := by rw [ooAt_setOo, ooAt_setOo, h x hx]

/-- An instruction gives the same error or agreeing results on states that agree on the named accounts. -/
theorem near_process (P : Params) (env : Env) {s t : State I} (h : Near K s t) {accts : List AccMeta} (ha : KeysIn K accts)
    (ix : Instruction) : Sim (Near K) (process I P env s accts ix) (process I P env t accts ix) :=
  (nearBy_process P env (A := agreeOn K) ⟨h.rest, h.oos⟩ ha ix).mono fun _ _ g => ⟨g.rest, g.rel⟩

end Serum
