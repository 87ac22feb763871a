import Verif.PropsHist

/-!
Properties of event processing: C31 (progress), C43 (batching), C44 (crank authority).
-/

namespace Serum.Props

/-! ### One event, on lists -/

theorem removeOrder_ok {o : OpenOrders} {i : Nat} {x : Side × Nat} (h : o.slot i = some x) :
    ∃ o', o.removeOrder i = .ok o' := by
  unfold OpenOrders.slot at h
  split at h
  · rename_i hi
    have hs : o.slotSide i ≠ none := by
      intro e; rw [e] at h; cases h
    obtain ⟨f, b, e, _⟩ := removeOrder_spec hi hs
    exact ⟨_, e⟩
  · cases h

/-- An event applies if its owner's slot is in use and what the account holds fits. -/
theorem applyEvent_ok {o : OpenOrders} {v : EventView} {x : Side × Nat}
    (hx : o.slot v.slot = some x) {A B : Nat}
    (hc : o.coinTotal = (o.coinFree + A) % W64) (hp : o.pcTotal = (o.pcFree + B) % W64)
    (hA : v.lock .ask ≤ A) (hB : v.lock .bid ≤ B) (fA : o.coinFree + A < W64) (fB : o.pcFree + B < W64) :
    ∃ o', applyEvent o v = .ok o' := by
  rw [Nat.mod_eq_of_lt fA] at hc
  rw [Nat.mod_eq_of_lt fB] at hp
  cases v with
  | fill sd mk paid recv fee id ow sl ft cid =>
    unfold applyEvent
    cases mk with
    | false => exact ⟨_, rfl⟩
    | true => cases sd <;> exact ⟨_, rfl⟩
  | out sd rel u still id ow sl cid =>
    have rem : ∀ o1 : OpenOrders, o1.freeBits = o.freeBits → o1.bidBits = o.bidBits → o1.orders = o.orders →
        ∃ o', (if still = 0 then o1.removeOrder sl else .ok o1) = .ok o' := by
      intro o1 e1 e2 e3
      split
      · have hx' : o1.slot sl = some x := by
          rw [← hx]
          show o1.slot sl = o.slot sl
          unfold OpenOrders.slot OpenOrders.slotSide
          rw [e1, e2, e3]
        exact removeOrder_ok hx'
      · exact ⟨_, rfl⟩
    cases sd with
    | bid =>
      have hfree : (if rel = true then wadd o.pcFree u else o.pcFree) ≤ o.pcTotal := by
        cases rel with
        | false => simp only [Bool.false_eq_true, if_false]; omega
        | true =>
          simp only [EventView.lock, if_true] at hB
          simp only [if_true, wadd]
          rw [Nat.mod_eq_of_lt (by omega)]
          omega
      obtain ⟨o', h'⟩ := rem { o with pcFree := if rel = true then wadd o.pcFree u else o.pcFree } rfl rfl rfl
      refine ⟨o', ?_⟩
      unfold applyEvent
      simp only [hfree, decide_true, Bool.not_true, Bool.false_eq_true, if_false]
      exact h'
    | ask =>
      have hfree : (if rel = true then wadd o.coinFree u else o.coinFree) ≤ o.coinTotal := by
        cases rel with
        | false => simp only [Bool.false_eq_true, if_false]; omega
        | true =>
          simp only [EventView.lock, if_true] at hA
          simp only [if_true, wadd]
          rw [Nat.mod_eq_of_lt (by omega)]
          omega
      obtain ⟨o', h'⟩ := rem { o with coinFree := if rel = true then wadd o.coinFree u else o.coinFree } rfl rfl rfl
      refine ⟨o', ?_⟩
      unfold applyEvent
      simp only [hfree, decide_true, Bool.not_true, Bool.false_eq_true, if_false]
      exact h'

theorem slot_parts {o : OpenOrders} {i : Nat} {sd : Side} {id : Nat} (h : o.slot i = some (sd, id)) :
    i < 128 ∧ o.slotSide i = some sd ∧ o.orderAt i = some id := by
  unfold OpenOrders.slot at h
  split at h
  · rename_i hi
    refine ⟨hi, ?_⟩
    unfold OpenOrders.orderAt
    split at h
    · rename_i a b
      cases h
      exact ⟨a, b⟩
    · cases h
  · cases h

/-- Processing the oldest event succeeds. -/
theorem consumeOne_ok {P : Params} {env : Env} {s : State lst} {keys : List Nat} {vs : Nat} {v : EventView}
    {rest : List EventView}
    (hq : s.q.items = (v :: rest).map Event.new)
    (hi : Inv vs s.mkt s.seq s.oos s.toks s.bids.items s.asks.items (v :: rest))
    (hk : P.search.find keys v.owner = true) {o : OpenOrders} (ho : ooAt s.oos v.owner = some o)
    (fA : o.coinFree + bookLock .ask s.mkt (only v.owner) s.asks.items +
      evSum (EventView.lock .ask) (only v.owner) (v :: rest) < W64)
    (fB : o.pcFree + bookLock .bid s.mkt (only v.owner) s.bids.items +
      evSum (EventView.lock .bid) (only v.owner) (v :: rest) < W64) :
    ∃ o', applyEvent o v = .ok o' ∧ consumeOne lst P env s keys = .ok (some { s with
      oos := setOo s.oos v.owner o'
      q := ⟨rest.map Event.new, s.q.cap⟩ }) := by
  have hok := hi.shape.accts _ _ ho
  obtain ⟨sd, id, hs, ht⟩ := hi.shape.slots.head
  have hs' : o.slot v.slot = some (sd, id) := by
    unfold slotsOf at hs; rw [ho] at hs; exact hs
  obtain ⟨p1, p2, p3⟩ := slot_parts hs'
  have hcl : o.closed = false := by
    cases hc : o.closed with
    | false => rfl
    | true =>
      have := slot_none_of_allOnes (hok.closed hc).1 v.slot
      rw [this] at hs'; cases hs'
  have c1 := hi.money.coinTot _ _ ho
  have c2 := hi.money.pcTot _ _ ho
  simp only [evSum_cons, only, beq_self_eq_true, if_true] at c1 c2 fA fB
  obtain ⟨o', ha⟩ := applyEvent_ok (v := v) hs' (by rw [c1, Nat.add_assoc]) (by rw [c2, Nat.add_assoc])
    (by omega) (by omega) (by omega) (by omega)
  refine ⟨o', ha, ?_⟩
  have e1 : (Event.new v).owner = v.owner := by cases v <;> rfl
  have e2 : (Event.new v).ownerSlot = v.slot := by cases v <;> rfl
  have e3 : (Event.new v).orderId = v.id := by cases v <;> rfl
  unfold consumeOne
  rw [show lst.peek s.q = s.q.items.head? from rfl, hq]
  simp only [List.map_cons, List.head?_cons, Event.asView_new, bind, Except.bind]
  have he : eventOwner P env s.toCore keys (Event.new v) v = .ok (some o) := by
    unfold eventOwner
    rw [e1, if_pos hk]
    have hl : loadOrders s.toCore env v.owner none false none = .ok o := by
      unfold loadOrders
      rw [ho]
      simp [hcl]
    rw [hl, e2, e3, ht.1, ht.2]
    simp [bind, Except.bind, checkAssert, p1, p2, p3, unwrap, pure, Except.pure]
  rw [he]
  simp only [ha]
  rw [hq]
  simp [unwrap, pure, Except.pure, e1]

/-- What an account holds and is still due fits in 64 bits (list level). -/
def FitsL (K : Nat → Prop) (m : Market) (oos : List (Nat × OpenOrders)) (bids asks : List Leaf) (evs : List EventView) : Prop :=
  ∀ a, K a → ∀ o, ooAt oos a = some o →
    o.coinFree + bookLock .ask m (only a) asks + evSum (EventView.lock .ask) (only a) evs +
      evSum (EventView.free .ask) (only a) evs < W64 ∧
    o.pcFree + bookLock .bid m (only a) bids + evSum (EventView.lock .bid) (only a) evs +
      evSum (EventView.free .bid) (only a) evs < W64

theorem FitsL.consume {K : Nat → Prop} {m : Market} {oos : List (Nat × OpenOrders)} {bids asks : List Leaf} {v : EventView}
    {rest : List EventView} (h : FitsL K m oos bids asks (v :: rest)) {o o' : OpenOrders}
    (ho : ooAt oos v.owner = some o) (ha : Applied o o' v) :
    FitsL K m (setOo oos v.owner o') bids asks rest := by
  intro a hK p hp
  rw [ooAt_setOo] at hp
  by_cases hav : a = v.owner
  · subst hav
    rw [if_pos rfl] at hp
    cases hp
    obtain ⟨h1, h2⟩ := h _ hK _ ho
    have a1 := ha.coinFree
    have a2 := ha.pcFree
    simp only [evSum_cons, only, beq_self_eq_true, if_true] at h1 h2
    rw [Nat.mod_eq_of_lt (by unfold W64 at *; omega)] at a1 a2
    omega
  · rw [if_neg hav] at hp
    obtain ⟨h1, h2⟩ := h _ hK _ hp
    simp only [evSum_cons] at h1 h2
    omega

/-- Processing up to `n` events succeeds if the accounts of the first `n` events are supplied. -/
theorem consumeLoop_ok {K : Nat → Prop} {P : Params} {env : Env} {keys : List Nat} {vs : Nat} : ∀ (n : Nat) {s : State lst}
    {evs : List EventView}, s.q.items = evs.map Event.new →
    Inv vs s.mkt s.seq s.oos s.toks s.bids.items s.asks.items evs →
    FitsL K s.mkt s.oos s.bids.items s.asks.items evs →
    (∀ v ∈ evs.take n, P.search.find keys v.owner = true ∧ K v.owner) →
    ∃ s', consumeLoop lst P env keys n s = .ok s' ∧ s'.q.items = (evs.drop n).map Event.new := by
  intro n
  induction n with
  | zero => intro s evs hq _ _ _; exact ⟨s, rfl, hq⟩
  | succ n ih =>
    intro s evs hq hi hf hk
    cases evs with
    | nil =>
      refine ⟨s, ?_, by simpa using hq⟩
      unfold consumeLoop consumeOne
      rw [show lst.peek s.q = s.q.items.head? from rfl, hq]
      rfl
    | cons v rest =>
      obtain ⟨sd, id, hs, ht⟩ := hi.shape.slots.head
      obtain ⟨o, ho⟩ : ∃ o, ooAt s.oos v.owner = some o := by
        unfold slotsOf at hs
        cases he : ooAt s.oos v.owner with
        | none => rw [he] at hs; cases hs
        | some o => exact ⟨o, rfl⟩
      obtain ⟨f1, f2⟩ := hf _ (hk v (by simp)).2 _ ho
      obtain ⟨o', ha, hc⟩ := consumeOne_ok (env := env) hq hi (hk v (by simp)).1 ho (by omega) (by omega)
      have hok := hi.shape.accts _ _ ho
      have hcl : o.closed = false := by
        cases hc : o.closed with
        | false => rfl
        | true =>
          have hn := slot_none_of_allOnes (hok.closed hc).1 v.slot
          unfold slotsOf at hs
          rw [ho] at hs
          simp only at hs
          rw [hn] at hs; cases hs
      have happ := applyEvent_inv hok hcl ha
      obtain ⟨s', h1, h2⟩ := ih (s := { s with
          oos := setOo s.oos v.owner o'
          q := ⟨rest.map Event.new, s.q.cap⟩ }) (evs := rest) rfl (hi.consume ho happ) (hf.consume ho happ)
        (fun w hw => hk w (by simp [hw]))
      refine ⟨s', ?_, by simpa using h2⟩
      unfold consumeLoop
      rw [hc]
      exact h1

/-! ### C31 -/

/-- Everything an account holds and is still due, of each token, is below 2^64. -/
abbrev Fits (s : State conc) (a : Nat) (o : OpenOrders) : Prop :=
  baseHeld s a o + total baseDue ((pending s).filter fun v => v.owner == a) < 2 ^ 64 ∧
  quoteHeld s a o + total quoteDue ((pending s).filter fun v => v.owner == a) < 2 ^ 64

/-- Accounts of the open crank: open-orders accounts, market, event queue and two unused ones. -/
def crankAccts (s : State conc) (keys : List Nat) : List AccMeta :=
  keys.map (fun k => ⟨k, false⟩) ++ [⟨s.mkt.ownAddress, false⟩, ⟨s.mkt.eventQ, false⟩, ⟨0, false⟩, ⟨0, false⟩]

theorem consumeEvents_eq {s : State conc} (hf : goodFlags s.mkt.flags = true) (hc : s.mkt.crankAuth = none)
    {P : Params} {env : Env} {keys : List Nat} (hk : keys ≠ []) (n : Nat) :
    consumeEvents conc P env s (crankAccts s keys) n = consumeLoop conc P env keys n s := by
  have hl : 0 < keys.length := List.length_pos_iff.2 hk
  have e1 : (crankAccts s keys).length = keys.length + 4 := by simp [crankAccts]
  have e2 : (crankAccts s keys).drop ((crankAccts s keys).length - 4) =
      [⟨s.mkt.ownAddress, false⟩, ⟨s.mkt.eventQ, false⟩, ⟨0, false⟩, ⟨0, false⟩] := by
    rw [e1]
    unfold crankAccts
    rw [List.drop_append]
    simp
  have e3 : ((crankAccts s keys).take ((crankAccts s keys).length - 4)).map (·.key) = keys := by
    rw [e1]
    unfold crankAccts
    rw [List.take_append]
    simp [Function.comp_def]
  unfold consumeEvents
  rw [e2, e3, e1]
  have h5 : decide (5 ≤ keys.length + 4) = true := by simp; omega
  simp only [h5, checkAssert, if_true, bind, Except.bind, loadMarket, beq_self_eq_true, goodFlags_load hf, hc,
    Option.isNone_none, loadEventQ, ne_eq, not_true_eq_false, if_false]

theorem drain {P : Params} {s : State conc} (h : Reach P s) (hq : s.seq ≤ W64)
    (env : Env) (keys : List Nat) (hs : keys.Pairwise keyLe) (n : Nat)
    (hn : ∀ v ∈ (pending s).take n, v.owner ∈ keys)
    (hf : ∀ v ∈ (pending s).take n, ∀ o, ooAt s.oos v.owner = some o → Fits s v.owner o) :
    ∃ s', consumeLoop conc P env keys n s = .ok s' ∧ pending s' = (pending s).drop n := by
  obtain ⟨vs, hv, hqi, hi⟩ := h.view hq
  have hg := h.good hq
  have hL : (absState s).q.items = (pending s).map Event.new := by
    rw [← hqi, Queue.iter_eq hg.rs.q.1]; rfl
  have hfl : FitsL (fun a => ∃ v ∈ (pending s).take n, v.owner = a) s.mkt s.oos s.bids.contents
      s.asks.contents (pending s) := by
    rintro a ⟨v, hv', rfl⟩ o ho
    have := hf v hv' o ho
    unfold Fits baseHeld quoteHeld at this
    rw [askLock_only, bidLock_only, evSum_only _ _ lock_ask, evSum_only _ _ lock_bid, evSum_only _ _ free_ask,
      evSum_only _ _ free_bid]
    exact this
  obtain ⟨t, h1, h2⟩ := consumeLoop_ok (P := P) (env := env) (keys := keys) n (s := absState s) hL hi hfl
    (fun v hv => ⟨P.search.complete _ _ hs (hn v hv), v, hv, rfl⟩)
  obtain ⟨s', h3, h4⟩ := Sim.ok_left (Refines.sim_consumeLoop P env keys n hg.rs) h1
  refine ⟨s', h3, ?_⟩
  · have hiter : s'.q.iter = ((pending s).drop n).map Event.new := by
      rw [Queue.iter_eq h4.q.1, ← h2, h4.q.2]; rfl
    unfold pending at hiter ⊢
    rw [hiter, List.filterMap_map]
    have : (fun e => e.asView.toOption) ∘ Event.new = (some : EventView → Option EventView) := by
      funext v
      simp [Function.comp, Event.asView_new, Except.toOption]
    rw [this, List.filterMap_some]

/-- C31. On a market without crank authority, whatever happened before: if the accounts of the first `n`
queued events are supplied (sorted, as the processor's search requires) and what those accounts hold and
are due fits in 64 bits, processing `n` events succeeds and takes exactly those off the queue. With
`n` at least the length of the queue this empties it. -/
theorem crank_progress {P : Params} {s : State conc} (h : Reach P s) (hq : s.seq ≤ W64)
    (hc : s.mkt.crankAuth = none) (env : Env) (keys : List Nat) (hk : keys ≠ [])
    (hs : keys.Pairwise keyLe) (n : Nat) (hn : ∀ v ∈ (pending s).take n, v.owner ∈ keys)
    (hf : ∀ v ∈ (pending s).take n, ∀ o, ooAt s.oos v.owner = some o → Fits s v.owner o) :
    ∃ s', consumeEvents conc P env s (crankAccts s keys) n = .ok s' ∧
      pending s' = (pending s).drop n := by
  rw [consumeEvents_eq h.flags hc hk]
  exact drain h hq env keys hs n hn hf

-- the market with four queued events of two accounts
example : Reach Demo.P Demo.s3 ∧ Demo.s3.seq ≤ W64 ∧ Demo.s3.mkt.crankAuth = none ∧ [41, 42] ≠ [] ∧
    [41, 42].Pairwise keyLe ∧ (∀ v ∈ (pending Demo.s3).take 4, v.owner ∈ [41, 42]) ∧
    ((pending Demo.s3).take 4).all (fun v => match ooAt Demo.s3.oos v.owner with
      | none => true
      | some o => decide (Fits Demo.s3 v.owner o)) = true ∧ (pending Demo.s3).length = 4 :=
  ⟨Demo.r3, by decide +kernel, by decide, by decide, by decide, by decide +kernel, by decide +kernel,
    by decide +kernel⟩

/-- Accounts of the permissioned crank: open-orders accounts, market, event queue and the authority. -/
def permissionedCrankAccts (s : State conc) (keys : List Nat) (auth : Nat) : List AccMeta :=
  keys.map (fun k => ⟨k, false⟩) ++ [⟨s.mkt.ownAddress, false⟩, ⟨s.mkt.eventQ, false⟩, ⟨auth, true⟩]

theorem consumePermissioned_eq {s : State conc} (hf : goodFlags s.mkt.flags = true) {auth : Nat}
    (hc : s.mkt.crankAuth = some auth) {P : Params} {env : Env} {keys : List Nat} (hk : keys ≠ []) (n : Nat) :
    consumeEventsPermissioned conc P env s (permissionedCrankAccts s keys auth) n =
      consumeLoop conc P env keys n s := by
  have hl : 0 < keys.length := List.length_pos_iff.2 hk
  have e1 : (permissionedCrankAccts s keys auth).length = keys.length + 3 := by simp [permissionedCrankAccts]
  have e2 : (permissionedCrankAccts s keys auth).drop ((permissionedCrankAccts s keys auth).length - 3) =
      [⟨s.mkt.ownAddress, false⟩, ⟨s.mkt.eventQ, false⟩, ⟨auth, true⟩] := by
    rw [e1]
    unfold permissionedCrankAccts
    rw [List.drop_append]
    simp
  have e3 : ((permissionedCrankAccts s keys auth).take
      ((permissionedCrankAccts s keys auth).length - 3)).map (·.key) = keys := by
    rw [e1]
    unfold permissionedCrankAccts
    rw [List.take_append]
    simp [Function.comp_def]
  unfold consumeEventsPermissioned
  rw [e2, e3, e1]
  have h5 : decide (4 ≤ keys.length + 3) = true := by simp; omega
  simp only [h5, checkAssert, if_true, bind, Except.bind, loadMarket, beq_self_eq_true, goodFlags_load hf, hc,
    loadEventQ, ne_eq, not_true_eq_false, if_false]

/-- C31, permissioned markets: the same for the crank authority. -/
theorem permissioned_crank_progress {P : Params} {s : State conc} (h : Reach P s) (hq : s.seq ≤ W64)
    {auth : Nat} (hc : s.mkt.crankAuth = some auth) (env : Env) (keys : List Nat) (hk : keys ≠ [])
    (hs : keys.Pairwise keyLe) (n : Nat) (hn : ∀ v ∈ (pending s).take n, v.owner ∈ keys)
    (hf : ∀ v ∈ (pending s).take n, ∀ o, ooAt s.oos v.owner = some o → Fits s v.owner o) :
    ∃ s', consumeEventsPermissioned conc P env s (permissionedCrankAccts s keys auth) n = .ok s' ∧
      pending s' = (pending s).drop n := by
  rw [consumePermissioned_eq h.flags hc hk]
  exact drain h hq env keys hs n hn hf

/-! ### What the crank delivers -/

/-- The order in a slot: side and id. -/
def orderIn (o : OpenOrders) (i : Nat) : Option (Side × Nat) := (slots o i).map fun x => (x.1, x.2.1)

/-- The effect of the events `es`, in this order, on their owner's account. -/
structure Delivered (o o' : OpenOrders) (es : List EventView) : Prop where
  coinFree : o'.coinFree = o.coinFree + total baseDue es
  pcFree : o'.pcFree = o.pcFree + total quoteDue es
  rebates : o'.rebates = o.rebates + total rebateDue es
  coinTotal : (o'.coinTotal + total baseLocked es) % 2 ^ 64 = (o.coinTotal + total baseDue es) % 2 ^ 64
  pcTotal : (o'.pcTotal + total quoteLocked es) % 2 ^ 64 = (o.pcTotal + total quoteDue es) % 2 ^ 64
  owner : o'.owner = o.owner
  closed : o'.closed = o.closed
  slots : ∀ i, orderIn o' i = if es.any (fun v => v.slot == i && endsOrder v) then none else orderIn o i

theorem Delivered.refl (o : OpenOrders) : Delivered o o [] :=
  ⟨rfl, rfl, rfl, rfl, rfl, rfl, rfl, fun _ => rfl⟩

theorem total_cons {α : Type} (f : α → Nat) (x : α) (l : List α) : total f (x :: l) = f x + total f l := by
  simp [total]

theorem Delivered.cons {o o1 o' : OpenOrders} {v : EventView} {es : List EventView} (hok : OoOk o)
    (ha : Applied o o1 v) (f1 : o.coinFree + v.free .ask < W64) (f2 : o.pcFree + v.free .bid < W64)
    (f3 : o.rebates + v.rebate < W64) (h : Delivered o1 o' es) : Delivered o o' (v :: es) := by
  have a1 := ha.coinFree
  have a2 := ha.pcFree
  have a3 := ha.rebates
  have a4 := ha.coinTotal
  have a5 := ha.pcTotal
  rw [Nat.mod_eq_of_lt f1] at a1
  rw [Nat.mod_eq_of_lt f2] at a2
  rw [Nat.mod_eq_of_lt f3] at a3
  rw [free_ask] at a1 a4
  rw [free_bid] at a2 a5
  rw [rebate_due] at a3
  rw [lock_ask] at a4
  rw [lock_bid] at a5
  obtain ⟨h1, h2, h3, h4, h5, h6, h7, h8⟩ := h
  refine ⟨?_, ?_, ?_, ?_, ?_, h6.trans ha.owner, h7.trans ha.closed, ?_⟩
  · rw [h1, total_cons]; omega
  · rw [h2, total_cons]; omega
  · rw [h3, total_cons]; omega
  · rw [total_cons, total_cons]; unfold W64 at a4; omega
  · rw [total_cons, total_cons]; unfold W64 at a5; omega
  · intro i
    have e0 : orderIn o i = o.slot i := (slot_of_slots hok).symm
    have e1 : orderIn o1 i = o1.slot i := (slot_of_slots ha.ok).symm
    rw [h8, e0, e1]
    rw [List.any_cons]
    cases hv : v.final with
    | false =>
      rw [ends_eq, hv, ha.keep hv]
      simp
    | true =>
      rw [ends_eq, hv, ha.freed hv]
      by_cases hi : i = v.slot
      · subst hi; simp
      · have : (v.slot == i) = false := by simp; exact fun e => hi e.symm
        simp [hi, this]

/-- The events of an account. -/
def eventsOf (a : Nat) (evs : List EventView) : List EventView := evs.filter fun v => v.owner == a

theorem consumeOne_none {P : Params} {env : Env} {s : State lst} {keys : List Nat} {v : EventView}
    {rest : List EventView} (hq : s.q.items = (v :: rest).map Event.new)
    (h : consumeOne lst P env s keys = .ok none) : P.search.find keys v.owner = false := by
  unfold consumeOne at h
  rw [show lst.peek s.q = s.q.items.head? from rfl, hq] at h
  simp only [List.map_cons, List.head?_cons] at h
  obtain ⟨v', hv', h⟩ := bind_ok h
  obtain ⟨r, hr, h⟩ := bind_ok h
  cases r with
  | some oo =>
    simp only at h
    obtain ⟨oo', ha, h⟩ := bind_ok h
    obtain ⟨q, hp, h⟩ := bind_ok h
    cases h
  | none =>
    have how : (Event.new v).owner = v.owner := by cases v <;> rfl
    unfold eventOwner at hr
    rw [how] at hr
    split at hr
    · iterate 5 obtain ⟨_, _, hr⟩ := bind_ok hr
      cases hr
    · rename_i hn; simpa using hn

theorem consumeLoop_effect {P : Params} {env : Env} {keys : List Nat} {vs : Nat} : ∀ (n : Nat)
    {s s' : State lst} {evs : List EventView}, s.q.items = evs.map Event.new →
    Inv vs s.mkt s.seq s.oos s.toks s.bids.items s.asks.items evs →
    consumeLoop lst P env keys n s = .ok s' →
    ∃ k ≤ n, k ≤ evs.length ∧ s'.q.items = (evs.drop k).map Event.new ∧
      (∀ v ∈ evs.take k, v.owner ∈ keys) ∧
      (k = n ∨ ∀ v, (evs.drop k).head? = some v → P.search.find keys v.owner = false) ∧
      (∀ a, ooAt s.oos a = none → ooAt s'.oos a = none) ∧
      ∀ a o, ooAt s.oos a = some o → ∃ o', ooAt s'.oos a = some o' ∧
        Delivered o o' (eventsOf a (evs.take k)) := by
  intro n
  induction n with
  | zero =>
    intro s s' evs hq _ h
    cases h
    exact ⟨0, Nat.le_refl _, Nat.zero_le _, hq, by simp, .inl rfl, fun _ h => h, fun a o ho => ⟨o, ho, by
      simpa [eventsOf] using Delivered.refl o⟩⟩
  | succ n ih =>
    intro s s' evs hq hi h
    unfold consumeLoop at h
    obtain ⟨r, hr, h⟩ := bind_ok h
    cases r with
    | none =>
      cases h
      refine ⟨0, Nat.zero_le _, Nat.zero_le _, hq, by simp, .inr ?_, fun _ h => h, fun a o ho => ⟨o, ho, by
        simpa [eventsOf] using Delivered.refl o⟩⟩
      intro v hv
      cases evs with
      | nil => cases hv
      | cons w rest =>
        simp only [List.drop_zero, List.head?_cons, Option.some.injEq] at hv
        subst hv
        exact consumeOne_none hq hr
    | some s1 =>
      obtain ⟨v, rest, oo, oo', rfl, hmem, ho, hc, ha, rfl⟩ := consumeOne_lst hq hr
      have hok := hi.shape.accts _ _ ho
      have happ := applyEvent_inv hok hc ha
      have hi' := hi.consume ho happ
      obtain ⟨k, k1, k2, k3, k4, k5, k6, k7⟩ := ih (s := { s with
          oos := setOo s.oos v.owner oo'
          q := ⟨rest.map Event.new, s.q.cap⟩ }) (evs := rest) rfl hi' h
      refine ⟨k + 1, by omega, by simp; exact k2, by simpa using k3, ?_, ?_, ?_, ?_⟩
      · intro w hw
        simp only [List.take_succ_cons, List.mem_cons] at hw
        rcases hw with rfl | hw
        · exact hmem
        · exact k4 w hw
      · rcases k5 with k5 | k5
        · exact .inl (by omega)
        · exact .inr (by simpa using k5)
      · intro a hn
        apply k6
        show ooAt (setOo s.oos v.owner oo') a = none
        rw [ooAt_setOo]
        split
        · rename_i e; subst e; rw [ho] at hn; cases hn
        · exact hn
      · intro a o hoa
        have hm := hi.money
        have hd := hi.deposits_lt
        have c1 := hm.coin
        have c2 := hm.pc
        have c3 := hm.rebates
        simp only [evSum_cons, every, if_true] at c1 c2 c3
        have g1 := accSum_ge (g := (·.coinFree)) ho
        have g2 := accSum_ge (g := (·.pcFree)) ho
        have g3 := accSum_ge (g := (·.rebates)) ho
        have hr := hi.shape.mkt.rebates
        by_cases hav : a = v.owner
        · subst hav
          rw [ho] at hoa
          cases hoa
          obtain ⟨o', e1, e2⟩ := k7 v.owner oo' (by show ooAt (setOo _ _ _) _ = _; rw [ooAt_setOo]; simp)
          refine ⟨o', e1, ?_⟩
          have : eventsOf v.owner ((v :: rest).take (k + 1)) = v :: eventsOf v.owner (rest.take k) := by
            simp [eventsOf]
          rw [this]
          exact Delivered.cons hok happ (by omega) (by omega) (by omega) e2
        · obtain ⟨o', e1, e2⟩ := k7 a o (by show ooAt (setOo _ _ _) _ = _; rw [ooAt_setOo]; simp [hav, hoa])
          refine ⟨o', e1, ?_⟩
          have : eventsOf a ((v :: rest).take (k + 1)) = eventsOf a (rest.take k) := by
            have : (v.owner == a) = false := by simp; exact fun e => hav e.symm
            simp [eventsOf, this]
          rw [this]
          exact e2

/-- What either crank instruction does when it succeeds, reduced to the loop. -/
theorem consume_is_loop {P : Params} {env : Env} {s s' : State conc} {accts : List AccMeta} {n : Nat}
    (h : consumeEvents conc P env s accts n = .ok s' ∨ consumeEventsPermissioned conc P env s accts n = .ok s') :
    ∃ keys, (∀ k ∈ keys, k ∈ accts.map (·.key)) ∧ consumeLoop conc P env keys n s = .ok s' := by
  rcases h with h | h
  · unfold consumeEvents at h
    obtain ⟨_, _, h⟩ := bind_ok h
    split at h
    · obtain ⟨_, _, h⟩ := bind_ok h
      obtain ⟨_, _, h⟩ := bind_ok h
      obtain ⟨_, _, h⟩ := bind_ok h
      refine ⟨_, ?_, h⟩
      intro k hk
      obtain ⟨x, hx, rfl⟩ := List.mem_map.1 hk
      exact List.mem_map.2 ⟨x, List.mem_of_mem_take hx, rfl⟩
    · cases h
  · unfold consumeEventsPermissioned at h
    obtain ⟨_, _, h⟩ := bind_ok h
    split at h
    · obtain ⟨_, _, h⟩ := bind_ok h
      obtain ⟨_, _, h⟩ := bind_ok h
      obtain ⟨_, _, h⟩ := bind_ok h
      obtain ⟨_, _, h⟩ := bind_ok h
      refine ⟨_, ?_, h⟩
      intro k hk
      obtain ⟨x, hx, rfl⟩ := List.mem_map.1 hk
      exact List.mem_map.2 ⟨x, List.mem_of_mem_take hx, rfl⟩
    · cases h

/-- C43, C31. Whatever happened before, a successful crank (either instruction) takes some number `k` of
events, at most its limit, off the front of the queue; every account is changed by exactly its own events
among those `k`, each applied once; nothing else changes but the queue and those accounts. -/
theorem crank_delivers {P : Params} {s s' : State conc} (h : Reach P s) (hq : s.seq ≤ W64) {env : Env}
    {accts : List AccMeta} {n : Nat}
    (hx : consumeEvents conc P env s accts n = .ok s' ∨ consumeEventsPermissioned conc P env s accts n = .ok s') :
    ∃ k ≤ n, k ≤ (pending s).length ∧ pending s' = (pending s).drop k ∧
      (∀ v ∈ (pending s).take k, v.owner ∈ accts.map (·.key)) ∧
      (∀ a, ooAt s.oos a = none → ooAt s'.oos a = none) ∧
      (∀ a o, ooAt s.oos a = some o → ∃ o', ooAt s'.oos a = some o' ∧
        Delivered o o' (eventsOf a ((pending s).take k))) ∧
      s'.mkt = s.mkt ∧ s'.toks = s.toks ∧ s'.bids = s.bids ∧ s'.asks = s.asks ∧ s'.seq = s.seq := by
  obtain ⟨keys, hk, hl⟩ := consume_is_loop hx
  obtain ⟨vs, hv, hqi, hi⟩ := h.view hq
  have hg := h.good hq
  have hL : (absState s).q.items = (pending s).map Event.new := by
    rw [← hqi, Queue.iter_eq hg.rs.q.1]; rfl
  obtain ⟨t, h1, h2⟩ := Sim.ok_right (Refines.sim_consumeLoop P env keys n hg.rs) hl
  obtain ⟨k, k1, k2, k3, k4, _, k6, k7⟩ := consumeLoop_effect n (s := absState s) hL hi h1
  have hcore : s'.toCore = t.toCore := h2.core
  have hoos : s'.oos = t.oos := congrArg Core.oos hcore
  refine ⟨k, k1, k2, ?_, fun v hv => hk _ (k4 v hv), ?_, ?_, ?_⟩
  · have hiter : s'.q.iter = ((pending s).drop k).map Event.new := by
      rw [Queue.iter_eq h2.q.1, ← k3, h2.q.2]; rfl
    unfold pending at hiter ⊢
    rw [hiter, List.filterMap_map]
    have : (fun e => e.asView.toOption) ∘ Event.new = (some : EventView → Option EventView) := by
      funext v
      simp [Function.comp, Event.asView_new, Except.toOption]
    rw [this, List.filterMap_some]
  · rw [hoos]; exact k6
  · rw [hoos]; exact k7
  · obtain ⟨b1, b2, _, b4, b5, b6⟩ := consumeLoop_keeps hl
    exact ⟨b1, b4, b5, b6, b2⟩

-- the crank with limit 4 on the four queued events of the demonstration market
example : consumeEvents conc Demo.P Demo.env Demo.s3 (Demo.crankList [41, 42]) 4 = .ok Demo.s4 ∧
    (pending Demo.s4).length = 0 ∧ (ooAt Demo.s4.oos 42).map (·.coinFree) = some 200 :=
  ⟨Demo.e4, by decide +kernel, by decide +kernel⟩

/-- The loop composes. -/
theorem consumeLoop_split (I : Impl) (P : Params) (env : Env) (keys : List Nat) (b : Nat) : ∀ (a : Nat) (s : State I),
    (consumeLoop I P env keys a s >>= consumeLoop I P env keys b) = consumeLoop I P env keys (a + b) s
  | 0, s => by rw [Nat.zero_add]; rfl
  | a + 1, s => by
    rw [Nat.add_right_comm]
    unfold consumeLoop
    cases hr : consumeOne I P env s keys with
    | error e => rfl
    | ok r =>
      cases r with
      | none =>
        show consumeLoop I P env keys b s = .ok s
        cases b with
        | zero => rfl
        | succ b => unfold consumeLoop; rw [hr]; rfl
      | some s1 => exact consumeLoop_split I P env keys b a s1

theorem consumeEvents_with {P : Params} {env : Env} {s s1 : State conc} {accts : List AccMeta} {a : Nat}
    (h : consumeEvents conc P env s accts a = .ok s1) :
    ∃ keys, (∀ n, consumeEvents conc P env s accts n = consumeLoop conc P env keys n s) ∧
      (∀ n, consumeEvents conc P env s1 accts n = consumeLoop conc P env keys n s1) := by
  have hm : s1.mkt = s.mkt := (consumeEvents_keeps h).1
  unfold consumeEvents at h ⊢
  obtain ⟨_, h1, h⟩ := bind_ok h
  split at h
  · rename_i m eq rest he
    obtain ⟨_, h2, h⟩ := bind_ok h
    obtain ⟨_, h3, h⟩ := bind_ok h
    obtain ⟨_, h4, h⟩ := bind_ok h
    have h2' : loadMarket s1.toCore m true = .ok () := by
      unfold loadMarket at h2 ⊢; rw [hm]; exact h2
    have h4' : loadEventQ s1.toCore eq = .ok () := by
      unfold loadEventQ at h4 ⊢; rw [hm]; exact h4
    refine ⟨(accts.take (accts.length - 4)).map (·.key), fun n => ?_, fun n => ?_⟩
    · simp only [h1, h2, h3, h4, bind, Except.bind]
    · rw [hm]
      simp only [h1, h2', h3, h4', bind, Except.bind]
  · cases h

theorem consumePermissioned_with {P : Params} {env : Env} {s s1 : State conc} {accts : List AccMeta} {a : Nat}
    (h : consumeEventsPermissioned conc P env s accts a = .ok s1) :
    ∃ keys, (∀ n, consumeEventsPermissioned conc P env s accts n = consumeLoop conc P env keys n s) ∧
      (∀ n, consumeEventsPermissioned conc P env s1 accts n = consumeLoop conc P env keys n s1) := by
  have hm : s1.mkt = s.mkt := (consumePermissioned_keeps h).1
  unfold consumeEventsPermissioned at h ⊢
  obtain ⟨_, h1, h⟩ := bind_ok h
  split at h
  · rename_i m eq auth rest he
    obtain ⟨_, h2, h⟩ := bind_ok h
    obtain ⟨_, h3, h⟩ := bind_ok h
    obtain ⟨_, h5, h⟩ := bind_ok h
    obtain ⟨_, h4, h⟩ := bind_ok h
    have h2' : loadMarket s1.toCore m true = .ok () := by
      unfold loadMarket at h2 ⊢; rw [hm]; exact h2
    have h4' : loadEventQ s1.toCore eq = .ok () := by
      unfold loadEventQ at h4 ⊢; rw [hm]; exact h4
    refine ⟨(accts.take (accts.length - 3)).map (·.key), fun n => ?_, fun n => ?_⟩
    · simp only [h1, h2, h3, h4, h5, bind, Except.bind]
    · rw [hm]
      simp only [h1, h2', h3, h4', h5, bind, Except.bind]
  · cases h

/-- C43. If the crank with limit `a` succeeds and leaves `s1`, the crank with limit `b` on `s1` and the crank
with limit `a + b` on the original state have the same outcome, error or new state, given the same accounts.
Holds for all states, not only reachable ones. -/
theorem crank_batching {P : Params} {env : Env} {s s1 : State conc} {accts : List AccMeta} {a : Nat}
    (h : consumeEvents conc P env s accts a = .ok s1) (b : Nat) :
    consumeEvents conc P env s accts (a + b) = consumeEvents conc P env s1 accts b := by
  obtain ⟨keys, h1, h2⟩ := consumeEvents_with h
  rw [h1] at h
  rw [h1, h2, ← consumeLoop_split, h]
  rfl

/-- C43. If the crank with limit `a` fails, so does every larger batch, in the same way. -/
theorem crank_batching_error {P : Params} {env : Env} {s : State conc} {accts : List AccMeta} {a : Nat} {e : Err}
    (h : consumeEvents conc P env s accts a = .error e) (b : Nat) :
    consumeEvents conc P env s accts (a + b) = .error e := by
  cases hz : consumeEvents conc P env s accts 0 with
  | ok s1 =>
    obtain ⟨keys, h1, _⟩ := consumeEvents_with hz
    rw [h1] at h
    rw [h1, ← consumeLoop_split, h]
    rfl
  | error e' =>
    unfold consumeEvents at h hz ⊢
    cases c1 : checkAssert (decide (5 ≤ accts.length)) with
    | error e1 => rw [c1] at h; exact h
    | ok u =>
      rw [c1] at h hz
      simp only [bind, Except.bind] at h hz ⊢
      split at h
      · rename_i m eq rest he
        cases c2 : loadMarket s.toCore m true with
        | error e2 => rw [c2] at h; exact h
        | ok u2 =>
          cases c3 : checkAssert s.mkt.crankAuth.isNone with
          | error e2 => rw [c2, c3] at h; exact h
          | ok u3 =>
            cases c4 : loadEventQ s.toCore eq with
            | error e2 => rw [c2, c3, c4] at h; exact h
            | ok u4 =>
              simp only [he, c2, c3, c4, consumeLoop, reduceCtorEq] at hz
      · exact h

/-- C43, permissioned crank. -/
theorem permissioned_crank_batching {P : Params} {env : Env} {s s1 : State conc} {accts : List AccMeta} {a : Nat}
    (h : consumeEventsPermissioned conc P env s accts a = .ok s1) (b : Nat) :
    consumeEventsPermissioned conc P env s accts (a + b) = consumeEventsPermissioned conc P env s1 accts b := by
  obtain ⟨keys, h1, h2⟩ := consumePermissioned_with h
  rw [h1] at h
  rw [h1, h2, ← consumeLoop_split, h]
  rfl

/-! ### C44: crank authority -/

/-- A market requires a crank authority: bits 9 (permissioned) and 10 of its flag word. -/
def needsCrankAuthority (m : Market) : Prop := m.flags.testBit 9 = true ∧ m.flags.testBit 10 = true

theorem hasFlag_bit (f k : Nat) : hasFlag f (2 ^ k) = f.testBit k := by
  unfold hasFlag
  cases h : f.testBit k with
  | true =>
    rw [beq_iff_eq]
    apply Nat.eq_of_testBit_eq
    intro i
    rw [Nat.testBit_and, Nat.testBit_two_pow]
    by_cases e : k = i
    · subst e; simp [h]
    · simp [e]
  | false =>
    rw [beq_eq_false_iff_ne]
    intro e
    have := congrArg (Nat.testBit · k) e
    simp only [Nat.testBit_and, Nat.testBit_two_pow, h] at this
    simp at this

theorem crankAuth_iff (m : Market) :
    (needsCrankAuthority m ∧ m.crankAuth = some m.crankAuthority) ∨ (¬needsCrankAuthority m ∧ m.crankAuth = none) := by
  unfold needsCrankAuthority Market.crankAuth Market.permissioned Market.crankFlag
  rw [show (512 : Nat) = 2 ^ 9 from rfl, show (1024 : Nat) = 2 ^ 10 from rfl, hasFlag_bit, hasFlag_bit]
  cases m.flags.testBit 9 <;> cases m.flags.testBit 10 <;> simp

/-- C44. On a market that requires a crank authority the open crank fails, whatever the accounts. -/
theorem open_crank_refused {P : Params} {env : Env} {s : State conc} {accts : List AccMeta} {n : Nat}
    (h : needsCrankAuthority s.mkt) : ∃ e, consumeEvents conc P env s accts n = .error e := by
  cases hx : consumeEvents conc P env s accts n with
  | error e => exact ⟨e, rfl⟩
  | ok s' =>
    exfalso
    unfold consumeEvents at hx
    obtain ⟨_, h1, hx⟩ := bind_ok hx
    split at hx
    · obtain ⟨_, h2, hx⟩ := bind_ok hx
      obtain ⟨_, h3, hx⟩ := bind_ok hx
      rcases crankAuth_iff s.mkt with ⟨_, e⟩ | ⟨e, _⟩
      · rw [e] at h3; cases h3
      · exact e h
    · cases hx

/-- C44. The permissioned crank succeeds only on a market that requires a crank authority and only if that
authority, as last account, signed. -/
theorem permissioned_crank_authorised {P : Params} {env : Env} {s s' : State conc} {accts : List AccMeta} {n : Nat}
    (h : consumeEventsPermissioned conc P env s accts n = .ok s') :
    needsCrankAuthority s.mkt ∧ ∃ a, accts.getLast? = some a ∧ a.signer = true ∧ a.key = s.mkt.crankAuthority := by
  unfold consumeEventsPermissioned at h
  obtain ⟨_, h1, h⟩ := bind_ok h
  split at h
  · rename_i m eq auth rest he
    obtain ⟨_, h2, h⟩ := bind_ok h
    obtain ⟨_, h3, h⟩ := bind_ok h
    obtain ⟨_, h5, h⟩ := bind_ok h
    have h5 := checkAssert_ok.1 h5
    have hl := checkAssert_ok.1 h1
    simp only [decide_eq_true_eq] at hl
    rcases crankAuth_iff s.mkt with ⟨ha, e⟩ | ⟨_, e⟩
    · refine ⟨ha, auth, ?_, checkAssert_ok.1 h3, ?_⟩
      · have hlen : (accts.drop (accts.length - 3)).length = 3 := by rw [List.length_drop]; omega
        rw [he] at hlen
        simp at hlen
        subst hlen
        have : accts = accts.take (accts.length - 3) ++ [m, eq, auth] := by
          rw [← he, List.take_append_drop]
        rw [this]
        simp
      · rw [e] at h5; simpa using h5
    · rw [e] at h5; simp at h5
  · cases h

end Serum.Props
