import Verif.Acts

/-
Client ids over histories (C52), and batch cancel and replace in terms of the orders' own client ids (C40).
-/

namespace Serum.Props

/-- Account `a` records client id `c` for the order in its slot `i`. -/
def Records (oos : List (Nat × OpenOrders)) (a i c : Nat) : Prop :=
  ∃ o, ooAt oos a = some o ∧ recordedId o i = some c

/-- Every order on the book and every event in the queue carries the client id its owner's account records
for its slot. -/
def ClientIds (s : State conc) : Prop :=
  (∀ sd, ∀ l ∈ resting s sd, Records s.oos l.owner l.ownerSlot l.clientId) ∧
  ∀ v ∈ pending s, Records s.oos v.owner v.slot v.cid

theorem clientIds_iff {s : State conc} :
    ClientIds s ↔ Tags (Records s.oos) s.bids.contents s.asks.contents (pending s) := by
  constructor
  · rintro ⟨h1, h2⟩
    exact ⟨h1 .bid, h1 .ask, h2⟩
  · rintro ⟨h1, h2, h3⟩
    exact ⟨fun sd => by cases sd; exact h1; exact h2, h3⟩

theorem _root_.Serum.Tags.mono {R R' : Nat → Nat → Nat → Prop} {B A : List Leaf} {evs : List EventView}
    (h : Tags R B A evs) (hb : ∀ l ∈ B, R l.owner l.ownerSlot l.clientId → R' l.owner l.ownerSlot l.clientId)
    (ha : ∀ l ∈ A, R l.owner l.ownerSlot l.clientId → R' l.owner l.ownerSlot l.clientId)
    (he : ∀ v ∈ evs, R v.owner v.slot v.cid → R' v.owner v.slot v.cid) : Tags R' B A evs :=
  ⟨fun l hl => hb l hl (h.bids l hl), fun l hl => ha l hl (h.asks l hl), fun v hv => he v hv (h.evs v hv)⟩

/-! ### The crank -/

theorem applyEvent_ids {o o' : OpenOrders} {v : EventView} (h : applyEvent o v = .ok o') :
    (v.final = false → o'.clientIds = o.clientIds) ∧
    (v.final = true → o'.clientIds = o.clientIds.set v.slot 0) := by
  cases v with
  | fill side mk paid recv fee id ow sl ft cid =>
    refine ⟨fun _ => ?_, fun hf => by cases hf⟩
    cases mk <;> cases side <;> (simp only [applyEvent, Bool.false_eq_true, if_false, if_true, Except.ok.injEq] at h; subst h; rfl)
  | out side rel u still id ow sl cid =>
    have hr : ∀ o1 : OpenOrders, o1.clientIds = o.clientIds →
        (if still = 0 then o1.removeOrder sl else .ok o1) = .ok o' →
        ((EventView.out side rel u still id ow sl cid).final = false → o'.clientIds = o.clientIds) ∧
        ((EventView.out side rel u still id ow sl cid).final = true → o'.clientIds = o.clientIds.set sl 0) := by
      intro o1 h1 h2
      split at h2
      · rename_i h0
        refine ⟨fun hf => by simp [EventView.final, h0] at hf, fun _ => ?_⟩
        unfold OpenOrders.removeOrder at h2
        obtain ⟨_, _, h2⟩ := bind_ok h2
        obtain ⟨_, _, h2⟩ := bind_ok h2
        cases h2
        simp only [h1]
      · rename_i h0
        cases h2
        exact ⟨fun _ => h1, fun hf => by simp [EventView.final, h0] at hf⟩
    cases side <;> cases rel <;>
    · simp only [applyEvent, if_true, Bool.false_eq_true, if_false] at h
      split at h
      · cases h
      · exact hr _ (by rfl) h

theorem consumeOne_tags {P : Params} {env : Env} {s s' : State lst} {keys : List Nat} {evs : List EventView}
    {vs : Nat} (hq : s.q.items = evs.map Event.new)
    (hi : Inv vs s.mkt s.seq s.oos s.toks s.bids.items s.asks.items evs)
    (ht : Tags (Records s.oos) s.bids.items s.asks.items evs)
    (h : consumeOne lst P env s keys = .ok (some s')) :
    ∃ rest, s'.q.items = rest.map Event.new ∧
      Inv vs s'.mkt s'.seq s'.oos s'.toks s'.bids.items s'.asks.items rest ∧
      Tags (Records s'.oos) s'.bids.items s'.asks.items rest := by
  obtain ⟨v, rest, oo, oo', rfl, hk, ho, hc, ha, rfl⟩ := consumeOne_lst hq h
  have hA := applyEvent_inv (hi.shape.accts _ _ ho) hc ha
  have hi' := hi.consume ho hA
  refine ⟨rest, rfl, hi', ?_⟩
  have hR : ∀ a i c, Records s.oos a i c → ¬ (v.final = true ∧ v.owner = a ∧ v.slot = i) →
      Records (setOo s.oos v.owner oo') a i c := by
    rintro a i c ⟨o, h1, h2⟩ hn
    by_cases e : a = v.owner
    · subst e
      rw [ho] at h1
      cases h1
      refine ⟨oo', by rw [ooAt_setOo, if_pos rfl], ?_⟩
      unfold recordedId at h2 ⊢
      cases hf : v.final with
      | false => rw [(applyEvent_ids ha).1 hf]; exact h2
      | true =>
        rw [(applyEvent_ids ha).2 hf, List.getElem?_set_ne]
        · exact h2
        · exact fun e => hn ⟨hf, rfl, e⟩
    · exact ⟨o, by rw [ooAt_setOo, if_neg e]; exact h1, h2⟩
  have hfree : v.final = true → slotsOf (setOo s.oos v.owner oo') v.owner v.slot = none := by
    intro hf
    unfold slotsOf
    rw [ooAt_setOo, if_pos rfl]
    show oo'.slot v.slot = none
    rw [hA.freed hf, if_pos rfl]
  refine (⟨ht.bids, ht.asks, fun w hw => ht.evs w (List.mem_cons_of_mem _ hw)⟩ :
    Tags (Records s.oos) s.bids.items s.asks.items rest).mono ?_ ?_ ?_
  · intro l hl hr
    refine hR _ _ _ hr ?_
    rintro ⟨hf, h1, h2⟩
    have := hi'.shape.leaf_slot (sd := .bid) (l := l) hl
    rw [← h1, ← h2, hfree hf] at this
    cases this
  · intro l hl hr
    refine hR _ _ _ hr ?_
    rintro ⟨hf, h1, h2⟩
    have := hi'.shape.leaf_slot (sd := .ask) (l := l) hl
    rw [← h1, ← h2, hfree hf] at this
    cases this
  · intro w hw hr
    refine hR _ _ _ hr ?_
    rintro ⟨hf, h1, h2⟩
    exact (hi'.shape.slots.free (hfree hf)).2 w hw ⟨h1.symm, h2.symm⟩

theorem consumeLoop_tags {P : Params} {env : Env} {keys : List Nat} {vs : Nat} : ∀ (n : Nat)
    {s s' : State lst} {evs : List EventView}, s.q.items = evs.map Event.new →
    Inv vs s.mkt s.seq s.oos s.toks s.bids.items s.asks.items evs →
    Tags (Records s.oos) s.bids.items s.asks.items evs →
    consumeLoop lst P env keys n s = .ok s' →
    ∃ rest, s'.q.items = rest.map Event.new ∧ Tags (Records s'.oos) s'.bids.items s'.asks.items rest := by
  intro n
  induction n with
  | zero => intro s s' evs hq _ ht h; cases h; exact ⟨evs, hq, ht⟩
  | succ n ih =>
    intro s s' evs hq hi ht h
    unfold consumeLoop at h
    obtain ⟨r, hr, h⟩ := bind_ok h
    cases r with
    | none => cases h; exact ⟨evs, hq, ht⟩
    | some s1 =>
      obtain ⟨rest, g1, g2, g3⟩ := consumeOne_tags hq hi ht hr
      exact ih g1 g2 g3 h

theorem clientIds_of_lst {s : State conc} {t : State lst} (h : concLst.RS s t) {evs : List EventView}
    (hq : t.q.items = evs.map Event.new) (ht : Tags (Records t.oos) t.bids.items t.asks.items evs) :
    ClientIds s := by
  have e := RS_abs h
  subst e
  rw [clientIds_iff, pending_of h hq]
  exact ht

/-! ### Placing and taking -/

theorem newOrderReq_ok {ix : NewOrderIx} (hv : OrderValid ix) {seq a slot : Nat} {tier : FeeTier} (hq : seq < W64)
    (ha : a ≠ 0) : OrderOk (newOrderReq ix (genOrderId seq ix.limitPrice ix.side) a slot tier) :=
  ⟨by
    show 0 < extractPrice (genOrderId seq ix.limitPrice ix.side)
    rw [extractPrice_genOrderId hq hv.1.2]
    exact Nat.pos_of_ne_zero hv.1.1, fun h => absurd h ha⟩

theorem sendTakeReq_ok {ix : SendTakeIx} (hv : TakeValid ix) {seq : Nat} {tier : FeeTier} (hq : seq < W64) :
    OrderOk (sendTakeReq ix (genOrderId seq ix.limitPrice ix.side) tier) :=
  ⟨by
    show 0 < extractPrice (genOrderId seq ix.limitPrice ix.side)
    rw [extractPrice_genOrderId hq hv.1.2]
    exact Nat.pos_of_ne_zero hv.1.1, fun _ => rfl⟩

theorem newOrder_clientIds {P : Params} {s s' : State conc} (h : Reach P s) (hq : s.seq < W64) {env : Env}
    {accts : List AccMeta} {ix : NewOrderIx} (hv : OrderValid ix) (hn : NotVault P s.mkt accts)
    (hx : newOrderV3 conc P env s accts ix = .ok s') (hc : ClientIds s) : ClientIds s' := by
  obtain ⟨vs, hvs, hqi, hi⟩ := h.view (Nat.le_of_lt hq)
  have hg := h.good (Nat.le_of_lt hq)
  have hL := absState_q hg hqi
  obtain ⟨t, ht, hrs⟩ := Sim.ok_right (Refines.sim_newOrderV3 hg.rs P env accts ix hv.1.2) hx
  obtain ⟨a, tier, oo, hA, m1, o1, d, slot, ob', ts, f, evs', given, post, tail, o', l', hR⟩ :=
    newOrderV3_run (evs := pending s) ht hv hn hq hvs hL hi
  have hfree : slotsOf s.oos a.oo.key slot = none := by
    have := hR.slotFree
    rcases loadOrders_inv hA.load with ⟨g1, _⟩ | ⟨g1, _⟩
    · unfold slotsOf
      rw [show ooAt s.oos a.oo.key = some oo from g1]
      exact this
    · unfold slotsOf
      rw [show ooAt s.oos a.oo.key = none from g1]
  have hmono : ∀ b i c, Records s.oos b i c → ¬ (b = a.oo.key ∧ i = slot) →
      Records (setOo s.oos a.oo.key o') b i c := by
    rintro b i c ⟨o, g1, g2⟩ hne
    by_cases e : b = a.oo.key
    · subst e
      rcases loadOrders_inv hA.load with ⟨k1, _⟩ | ⟨k1, _⟩
      · rw [show ooAt s.oos a.oo.key = some oo from k1] at g1
        cases g1
        refine ⟨o', by rw [ooAt_setOo, if_pos rfl], ?_⟩
        unfold recordedId at g2 ⊢
        rw [hR.cids, List.getElem?_set_ne]
        · exact g2
        · exact fun e => hne ⟨rfl, e.symm⟩
      · rw [show ooAt s.oos a.oo.key = none from k1] at g1
        cases g1
    · exact ⟨o, by rw [ooAt_setOo, if_neg e]; exact g1, g2⟩
  have hfr := hi.shape.slots.free hfree
  have h0 : Tags (Records (setOo s.oos a.oo.key o')) s.bids.contents s.asks.contents (pending s) := by
    refine (clientIds_iff.1 hc).mono ?_ ?_ ?_
    · intro l hl hr
      refine hmono _ _ _ hr fun hh => ?_
      have := hi.shape.leaf_slot (sd := .bid) (l := l) hl
      rw [hh.1, hh.2, hfree] at this
      cases this
    · intro l hl hr
      refine hmono _ _ _ hr fun hh => ?_
      have := hi.shape.leaf_slot (sd := .ask) (l := l) hl
      rw [hh.1, hh.2, hfree] at this
      cases this
    · intro v hv hr
      exact hmono _ _ _ hr fun hh => hfr.2 v hv hh
  have hslot : slot < o'.clientIds.length := by
    have h1 := hR.slots slot
    rw [if_pos rfl] at h1
    have h2 : slot < 128 := (slot_parts h1).1
    have h3 := hR.inv.shape.accts a.oo.key o' (by rw [ooAt_setOo, if_pos rfl])
    rw [h3.clientIds]
    exact h2
  obtain ⟨evs'', g1, g2⟩ := path_tags (newOrderReq_ok hv hq hR.owner) hR.start hR.path (evs := pending s) hL
    (R := Records (setOo s.oos a.oo.key o')) (fun hh => absurd hh hR.owner)
    (fun _ => ⟨o', by rw [newOrderReq, ooAt_setOo, if_pos rfl], by
      unfold recordedId
      rw [hR.cids] at hslot ⊢
      exact List.getElem?_set_self (by simpa using hslot)⟩) h0
  have hst := hR.state
  refine clientIds_of_lst hrs (evs := pending s ++ evs'') ?_ ?_
  · rw [hst]; exact g1
  · rw [hst]; exact g2

theorem sendTake_clientIds {P : Params} {s s' : State conc} (h : Reach P s) (hq : s.seq < W64)
    {accts : List AccMeta} {ix : SendTakeIx} (hv : TakeValid ix) (hn : NotVault P s.mkt accts)
    (hx : sendTake conc P s accts ix = .ok s') (hc : ClientIds s) : ClientIds s' := by
  obtain ⟨vs, hvs, hqi, hi⟩ := h.view (Nat.le_of_lt hq)
  have hg := h.good (Nat.le_of_lt hq)
  have hL := absState_q hg hqi
  obtain ⟨t, ht, hrs⟩ := Sim.ok_right (Refines.sim_sendTake hg.rs P accts ix hv.1.2) hx
  obtain ⟨a, tier, hA, ob', ts, f, evs', given, post, tail, m', D, w, l', hR⟩ :=
    sendTake_run (evs := pending s) ht hv hn hq hvs hL hi
  obtain ⟨evs'', g1, g2⟩ := path_tags (sendTakeReq_ok hv hq) hR.start hR.path (evs := pending s) hL
    (R := Records s.oos) (fun _ => hR.owners) (fun hh => absurd rfl hh) (clientIds_iff.1 hc)
  have hst := hR.state
  refine clientIds_of_lst hrs (evs := pending s ++ evs'') ?_ ?_
  · rw [hst]; exact g1
  · rw [hst]; exact g2

/-! ### Everything else -/

theorem outEvent_tag (m : Market) (x : Side × Leaf) :
    (outEvent m x).owner = x.2.owner ∧ (outEvent m x).slot = x.2.ownerSlot ∧ (outEvent m x).cid = x.2.clientId := by
  obtain ⟨sd, l⟩ := x
  cases sd <;> exact ⟨rfl, rfl, rfl⟩

theorem withdrawn_clientIds {s s' : State conc} {a : Nat} {ls : List (Side × Leaf)} (hw : Withdrawn s s' a ls)
    (hc : ClientIds s) : ClientIds s' := by
  have hR : ∀ b i c, Records s.oos b i c → Records s'.oos b i c := by
    rintro b i c ⟨o, h1, h2⟩
    by_cases e : b = a
    · subst e
      obtain ⟨o1, g1, g2⟩ := hw.account
      rw [h1] at g1
      cases g1
      exact ⟨_, g2, h2⟩
    · exact ⟨o, by rw [hw.others b e]; exact h1, h2⟩
  constructor
  · intro sd l hl
    rw [hw.books] at hl
    exact hR _ _ _ (hc.1 sd l (List.mem_filter.1 hl).1)
  · intro v hv
    rw [hw.events] at hv
    rcases List.mem_append.1 hv with hv | hv
    · exact hR _ _ _ (hc.2 v hv)
    · obtain ⟨x, hx, rfl⟩ := List.mem_map.1 hv
      obtain ⟨t1, t2, t3⟩ := outEvent_tag s.mkt x
      rw [t1, t2, t3]
      exact hR _ _ _ (hc.1 x.1 x.2 (hw.theirs x.1 x.2 hx).1)

/-- Books and queue unchanged, accounts with orders unchanged in their client ids. -/
theorem ClientIds.frame {s s' : State conc} (hc : ClientIds s) (hb : s'.bids = s.bids) (ha : s'.asks = s.asks)
    (hq : s'.q = s.q) (ho : ∀ b o, ooAt s.oos b = some o → ∃ o', ooAt s'.oos b = some o' ∧ o'.clientIds = o.clientIds) :
    ClientIds s' := by
  have hR : ∀ b i c, Records s.oos b i c → Records s'.oos b i c := by
    rintro b i c ⟨o, h1, h2⟩
    obtain ⟨o', g1, g2⟩ := ho b o h1
    exact ⟨o', g1, by unfold recordedId at h2 ⊢; rw [g2]; exact h2⟩
  constructor
  · intro sd l hl
    refine hR _ _ _ (hc.1 sd l ?_)
    cases sd
    · show l ∈ s.bids.contents; rw [← hb]; exact hl
    · show l ∈ s.asks.contents; rw [← ha]; exact hl
  · intro v hv
    refine hR _ _ _ (hc.2 v ?_)
    unfold pending at hv ⊢
    rw [← hq]; exact hv

theorem consume_clientIds {P : Params} {s s' : State conc} (h : Reach P s) (hq : s.seq ≤ W64) {env : Env}
    {accts : List AccMeta} {n : Nat}
    (hx : consumeEvents conc P env s accts n = .ok s' ∨ consumeEventsPermissioned conc P env s accts n = .ok s')
    (hc : ClientIds s) : ClientIds s' := by
  obtain ⟨keys, hk, hl⟩ := consume_is_loop hx
  obtain ⟨vs, hv, hqi, hi⟩ := h.view hq
  have hg := h.good hq
  obtain ⟨t, h1, h2⟩ := Sim.ok_right (Refines.sim_consumeLoop P env keys n hg.rs) hl
  obtain ⟨rest, g1, g2⟩ := consumeLoop_tags n (s := absState s) (absState_q hg hqi) hi (clientIds_iff.1 hc) h1
  exact clientIds_of_lst h2 g1 g2

theorem act_clientIds {P : Params} {env : Env} {accts : List AccMeta} {s s' : State conc} (hr : Reach P s)
    (hn : NotVault P s.mkt accts) (hq : s'.seq ≤ W64) (h : Act P env accts s s') (hc : ClientIds s) :
    ClientIds s' := by
  have same : ∀ {b : Nat} {o : OpenOrders}, ooAt s.oos b = some o →
      ∃ o', ooAt s.oos b = some o' ∧ o'.clientIds = o.clientIds := fun ho => ⟨_, ho, rfl⟩
  cases h with
  | idle h => rw [h]; exact hc
  | place hl hv h =>
    have := (newOrderV3_keeps h).2.1
    exact newOrder_clientIds hr (by omega) hv (hn.subset hl) h hc
  | take hl hv h =>
    have := (sendTake_keeps h).2.1
    exact sendTake_clientIds hr (by omega) hv (hn.subset hl) h hc
  | cancel _ h =>
    have := (cancelV2_keeps h).2.1
    obtain ⟨_, _, _, _, _, _, _, _, _, hw⟩ := cancel_withdrawn hr (by omega) (.inl ⟨_, _, h⟩)
    exact withdrawn_clientIds hw hc
  | cancelBy _ h =>
    have := (cancelByClientIdV2_keeps h).2.1
    obtain ⟨_, _, _, _, _, _, _, _, _, hw⟩ := cancel_withdrawn hr (by omega) (.inr (.inl ⟨_, h⟩))
    exact withdrawn_clientIds hw hc
  | batch _ h =>
    have := (cancelByClientIds_keeps h).2.1
    obtain ⟨_, _, _, _, _, _, _, _, _, hw⟩ := cancel_withdrawn hr (by omega) (.inr (.inr ⟨_, h⟩))
    exact withdrawn_clientIds hw hc
  | prune _ h =>
    have := (prune_keeps h).2.1
    obtain ⟨_, _, _, _, _, _, _, _, _, _, _, _, _, _, _, hw, _⟩ := prune_effect hr (by omega) h
    exact withdrawn_clientIds hw hc
  | crank _ h =>
    obtain ⟨keys, _, hl⟩ := consume_is_loop h
    have := (consumeLoop_keeps hl).2.1
    exact consume_clientIds hr (by omega) h hc
  | settle _ h =>
    obtain ⟨_, hs, _, hb, ha, hqq⟩ := settleFunds_keeps h
    refine hc.frame hb ha hqq fun b o ho => ?_
    obtain ⟨_, oo, _, _, _, _, _, _, _, _, o1, _, _, _, _, hS⟩ := settle_effect hr (by omega) h
    by_cases e : b = oo.key
    · subst e
      have := hS.account
      rw [ho] at this
      cases this
      exact ⟨_, hS.after, rfl⟩
    · exact ⟨o, by rw [hS.others b e]; exact ho, rfl⟩
  | disable _ h =>
    obtain ⟨_, _, _, _, _, _, rfl⟩ := disable_inv h
    exact hc.frame rfl rfl rfl fun b o ho => same ho
  | sweep _ h =>
    unfold sweepFees at h
    split at h
    · iterate 8 obtain ⟨_, _, h⟩ := bind_ok h
      cases h
      exact hc.frame rfl rfl rfl fun b o ho => same ho
    · cases h
  | close _ h =>
    have := (close_keeps h).2.1
    obtain ⟨oo, _, _, _, o1, _, _, h1, _, _, _, _, _, rfl⟩ := (close_is_safe hr (by omega)).1 _ _ _ h
    refine hc.frame rfl rfl rfl fun b o ho => ?_
    show ∃ o', ooAt (setOo _ _ _) _ = _ ∧ _
    rw [ooAt_setOo]
    split
    · rename_i e
      subst e
      rw [ho] at h1
      cases h1
      exact ⟨_, rfl, rfl⟩
    · exact same ho
  | init _ h =>
    obtain ⟨oo, owner, _, _, _, _, _, _, h | h⟩ := init_inv h
    · rw [h.1]; exact hc
    · obtain ⟨rfl, hnone, _⟩ := h
      refine hc.frame rfl rfl rfl fun b o ho => ?_
      show ∃ o', ooAt (setOo _ _ _) _ = _ ∧ _
      rw [ooAt_setOo]
      split
      · rename_i e
        subst e
        rw [ho] at hnone
        cases hnone
      · exact same ho

/-- C52. In every reachable state every resting order and every queued event carries exactly the client id
that its owner's account records for its slot. -/
theorem client_ids_agree {P : Params} {s : State conc} (h : Reach P s) (hq : s.seq ≤ W64) : ClientIds s := by
  induction h with
  | start h =>
    obtain ⟨n, hb⟩ := h.bids
    obtain ⟨k, ha⟩ := h.asks
    obtain ⟨buf, hqq, hl⟩ := h.q
    constructor
    · intro sd l hl
      cases sd
      · rw [show resting _ .bid = [] by show Slab.contents _ = []; rw [hb]; rfl] at hl; cases hl
      · rw [show resting _ .ask = [] by show Slab.contents _ = []; rw [ha]; rfl] at hl; cases hl
    · intro v hv
      unfold pending at hv
      rw [hqq, Queue.iter_eq (Queue.fresh_wf hl), Queue.fresh_toList] at hv
      cases hv
  | @step s s' hr hs ih =>
    have hq0 := Nat.le_trans hs.seq hq
    have hc := ih hq0
    cases hs with
    | instr hn h =>
      obtain ⟨ix, _, hv, hp⟩ := step_instr h
      exact Acts.induct (Q := fun a b => ClientIds a → ClientIds b) (fun _ _ => id) (fun _ _ _ f g => g ∘ f)
        (fun a b hr hn hq h => act_clientIds hr hn hq h) (process_acts hr hn hv hp) hq hc
    | @purge a o ho hcl =>
      obtain ⟨_, _, h1, h2⟩ := (close_is_safe hr hq0).2 a o ho (.inl hcl)
      have hR : ∀ b i c, b ≠ a → Records s.oos b i c → Records (purgeOo s.oos a) b i c := by
        rintro b i c hne ⟨o, g1, g2⟩
        exact ⟨o, by rw [ooAt_purge, if_neg hne]; exact g1, g2⟩
      exact ⟨fun sd l hl => hR _ _ _ (h1 sd l hl) (hc.1 sd l hl), fun v hv => hR _ _ _ (h2 v hv) (hc.2 v hv)⟩
    | token hn h => exact ⟨hc.1, hc.2⟩

/-! ### Batch cancel and replace -/

/-- C40. A successful batch cancel was signed by the account's owner and withdraws exactly the account's resting
orders that carry one of the non-zero client ids; ids without a resting order are skipped. -/
theorem batch_cancels_named {P : Params} {s s' : State conc} (h : Reach P s) (hq : s.seq ≤ W64) {env : Env}
    {accts : List AccMeta} {cids : List Nat} (hc : cancelByClientIds conc env s accts cids = .ok s') :
    ∃ m b k oo signer eq rest o ls, accts = m :: b :: k :: oo :: signer :: eq :: rest ∧
      signer.signer = true ∧ ooAt s.oos oo.key = some o ∧ o.owner = signer.key ∧ Withdrawn s s' oo.key ls ∧
      ∀ sd x, (sd, x) ∈ ls ↔
        x ∈ resting s sd ∧ x.owner = oo.key ∧ x.clientId ≠ 0 ∧ x.clientId ∈ cids := by
  obtain ⟨m, b, k, oo, signer, eq, rest, o, ls, e, h1, h2, h3, h4, h5⟩ := batch_effect h hq hc
  refine ⟨m, b, k, oo, signer, eq, rest, o, ls, e, h1, h2, h3, h4, fun sd x => ?_⟩
  rw [h5]
  constructor
  · rintro ⟨g1, g2, c, g3, g4⟩
    obtain ⟨o1, k1, k2⟩ := (client_ids_agree h hq).1 sd x g1
    rw [g2, h2] at k1
    cases k1
    rw [g3] at k2
    cases k2
    exact ⟨g1, g2, g4⟩
  · rintro ⟨g1, g2, g4⟩
    obtain ⟨o1, k1, k2⟩ := (client_ids_agree h hq).1 sd x g1
    rw [g2, h2] at k1
    cases k1
    exact ⟨g1, g2, _, k2, g4⟩

/-- The orders of a list placed one after the other, each as a new-order instruction with the same accounts. -/
inductive PlacedInTurn (P : Params) (env : Env) (accts : List AccMeta) :
    State conc → List NewOrderIx → State conc → Prop where
  | nil {s : State conc} : PlacedInTurn P env accts s [] s
  | cons {s s1 s2 : State conc} {ix : NewOrderIx} {ixs : List NewOrderIx} (hr : Reach P s)
      (h : process conc P env s accts (.newOrderV3 ix) = .ok s1) (t : PlacedInTurn P env accts s1 ixs s2) :
      PlacedInTurn P env accts s (ix :: ixs) s2

theorem newOrders_placed {P : Params} {env : Env} {accts : List AccMeta} {ixs : List NewOrderIx} :
    ∀ {s s' : State conc}, Reach P s → NotVault P s.mkt accts → (∀ ix ∈ ixs, OrderValid ix) →
    (newOrders conc P env s accts ixs = .ok s' ↔ PlacedInTurn P env accts s ixs s') := by
  induction ixs with
  | nil =>
    intro s s' hr hn hv
    constructor
    · intro h; cases h; exact .nil
    · intro h; cases h; rfl
  | cons ix ixs ih =>
    intro s s' hr hn hv
    have hx := hv ix (by simp)
    constructor
    · intro h
      unfold newOrders at h
      obtain ⟨s1, h1, h⟩ := bind_ok h
      exact .cons hr h1 ((ih (place_reach hr hn hx h1) (hn.keeps (newOrderV3_keeps h1).1)
        (fun j hj => hv j (by simp [hj]))).1 h)
    · intro h
      cases h with
      | cons _ h1 t =>
        have h1' : newOrderV3 conc P env s accts ix = .ok _ := h1
        unfold newOrders
        rw [h1']
        exact (ih (place_reach hr hn hx h1') (hn.keeps (newOrderV3_keeps h1').1)
          (fun j hj => hv j (by simp [hj]))).2 t

/-- C40. A successful replacement (of one order or of up to eight) was signed by the account's owner; it first
withdraws exactly the account's resting orders that carry the client id of one of the new orders, and then places
all the new orders in sequence, each as a new-order instruction would. -/
theorem replace_effect {P : Params} {s s' : State conc} (h : Reach P s) (hq : s.seq ≤ W64) {env : Env}
    {accts : List AccMeta} {ixs : List NewOrderIx} (hn : NotVault P s.mkt accts)
    (hv : IxValid (.replaceOrdersByClientIds ixs)) (hx : replaceOrders conc P env s accts ixs = .ok s') :
    ∃ oo signer o ls s1, accts[1]? = some oo ∧ accts[7]? = some signer ∧
      signer.signer = true ∧ ooAt s.oos oo.key = some o ∧ o.owner = signer.key ∧ Withdrawn s s1 oo.key ls ∧
      (∀ sd x, (sd, x) ∈ ls ↔
        x ∈ resting s sd ∧ x.owner = oo.key ∧ x.clientId ≠ 0 ∧ ∃ ix ∈ ixs, x.clientId = ix.clientId) ∧
      PlacedInTurn P env accts s1 ixs s' := by
  obtain ⟨ca, s1, h1, _, h2, hr1, hn1, h3⟩ := replace_parts h hn hv.1 hv.2 hx
  obtain ⟨m, b, k, oo, signer, eq, rest, o, ls, e, g1, g2, g3, g4, g5⟩ := batch_cancels_named h hq h2
  unfold replaceCancelAccts at h1
  split at h1
  · rename_i e0 e4 e5 e1 e7 e3
    cases h1
    simp only [List.cons.injEq] at e
    obtain ⟨_, _, _, rfl, rfl, _⟩ := e
    refine ⟨_, _, o, ls, s1, e1, e7, g1, g2, g3, g4, fun sd x => ?_, (newOrders_placed hr1 hn1 hv.2).1 h3⟩
    rw [g5, List.mem_map]
    constructor
    · rintro ⟨a1, a2, a3, ix, a4, a5⟩; exact ⟨a1, a2, a3, ix, a4, a5.symm⟩
    · rintro ⟨a1, a2, a3, ix, a4, a5⟩; exact ⟨a1, a2, a3, ix, a4, a5.symm⟩
  · cases h1

/-! ### A batch cancel works -/

/-- Whether the order is on the book. -/
def onBook (B A : List Leaf) (x : Nat × Side) : Bool := (sideOf x.2 B A).any fun l => l.key == x.1

theorem cancelOrderV2_cap {ob ob' : Ob lst} {oo oo' : OpenOrders} {sd : Side} {a id : Nat}
    (h : cancelOrderV2 lst ob sd a oo id = .ok (ob', oo')) : ob'.q.cap = ob.q.cap := by
  unfold cancelOrderV2 at h
  obtain ⟨⟨b, l⟩, hr, h⟩ := bind_ok h
  cases l with
  | none => cases h
  | some lf =>
    obtain ⟨_, _, _, n, _, rfl⟩ := cancelLeaf_inv h
    cases sd <;> rfl

theorem cancelOrderV2_skip {ob : Ob lst} {sd : Side} {a id : Nat} {oo : OpenOrders}
    (h : onBook ob.bids.items ob.asks.items (id, sd) = false) :
    cancelOrderV2 lst ob sd a oo id = .error .orderNotFound := by
  have hf : ((ob.side lst sd).items).find? (fun x => x.key == id) = none := by
    rw [List.find?_eq_none]
    unfold onBook at h
    rw [List.any_eq_false] at h
    intro x hx
    exact h x (by cases sd <;> exact hx)
  unfold cancelOrderV2
  rw [show lst.remove (ob.side lst sd) id =
    .ok (⟨(ob.side lst sd).items.filter (fun x => x.key != id), (ob.side lst sd).cap⟩, none) from by
      show Except.ok _ = _; rw [hf]]
  rfl

theorem cancelMany_ok {vs : Nat} {c : Core} {a : Nat} {L : List (Nat × Side)} :
    ∀ {ob : Ob lst} {oo : OpenOrders} {evs : List EventView},
    ob.mkt = c.mkt → ob.q.items = evs.map Event.new →
    Inv vs c.mkt c.seq (setOo c.oos a oo) c.toks ob.bids.items ob.asks.items evs →
    (∀ x ∈ L, ∃ i, oo.slot i = some (x.2, x.1)) →
    ob.q.items.length + L.countP (onBook ob.bids.items ob.asks.items) ≤ ob.q.cap →
    oo.coinFree + bookLock .ask c.mkt (only a) ob.asks.items + evSum (EventView.lock .ask) (only a) evs < W64 →
    oo.pcFree + bookLock .bid c.mkt (only a) ob.bids.items + evSum (EventView.lock .bid) (only a) evs < W64 →
    ∃ r, cancelMany lst a ob oo L = .ok r := by
  induction L with
  | nil => intro ob oo evs _ _ _ _ _ _ _; exact ⟨_, rfl⟩
  | cons x xs ih =>
    intro ob oo evs hm hq hi hs hroom f1 f2
    obtain ⟨id, sd⟩ := x
    unfold cancelMany
    cases hon : onBook ob.bids.items ob.asks.items (id, sd) with
    | false =>
      rw [cancelOrderV2_skip hon]
      refine ih hm hq hi (fun x hx => hs x (by simp [hx])) ?_ f1 f2
      rw [List.countP_cons_of_neg (by simp [hon])] at hroom
      exact hroom
    | true =>
      rw [List.countP_cons_of_pos hon] at hroom
      obtain ⟨lf, hl, hk⟩ := List.any_eq_true.1 hon
      have hk : lf.key = id := by simpa using hk
      subst hk
      have hoo : ooAt (setOo c.oos a oo) a = some oo := ooAt_setOo_same _ _ _
      have hown : lf.owner = a := by
        obtain ⟨i, h1⟩ := hs (lf.key, sd) (by simp)
        have h2 := hi.shape.leaf_slot hl
        have h3 : slotsOf (setOo c.oos a oo) a i = some (sd, lf.key) := by
          unfold slotsOf; rw [hoo]; exact h1
        exact (hi.shape.uniq _ _ _ _ _ _ _ h2 h3 rfl).1
      obtain ⟨⟨ob1, oo1⟩, h1⟩ := cancelOrderV2_ok (c := { c with oos := setOo c.oos a oo }) (vs := vs) hm hi hoo hl
        hown (by omega) f1 f2
      rw [h1]
      obtain ⟨l2, evs1, hkey, m1, q1, i1, w1⟩ := cancelOrderV2_effect h1 hm hq hi
      have hl2 := (w1.theirs sd l2 (by simp)).1
      have e := key_unique (side_sorted hi.shape.book sd) hl2 hl hkey
      subst e
      have hev := w1.events
      have hacc := w1.account
      have hlen : ob1.q.items.length = ob.q.items.length + 1 := by rw [q1, hq, hev]; simp
      have hp := dropKey_perm (side_sorted hi.shape.book sd) hl
      have hbook : sideOf sd ob1.bids.items ob1.asks.items = dropKey l2.key (sideOf sd ob.bids.items ob.asks.items) := by
        rw [w1.bids, w1.asks, sideOf_without, ← dropKey_without (side_sorted hi.shape.book sd) hl]
      refine ih m1 q1 i1 ?_ ?_ ?_ ?_
      · intro x hx
        obtain ⟨i, g⟩ := hs x (by simp [hx])
        refine ⟨i, ?_⟩
        rw [hacc]
        exact g
      · rw [hlen, cancelOrderV2_cap h1]
        have : xs.countP (onBook ob1.bids.items ob1.asks.items) ≤ xs.countP (onBook ob.bids.items ob.asks.items) := by
          apply List.countP_mono_left
          intro x _ hx
          unfold onBook at hx ⊢
          rw [List.any_eq_true] at hx ⊢
          obtain ⟨y, hy, e⟩ := hx
          rw [w1.bids, w1.asks, sideOf_without] at hy
          exact ⟨y, (mem_without.1 hy).1, e⟩
        omega
      · cases sd with
        | ask =>
          have e1 := bookLock_perm (sd := .ask) (m := c.mkt) (P := only a) hp
          have hb : ob1.asks.items = dropKey l2.key ob.asks.items := hbook
          rw [hacc, hev, hb]
          rw [bookLock_cons] at e1
          have e2 : leafLock .ask c.mkt (only a) l2 = askValue c.mkt l2 := by
            simp [leafLock, only, hown, lockedValue, askValue]
          have e3 : evSum (EventView.lock .ask) (only a) ([((Side.ask : Side), l2)].map (outEvent c.mkt)) = 0 := by
            simp [outEvent, EventView.lock]
          have e4 : total (baseWorth c.mkt) [((Side.ask : Side), l2)] = askValue c.mkt l2 := by
            simp [total, baseWorth]
          rw [evSum_append, e3]
          simp only [released, e4]
          simp only [sideOf] at e1
          omega
        | bid =>
          have hb : ob1.asks.items = ob.asks.items := by rw [w1.asks]; exact without_other (by simp) _ _
          have e3 : evSum (EventView.lock .ask) (only a) ([((Side.bid : Side), l2)].map (outEvent c.mkt)) = 0 := by
            simp [outEvent, EventView.lock]
          have e4 : total (baseWorth c.mkt) [((Side.bid : Side), l2)] = 0 := by simp [total, baseWorth]
          rw [hacc, hev, hb, evSum_append, e3]
          simp only [released, e4]
          exact f1
      · cases sd with
        | bid =>
          have e1 := bookLock_perm (sd := .bid) (m := c.mkt) (P := only a) hp
          have hb : ob1.bids.items = dropKey l2.key ob.bids.items := hbook
          rw [hacc, hev, hb]
          rw [bookLock_cons] at e1
          have e2 : leafLock .bid c.mkt (only a) l2 = bidValue c.mkt l2 := by
            simp [leafLock, only, hown, lockedValue, bidValue]
          have e3 : evSum (EventView.lock .bid) (only a) ([((Side.bid : Side), l2)].map (outEvent c.mkt)) = 0 := by
            simp [outEvent, EventView.lock]
          have e4 : total (quoteWorth c.mkt) [((Side.bid : Side), l2)] = bidValue c.mkt l2 := by
            simp [total, quoteWorth]
          rw [evSum_append, e3]
          simp only [released, e4]
          simp only [sideOf] at e1
          omega
        | ask =>
          have hb : ob1.bids.items = ob.bids.items := by rw [w1.bids]; exact without_other (by simp) _ _
          have e3 : evSum (EventView.lock .bid) (only a) ([((Side.ask : Side), l2)].map (outEvent c.mkt)) = 0 := by
            simp [outEvent, EventView.lock]
          have e4 : total (quoteWorth c.mkt) [((Side.ask : Side), l2)] = 0 := by simp [total, quoteWorth]
          rw [hacc, hev, hb, evSum_append, e3]
          simp only [released, e4]
          exact f2

theorem nodup_length {α : Type} [DecidableEq α] : ∀ {l k : List α}, l.Nodup → l ⊆ k → l.length ≤ k.length := by
  intro l
  induction l with
  | nil => intro k _ _; simp
  | cons a l ih =>
    intro k hn hs
    have ha : a ∈ k := hs (by simp)
    rw [List.nodup_cons] at hn
    have h1 : l ⊆ k.erase a := by
      intro x hx
      exact (List.mem_erase_of_ne (fun e => hn.1 (by rw [← e]; exact hx))).2 (hs (by simp [hx]))
    have h2 := ih hn.2 h1
    have h3 := List.length_erase_of_mem ha
    have h4 := List.length_pos_of_mem ha
    simp only [List.length_cons]
    omega

theorem select_nodup {vs m seq oos l B A evs a o} (hi : Inv vs m seq oos l B A evs) (ho : ooAt oos a = some o)
    (cids : List Nat) : (selectByClientIds o cids).Nodup := by
  unfold selectByClientIds
  refine List.pairwise_map.2 (List.Pairwise.filter _ ?_)
  unfold OpenOrders.ordersWithClientIds
  refine List.pairwise_filterMap.2 ?_
  have hnd : o.filledSlots.Nodup := by
    rw [filledSlots_eq]
    exact List.Pairwise.filter _ List.nodup_range
  have key : ∀ i ∈ o.filledSlots, ∀ b, (match o.clientIds[i]?, o.orders[i]?, o.slotSide i with
      | some cid, some oid, some side => if cid == 0 then none else some (cid, oid, side)
      | _, _, _ => none) = some b → slotsOf oos a i = some (b.2.2, b.2.1) := by
    intro i hi' b h
    rw [mem_filledSlots] at hi'
    split at h
    · rename_i c' id' sd' h1 h2 h3
      split at h
      · cases h
      · cases h
        unfold slotsOf
        rw [ho]
        show o.slot i = _
        unfold OpenOrders.slot
        rw [if_pos hi'.1, h3, h2]
    · cases h
  refine List.Pairwise.imp_of_mem ?_ hnd
  intro i j hi1 hj1 hne b hb b' hb' e
  have k1 := key i hi1 b hb
  have k2 := key j hj1 b' hb'
  rw [e] at k1
  exact hne (hi.shape.uniq _ _ _ _ _ _ _ k1 k2 rfl).2

/-- Whether the order is one that a batch cancel of the account names. -/
def named (a : Nat) (cids : List Nat) (l : Leaf) : Bool := l.owner == a && l.clientId != 0 && cids.contains l.clientId

/-- C40. The owner's batch cancel succeeds in every reachable state in which the queue has room for one event per
order it withdraws, whatever ids are listed (and if what the account holds fits in 64 bits). -/
theorem batch_works {P : Params} {s : State conc} (h : Reach P s) (hq : s.seq ≤ W64) (env : Env) {a : Nat}
    {o : OpenOrders} (ho : ooAt s.oos a = some o) (hcl : o.closed = false) (hne : s.mkt.bids ≠ s.mkt.asks)
    (cids : List Nat)
    (hroom : (pending s).length + ((resting s .bid).filter (named a cids)).length +
      ((resting s .ask).filter (named a cids)).length ≤ s.q.buf.length) (hfit : HoldsFit s a o) :
    ∃ s', cancelByClientIds conc env s (cancelAccts s a o.owner) cids = .ok s' := by
  obtain ⟨vs, hv, hqi, hi⟩ := h.view hq
  have hg := h.good hq
  have hL := absState_q hg hqi
  have hst : setOo s.oos a o = s.oos := setOo_same ho
  have hfit' := hfit
  unfold HoldsFit baseHeld quoteHeld at hfit'
  have hcount : (selectByClientIds o (cids.filter (· != 0))).countP (onBook s.bids.contents s.asks.contents) ≤
      ((resting s .bid).filter (named a cids)).length + ((resting s .ask).filter (named a cids)).length := by
    rw [List.countP_eq_length_filter]
    refine Nat.le_trans (nodup_length (k := ((resting s .bid).filter (named a cids)).map (fun l => (l.key, Side.bid)) ++
      ((resting s .ask).filter (named a cids)).map (fun l => (l.key, Side.ask)))
      (List.Pairwise.filter _ (select_nodup hi ho _)) ?_) (by simp)
    rintro ⟨id, sd⟩ hx
    obtain ⟨h1, h2⟩ := List.mem_filter.1 hx
    obtain ⟨lf, hl, hk⟩ := List.any_eq_true.1 h2
    have hk : lf.key = id := by simpa using hk
    subst hk
    obtain ⟨e1, c, e2, e3, e4⟩ := (select_resting hi ho hl).1 h1
    have hl' : lf ∈ resting s sd := by cases sd <;> exact hl
    have hnm : named a cids lf = true := by
      obtain ⟨o1, k1, k2⟩ := (client_ids_agree h hq).1 sd lf hl'
      rw [e1, ho] at k1
      cases k1
      rw [e2] at k2
      cases k2
      unfold named
      simp [e1, e3, (List.mem_filter.1 e4).1]
    rw [List.mem_append]
    cases sd with
    | bid => exact .inl (List.mem_map.2 ⟨lf, List.mem_filter.2 ⟨hl', hnm⟩, rfl⟩)
    | ask => exact .inr (List.mem_map.2 ⟨lf, List.mem_filter.2 ⟨hl', hnm⟩, rfl⟩)
  obtain ⟨r, hr⟩ := cancelMany_ok (c := s.toCore) (vs := vs) (a := a) (oo := o) (evs := pending s)
    (L := selectByClientIds o (cids.filter (· != 0)))
    (ob := (absState s).ob lst s.mkt) rfl hL (by rw [show setOo s.toCore.oos a o = s.oos from hst]; exact hi)
    (by
      rintro ⟨id, sd⟩ hx
      obtain ⟨i, c, g, _⟩ := mem_select.1 hx
      exact ⟨i, g⟩)
    (by
      show (absState s).q.items.length + _ ≤ s.q.buf.length
      rw [hL, List.length_map]
      exact Nat.le_trans (Nat.add_le_add_left hcount _) (by omega))
    (by rw [askLock_only, evSum_only _ _ lock_ask]; exact hfit'.1)
    (by rw [bidLock_only, evSum_only _ _ lock_bid]; exact hfit'.2)
  have hlst : ∃ t, cancelByClientIds lst env (absState s) (cancelAccts s a o.owner) cids = .ok t := by
    refine ⟨(absState s).back lst r.1 a r.2, ?_⟩
    unfold cancelByClientIds
    rw [show parseCancel (cancelAccts s a o.owner) = .ok ⟨⟨s.mkt.ownAddress, false⟩, ⟨s.mkt.bids, false⟩,
      ⟨s.mkt.asks, false⟩, ⟨a, false⟩, ⟨o.owner, true⟩, ⟨s.mkt.eventQ, false⟩⟩ from rfl]
    have := cancelArgs_ok (env := env) h.flags hne ho hcl
    rw [show (absState s).toCore = s.toCore from rfl]
    simp only [bind, Except.bind, this]
    rw [hr]
    rfl
  obtain ⟨t, ht⟩ := hlst
  obtain ⟨s', h3, _⟩ := Sim.ok_left (Refines.sim_cancelByClientIds hg.rs env _ cids) ht
  exact ⟨s', h3⟩

-- account 42 names client ids 9, 10 and the unknown 77: the bid of id 9 and the ask of id 10 go
example : Reach Demo.P Demo.p6 ∧
    cancelByClientIds conc Demo.env Demo.p6 (Demo.cancelAccts 42 12) Demo.batchIds = .ok Demo.p7b ∧
    (resting Demo.p6 .bid).map (fun l => (l.owner, l.clientId)) = [(42, 9), (42, 8)] ∧
    (resting Demo.p7b .bid).map (fun l => (l.owner, l.clientId)) = [(42, 8)] ∧
    (resting Demo.p6 .ask).map (fun l => (l.owner, l.clientId)) = [(41, 7), (42, 10)] ∧
    (resting Demo.p7b .ask).map (fun l => (l.owner, l.clientId)) = [(41, 7)] ∧
    (pending Demo.p6).length + ((resting Demo.p6 .bid).filter (named 42 Demo.batchIds)).length +
      ((resting Demo.p6 .ask).filter (named 42 Demo.batchIds)).length ≤ Demo.p6.q.buf.length ∧
    (ooAt Demo.p6.oos 42).map (fun o => decide (HoldsFit Demo.p6 42 o ∧ o.closed = false)) = some true ∧
    Demo.p6.mkt.bids ≠ Demo.p6.mkt.asks :=
  ⟨Demo.k6, Demo.f7b, by decide +kernel, by decide +kernel, by decide +kernel, by decide +kernel, by decide +kernel,
    by decide +kernel, by decide⟩

-- account 42 replaces its bids of ids 8 and 9
example : replaceOrders conc Demo.P Demo.env Demo.p6 (Demo.orderAccts 42 32 12) Demo.replIxs = .ok Demo.p7c ∧
    IxValid (.replaceOrdersByClientIds Demo.replIxs) ∧
    (resting Demo.p6 .bid).map (fun l => (l.price, l.clientId)) = [(800, 9), (900, 8)] ∧
    (resting Demo.p7c .bid).map (fun l => (l.price, l.clientId)) = [(850, 8), (860, 9)] :=
  ⟨Demo.f7c, Demo.replValid, by decide +kernel, by decide +kernel⟩

end Serum.Props
