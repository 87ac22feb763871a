import Verif.PropsAuth

/-!
C37 (disabled markets) and the part of C17 about which instructions load one.
-/

namespace Serum.Props

/-- The market is disabled. -/
def Disabled (m : Market) : Prop := m.flags.testBit 7 = true

/-- The instructions a disabled market still takes: match (which does nothing), crank, settle, cancel, close,
and a replacement of no orders. -/
def WindsDown : Instruction → Prop
  | .matchOrders _ | .consumeEvents _ | .consumeEventsPermissioned _ | .settleFunds | .cancelOrderV2 ..
  | .cancelOrderByClientIdV2 _ | .cancelOrdersByClientIds _ | .closeOpenOrders => True
  | .replaceOrdersByClientIds ixs => ixs = []
  | _ => False

theorem no_load {s : State conc} {a : AccMeta} (hb : Disabled s.mkt) : loadMarket s.toCore a false ≠ .ok () := by
  intro h
  unfold loadMarket at h
  obtain ⟨_, _, h⟩ := bind_ok h
  have := ((market_flags _ _).1.1 h).disabled hb
  cases this

theorem no_order {P : Params} {env : Env} {s s' : State conc} {accts : List AccMeta} {ix : NewOrderIx}
    (hb : Disabled s.mkt) : newOrderV3 conc P env s accts ix ≠ .ok s' := by
  intro h
  unfold newOrderV3 at h
  obtain ⟨a, hp, h⟩ := bind_ok h
  obtain ⟨⟨tier, oo⟩, ha, _⟩ := bind_ok h
  exact no_load hb (newOrderArgs_inv hp ha).market

/-- C37 and C17. In any state whose market is disabled, only the winding-down instructions can succeed. -/
theorem disabled_refuses {P : Params} {env : Env} {s s' : State conc} {accts : List AccMeta} {ix : Instruction}
    (hb : Disabled s.mkt) (hx : process conc P env s accts ix = .ok s') : WindsDown ix := by
  have rep : ∀ ixs, replaceOrders conc P env s accts ixs = .ok s' → ixs = [] := by
    intro ixs h
    unfold replaceOrders at h
    obtain ⟨ca, _, h⟩ := bind_ok h
    obtain ⟨s1, h1, h⟩ := bind_ok h
    cases ixs with
    | nil => rfl
    | cons j js =>
      exfalso
      unfold newOrders at h
      obtain ⟨s2, h2, _⟩ := bind_ok h
      refine no_order ?_ h2
      unfold Disabled
      rw [(cancelByClientIds_keeps h1).2.2.1]
      exact hb
  cases ix with
  | initializeMarket => cases hx
  | newOrder => cases hx
  | matchOrders => trivial
  | consumeEvents n => trivial
  | cancelOrder => cases hx
  | settleFunds => trivial
  | cancelOrderByClientId => cases hx
  | disableMarket =>
    obtain ⟨m, auth, _, _, _, h, _⟩ := disable_inv hx
    exact no_load hb h
  | sweepFees =>
    have hx' : sweepFees conc P s accts = .ok s' := hx
    unfold sweepFees at hx'
    split at hx'
    · obtain ⟨_, h, _⟩ := bind_ok hx'
      exact no_load hb h
    · cases hx'
  | newOrderV2 => cases hx
  | newOrderV3 ix => exact no_order hb hx
  | cancelOrderV2 sd id => trivial
  | cancelOrderByClientIdV2 c => trivial
  | sendTake ix =>
    have hx' : sendTake conc P s accts ix = .ok s' := hx
    unfold sendTake at hx'
    obtain ⟨a, hp, h⟩ := bind_ok hx'
    obtain ⟨tier, ha, _⟩ := bind_ok h
    exact no_load hb (sendTakeArgs_inv hp ha).market
  | closeOpenOrders => trivial
  | initOpenOrders =>
    obtain ⟨oo, owner, m, rent, rest, _, _, h, _⟩ := init_inv hx
    exact no_load hb h
  | prune n =>
    have hx' : prune conc env s accts n = .ok s' := hx
    unfold prune at hx'
    split at hx'
    · obtain ⟨_, _, h⟩ := bind_ok hx'
      obtain ⟨_, h, _⟩ := bind_ok h
      exact no_load hb h
    · cases hx'
  | consumeEventsPermissioned n => trivial
  | cancelOrdersByClientIds cids => trivial
  | replaceOrderByClientId ix => exact absurd (rep [ix] hx) (by simp)
  | replaceOrdersByClientIds ixs => exact rep ixs hx

/-- A market moved from `s` to `s'` while winding down: it is disabled still, no order number was given out, no
order was added to or changed in the books, and of the events queued since then none is a fill. -/
structure WoundDown (s s' : State conc) : Prop where
  disabled : Disabled s'.mkt
  seq : s'.seq = s.seq
  books : ∀ sd, (resting s' sd).Sublist (resting s sd)
  events : ∃ n outs, pending s' = (pending s).drop n ++ outs ∧ ∀ v ∈ outs, ∃ sd rf u k id ow sl c,
    v = .out sd rf u k id ow sl c

theorem WoundDown.refl {s : State conc} (hb : Disabled s.mkt) : WoundDown s s :=
  ⟨hb, rfl, fun _ => List.Sublist.refl _, 0, [], by simp, by simp⟩

theorem WoundDown.trans {s t u : State conc} (h1 : WoundDown s t) (h2 : WoundDown t u) : WoundDown s u := by
  refine ⟨h2.disabled, h2.seq.trans h1.seq, fun sd => (h2.books sd).trans (h1.books sd), ?_⟩
  obtain ⟨n, o1, e1, p1⟩ := h1.events
  obtain ⟨k, o2, e2, p2⟩ := h2.events
  refine ⟨n + k, o1.drop (k - ((pending s).drop n).length) ++ o2, ?_, ?_⟩
  · rw [e2, e1, List.drop_append, List.drop_drop, List.append_assoc]
  · intro v hv
    rcases List.mem_append.1 hv with hv | hv
    · exact p1 v (List.mem_of_mem_drop hv)
    · exact p2 v hv

theorem Withdrawn.wound {s s' : State conc} {a : Nat} {ls : List (Side × Leaf)} (hb : Disabled s.mkt)
    (h : Withdrawn s s' a ls) : WoundDown s s' := by
  refine ⟨by unfold Disabled; rw [h.mkt]; exact hb, h.seq, fun sd => ?_, 0, ls.map (outEvent s.mkt), ?_, ?_⟩
  · rw [h.books]; exact List.filter_sublist
  · rw [h.events]; rfl
  · intro v hv
    obtain ⟨⟨sd, l⟩, _, rfl⟩ := List.mem_map.1 hv
    cases sd <;> exact ⟨_, _, _, _, _, _, _, _, rfl⟩

theorem raw_process {P : Params} {env : Env} {s s' : State conc} {accts : List AccMeta} {data : List UInt8}
    (h : processRaw conc P env s accts data = .ok s') : ∃ ix, process conc P env s accts ix = .ok s' := by
  unfold processRaw at h
  split at h
  · exact ⟨_, h⟩
  · cases h

theorem step_wound {P : Params} {s s' : State conc} (h : Reach P s) (hq : s.seq ≤ W64) (hb : Disabled s.mkt)
    (hs : Step P s s') : WoundDown s s' := by
  cases hs with
  | purge => exact ⟨hb, rfl, fun _ => List.Sublist.refl _, 0, [], by simp [pending], by simp⟩
  | token => exact ⟨hb, rfl, fun _ => List.Sublist.refl _, 0, [], by simp [pending], by simp⟩
  | @instr _ env accts data hn hx =>
    obtain ⟨ix, hx⟩ := raw_process hx
    have hw := disabled_refuses hb hx
    have crank : ∀ n, (consumeEvents conc P env s accts n = .ok s' ∨ consumeEventsPermissioned conc P env s accts n = .ok s') →
        WoundDown s s' := by
      intro n hx
      obtain ⟨k, _, _, hp, _, _, _, hm, _, hbid, hask, hsq⟩ := crank_delivers h hq hx
      refine ⟨by unfold Disabled; rw [hm]; exact hb, hsq, fun sd => ?_, k, [], by rw [hp]; simp, by simp⟩
      cases sd
      · unfold resting; rw [hbid]; exact List.Sublist.refl _
      · unfold resting; rw [hask]; exact List.Sublist.refl _
    cases ix with
    | matchOrders => cases hx; exact .refl hb
    | consumeEvents n => exact crank n (.inl hx)
    | consumeEventsPermissioned n => exact crank n (.inr hx)
    | settleFunds =>
      obtain ⟨m, oo, owner, cv, pv, cw, pw, vsA, tp, refer, o, _, _, _, _, st⟩ := settle_effect h hq hx
      refine ⟨by unfold Disabled; rw [st.mkt]; exact hb, st.rest.2.2.2.1, fun sd => ?_, 0, [], ?_, by simp⟩
      · cases sd
        · unfold resting; rw [st.rest.1]; exact List.Sublist.refl _
        · unfold resting; rw [st.rest.2.1]; exact List.Sublist.refl _
      · unfold pending; rw [st.rest.2.2.1]; simp
    | cancelOrderV2 sd id =>
      obtain ⟨m, b, k, oo, sg, eq, rest, x, o, _, _, _, _, _, w⟩ := cancel_effect h hq hx
      exact w.wound hb
    | cancelOrderByClientIdV2 c =>
      obtain ⟨m, b, k, oo, sg, eq, rest, sd, x, o, _, _, _, _, _, _, w⟩ := cancel_by_id_effect h hq hx
      exact w.wound hb
    | cancelOrdersByClientIds cids =>
      obtain ⟨m, b, k, oo, sg, eq, rest, o, ls, _, _, _, _, w, _⟩ := batch_effect h hq hx
      exact w.wound hb
    | closeOpenOrders =>
      obtain ⟨oo, owner, dest, m, p, _, _, _, _, _, _, _, _, rfl⟩ := (close_is_safe h hq).1 _ _ _ hx
      exact ⟨hb, rfl, fun _ => List.Sublist.refl _, 0, [], by simp [pending], by simp⟩
    | replaceOrdersByClientIds ixs =>
      have e : ixs = [] := hw
      subst e
      have hx' : replaceOrders conc P env s accts [] = .ok s' := hx
      unfold replaceOrders at hx'
      obtain ⟨ca, _, hx'⟩ := bind_ok hx'
      obtain ⟨s1, h1, hx'⟩ := bind_ok hx'
      cases hx'
      obtain ⟨m, b, k, oo, sg, eq, rest, o, ls, _, _, _, _, w, _⟩ := batch_effect h hq h1
      exact w.wound hb
    | _ => exact hw.elim

/-- A later state of the same market. -/
inductive Later (P : Params) : State conc → State conc → Prop where
  | refl {s : State conc} : Later P s s
  | step {s s1 s2 : State conc} (h : Later P s s1) (hs : Step P s1 s2) : Later P s s2

theorem Later.reach {P : Params} {s s' : State conc} (h : Reach P s) (hl : Later P s s') : Reach P s' := by
  induction hl with
  | refl => exact h
  | step _ hs ih => exact ih.step hs

/-- C37. Once a market is disabled it stays disabled, and nothing is ever placed, matched or taken in it
again, whatever instructions follow. -/
theorem disabled_forever {P : Params} {s s' : State conc} (h : Reach P s) (hq : s.seq ≤ W64) (hb : Disabled s.mkt)
    (hl : Later P s s') : WoundDown s s' := by
  induction hl with
  | refl => exact .refl hb
  | step h1 hs ih => exact ih.trans (step_wound (Later.reach h h1) (by rw [ih.seq]; exact hq) ih.disabled hs)

-- the market disabled with an ask resting; then its owner cancels it
example : Reach Demo.P Demo.s10 ∧ Disabled Demo.s10.mkt ∧ Later Demo.P Demo.s10 Demo.s11 ∧
    (resting Demo.s10 .ask).length = 1 ∧ (resting Demo.s11 .ask).length = 0 ∧ (pending Demo.s11).length = 1 ∧
    (process conc Demo.P Demo.env Demo.s10 Demo.a1 Demo.i1).isOk = false ∧
    (process conc Demo.P Demo.env Demo.s9 Demo.a1 Demo.i1).isOk = true := by
  refine ⟨Demo.r10, (by decide +kernel : Demo.s10.mkt.flags.testBit 7 = true), ?_, by decide +kernel, by decide +kernel,
    by decide +kernel, by decide +kernel, by decide +kernel⟩
  refine .step .refl (.instr (env := Demo.env) (accts := Demo.cancelAccts 41 11) (data := Demo.i11.pack)
    (Demo.notVault _ (by decide)) ?_)
  unfold processRaw
  rw [instruction_round_trip Demo.i11 (by decide : U64 7)]
  exact Demo.e11

/-- C37. Only the disable authority can disable a market, and disabling changes nothing but that flag. -/
theorem only_authority_disables {P : Params} {s s' : State conc} (hs : Step P s s') (hb : ¬ Disabled s.mkt)
    (hd : Disabled s'.mkt) :
    ∃ env m auth, auth.signer = true ∧ auth.key = P.disableAuth ∧
      process conc P env s [m, auth] .disableMarket = .ok s' ∧
      s' = { s with mkt := { s.mkt with flags := s.mkt.flags ||| 128 } } := by
  cases hs with
  | purge => exact absurd hd hb
  | token => exact absurd hd hb
  | @instr _ env accts data hn hx =>
    obtain ⟨ix, hx⟩ := raw_process hx
    rcases process_flags hx with e | ⟨rfl, _, _⟩
    · unfold Disabled at hb hd
      rw [e] at hd
      exact absurd hd hb
    · obtain ⟨m, auth, rfl, h1, h2, _, h3⟩ := disable_inv hx
      exact ⟨env, m, auth, h1, h2, hx, h3⟩

example : ¬ Disabled Demo.s9.mkt ∧ Disabled Demo.s10.mkt ∧ Demo.P.disableAuth = 72 ∧
    process conc Demo.P Demo.env Demo.s9 [Demo.acc 50, Demo.sig 72] .disableMarket = .ok Demo.s10 :=
  ⟨(by decide +kernel : ¬ Demo.s9.mkt.flags.testBit 7 = true), (by decide +kernel : Demo.s10.mkt.flags.testBit 7 = true),
    rfl, Demo.e10⟩

/-- The accounts of a close. -/
def closeAccts (s : State conc) (a owner dest : Nat) : List AccMeta :=
  [⟨a, false⟩, ⟨owner, true⟩, ⟨dest, false⟩, ⟨s.mkt.ownAddress, false⟩]

/-- C37 (closing stays available). In every reachable state, disabled or not, the owner can close an account
without orders and balances. -/
theorem close_works {P : Params} {s : State conc} (h : Reach P s) (env : Env) {a : Nat}
    {o : OpenOrders} (dest : Nat) (ho : ooAt s.oos a = some o) (hcl : o.closed = false)
    (hz : ∀ i, slots o i = none) (hc : o.coinTotal = 0) (hp : o.pcTotal = 0) :
    closeOpenOrders conc env s (closeAccts s a o.owner dest) =
      .ok { s with oos := setOo s.oos a { o with closed := true } } := by
  have hall : o.freeBits = BitVec.allOnes 128 := by
    rw [freeBits_allOnes_iff]
    intro i hi'
    have := hz i
    unfold slots at this
    rw [if_pos hi'] at this
    simpa using this
  have hf := goodFlags_load h.flags
  have hl : loadOrders s.toCore env a (some o.owner) false none = .ok o := by
    unfold loadOrders
    rw [show ooAt s.toCore.oos a = some o from ho]
    simp [hcl]
  have hk : checkClosable o = .ok () := by
    unfold checkClosable
    rw [if_neg (by simp only [not_or, Decidable.not_not]; exact ⟨hall, hc, hp⟩)]
  unfold closeOpenOrders closeAccts
  simp only [signed, loadMarket, checkAssert, hl, hk, hf, bind, Except.bind, beq_self_eq_true, if_true]
  rfl

example : Reach Demo.P Demo.s7 ∧ (ooAt Demo.s7.oos 42).map (fun o => (o.closed, o.coinTotal, o.pcTotal,
    (List.range 128).all fun i => (slots o i).isNone)) = some (false, 0, 0, true) :=
  ⟨Demo.r7, by decide +kernel⟩

end Serum.Props
