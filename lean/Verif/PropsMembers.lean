import Verif.PropsChain
import Verif.PropsDisabled
import Verif.PropsJournal
import Verif.PropsTake
import Verif.PropsOrders
import Verif.PropsRefusals

/-!
C84: who trades on a permissioned market.
-/

namespace Serum.Props

variable {P : Params}

/-- The market is permissioned (bit 9 of its flags). -/
def Permissioned (m : Market) : Prop := m.flags.testBit 9 = true

theorem permissioned_auth {m : Market} (h : Permissioned m) : m.ooAuth = some m.ooAuthority := by
  rw [(permissioned_is_one_bit m).1]; exact if_pos h

/-- The account was opened by this instruction: it was InitOpenOrders, the owner signed, and so did the market's authority. -/
structure Admitted (s s' : State conc) (env : Env) (accts : List AccMeta) (b owner : Nat) : Prop where
  init : initOpenOrders conc env s accts = .ok s'
  before : ooAt s.oos b = none
  after : ∃ o, ooAt s'.oos b = some o ∧ o = OpenOrders.init owner
  account : ∃ a, accts[0]? = some a ∧ a.key = b
  owner : ∃ a, accts[1]? = some a ∧ a.key = owner ∧ a.signer = true
  authority : ∃ a, accts[4]? = some a ∧ a.key = s.mkt.ooAuthority ∧ a.signer = true

theorem place_absent {env : Env} {s s' : State conc} {accts : List AccMeta} {ix : NewOrderIx} (h : Reach P s)
    (hq : s'.seq ≤ W64) (hv : OrderValid ix) (hn : NotVault P s.mkt accts) (hp : Permissioned s.mkt)
    (hx : newOrderV3 conc P env s accts ix = .ok s') {b : Nat} (hb : ooAt s.oos b = none) : ooAt s'.oos b = none := by
  have hlt : s.seq < W64 := by have := (newOrderV3_keeps hx).2.1; omega
  obtain ⟨a, tier, p, p', slot, d, ts, f, evs, e⟩ := place_effect h hlt hv hn hx
  by_cases e' : b = a.oo.key
  · subst e'
    rcases loadOrders_inv e.args.load with ⟨g, _⟩ | ⟨_, _, _, g, _⟩
    · have g' : ooAt s.oos a.oo.key = some p := g
      rw [hb] at g'; cases g'
    · have g' : none = s.mkt.ooAuth := g
      rw [permissioned_auth hp] at g'; cases g'
  · rw [e.others b e']; exact hb

theorem withdrawn_absent {s s' : State conc} {a : Nat} {ls : List (Side × Leaf)} (w : Withdrawn s s' a ls) {b : Nat}
    (hb : ooAt s.oos b = none) : ooAt s'.oos b = none := by
  by_cases e : b = a
  · subst e
    obtain ⟨p, hp, _⟩ := w.account
    rw [hb] at hp; cases hp
  · rw [w.others b e]; exact hb

theorem newOrders_absent {env : Env} {accts : List AccMeta} {ixs : List NewOrderIx} {b : Nat} :
    ∀ {s s' : State conc}, Reach P s → s'.seq ≤ W64 → (∀ ix ∈ ixs, OrderValid ix) → NotVault P s.mkt accts →
    Permissioned s.mkt → newOrders conc P env s accts ixs = .ok s' → ooAt s.oos b = none → ooAt s'.oos b = none := by
  induction ixs with
  | nil => intro s s' _ _ _ _ _ h hb; cases h; exact hb
  | cons ix ixs ih =>
    intro s s' hr hq hv hn hp h hb
    unfold newOrders at h
    obtain ⟨s1, h1, h⟩ := bind_ok h
    have hx := hv ix (by simp)
    obtain ⟨k1, _, k3⟩ := newOrderV3_keeps h1
    have q1 : s1.seq ≤ W64 := Nat.le_trans (newOrders_keeps h).1.seq hq
    exact ih (place_reach hr hn hx h1) hq (fun j hj => hv j (by simp [hj])) (hn.keeps k1)
      (by unfold Permissioned at *; rw [k3]; exact hp) h (place_absent hr q1 hx hn hp h1 hb)

/-- On a permissioned market, an account that comes into being was admitted. -/
theorem opened_admitted {env : Env} {accts : List AccMeta} {ix : Instruction} {s s' : State conc} (h : Reach P s)
    (hn : NotVault P s.mkt accts) (hv : IxValid ix) (hx : process conc P env s accts ix = .ok s') (hq : s'.seq ≤ W64)
    (hp : Permissioned s.mkt) {b : Nat} {o : OpenOrders} (hb : ooAt s.oos b = none) (ho : ooAt s'.oos b = some o) :
    ix = .initOpenOrders ∧ Admitted s s' env accts b o.owner := by
  have hs : s.seq ≤ W64 := Nat.le_trans (process_acts h hn hv hx).seq hq
  have no : ooAt s'.oos b = none → ix = .initOpenOrders ∧ Admitted s s' env accts b o.owner := fun e => by rw [ho] at e; cases e
  have same : s'.oos = s.oos → ix = .initOpenOrders ∧ Admitted s s' env accts b o.owner := fun e => no (by rw [e]; exact hb)
  have wd : ∀ {a ls}, Withdrawn s s' a ls → ix = .initOpenOrders ∧ Admitted s s' env accts b o.owner := fun w => no (withdrawn_absent w hb)
  have repl : ∀ ixs : List NewOrderIx, ixs.length ≤ 8 → (∀ j ∈ ixs, OrderValid j) →
      replaceOrders conc P env s accts ixs = .ok s' → ix = .initOpenOrders ∧ Admitted s s' env accts b o.owner := by
    intro ixs hl hv hx
    obtain ⟨ca, s1, _, _, h1, hr1, hn1, h2⟩ := replace_parts h hn hl hv hx
    obtain ⟨_, _, _, _, _, _, _, _, _, w⟩ := cancel_withdrawn h hs (.inr (.inr ⟨_, h1⟩))
    exact no (newOrders_absent hr1 hq hv hn1 (by
      unfold Permissioned at *; rw [(cancelByClientIds_keeps h1).2.2.1]; exact hp) h2 (withdrawn_absent w hb))
  cases ix with
  | initializeMarket => cases hx
  | newOrder => cases hx
  | matchOrders => cases hx; exact same rfl
  | consumeEvents n => obtain ⟨_, _, _, _, _, e, _⟩ := crank_delivers h hs (.inl hx); exact no (e b hb)
  | consumeEventsPermissioned n => obtain ⟨_, _, _, _, _, e, _⟩ := crank_delivers h hs (.inr hx); exact no (e b hb)
  | cancelOrder => cases hx
  | cancelOrderByClientId => cases hx
  | newOrderV2 => cases hx
  | settleFunds =>
    obtain ⟨m, oo, owner, cv, pv, cw, pw, vsA, tp, refer, p, rfl, _, hsg, how, st⟩ := settle_effect h hs hx
    by_cases e : b = oo.key
    · subst e; have g := st.account; rw [hb] at g; cases g
    · exact no (by rw [st.others b e]; exact hb)
  | disableMarket => obtain ⟨_, _, _, _, _, _, e⟩ := disable_inv hx; subst e; exact same rfl
  | sweepFees => obtain ⟨m, pv, auth, w, vsA, tp, l, rfl, h1, h2, h3, e⟩ := sweep_effect h hs hx; subst e; exact same rfl
  | newOrderV3 ix => exact no (place_absent h hq hv hn hp hx hb)
  | cancelOrderV2 sd id => obtain ⟨_, _, _, _, _, _, _, _, _, w⟩ := cancel_withdrawn h hs (.inl ⟨_, _, hx⟩); exact wd w
  | cancelOrderByClientIdV2 c =>
    obtain ⟨_, _, _, _, _, _, _, _, _, w⟩ := cancel_withdrawn h hs (.inr (.inl ⟨_, hx⟩)); exact wd w
  | cancelOrdersByClientIds cids =>
    obtain ⟨_, _, _, _, _, _, _, _, _, w⟩ := cancel_withdrawn h hs (.inr (.inr ⟨_, hx⟩)); exact wd w
  | sendTake ix =>
    have hlt : s.seq < W64 := by have := (sendTake_keeps (I := conc) hx).2.1; omega
    obtain ⟨a, tier, ts, evs, e⟩ := take_effect h hlt hv hn hx
    exact same e.accounts
  | closeOpenOrders =>
    obtain ⟨oo, owner, dest, m, p, rfl, hsg, hp, _, how, _, _, _, e⟩ := (close_is_safe h hs).1 _ _ _ hx
    subst e
    by_cases e : b = oo.key
    · subst e; rw [hb] at hp; cases hp
    · exact no (by show ooAt (setOo _ _ _) _ = _; rw [ooAt_setOo, if_neg e]; exact hb)
  | prune n => obtain ⟨_, _, _, _, _, _, _, _, _, _, _, _, _, _, _, w, _⟩ := prune_effect h hs hx; exact wd w
  | replaceOrderByClientId ix => exact repl [ix] (by simp) (by intro j hj; rw [List.mem_singleton.1 hj]; exact hv) hx
  | replaceOrdersByClientIds ixs => exact repl ixs hv.1 hv.2 hx
  | initOpenOrders =>
    have hx' : initOpenOrders conc env s accts = .ok s' := hx
    obtain ⟨oo, owner, m, rent, rest, rfl, hsg, _, hcase⟩ := init_inv hx
    rcases hcase with ⟨e, _⟩ | ⟨e, hnone, _, hau⟩
    · subst e; exact same rfl
    · by_cases e' : b = oo.key
      · subst e'
        obtain ⟨au, rfl, a1, a2⟩ := hau _ (permissioned_auth hp)
        have hi : o = OpenOrders.init owner.key := by
          rw [e] at ho
          have ho' : ooAt (setOo s.oos oo.key (OpenOrders.init owner.key)) oo.key = some o := ho
          rw [ooAt_setOo, if_pos rfl] at ho'
          cases ho'; rfl
        subst hi
        exact ⟨rfl, hx', hb, ⟨_, ho, rfl⟩, ⟨oo, rfl, rfl⟩, ⟨owner, rfl, rfl, hsg⟩, ⟨au, rfl, a2, a1⟩⟩
      · exact no (by rw [e]; show ooAt (setOo _ _ _) _ = _; rw [ooAt_setOo, if_neg e']; exact hb)

/-- C84. In every history of a permissioned market, whoever has an open-orders account was admitted: at some
moment before, it was opened by an instruction that the owner and the market's authority both signed. -/
theorem members_admitted {s : State conc} (h : Reach P s) (hq : s.seq ≤ W64) (hp : Permissioned s.mkt) {b : Nat}
    {o : OpenOrders} (ho : ooAt s.oos b = some o) :
    ∃ s0 s1 env accts, Reach P s0 ∧ Admitted s0 s1 env accts b o.owner ∧ s0.mkt.ooAuthority = s.mkt.ooAuthority ∧
      Later P s1 s := by
  induction h generalizing o with
  | start g => rw [g.oos] at ho; cases ho
  | @step s s' hr hs ih =>
    have hq0 : s.seq ≤ W64 := Nat.le_trans hs.seq hq
    cases hs with
    | @instr _ env accts data hn hx =>
      have hraw := hx
      obtain ⟨ix, hu, hv, hx⟩ := step_instr hx
      have hst : Step P s s' := .instr hn hraw
      have hp0 : Permissioned s.mkt := by
        unfold Permissioned at *
        rcases process_flags hx with e | ⟨_, e, _⟩
        · rw [← e]; exact hp
        · rw [e, Nat.testBit_or] at hp
          simp only [Bool.or_eq_true] at hp
          exact hp.resolve_right (by decide)
      have hk : s'.mkt.ooAuthority = s.mkt.ooAuthority := by rw [(processRaw_keeps hraw).eq]
      cases hb : ooAt s.oos b with
      | none => exact ⟨s, s', env, accts, hr, (opened_admitted hr hn hv hx hq hp0 hb ho).2, hk.symm, .refl⟩
      | some p =>
        obtain ⟨p', h1, h2⟩ := owner_stays hr hn hv hx hq hb
        rw [ho] at h1
        cases h1
        obtain ⟨s0, s1, env, accts, g1, g2, g3, g4⟩ := ih hq0 hp0 hb
        exact ⟨s0, s1, env, accts, g1, by rw [h2]; exact g2, g3.trans hk.symm, .step g4 hst⟩
    | @purge a o' ho' hc =>
      have hb : ooAt s.oos b = some o := by
        have ho2 : ooAt (purgeOo s.oos a) b = some o := ho
        rw [ooAt_purge] at ho2
        split at ho2
        · cases ho2
        · exact ho2
      obtain ⟨s0, s1, env, accts, g1, g2, g3, g4⟩ := ih hq0 hp hb
      exact ⟨s0, s1, env, accts, g1, g2, g3, .step g4 (.purge ho' hc)⟩
    | @token sg ix l hn hx =>
      obtain ⟨s0, s1, env, accts, g1, g2, g3, g4⟩ := ih hq0 hp ho
      exact ⟨s0, s1, env, accts, g1, g2, g3, .step g4 (.token hn hx)⟩

/-- C84. Orders come from members: on a permissioned market, placing an order needs an account that is already there, and
its owner's signature. -/
theorem orders_by_members {env : Env} {s s' : State conc} {accts : List AccMeta} {ix : NewOrderIx} (h : Reach P s)
    (hq : s'.seq ≤ W64) (hv : OrderValid ix) (hn : NotVault P s.mkt accts) (hp : Permissioned s.mkt)
    (hx : newOrderV3 conc P env s accts ix = .ok s') :
    ∃ oo sg o, accts[1]? = some oo ∧ accts[7]? = some sg ∧ sg.signer = true ∧ ooAt s.oos oo.key = some o ∧ o.owner = sg.key := by
  have hlt : s.seq < W64 := by have := (newOrderV3_keeps hx).2.1; omega
  obtain ⟨oo, sg, h1, h2, h3, h4⟩ := needs_signature (ix := .newOrderV3 ix) h hlt hn hv hx
  cases ho : ooAt s.oos oo.key with
  | some o => exact ⟨oo, sg, o, h1, h2, h3, ho, h4 o ho⟩
  | none =>
    exfalso
    have hno := place_absent h hq hv hn hp hx ho
    obtain ⟨a, tier, p, p', slot, d, ts, f, evs, e⟩ := place_effect h hlt hv hn hx
    have ea := accounts_at_one e.args.parse
    rw [h1] at ea
    cases ea
    rw [e.account] at hno
    cases hno

/-- C84. Everybody with a resting order, or with an event waiting in the queue, is a member: all makers are, and so is
everybody who ever traded by an order. -/
theorem makers_admitted {s : State conc} (h : Reach P s) (hq : s.seq ≤ W64) (hp : Permissioned s.mkt) {b : Nat}
    (hb : (∃ sd, ∃ l ∈ resting s sd, l.owner = b) ∨ ∃ v ∈ pending s, v.owner = b) :
    ∃ o s0 s1 env accts, ooAt s.oos b = some o ∧ Reach P s0 ∧ Admitted s0 s1 env accts b o.owner ∧
      s0.mkt.ooAuthority = s.mkt.ooAuthority ∧ Later P s1 s := by
  cases ho : ooAt s.oos b with
  | some o =>
    obtain ⟨s0, s1, env, accts, g⟩ := members_admitted h hq hp ho
    exact ⟨o, s0, s1, env, accts, rfl, g⟩
  | none =>
    exfalso
    obtain ⟨q1, q2⟩ := absent_quiet h hq ho
    rcases hb with ⟨sd, l, hl, e⟩ | ⟨v, hv, e⟩
    · exact q1 sd l hl e
    · exact q2 v hv e

/-! ### Examples -/

section
open _root_.Serum.Demo

/-- On the permissioned market, 11 opens an account and asks 5 lots at 1000. -/
def q2 : State conc := Serum.Demo.run p1 (orderAccts 41 21 11) (.newOrderV3 (order .ask 1000 5 1 7))

theorem q2_reach : Reach Serum.Demo.P q2 := next k1 (valid (by decide)) (by decide +kernel) (by decide)

-- 11 is a member and has an order on the book; without the authority's signature, no account
example : Permissioned q2.mkt ∧ (resting q2 .ask).map (·.owner) = [41] ∧ (ooAt q2.oos 41).map (·.owner) = some 11 ∧
    failsAs q2 [acc 42, sig 12, acc 50, acc 0, acc 61] .initOpenOrders .assertion = true ∧
    (process conc Serum.Demo.P Serum.Demo.env q2 (orderAccts 42 32 12) (.newOrderV3 (order .bid 1100 2 30000 8))).isOk = false :=
  ⟨(by decide +kernel : q2.mkt.flags.testBit 9 = true), by decide +kernel, by decide +kernel, by decide +kernel, by decide +kernel⟩

/-- Send-takes are open to everybody: 12, who has no account and was never admitted, buys two lots on the permissioned
market, and the authority (61) has no part in it. -/
theorem outsider_takes : Reach Serum.Demo.P q2 ∧ Permissioned q2.mkt ∧ (∀ x ∈ q2.oos, x.2.owner ≠ 12) ∧
    (takeAccts.all fun a => !a.signer || a.key == 12) = true ∧
    ∃ s', process conc Serum.Demo.P Serum.Demo.env q2 takeAccts (.sendTake takeIx) = .ok s' ∧
      (bal q2.toks 22, bal s'.toks 22) = (bal q2.toks 22, bal q2.toks 22 + 200) ∧ bal s'.toks 32 < bal q2.toks 32 := by
  refine ⟨q2_reach, (by decide +kernel : q2.mkt.flags.testBit 9 = true), by decide +kernel, by decide,
    Serum.Demo.run q2 takeAccts (.sendTake takeIx), run_eq (by decide +kernel), by decide +kernel, by decide +kernel⟩

end

end Serum.Props
