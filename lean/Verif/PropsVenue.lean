import Verif.PropsExchange

/-!
C86: a market run by the example exchange.
-/

namespace Serum.Props
open Serum.Proxy Serum.Exchange

/-- The market's authorities are the exchange's. -/
structure Venue (E : ExEnv) (m : Market) : Prop where
  permissioned : Permissioned m
  accounts : ∃ b, E.X.createInit m.ownAddress b = some m.ooAuthority
  prune : m.pruneAuthority = E.prune m.ownAddress
  crank : m.flags.testBit 10 = true → m.crankAuthority = E.prune m.ownAddress

/-- Nobody holds a key to the exchange's addresses, nor to the identity token. -/
def Outside (E : ExEnv) (accts : List AccMeta) : Prop :=
  ∀ a ∈ accts, a.signer = true → ¬ Derived E a.key ∧ a.key ≠ E.X.rentId

/-- A history of a market of the exchange: instructions sent to the DEX directly, by whomever, and through the exchange, in
any order; closed accounts deleted; tokens moved. -/
inductive XReach (E : ExEnv) (P : Params) : State conc → Prop where
  | start {s : State conc} (g : Genesis P s) (v : Venue E s.mkt) : XReach E P s
  | dex {s s' : State conc} {env : Env} {accts : List AccMeta} {data : List UInt8} (h : XReach E P s)
      (hn : NotVault P s.mkt accts) (ho : Outside E accts) (hx : processRaw conc P env s accts data = .ok s') : XReach E P s'
  | exchange {s s' : State conc} {env : Env} {accts : List AccMeta} {data : List UInt8} (h : XReach E P s)
      (hn : NotVault P s.mkt accts) (ho : Outside E accts) (hx : Exchange.run conc E P env s accts data = .ok s') :
      XReach E P s'
  | purge {s : State conc} {a : Nat} {o : OpenOrders} (h : XReach E P s) (ho : ooAt s.oos a = some o)
      (hc : o.closed = true) : XReach E P { s with oos := purgeOo s.oos a }
  | token {s : State conc} {sg : Nat → Bool} {ix : TokIx} {l : Ledger} (h : XReach E P s)
      (hn : ∀ k, sg k = true → P.vaultSigner s.mkt.ownAddress s.mkt.vaultSignerNonce ≠ some k)
      (hx : tokExec sg s.toks ix = some l) : XReach E P { s with toks := l }

/-- The vault signers are not among the exchange's addresses. -/
def NoVault (E : ExEnv) (P : Params) : Prop := ∀ k, Derived E k → ∀ a n, P.vaultSigner a n ≠ some k

theorem notVault_of {E : ExEnv} {P : Params} {m : Market} {accts relayed : List AccMeta} (ha : NoVault E P)
    (hn : NotVault P m accts)
    (h : ∀ a ∈ relayed, a.signer = true → signs accts a.key = true ∨ Derived E a.key) : NotVault P m relayed := by
  intro a hm hs
  rcases h a hm hs with h | h
  · obtain ⟨b, hb, hb'⟩ := List.any_eq_true.1 h
    simp only [Bool.and_eq_true, beq_iff_eq] at hb'
    rw [← hb'.1]
    exact hn b hb hb'.2
  · exact ha _ h _ _

/-- What the exchange has the DEX do. -/
theorem exchange_parts {E : ExEnv} {P : Params} {env : Env} {s s' : State conc} {accts : List AccMeta} {data : List UInt8}
    (ha : NoVault E P) (hr : Reach P s) (hn : NotVault P s.mkt accts) (h : Exchange.run conc E P env s accts data = .ok s') :
    s' = s ∨ ∃ ix relayed l1 s1 l2, IxValid ix ∧ Reach P { s with toks := l1 } ∧ NotVault P s.mkt relayed ∧
      process conc P env { s with toks := l1 } relayed ix = .ok s1 ∧ s' = { s1 with toks := l2 } ∧
      (ix = .initOpenOrders → ∃ (a u m r i : AccMeta) (rest : List AccMeta) (b bi : UInt8), relayed = a :: ⟨a.key, true⟩ :: m :: r :: ⟨i.key, true⟩ :: rest ∧
        u ∈ accts ∧ u.signer = true ∧ E.X.createPda m.key u.key b = some a.key ∧ E.X.createInit m.key bi = some i.key ∧
        l1 = s.toks ∧ l2 = s1.toks) := by
  have h0 := h
  rcases ex_split h with ⟨rfl, _⟩ |
    ⟨dex, l, b, bi, d, ix, k, c1, c, l1, s1, l2, rfl, hd, hi, hu, hm, hlen, hid, hh, ht1, hc, hx, ht2, rfl⟩
  · exact .inl rfl
  · right
    have hval : IxValid ix := by
      obtain ⟨_, _, _, hv, _⟩ := decoding_is_strict _ _ hu
      exact hv
    have hsg : ∀ k, signs (dex :: l) k = true → P.vaultSigner s.mkt.ownAddress s.mkt.vaultSignerNonce ≠ some k := by
      intro k hk
      obtain ⟨b, hb, hb'⟩ := List.any_eq_true.1 hk
      simp only [Bool.and_eq_true, beq_iff_eq] at hb'
      rw [← hb'.1]
      exact hn b hb hb'.2
    have hseed : ∀ k, some k ∈ c.seeds → Derived E k := by
      obtain ⟨hp, _⟩ := wares_handle hh
      by_cases hro : roles ix = none
      · cases ix with
        | prune n =>
          have hid : idPrune E _ = .ok c1 := hid
          unfold idPrune at hid
          obtain ⟨cA, hA, hid⟩ := bind_ok hid
          obtain ⟨mk, _, hid⟩ := bind_ok hid
          obtain ⟨au, _, hid⟩ := bind_ok hid
          cases hid
          obtain ⟨_, _, _, _, rfl⟩ := verifyRevoked_ok hA
          have hp : pdaPrune _ = .ok c := hp
          unfold pdaPrune at hp
          obtain ⟨_, _, hp⟩ := bind_ok hp
          split at hp
          · cases hp
          · cases hp
            intro k hk
            simp only [List.nil_append, List.mem_singleton, Option.some.injEq] at hk
            exact .inr (.inr (.inr ⟨_, hk⟩))
        | consumeEventsPermissioned n =>
          cases hp
          have hid : idConsume E _ = .ok c1 := hid
          unfold idConsume at hid
          obtain ⟨cA, hA, hid⟩ := bind_ok hid
          obtain ⟨_, _, _, _, rfl⟩ := verifyRevoked_ok hA
          simp only at hid
          split at hid
          · cases hid
          · obtain ⟨mk, _, hid⟩ := bind_ok hid
            obtain ⟨au, _, hid⟩ := bind_ok hid
            cases hid
            intro k hk
            simp only [List.nil_append, List.mem_singleton, Option.some.injEq] at hk
            exact .inr (.inr (.inr ⟨_, hk⟩))
        | consumeEvents n =>
          cases hp
          cases hid
          intro k hk
          cases hk
        | _ => first | (cases hm; done) | (cases hro; done)
      · have hv : identity E (some ix) ⟨l, [], [], []⟩ = verify E.X ⟨l, [], [], []⟩ := by
          cases ix <;> first | rfl | exact absurd rfl hro
        rw [hv] at hid
        obtain ⟨tok, l', rfl, _, rfl⟩ := verify_ok hid
        exact fun k hk => maySignFor_derived ((pda_seeds (dex := dex) hp).1 k hk)
    refine ⟨ix, c.accounts, l1, s1, l2, hval, tokCalls_reach hr hsg ht1, notVault_of ha hn ?_, hx, rfl, ?_⟩
    · intro a hm hs
      rcases checkCpi_ok hc hm hs with ⟨x, hx, hk, hs⟩ | h
      · exact .inl (by rw [← hk]; exact signs_of hx hs)
      · exact .inr (hseed _ h)
    · rintro rfl
      obtain ⟨tok, l', rfl, _, rfl⟩ := verify_ok hid
      obtain ⟨p1, p2, dx, sys, a, u, m, r, i, rest, rfl, hs, _, h1, h2, _, e⟩ := pdaInit_ok (wares_handle hh).1
      rw [p1] at ht1
      rw [p2] at ht2
      cases ht1
      cases ht2
      exact ⟨a, u, m, r, i, rest, b, bi, e, by simp, hs, h1, h2, rfl, rfl⟩

theorem venue_keeps {E : ExEnv} {m m' : Market} (v : Venue E m) (hf : m.flags.testBit 9 = true → m'.flags.testBit 9 = true)
    (hf' : m'.flags.testBit 10 = true → m.flags.testBit 10 = true)
    (e : m' = { m with
      flags := m'.flags
      coinDeposits := m'.coinDeposits
      pcDeposits := m'.pcDeposits
      pcFees := m'.pcFees
      referrerRebates := m'.referrerRebates }) : Venue E m' := by
  have hp : Permissioned m' := hf v.permissioned
  refine ⟨hp, ?_, ?_, ?_⟩
  · rw [e]; exact v.accounts
  · rw [e]; exact v.prune
  · intro h; rw [e]; exact v.crank (hf' h)

theorem venue_process {E : ExEnv} {P : Params} {env : Env} {s s' : State conc} {accts : List AccMeta} {ix : Instruction}
    (v : Venue E s.mkt) (hv : IxValid ix) (hx : process conc P env s accts ix = .ok s') : Venue E s'.mkt := by
  have hraw : processRaw conc P env s accts ix.pack = .ok s' := by
    unfold processRaw
    rw [instruction_round_trip ix hv]
    exact hx
  refine venue_keeps v ?_ ?_ (processRaw_keeps hraw).eq
  · intro h
    rcases process_flags hx with e | ⟨_, e, _⟩
    · rw [e]; exact h
    · rw [e, Nat.testBit_or, h]; rfl
  · intro h
    rcases process_flags hx with e | ⟨_, e, _⟩
    · rw [← e]; exact h
    · rw [e, Nat.testBit_or] at h
      simp only [Bool.or_eq_true] at h
      exact h.resolve_right (by decide)

/-- C86. Every history of such a market is a history of the DEX, and its authorities stay the exchange's. -/
theorem venue_reach {E : ExEnv} {P : Params} {s : State conc} (ha : NoVault E P) (h : XReach E P s) :
    Reach P s ∧ Venue E s.mkt := by
  induction h with
  | start g v => exact ⟨.start g, v⟩
  | dex _ hn _ hx ih =>
    obtain ⟨ix, _, hv, hx'⟩ := step_instr hx
    exact ⟨ih.1.step (.instr hn hx), venue_process ih.2 hv hx'⟩
  | @exchange s s' env accts data _ hn ho hx ih =>
    refine ⟨exchange_reach ih.1 hn (fun k hk => ha k hk _ _) ?_ hx, ?_⟩
    · intro a hm hk
      cases hs : a.signer with
      | false => rfl
      | true => exact absurd hk (ho a hm hs).2
    · rcases exchange_parts ha ih.1 hn hx with rfl | ⟨ix, relayed, l1, s1, l2, hv, _, _, hx', rfl, _⟩
      · exact ih.2
      · exact venue_process (s := { s with toks := l1 }) (s' := s1) ih.2 hv hx'
  | purge _ ho hc ih => exact ⟨ih.1.step (.purge ho hc), ih.2⟩
  | token _ hn hx ih => exact ⟨ih.1.step (.token hn hx), ih.2⟩

theorem loadMarket_own {c : Core} {m : AccMeta} {b : Bool} (h : loadMarket c m b = .ok ()) : m.key = c.mkt.ownAddress := by
  unfold loadMarket at h
  obtain ⟨_, h, _⟩ := bind_ok h
  simpa using checkAssert_ok.1 h

/-- C86. Every open-orders account of such a market was derived by the exchange from the market and the address of a user,
and is its own owner: there is no key that could sign for it. -/
theorem venue_accounts {E : ExEnv} {P : Params} {s : State conc} (ha : NoVault E P) (h : XReach E P s) (hq : s.seq ≤ W64)
    {b : Nat} {o : OpenOrders} (ho : ooAt s.oos b = some o) :
    o.owner = b ∧ ∃ u bump, E.X.createPda s.mkt.ownAddress u bump = some b := by
  induction h generalizing o with
  | start g _ => rw [g.oos] at ho; cases ho
  | @dex s s' env accts data h hn hout hx ih =>
    obtain ⟨hr, v⟩ := venue_reach ha h
    have hk := processRaw_keeps hx
    obtain ⟨ix, _, hv, hx'⟩ := step_instr hx
    cases hb : ooAt s.oos b with
    | some p =>
      obtain ⟨p', e1, e2⟩ := owner_stays hr hn hv hx' hq hb
      rw [ho] at e1
      cases e1
      obtain ⟨g1, g2⟩ := ih (Nat.le_trans hk.seq hq) hb
      exact ⟨by rw [e2]; exact g1, by rw [hk.eq]; exact g2⟩
    | none =>
      exfalso
      obtain ⟨_, ad⟩ := opened_admitted hr hn hv hx' hq v.permissioned hb ho
      obtain ⟨a, e1, e2, e3⟩ := ad.authority
      obtain ⟨bb, e4⟩ := v.accounts
      exact (hout a (List.mem_of_getElem? e1) e3).1 (by rw [e2]; exact .inr (.inr (.inl ⟨_, _, e4⟩)))
  | @exchange s s' env accts data h hn hout hx ih =>
    obtain ⟨hr, v⟩ := venue_reach ha h
    rcases exchange_parts ha hr hn hx with rfl | ⟨ix, relayed, l1, s1, l2, hv, hr1, hn1, hx', rfl, hini⟩
    · exact ih hq ho
    · have hraw : processRaw conc P env { s with toks := l1 } relayed ix.pack = .ok s1 := by
        unfold processRaw
        rw [instruction_round_trip ix hv]
        exact hx'
      have hk := processRaw_keeps hraw
      have hown : s1.mkt.ownAddress = s.mkt.ownAddress := by rw [hk.eq]
      cases hb : ooAt s.oos b with
      | some p =>
        obtain ⟨p', e1, e2⟩ := owner_stays (s := { s with toks := l1 }) hr1 hn1 hv hx' hq hb
        have ho' : ooAt s1.oos b = some o := ho
        rw [ho'] at e1
        cases e1
        obtain ⟨g1, g2⟩ := ih (Nat.le_trans hk.seq hq) hb
        exact ⟨by rw [e2]; exact g1, by show ∃ u bump, E.X.createPda s1.mkt.ownAddress u bump = _; rw [hown]; exact g2⟩
      | none =>
        obtain ⟨rfl, ad⟩ := opened_admitted (s := { s with toks := l1 }) hr1 hn1 hv hx' hq v.permissioned hb ho
        obtain ⟨a, u, m, r, i, rest, bu, bi, rfl, _, _, c1, _⟩ := hini rfl
        obtain ⟨_, e1, e2⟩ := ad.account
        cases e1
        obtain ⟨_, e3, e4, _⟩ := ad.owner
        cases e3
        obtain ⟨_, _, _, _, _, e5, _, e6, _⟩ := init_inv ad.init
        cases e5
        have := loadMarket_own e6
        refine ⟨by rw [← e4]; exact e2, u.key, bu, ?_⟩
        show E.X.createPda s1.mkt.ownAddress u.key bu = _
        rw [hown, ← e2]
        rw [this] at c1
        exact c1
  | @purge s a o' h ho' hc ih =>
    have hb : ooAt s.oos b = some o := by
      have ho2 : ooAt (purgeOo s.oos a) b = some o := ho
      rw [ooAt_purge] at ho2
      split at ho2
      · cases ho2
      · exact ho2
    exact ih hq hb
  | token _ hn hx ih => exact ih hq ho

/-- What can be done with such a market without the exchange. -/
def Free : Instruction → Prop
  | .sendTake _ | .consumeEvents _ | .sweepFees | .disableMarket | .matchOrders _ => True
  | _ => False

/-- C86. The exchange is the only way in: sent to the DEX directly, no instruction opens an account, places, replaces or
cancels an order, settles, closes or prunes; only send-takes, cranks of a market without crank authority, fee sweeps and
the DEX's off switch go through. -/
theorem venue_sole {E : ExEnv} {P : Params} {env : Env} {s s' : State conc} {accts : List AccMeta} {ix : Instruction}
    (ha : NoVault E P) (h : XReach E P s) (hq : s.seq < W64) (hq' : s'.seq ≤ W64) (hn : NotVault P s.mkt accts) (ho : Outside E accts)
    (hv : IxValid ix) (hx : process conc P env s accts ix = .ok s') : Free ix := by
  obtain ⟨hr, v⟩ := venue_reach ha h
  have mem : ∀ {i j : Nat} {oo : AccMeta} {p : OpenOrders}, OwnerSigned s accts i j → accts[i]? = some oo →
      ooAt s.oos oo.key = some p → False := by
    rintro i j oo p ⟨oo', who, h1, h2, h3, h4⟩ h5 h6
    rw [h1] at h5
    cases h5
    obtain ⟨g1, u, bu, g2⟩ := venue_accounts ha h (Nat.le_of_lt hq) h6
    have := h4 p h6
    rw [g1] at this
    exact (ho who (List.mem_of_getElem? h2) h3).1 (by rw [← this]; exact .inr (.inl ⟨_, _, _, g2⟩))
  have hs := needs_signature hr hq hn hv hx
  have hq0 := Nat.le_of_lt hq
  have rep : ∀ ixs, IxValid (.replaceOrdersByClientIds ixs) → replaceOrders conc P env s accts ixs = .ok s' →
      OwnerSigned s accts 1 7 → False := by
    intro ixs hv hx hs
    obtain ⟨oo, sg, o, _, _, h1, h2, h3, h4, h5, _⟩ := replace_effect hr hq0 hn hv hx
    exact mem hs h1 h4
  cases ix with
  | sendTake => trivial
  | consumeEvents => trivial
  | sweepFees => trivial
  | disableMarket => trivial
  | matchOrders => trivial
  | initializeMarket => cases hx
  | newOrder => cases hx
  | cancelOrder => cases hx
  | cancelOrderByClientId => cases hx
  | newOrderV2 => cases hx
  | newOrderV3 o =>
    obtain ⟨oo, sg, p, h1, _, _, h4, _⟩ := orders_by_members hr hq' hv hn v.permissioned hx
    exact mem hs h1 h4
  | replaceOrderByClientId o => exact rep [o] ⟨by simp, by intro j hj; rw [List.mem_singleton.1 hj]; exact hv⟩ hx hs
  | replaceOrdersByClientIds l => exact rep l hv hx hs
  | cancelOrderV2 sd id =>
    obtain ⟨m, b, k, oo, signer, eq, rest, x, o, rfl, h1, h2, h3, _⟩ := cancel_effect hr hq0 hx
    exact mem hs rfl h2
  | cancelOrderByClientIdV2 c =>
    obtain ⟨m, b, k, oo, signer, eq, rest, sd, x, o, rfl, _, h1, h2, h3, _⟩ := cancel_by_id_effect hr hq0 hx
    exact mem hs rfl h2
  | cancelOrdersByClientIds c =>
    obtain ⟨m, b, k, oo, signer, eq, rest, o, ls, rfl, h1, h2, h3, _⟩ := batch_effect hr hq0 hx
    exact mem hs rfl h2
  | settleFunds =>
    obtain ⟨m, oo, owner, cv, pv, cw, pw, vsA, tp, refer, p, rfl, _, hsg, how, st⟩ := settle_effect hr hq0 hx
    exact mem hs rfl st.account
  | closeOpenOrders =>
    obtain ⟨oo, owner, dest, m, p, rfl, hsg, hp, _⟩ := (close_is_safe hr hq0).1 _ _ _ hx
    exact mem hs rfl hp
  | initOpenOrders =>
    obtain ⟨oo, owner, m, rent, rest, rfl, hsg, _, hcase⟩ := init_inv hx
    rcases hcase with ⟨_, o, e, _⟩ | ⟨_, _, _, hau⟩
    · exact mem hs rfl e
    · obtain ⟨au, rfl, a1, a2⟩ := hau _ (permissioned_auth v.permissioned)
      obtain ⟨bb, e4⟩ := v.accounts
      exact (ho au (by simp) a1).1 (by rw [a2]; exact .inr (.inr (.inl ⟨_, _, e4⟩)))
  | prune n =>
    obtain ⟨_, who, h1, h2, h3⟩ := hs
    exact (ho who (List.mem_of_getElem? h1) h2).1 (by rw [h3, v.prune]; exact .inr (.inr (.inr ⟨_, rfl⟩)))
  | consumeEventsPermissioned n =>
    obtain ⟨hc, who, h1, h2, h3⟩ := hs
    exact (ho who (List.mem_of_getElem? h1) h2).1 (by rw [h3, v.crank hc.2]; exact .inr (.inr (.inr ⟨_, rfl⟩)))

/-- C86. And the exchange asks the user: an instruction on an account, through the exchange, has the signature of a user
for whom the account's address was derived. -/
theorem venue_user {E : ExEnv} {P : Params} {env : Env} {s s' : State conc} {accts : List AccMeta} {data d : List UInt8}
    {ms : List Middleware} {ix : Instruction} {im iu io : Nat} {a : AccMeta} {o : OpenOrders} (ha : NoVault E P) (h : XReach E P s)
    (hq : s.seq ≤ W64) (hout : Outside E accts) (hi : instructions (wares E) data = .ok (ms, d))
    (hu : Instruction.unpack d = some ix) (hr : roles ix = some (im, iu, io)) (hni : ix ≠ .initOpenOrders)
    (hio : accts[io + 2]? = some a) (hoo : ooAt s.oos a.key = some o)
    (hx : Exchange.run conc E P env s accts data = .ok s') :
    ∃ m u, accts[im + 2]? = some m ∧ accts[iu + 2]? = some u ∧ u.signer = true ∧ a.key = E.X.pda m.key u.key := by
  obtain ⟨dex, tok, l, rfl, hd, hk, hp⟩ := exchange_user hi hu (by rw [hr]; exact fun e => by cases e) (by
    intro a hm hk
    cases hs : a.signer with
    | false => rfl
    | true => exact absurd hk (hout a hm hs).2) hx
  obtain ⟨dex', l', m, u, a', l1, s1, l2, e, _, e1, e2, e3, e4, e5, _⟩ :=
    proxy_for_user wares_one ⟨0, 0, by simp [wares]⟩ hi hu hr hni hp
  cases e
  simp only [List.getElem?_cons_succ] at hio ⊢
  rw [e3] at hio
  cases hio
  refine ⟨m, u, e1, e2, e4, ?_⟩
  rcases e5 with ⟨b, hb, hk, hs⟩ | h
  · exfalso
    obtain ⟨_, us, bu, g⟩ := venue_accounts ha h hq hoo
    refine (hout b ?_ hs).1 (by rw [hk]; exact .inr (.inl ⟨_, _, _, g⟩))
    simp only [List.mem_cons] at hb ⊢
    rcases hb with h | h
    · exact .inl h
    · exact .inr (.inr h)
  · exact h

/-- C86. An account opened with a bump other than the one `find_program_address` gives is lost: no instruction on it
goes through the exchange, and (`venue_sole`) none goes through without it. It cannot even be closed. -/
theorem venue_lost {E : ExEnv} {P : Params} {env : Env} {s s' : State conc} {accts : List AccMeta} {data d : List UInt8}
    {ms : List Middleware} {ix : Instruction} {im iu io : Nat} {a : AccMeta} {o : OpenOrders} (ha : NoVault E P) (h : XReach E P s)
    (hq : s.seq ≤ W64) (hout : Outside E accts) (hi : instructions (wares E) data = .ok (ms, d))
    (hu : Instruction.unpack d = some ix) (hr : roles ix = some (im, iu, io)) (hni : ix ≠ .initOpenOrders)
    (hio : accts[io + 2]? = some a) (hoo : ooAt s.oos a.key = some o) (hne : ∀ m u, a.key ≠ E.X.pda m u) :
    Exchange.run conc E P env s accts data ≠ .ok s' := by
  intro hx
  obtain ⟨m, u, _, _, _, e⟩ := venue_user ha h hq hout hi hu hr hni hio hoo hx
  exact hne _ _ e

/-! ### Examples -/

namespace VenueDemo

/-- Addresses made up for the example. With bump 253, user 11 gets 51023 instead of 51022. -/
def E : ExEnv where
  X := { ProxyDemo.X with
    pda := fun m u => 1000 * (m + 1) + 2 * u
    createPda := fun m u b => if b = 255 then some (1000 * (m + 1) + 2 * u) else if b = 253 then some (1000 * (m + 1) + 2 * u + 1) else none
    createInit := fun m b => if b = 254 then some (1000 * (m + 1) + 999) else none }
  prune := fun m => 1000 * (m + 1) + 998
  referral := 13

theorem derived {k : Nat} (h : Derived E k) : 1000 ≤ k := by
  rcases h with ⟨m, u, rfl⟩ | ⟨m, u, b, h⟩ | ⟨m, b, h⟩ | ⟨m, rfl⟩
  · show 1000 ≤ 1000 * (m + 1) + 2 * u; omega
  · have h : (if b = 255 then some (1000 * (m + 1) + 2 * u) else if b = 253 then some (1000 * (m + 1) + 2 * u + 1) else none) = some k := h
    split at h
    · cases h; omega
    · split at h
      · cases h; omega
      · cases h
  · have h : (if b = 254 then some (1000 * (m + 1) + 999) else none) = some k := h
    split at h
    · cases h; omega
    · cases h
  · show 1000 ≤ 1000 * (m + 1) + 998; omega

open _root_.Serum.Demo

theorem apart : NoVault E Serum.Demo.P := by
  intro k hk a n e
  have := derived hk
  simp only [Serum.Demo.P, Option.some.injEq] at e
  omega

theorem outside {l : List AccMeta} (h : (l.all fun a => !a.signer || (decide (a.key < 1000) && a.key != 92)) = true) :
    Outside E l := by
  intro a ha hs
  have := List.all_eq_true.1 h a ha
  simp only [hs, Bool.not_true, Bool.false_or, Bool.and_eq_true, decide_eq_true_eq, bne_iff_ne, ne_eq] at this
  exact ⟨fun hd => by have := derived hd; omega, this.2⟩

/-- The market with the exchange's authorities. -/
def v0 : State conc := { p0 with mkt := { pm with ooAuthority := 51999, pruneAuthority := 51998, crankAuthority := 51998 } }

theorem vgenesis : Genesis Serum.Demo.P v0 :=
  { vaults := pgenesis.vaults, flags := pgenesis.flags, coinLot := pgenesis.coinLot, pcLot := pgenesis.pcLot,
    coinDeposits := rfl, pcDeposits := rfl, pcFees := rfl, rebates := rfl, oos := rfl, seq := rfl, reqCount := rfl,
    bids := pgenesis.bids, asks := pgenesis.asks, q := pgenesis.q, amounts := pgenesis.amounts }

theorem venue0 : Venue E v0.mkt := ⟨(by decide : v0.mkt.flags.testBit 9 = true), ⟨254, rfl⟩, rfl, fun _ => rfl⟩

theorem x0 : XReach E Serum.Demo.P v0 := .start vgenesis venue0

/-- A run of the exchange; failures leave the state. -/
def go (s : State conc) (l : List AccMeta) (data : List UInt8) : State conc :=
  match Exchange.run conc E Serum.Demo.P Serum.Demo.env s l data with
  | .ok s' => s'
  | .error _ => s

def goes (s : State conc) (l : List AccMeta) (data : List UInt8) : Bool :=
  match Exchange.run conc E Serum.Demo.P Serum.Demo.env s l data with
  | .ok _ => true
  | .error _ => false

theorem go_eq {s : State conc} {l : List AccMeta} {data : List UInt8} (h : goes s l data = true) :
    Exchange.run conc E Serum.Demo.P Serum.Demo.env s l data = .ok (go s l data) := by
  unfold goes at h
  unfold go
  split at h
  · rename_i e; rw [e]
  · cases h

theorem xnext {s : State conc} {l : List AccMeta} {data : List UInt8} (h : XReach E Serum.Demo.P s)
    (hg : goes s l data = true) (hn : (l.all fun a => a.key != 60 || !a.signer) = true)
    (ho : (l.all fun a => !a.signer || (decide (a.key < 1000) && a.key != 92)) = true) : XReach E Serum.Demo.P (go s l data) :=
  .exchange h (notVault _ hn) (outside ho) (go_eq hg)

/-- User 11 opens an account through the exchange, with the right bump and with another one. -/
def openWith (oo : Nat) : List AccMeta := [acc 90, acc 92, acc 90, acc 91, acc oo, sig 11, acc 50, acc 92, acc 51999]
def v1 : State conc := go v0 (openWith 51022) (0 :: 255 :: 254 :: Instruction.initOpenOrders.pack)
def w1 : State conc := go v0 (openWith 51023) (0 :: 253 :: 254 :: Instruction.initOpenOrders.pack)
/-- And asks 5 lots at 1000. -/
def orderBy (user : Nat) : List AccMeta := acc 90 :: acc 92 :: orderAccts 51022 21 user
def v2 : State conc := go v1 (orderBy 11) (1 :: Serum.Demo.i1.pack)
/-- Nobody signs: the order is pruned. -/
def pruneBy (front : Nat) : List AccMeta :=
  [acc 90, acc front, acc 50, acc 55, acc 56, acc 51998, acc 51022, acc 51022, acc 54]
def v3 : State conc := go v2 (pruneBy 17) (1 :: (Instruction.prune 10).pack)

theorem x1 : XReach E Serum.Demo.P v1 := xnext x0 (by decide +kernel) (by decide) (by decide)
theorem x2 : XReach E Serum.Demo.P v2 := xnext x1 (by decide +kernel) (by decide) (by decide)
theorem x3 : XReach E Serum.Demo.P v3 := xnext x2 (by decide +kernel) (by decide) (by decide)
theorem y1 : XReach E Serum.Demo.P w1 := xnext x0 (by decide +kernel) (by decide) (by decide)

-- the account is its own owner; the order is on the book; pruned without a signature, but not with the token in front
example : (v1.oos.map fun x => (x.1, x.2.owner)) = [(51022, 51022)] ∧ (resting v2 .ask).map (·.owner) = [51022] ∧
    resting v3 .ask = [] ∧ (pruneBy 17).all (fun a => !a.signer) = true ∧
    goes v2 (pruneBy 92) (1 :: (Instruction.prune 10).pack) = false := by decide +kernel

-- another user, without the token, or directly at the DEX: no order
example : goes v1 (orderBy 12) (1 :: Serum.Demo.i1.pack) = false ∧
    goes v1 ((orderBy 11).set 1 (acc 17)) (1 :: Serum.Demo.i1.pack) = false ∧
    fine v1 (orderAccts 51022 21 11) Serum.Demo.i1 = false := by decide +kernel

-- cancelling works for 11, with the token; cranking with authority needs nobody either
example : goes v2 [acc 90, acc 92, acc 50, acc 55, acc 56, acc 51022, sig 11, acc 54]
      (1 :: (Instruction.cancelOrderByClientIdV2 7).pack) = true ∧
    goes v2 [acc 90, acc 92, acc 50, acc 55, acc 56, acc 51022, acc 11, acc 54]
      (1 :: (Instruction.cancelOrderByClientIdV2 7).pack) = false ∧
    goes v3 [acc 90, acc 17, acc 51022, acc 50, acc 54, acc 51998] (1 :: (Instruction.consumeEventsPermissioned 5).pack) = true ∧
    goes v3 [acc 90, acc 17, acc 51022, acc 50, acc 54, acc 51997] (1 :: (Instruction.consumeEventsPermissioned 5).pack) = false := by
  decide +kernel

-- a send-take goes to the DEX directly
example : fine v2 takeAccts (.sendTake takeIx) = true := by decide +kernel

-- 11 closes the account with the right address; the other one is lost
example : goes v1 [acc 90, acc 92, acc 51022, sig 11, acc 11, acc 50] (1 :: Instruction.closeOpenOrders.pack) = true ∧
    goes w1 [acc 90, acc 92, acc 51023, sig 11, acc 11, acc 50] (1 :: Instruction.closeOpenOrders.pack) = false ∧
    (w1.oos.map fun x => (x.1, x.2.owner)) = [(51023, 51023)] := by decide +kernel

-- it satisfies the hypothesis of `venue_lost`
example : ∀ m u, 51023 ≠ E.X.pda m u := by
  intro m u
  show 51023 ≠ 1000 * (m + 1) + 2 * u
  omega

end VenueDemo

end Serum.Props
