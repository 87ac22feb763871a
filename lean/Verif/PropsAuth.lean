import Verif.PropsClaims

/-!
C33 (who must sign), C37 (disabled markets), C41 (deadlines), C45 (removed instructions and failures), C17 (flags).
-/

namespace Serum.Props

/-! ### C33: signatures -/

/-- `who`, at position `j` of the accounts, signed and is the recorded owner of the account at position `i`. -/
def OwnerSigned (s : State conc) (accts : List AccMeta) (i j : Nat) : Prop :=
  ∃ oo who, accts[i]? = some oo ∧ accts[j]? = some who ∧ who.signer = true ∧
    ∀ o, ooAt s.oos oo.key = some o → o.owner = who.key

/-- The account at position `i` signed and has this key. -/
def KeySigned (accts : List AccMeta) (i key : Nat) : Prop := ∃ who, accts[i]? = some who ∧ who.signer = true ∧ who.key = key

/-- Whose signature an instruction needs, by position in its account list. -/
def Authorised (P : Params) (s : State conc) (accts : List AccMeta) : Instruction → Prop
  | .newOrderV3 _ | .replaceOrderByClientId _ | .replaceOrdersByClientIds _ => OwnerSigned s accts 1 7
  | .cancelOrderV2 .. | .cancelOrderByClientIdV2 _ | .cancelOrdersByClientIds _ => OwnerSigned s accts 3 4
  | .settleFunds => OwnerSigned s accts 1 2
  | .closeOpenOrders => OwnerSigned s accts 0 1
  | .initOpenOrders => OwnerSigned s accts 0 1
  | .sendTake _ => ∃ who, accts[7]? = some who ∧ who.signer = true
  | .prune _ => s.mkt.flags.testBit 9 = true ∧ KeySigned accts 3 s.mkt.pruneAuthority
  | .sweepFees => KeySigned accts 2 P.feeSweeper
  | .disableMarket => KeySigned accts 1 P.disableAuth
  | .consumeEvents _ => ¬ needsCrankAuthority s.mkt
  | .consumeEventsPermissioned _ => needsCrankAuthority s.mkt ∧ KeySigned accts (accts.length - 1) s.mkt.crankAuthority
  | .matchOrders _ => True
  | .initializeMarket _ | .newOrder _ | .cancelOrder .. | .cancelOrderByClientId _ | .newOrderV2 .. => False

/-- C33 (signatures). In every reachable state, an instruction succeeds only with the signature it needs. -/
theorem needs_signature {P : Params} {env : Env} {accts : List AccMeta} {ix : Instruction} {s s' : State conc}
    (h : Reach P s) (hs : s.seq < W64) (hn : NotVault P s.mkt accts) (hv : IxValid ix)
    (hx : process conc P env s accts ix = .ok s') : Authorised P s accts ix := by
  have hq := Nat.le_of_lt hs
  have rep : ∀ ixs, IxValid (.replaceOrdersByClientIds ixs) → replaceOrders conc P env s accts ixs = .ok s' →
      OwnerSigned s accts 1 7 := by
    intro ixs hv hx
    obtain ⟨oo, sg, o, _, _, h1, h2, h3, h4, h5, _⟩ := replace_effect h hq hn hv hx
    exact ⟨oo, sg, h1, h2, h3, fun p hp => by rw [h4] at hp; cases hp; exact h5⟩
  cases ix with
  | initializeMarket => cases hx
  | newOrder => cases hx
  | matchOrders => trivial
  | consumeEvents n =>
    intro hc
    obtain ⟨e, he⟩ := open_crank_refused (P := P) (env := env) (accts := accts) (n := n) hc
    have hx' : consumeEvents conc P env s accts n = .ok s' := hx
    rw [he] at hx'; cases hx'
  | cancelOrder => cases hx
  | settleFunds =>
    obtain ⟨m, oo, owner, cv, pv, cw, pw, vsA, tp, refer, p, rfl, _, hsg, how, st⟩ := settle_effect h hq hx
    exact ⟨oo, owner, rfl, rfl, hsg, fun o ho => by rw [st.account] at ho; cases ho; exact how⟩
  | cancelOrderByClientId => cases hx
  | disableMarket =>
    obtain ⟨m, auth, rfl, h1, h2, _⟩ := disable_inv hx
    exact ⟨auth, rfl, h1, h2⟩
  | sweepFees =>
    obtain ⟨m, pv, auth, w, vsA, tp, l, rfl, h1, h2, _⟩ := sweep_effect h hq hx
    exact ⟨auth, rfl, h1, h2⟩
  | newOrderV2 => cases hx
  | newOrderV3 ix =>
    obtain ⟨a, tier, o, o', slot, d, ts, f, evs, e⟩ := place_effect h hs hv hn hx
    have hp := e.args.parse
    unfold parseNewOrder at hp
    split at hp
    case h_2 => cases hp
    split at hp
    case isFalse => cases hp
    cases hp
    refine ⟨_, _, rfl, rfl, e.args.signed, fun p hp => ?_⟩
    rcases loadOrders_inv e.args.load with ⟨g, _⟩ | ⟨g, _⟩
    · have g' : ooAt s.oos _ = some o := g
      rw [hp] at g'; cases g'
      exact e.owner.2
    · have g' : ooAt s.oos _ = none := g
      rw [hp] at g'; cases g'
  | cancelOrderV2 sd id =>
    obtain ⟨m, b, k, oo, sg, eq, rest, x, o, rfl, h1, h2, h3, _⟩ := cancel_effect h hq hx
    exact ⟨oo, sg, rfl, rfl, h1, fun p hp => by rw [h2] at hp; cases hp; exact h3⟩
  | cancelOrderByClientIdV2 c =>
    obtain ⟨m, b, k, oo, sg, eq, rest, sd, x, o, rfl, _, h1, h2, h3, _⟩ := cancel_by_id_effect h hq hx
    exact ⟨oo, sg, rfl, rfl, h1, fun p hp => by rw [h2] at hp; cases hp; exact h3⟩
  | sendTake ix =>
    obtain ⟨m, rq, eq, b, k, cw, pw, sg, rest, tier, trades, rfl, h1, _⟩ := send_take_limits h hs hv hn hx
    exact ⟨sg, rfl, h1⟩
  | closeOpenOrders =>
    obtain ⟨oo, owner, dest, m, p, rfl, hsg, hp, _, how, _⟩ := (close_is_safe h hq).1 _ _ _ hx
    exact ⟨oo, owner, rfl, rfl, hsg, fun o ho => by rw [hp] at ho; cases ho; exact how⟩
  | initOpenOrders =>
    obtain ⟨oo, owner, m, rent, rest, rfl, hsg, _, hcase⟩ := init_inv hx
    refine ⟨oo, owner, rfl, rfl, hsg, fun o ho => ?_⟩
    rcases hcase with ⟨_, p, hp, _, how⟩ | ⟨_, hp, _⟩
    · rw [hp] at ho; cases ho; exact how
    · rw [hp] at ho; cases ho
  | prune n =>
    obtain ⟨m, b, k, auth, oo, owner, eq, o, ls, rfl, h1, h2, h3, _⟩ := prune_effect h hq hx
    exact ⟨h2, auth, rfl, h1, h3.symm⟩
  | consumeEventsPermissioned n =>
    obtain ⟨h1, a, h2, h3, h4⟩ := permissioned_crank_authorised hx
    exact ⟨h1, a, by rw [← List.getLast?_eq_getElem?]; exact h2, h3, h4⟩
  | cancelOrdersByClientIds cids =>
    obtain ⟨m, b, k, oo, sg, eq, rest, o, ls, rfl, h1, h2, h3, _⟩ := batch_effect h hq hx
    exact ⟨oo, sg, rfl, rfl, h1, fun p hp => by rw [h2] at hp; cases hp; exact h3⟩
  | replaceOrderByClientId ix =>
    exact rep [ix] ⟨by simp, by intro j hj; rw [List.mem_singleton.1 hj]; exact hv⟩ hx
  | replaceOrdersByClientIds ixs => exact rep ixs hv hx

-- 12 takes from the order of 41, whose owner 11 did not sign: 41 gives 200 base for 20000 quote
example : Reach Demo.P Demo.s1 ∧ process conc Demo.P Demo.env Demo.s1 Demo.a2 Demo.i2 = .ok Demo.s2 ∧
    (ooAt Demo.s1.oos 41).map (·.owner) = some 11 ∧ (Demo.a2.all fun m => !m.signer || m.key != 11) = true ∧
    (baseClaim Demo.s1 41, baseClaim Demo.s2 41, quoteClaim Demo.s1 41, quoteClaim Demo.s2 41) =
      (500, 300, 0, 20000) :=
  ⟨Demo.r1, Demo.run_eq (by decide +kernel), by decide +kernel, by decide +kernel, by decide +kernel⟩

/-! ### C17: flags -/

/-- A market flag word is usable: bits 0 (initialised) and 1 (market) are set, no bits but 0, 1, 7, 9 and 10
are; bit 7 (disabled) is only accepted where disabled markets are allowed; bit 10 (crank authority) only on
permissioned markets (bit 9). -/
structure UsableFlags (f : Nat) (allowDisabled : Bool) : Prop where
  initialised : f.testBit 0 = true
  market : f.testBit 1 = true
  only : ∀ i, f.testBit i = true → i ∈ [0, 1, 7, 9, 10]
  disabled : f.testBit 7 = true → allowDisabled = true
  crank : f.testBit 10 = true → f.testBit 9 = true

theorem flag_bits {f : Nat} (h : f ∈ [3, 515, 1539, 131, 643, 1667]) (i : Nat) (hi : f.testBit i = true) :
    i ∈ [0, 1, 7, 9, 10] := by
  have hlt : i < 11 := by
    refine Nat.lt_of_not_le fun hc => ?_
    have : f < 2 ^ i := Nat.lt_of_lt_of_le (by
      simp only [List.mem_cons, List.not_mem_nil, or_false] at h
      rcases h with rfl | rfl | rfl | rfl | rfl | rfl <;> decide) (Nat.pow_le_pow_right (by decide) hc)
    rw [Nat.testBit_lt_two_pow this] at hi
    cases hi
  have : ∀ f ∈ [3, 515, 1539, 131, 643, 1667], ∀ i < 11, f.testBit i = true → i ∈ [0, 1, 7, 9, 10] := by decide
  exact this f h i hlt hi

theorem flags_cases (f : Nat) (allow : Bool) : checkMarketFlags f allow = .ok () ↔
    (f ∈ [3, 515, 1539] ∨ (allow = true ∧ f ∈ [131, 643, 1667])) := by
  constructor
  · intro h
    unfold checkMarketFlags at h
    split at h
    · cases h
    · split at h
      · split at h
        · rename_i hc
          simp only [Bool.or_eq_true, Bool.and_eq_true, beq_iff_eq] at hc
          simp only [List.mem_cons, List.not_mem_nil, or_false]
          grind
        · cases h
      · split at h
        · rename_i hc
          simp only [Bool.or_eq_true, Bool.and_eq_true, beq_iff_eq] at hc
          simp only [List.mem_cons, List.not_mem_nil, or_false]
          grind
        · cases h
  · rintro (h | ⟨rfl, h⟩) <;> simp only [List.mem_cons, List.not_mem_nil, or_false] at h
    · rcases h with rfl | rfl | rfl <;> cases allow <;> rfl
    · rcases h with rfl | rfl | rfl <;> rfl

/-- C17. For every flag word, a market account loads exactly if its flags are a permitted combination;
otherwise loading fails with the flag error. -/
theorem market_flags (f : Nat) (allow : Bool) :
    (checkMarketFlags f allow = .ok () ↔ UsableFlags f allow) ∧
    (checkMarketFlags f allow = .ok () ∨ checkMarketFlags f allow = .error .invalidMarketFlags) := by
  refine ⟨?_, ?_⟩
  · rw [flags_cases]
    constructor
    · intro h
      have h6 : f ∈ [3, 515, 1539, 131, 643, 1667] := by
        simp only [List.mem_cons, List.not_mem_nil, or_false] at h ⊢; omega
      have hb := flag_bits h6
      rcases h with h | ⟨rfl, h⟩ <;> simp only [List.mem_cons, List.not_mem_nil, or_false] at h
      · rcases h with rfl | rfl | rfl <;> exact ⟨by decide, by decide, hb, fun h => absurd h (by decide), by decide⟩
      · rcases h with rfl | rfl | rfl <;> exact ⟨by decide, by decide, hb, by decide, by decide⟩
    · rintro ⟨h0, h1, ho, h7, h10⟩
      have key : ∀ g : Nat, g ∈ [3, 515, 1539, 131, 643, 1667] → g.testBit 7 = f.testBit 7 → g.testBit 9 = f.testBit 9 →
          g.testBit 10 = f.testBit 10 → f = g := by
        intro g hg e7 e9 e10
        apply Nat.eq_of_testBit_eq
        intro i
        by_cases hi : i ∈ [0, 1, 7, 9, 10]
        · simp only [List.mem_cons, List.not_mem_nil, or_false] at hi
          have g01 : g.testBit 0 = true ∧ g.testBit 1 = true := by
            revert g
            intro g hg _ _ _
            have : ∀ g ∈ [3, 515, 1539, 131, 643, 1667], g.testBit 0 = true ∧ g.testBit 1 = true := by decide
            exact this g hg
          rcases hi with rfl | rfl | rfl | rfl | rfl
          · rw [h0, g01.1]
          · rw [h1, g01.2]
          · exact e7.symm
          · exact e9.symm
          · exact e10.symm
        · have a : f.testBit i = false := by
            cases hc : f.testBit i with
            | false => rfl
            | true => exact absurd (ho i hc) hi
          have b : g.testBit i = false := by
            cases hc : g.testBit i with
            | false => rfl
            | true => exact absurd (flag_bits hg i hc) hi
          rw [a, b]
      cases e7 : f.testBit 7 <;> cases e9 : f.testBit 9 <;> cases e10 : f.testBit 10
      · left; rw [key 3 (by decide) (by rw [e7]; decide) (by rw [e9]; decide) (by rw [e10]; decide)]; decide
      · rw [h10 e10] at e9; cases e9
      · left; rw [key 515 (by decide) (by rw [e7]; decide) (by rw [e9]; decide) (by rw [e10]; decide)]; decide
      · left; rw [key 1539 (by decide) (by rw [e7]; decide) (by rw [e9]; decide) (by rw [e10]; decide)]; decide
      · right; refine ⟨h7 e7, ?_⟩
        rw [key 131 (by decide) (by rw [e7]; decide) (by rw [e9]; decide) (by rw [e10]; decide)]; decide
      · rw [h10 e10] at e9; cases e9
      · right; refine ⟨h7 e7, ?_⟩
        rw [key 643 (by decide) (by rw [e7]; decide) (by rw [e9]; decide) (by rw [e10]; decide)]; decide
      · right; refine ⟨h7 e7, ?_⟩
        rw [key 1667 (by decide) (by rw [e7]; decide) (by rw [e9]; decide) (by rw [e10]; decide)]; decide
  · unfold checkMarketFlags
    repeat' split
    all_goals simp

/-- C17. The authorities of a market count exactly if bit 9 is set; the crank authority needs bit 10 as well. -/
theorem permissioned_is_one_bit (m : Market) :
    (m.ooAuth = if m.flags.testBit 9 then some m.ooAuthority else none) ∧
    (m.pruneAuth = if m.flags.testBit 9 then some m.pruneAuthority else none) ∧
    (m.crankAuth = if m.flags.testBit 9 && m.flags.testBit 10 then some m.crankAuthority else none) := by
  unfold Market.ooAuth Market.pruneAuth Market.crankAuth Market.permissioned Market.crankFlag
  rw [show (512 : Nat) = 2 ^ 9 from rfl, show (1024 : Nat) = 2 ^ 10 from rfl, hasFlag_bit, hasFlag_bit]
  exact ⟨rfl, rfl, rfl⟩

example : UsableFlags 1667 true ∧ ¬ UsableFlags 1667 false ∧ ¬ UsableFlags 1027 true ∧ ¬ UsableFlags 0x8003 true := by
  refine ⟨(market_flags _ _).1.1 rfl, fun h => ?_, fun h => ?_, fun h => ?_⟩
  · have := (market_flags _ _).1.2 h; cases this
  · have := (market_flags _ _).1.2 h; cases this
  · have := (market_flags _ _).1.2 h; cases this

/-! ### C41: deadlines -/

/-- C41, rejection. -/
theorem late_order_rejected {P : Params} {env : Env} {s : State conc} {accts : List AccMeta} {ix : NewOrderIx}
    (hnow : env.now < 2 ^ 63) (h : ix.maxTs < env.now) :
    (∃ e, newOrderV3 conc P env s accts ix = .error e) ∧
    ∀ ixs, ix ∈ ixs → ∃ e, replaceOrders conc P env s accts ixs = .error e := by
  have one : ∀ s : State conc, ∃ e, newOrderV3 conc P env s accts ix = .error e := by
    intro s
    cases hx : newOrderV3 conc P env s accts ix with
    | error e => exact ⟨e, rfl⟩
    | ok s' =>
      exfalso
      unfold newOrderV3 at hx
      obtain ⟨a, _, hx⟩ := bind_ok hx
      obtain ⟨⟨tier, oo⟩, _, hx⟩ := bind_ok hx
      unfold newOrderExec at hx
      obtain ⟨_, hd, _⟩ := bind_ok hx
      unfold checkDeadline at hd
      rw [if_pos ⟨by unfold i64Max; omega, h⟩] at hd
      cases hd
  refine ⟨one s, fun ixs hm => ?_⟩
  have many : ∀ (l : List NewOrderIx) (s : State conc), ix ∈ l → ∃ e, newOrders conc P env s accts l = .error e := by
    intro l
    induction l with
    | nil => intro s hm; cases hm
    | cons j js ih =>
      intro s hm
      cases hx : newOrders conc P env s accts (j :: js) with
      | error e => exact ⟨e, rfl⟩
      | ok s' =>
        exfalso
        unfold newOrders at hx
        obtain ⟨s1, h1, hx⟩ := bind_ok hx
        rcases List.mem_cons.1 hm with e | hm
        · subst e
          obtain ⟨e, he⟩ := one s
          rw [he] at h1; cases h1
        · obtain ⟨e, he⟩ := ih s1 hm
          rw [he] at hx; cases hx
  cases hx : replaceOrders conc P env s accts ixs with
  | error e => exact ⟨e, rfl⟩
  | ok s' =>
    exfalso
    unfold replaceOrders at hx
    obtain ⟨ca, _, hx⟩ := bind_ok hx
    obtain ⟨s1, _, hx⟩ := bind_ok hx
    obtain ⟨e, he⟩ := many ixs s1 hm
    rw [he] at hx; cases hx

/-- C41, no rejection. As long as the deadline is not before the clock, the clock makes no difference to the
order: whatever happens would also happen at any other time up to the deadline. In particular an order without
deadline (`i64::MAX`) is never rejected for time. -/
theorem timely_order_unaffected {P : Params} {env : Env} {s : State conc} {accts : List AccMeta} {ix : NewOrderIx}
    {t t' : Int} (h : t ≤ ix.maxTs) (h' : t' ≤ ix.maxTs) :
    newOrderV3 conc P { env with now := t } s accts ix = newOrderV3 conc P { env with now := t' } s accts ix := by
  have e : ∀ x, x ≤ ix.maxTs → checkDeadline x ix.maxTs = .ok () := by
    intro x hx
    unfold checkDeadline
    rw [if_neg (by omega)]
  unfold newOrderV3 newOrderArgs newOrderExec
  simp only [e t h, e t' h']
  rfl

-- an order due at 100 sent at 101, at 100 and without a deadline
example : let ix := { Demo.order .ask 1000 5 1 7 with maxTs := 100 }
    (newOrderV3 conc Demo.P { Demo.env with now := 101 } Demo.s0 Demo.a1 ix).isOk = false ∧
    (newOrderV3 conc Demo.P { Demo.env with now := 100 } Demo.s0 Demo.a1 ix).isOk = true ∧
    (newOrderV3 conc Demo.P { Demo.env with now := 2 ^ 63 - 1 } Demo.s0 Demo.a1 (Demo.order .ask 1000 5 1 7)).isOk = true ∧
    (Demo.order .ask 1000 5 1 7).maxTs = 2 ^ 63 - 1 := by
  refine ⟨by decide +kernel, by decide +kernel, by decide +kernel, rfl⟩

/-! ### C45: removed instructions, failures -/

/-- What the chain holds after an instruction: its result, or the state before if it fails (the runtime drops
all account changes of a failed transaction). -/
def after (P : Params) (env : Env) (s : State conc) (accts : List AccMeta) (data : List UInt8) : State conc :=
  match processRaw conc P env s accts data with
  | .ok s' => s'
  | .error _ => s

/-- C45. The removed instructions fail in every state, whatever the accounts; the old match instruction succeeds
and does nothing; data that does not decode to an instruction fails. -/
theorem removed_instructions (P : Params) (env : Env) (s : State conc) (accts : List AccMeta) :
    (∀ ix, ∃ e, process conc P env s accts (.newOrder ix) = .error e) ∧
    (∀ a b, ∃ e, process conc P env s accts (.newOrderV2 a b) = .error e) ∧
    (∀ sd id o sl, ∃ e, process conc P env s accts (.cancelOrder sd id o sl) = .error e) ∧
    (∀ c, ∃ e, process conc P env s accts (.cancelOrderByClientId c) = .error e) ∧
    (∀ n, process conc P env s accts (.matchOrders n) = .ok s) ∧
    (∀ data, Instruction.unpack data = none → ∃ e, processRaw conc P env s accts data = .error e) := by
  refine ⟨fun _ => ⟨_, rfl⟩, fun _ _ => ⟨_, rfl⟩, fun _ _ _ _ => ⟨_, rfl⟩, fun _ => ⟨_, rfl⟩, fun _ => rfl,
    fun data h => ⟨.programError, ?_⟩⟩
  unfold processRaw
  rw [h]

/-- C45. A failing instruction leaves the market, its books and queues, the accounts and the balances as they
were. -/
theorem failure_changes_nothing {P : Params} {env : Env} {s : State conc} {accts : List AccMeta} {data : List UInt8}
    {e : Err} (h : processRaw conc P env s accts data = .error e) :
    after P env s accts data = s := by
  unfold after
  rw [h]

/-- C45. In particular the removed instructions never change anything. -/
theorem removed_instructions_change_nothing {P : Params} {env : Env} {s : State conc} {accts : List AccMeta}
    {data : List UInt8} {ix : Instruction} (hd : Instruction.unpack data = some ix)
    (h : match ix with
      | .newOrder _ | .newOrderV2 .. | .cancelOrder .. | .cancelOrderByClientId _ | .matchOrders _ => True
      | _ => False) : after P env s accts data = s := by
  unfold after processRaw
  rw [hd]
  obtain ⟨h1, h2, h3, h4, h5, _⟩ := removed_instructions P env s accts
  cases ix with
  | newOrder i => obtain ⟨e, he⟩ := h1 i; simp only [he]
  | newOrderV2 a b => obtain ⟨e, he⟩ := h2 a b; simp only [he]
  | cancelOrder a b c d => obtain ⟨e, he⟩ := h3 a b c d; simp only [he]
  | cancelOrderByClientId a => obtain ⟨e, he⟩ := h4 a; simp only [he]
  | matchOrders a => simp only [h5]
  | _ => exact h.elim

-- a failing transaction: taker 12 tries to cancel the order of 11
example : (process conc Demo.P Demo.env Demo.s1 (Demo.cancelAccts 41 12) (.cancelOrderByClientIdV2 7)).isOk = false ∧
    (process conc Demo.P Demo.env Demo.s1 (Demo.cancelAccts 41 11) (.cancelOrderByClientIdV2 7)).isOk = true ∧
    Instruction.unpack [0, 2, 0, 0, 0, 5, 0] = some (.matchOrders 5) :=
  ⟨by decide +kernel, by decide +kernel, by decide +kernel⟩

end Serum.Props
