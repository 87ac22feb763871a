import Verif.Exchange
import Verif.PropsProxy
import Verif.PropsMembers

/-!
C85: the example exchange on top of the proxy.
-/

namespace Serum.Props
open Serum.Proxy Serum.Exchange

/-! ### A run as its parts -/

theorem wares_kinds {E : ExEnv} {ms : List Middleware} {data d : List UInt8} (h : instructions (wares E) data = .ok (ms, d)) :
    ∃ b bi, ms = [.logger, .referral E.referral, .pda b bi] := by
  unfold wares at h
  simp only [instructions] at h
  obtain ⟨⟨m1, d1⟩, h1, h⟩ := bind_ok h
  obtain ⟨⟨m2, d2⟩, h2, h⟩ := bind_ok h
  cases h1
  cases h
  obtain ⟨⟨m3, d3⟩, h3, h2⟩ := bind_ok h2
  obtain ⟨⟨m4, d4⟩, h4, h2⟩ := bind_ok h2
  cases h3
  cases h2
  obtain ⟨⟨m5, d5⟩, h5, h4⟩ := bind_ok h4
  cases h4
  have : ∃ b bi, m5 = Middleware.pda b bi := by
    simp only [Middleware.instruction] at h5
    repeat' split at h5
    all_goals first | cases h5; done | (cases h5; exact ⟨_, _, rfl⟩)
  obtain ⟨b, bi, rfl⟩ := this
  exact ⟨b, bi, rfl⟩

theorem listed_min {ix : Instruction} {k : Nat} (h : minAccounts ix = some k) : Listed ix := by
  cases ix <;> first | constructor | cases h

/-- A run as the parts of its plan. -/
theorem ex_split {I : Impl} {E : ExEnv} {P : Params} {env : Env} {s s' : State I} {accts : List AccMeta} {data : List UInt8}
    (h : Exchange.run I E P env s accts data = .ok s') :
    (s' = s ∧ (∀ ms d ix, instructions (wares E) data = .ok (ms, d) → Instruction.unpack d = some ix → minAccounts ix = none) ∧
      ∃ dex tok l, accts = dex :: tok :: l ∧ dex.key = E.X.dexId ∧ tok.key = E.X.rentId) ∨
    ∃ dex l b bi d ix k c1 c l1 s1 l2, accts = dex :: l ∧ dex.key = E.X.dexId ∧
      instructions (wares E) data = .ok ([.logger, .referral E.referral, .pda b bi], d) ∧
      Instruction.unpack d = some ix ∧ minAccounts ix = some k ∧ k ≤ l.length ∧
      identity E (some ix) ⟨l, [], [], []⟩ = .ok c1 ∧
      handleAll E.X (fun a => (s.toks a).map Tok.owner) ix [.logger, .referral E.referral, .pda b bi] c1 = .ok c ∧
      tokCalls (signs accts) s.toks c.pre = .ok l1 ∧ checkCpi accts c.seeds c.accounts = .ok () ∧
      process I P env { s with toks := l1 } c.accounts ix = .ok s1 ∧ tokCalls (signs accts) s1.toks c.post = .ok l2 ∧
      s' = { s1 with toks := l2 } := by
  unfold Exchange.run at h
  obtain ⟨p, hp, h⟩ := bind_ok h
  unfold Exchange.plan at hp
  cases accts with
  | nil => cases hp
  | cons dex l =>
    by_cases hd : dex.key = E.X.dexId
    · simp only [ne_eq, hd, not_true_eq_false, if_false] at hp
      obtain ⟨⟨ms, d⟩, hi, hp⟩ := bind_ok hp
      obtain ⟨b, bi, rfl⟩ := wares_kinds hi
      have none_case : ∀ {r : Except Err (Option (PCtx × Instruction))},
          r = .ok p → (r = do let _ ← identity E none ⟨l, [], [], []⟩; return none) →
          (p = none ∧ ∃ tok l', l = tok :: l' ∧ tok.key = E.X.rentId) := by
        intro r hr he
        rw [he] at hr
        obtain ⟨c, hc, hr⟩ := bind_ok hr
        cases hr
        refine ⟨rfl, ?_⟩
        simp only [identity, verify] at hc
        obtain ⟨a, ha, hc⟩ := bind_ok hc
        cases l with
        | nil => cases get_ok ha
        | cons tok l' =>
          have := get_ok ha
          cases this
          split at hc
          · rename_i hk; exact ⟨_, _, rfl, hk⟩
          · cases hc
      cases hu : Instruction.unpack d with
      | none =>
        simp only [hu, Option.bind_none] at hp
        obtain ⟨rfl, tok, l', rfl, hk⟩ := none_case hp rfl
        cases h
        refine .inl ⟨rfl, fun _ _ _ e hu' => ?_, dex, tok, l', rfl, hd, hk⟩
        rw [hi] at e
        cases e
        rw [hu] at hu'
        cases hu'
      | some ix =>
        cases hm : minAccounts ix with
        | none =>
          simp only [hu, Option.bind_some, hm, Option.map_none] at hp
          obtain ⟨rfl, tok, l', rfl, hk⟩ := none_case hp rfl
          cases h
          refine .inl ⟨rfl, fun _ _ _ e hu' => ?_, dex, tok, l', rfl, hd, hk⟩
          rw [hi] at e
          cases e
          rw [hu] at hu'
          cases hu'
          exact hm
        | some k =>
          simp only [hu, Option.bind_some, hm, Option.map_some] at hp
          split at hp
          · cases hp
          · rename_i hk
            obtain ⟨c1, hc1, hp⟩ := bind_ok hp
            obtain ⟨c, hc, hp⟩ := bind_ok hp
            cases hp
            obtain ⟨l1, ht1, h⟩ := bind_ok h
            obtain ⟨_, hcp, h⟩ := bind_ok h
            obtain ⟨s1, hx, h⟩ := bind_ok h
            obtain ⟨l2, ht2, h⟩ := bind_ok h
            cases h
            have hv : IxValid ix := by
              obtain ⟨_, _, _, hv, _⟩ := decoding_is_strict _ _ hu
              exact hv
            unfold processRaw at hx
            rw [instruction_round_trip ix hv] at hx
            exact .inr ⟨dex, l, b, bi, d, ix, k, c1, c, l1, s1, l2, rfl, hd, hi, hu, hm, by omega, hc1, hc, ht1, hcp, hx, ht2, rfl⟩
    · simp only [ne_eq, hd, not_false_eq_true, if_true] at hp; cases hp

theorem verify_ok {X : ProxyEnv} {l : List AccMeta} {c : PCtx} (h : verify X ⟨l, [], [], []⟩ = .ok c) :
    ∃ tok l', l = tok :: l' ∧ tok.key = X.rentId ∧ c = ⟨l', [], [], []⟩ := by
  unfold verify at h
  obtain ⟨a, ha, h⟩ := bind_ok h
  cases l with
  | nil => cases get_ok ha
  | cons tok l' =>
    cases get_ok ha
    split at h
    · rename_i hk; cases h; exact ⟨_, _, rfl, hk, rfl⟩
    · cases h

theorem verifyRevoked_ok {X : ProxyEnv} {l : List AccMeta} {c : PCtx} (h : verifyRevoked X ⟨l, [], [], []⟩ = .ok c) :
    ∃ tok l', l = tok :: l' ∧ tok.key ≠ X.rentId ∧ c = ⟨l', [], [], []⟩ := by
  unfold verifyRevoked at h
  obtain ⟨a, ha, h⟩ := bind_ok h
  cases l with
  | nil => cases get_ok ha
  | cons tok l' =>
    cases get_ok ha
    split at h
    · rename_i hk; cases h; exact ⟨_, _, rfl, hk, rfl⟩
    · cases h

/-- Instructions on a user's account take at least as many accounts as the proxy asks for. -/
theorem enough_accounts {I : Impl} {P : Params} {env : Env} {s s' : State I} {accts : List AccMeta} {ix : Instruction} {k : Nat}
    (hr : roles ix ≠ none) (hs : ix ≠ .settleFunds) (hk : minAccounts ix = some k) (h : process I P env s accts ix = .ok s') :
    k ≤ accts.length := by
  cases ix with
  | newOrderV3 o =>
    cases hk
    have h : newOrderV3 I P env s accts o = .ok s' := h
    unfold newOrderV3 at h
    obtain ⟨a, ha, _⟩ := bind_ok h
    unfold parseNewOrder at ha
    split at ha
    · simp only [List.length_cons]; omega
    · cases ha
  | cancelOrderV2 sd id =>
    cases hk
    have h : cancelV2 I env s accts sd id = .ok s' := h
    unfold cancelV2 at h
    obtain ⟨a, ha, _⟩ := bind_ok h
    unfold parseCancel at ha
    split at ha
    · simp only [List.length_cons]; omega
    · cases ha
  | cancelOrderByClientIdV2 id =>
    cases hk
    have h : cancelByClientIdV2 I env s accts id = .ok s' := h
    unfold cancelByClientIdV2 at h
    obtain ⟨a, ha, _⟩ := bind_ok h
    unfold parseCancel at ha
    split at ha
    · simp only [List.length_cons]; omega
    · cases ha
  | closeOpenOrders =>
    cases hk
    have h : closeOpenOrders I env s accts = .ok s' := h
    unfold closeOpenOrders at h
    split at h
    · simp
    · cases h
  | initOpenOrders =>
    cases hk
    have h : initOpenOrders I env s accts = .ok s' := h
    unfold initOpenOrders at h
    split at h
    · simp only [List.length_cons]; omega
    · cases h
  | settleFunds => exact absurd rfl hs
  | _ => exact absurd rfl hr

theorem signs_skip {dex tok : AccMeta} {l : List AccMeta} (h : tok.signer = false) :
    signs (dex :: tok :: l) = signs (dex :: l) := by
  funext k
  simp [signs, h]

theorem checkCpi_skip {dex tok : AccMeta} {l : List AccMeta} (h : tok.signer = false) (sd : List (Option Nat)) (ms : List AccMeta) :
    checkCpi (dex :: tok :: l) sd ms = checkCpi (dex :: l) sd ms := by
  unfold checkCpi
  rw [signs_skip h]

theorem wares_handle {X : ProxyEnv} {owner : Nat → Option Nat} {ix : Instruction} {r : Nat} {b bi : UInt8} {c c' : PCtx}
    (h : handleAll X owner ix [.logger, .referral r, .pda b bi] c = .ok c') :
    (Middleware.pda b bi).handle X owner ix c = .ok c' ∧ (ix = .settleFunds → 10 ≤ c.accounts.length) := by
  unfold handleAll at h
  obtain ⟨c1, h1, h⟩ := bind_ok h
  rw [handle_other rfl h1] at h
  unfold handleAll at h
  obtain ⟨c2, h2, h⟩ := bind_ok h
  rw [handle_other rfl h2] at h
  unfold handleAll at h
  obtain ⟨c3, h3, h⟩ := bind_ok h
  cases h
  refine ⟨h3, ?_⟩
  rintro rfl
  have h2 : referralSettle owner r c = .ok c2 := h2
  unfold referralSettle at h2
  obtain ⟨a, ha, _⟩ := bind_ok h2
  have := (List.getElem?_eq_some_iff.1 (get_ok ha)).1
  omega

/-- `OpenOrdersPda` passes on as many accounts as it was given, but for the creation of an account. -/
theorem pda_length {X : ProxyEnv} {owner : Nat → Option Nat} {b bi : UInt8} {ix : Instruction} {l : List AccMeta} {c : PCtx}
    (hr : roles ix ≠ none) (h : (Middleware.pda b bi).handle X owner ix ⟨l, [], [], []⟩ = .ok c) :
    c.accounts.length ≤ l.length := by
  have rep : ∀ {im iu io : Nat}, Replaced X l im iu io c → c.accounts.length ≤ l.length := by
    rintro im iu io ⟨m, u, a, _, _, _, _, e, _⟩
    rw [e, List.length_set]
    exact Nat.le_refl _
  cases ix with
  | initOpenOrders =>
    obtain ⟨_, _, dex, sys, a, u, m, r, i, rest, rfl, _, _, _, _, _, e⟩ := pdaInit_ok h
    rw [e]
    simp only [List.length_cons]
    omega
  | newOrderV3 o => exact rep (pdaNewOrder_ok h).1
  | cancelOrderV2 sd id => exact rep (pdaReplace_ok h).1
  | cancelOrderByClientIdV2 id => exact rep (pdaReplace_ok h).1
  | settleFunds => exact rep (pdaReplace_ok h).1
  | closeOpenOrders => exact rep (pdaReplace_ok h).1
  | _ => exact absurd rfl hr

/-- C85. Everything done for a user — opening, placing, cancelling, settling, closing — needs the identity token in
front, and is then exactly what the proxy of C50 does with the other accounts: all of C50 holds. The token is a system
account and signs nothing. -/
theorem exchange_user {I : Impl} {E : ExEnv} {P : Params} {env : Env} {s s' : State I} {accts : List AccMeta}
    {data d : List UInt8} {ms : List Middleware} {ix : Instruction} (hi : instructions (wares E) data = .ok (ms, d))
    (hu : Instruction.unpack d = some ix) (hr : roles ix ≠ none)
    (ht : ∀ a ∈ accts, a.key = E.X.rentId → a.signer = false)
    (h : Exchange.run I E P env s accts data = .ok s') :
    ∃ dex tok l, accts = dex :: tok :: l ∧ dex.key = E.X.dexId ∧ tok.key = E.X.rentId ∧
      Proxy.run I E.X P env (wares E) s (dex :: l) data = .ok s' := by
  rcases ex_split h with ⟨_, hn, _⟩ |
    ⟨dex, l, b, bi, d', ix', k, c1, c, l1, s1, l2, rfl, hd, hi', hu', hm, hlen, hid, hh, ht1, hc, hx, ht2, rfl⟩
  · have := hn _ _ _ hi hu
    cases ix <;> first | exact absurd rfl hr | cases this
  · rw [hi] at hi'
    cases hi'
    rw [hu] at hu'
    cases hu'
    have hv : identity E (some ix) ⟨l, [], [], []⟩ = verify E.X ⟨l, [], [], []⟩ := by
      cases ix <;> first | rfl | exact absurd rfl hr
    rw [hv] at hid
    obtain ⟨tok, l', rfl, hk, rfl⟩ := verify_ok hid
    refine ⟨dex, tok, l', rfl, hd, hk, ?_⟩
    have hts : tok.signer = false := ht tok (by simp) hk
    rw [signs_skip hts] at ht1 ht2
    rw [checkCpi_skip hts] at hc
    have hlen' : k ≤ l'.length := by
      obtain ⟨hp, hset⟩ := wares_handle hh
      by_cases hs : ix = .settleFunds
      · have := hset hs
        subst hs
        cases hm
        exact this
      · exact Nat.le_trans (enough_accounts hr hs hm hx) (pda_length hr hp)
    have hval : IxValid ix := by
      obtain ⟨_, _, _, hv, _⟩ := decoding_is_strict _ _ hu
      exact hv
    have hraw : processRaw I P env { s with toks := l1 } c.accounts ix.pack = .ok s1 := by
      unfold processRaw
      rw [instruction_round_trip ix hval]
      exact hx
    unfold Proxy.run Proxy.plan
    simp only [hd, ne_eq, not_true_eq_false, if_false, hi, hu, hm, if_neg (Nat.not_lt.2 hlen'), hh, Except.bind, bind, pure, Except.pure,
      ht1, hc, hraw, ht2]

/-! ### Pruning and cranking -/

theorem checkCpi_of {accts : List AccMeta} {ks : List Nat} {ms : List AccMeta}
    (h : ∀ a ∈ ms, a.signer = true → signs accts a.key = true ∨ a.key ∈ ks) : checkCpi accts (ks.map some) ms = .ok () := by
  unfold checkCpi
  rw [if_neg (by simp), if_pos]
  rw [List.all_eq_true]
  intro a ha
  cases hs : a.signer with
  | false => rfl
  | true =>
    rcases h a ha hs with h | h
    · simp [h]
    · simp only [Bool.or_eq_true, List.contains_iff_mem]
      exact .inr (List.mem_map.2 ⟨_, h, rfl⟩)

theorem signs_of {accts : List AccMeta} {a : AccMeta} (h : a ∈ accts) (hs : a.signer = true) : signs accts a.key = true := by
  unfold signs
  exact List.any_eq_true.2 ⟨a, h, by simp [hs]⟩

theorem six {α : Type} {l : List α} {x : α} (h : 7 ≤ (x :: l).length) : ∃ a b c d e f r, l = a :: b :: c :: d :: e :: f :: r := by
  match l, h with
  | a :: b :: c :: d :: e :: f :: r, _ => exact ⟨a, b, c, d, e, f, r, rfl⟩

/-- C85. A prune goes through exactly if something other than the identity token stands in front, the authority named is the
one derived for the market (or signed itself), and the DEX prunes with that authority's signature. No
signature of anybody is asked for. -/
theorem exchange_prune {I : Impl} {E : ExEnv} {P : Params} {env : Env} {s s' : State I} {accts : List AccMeta}
    {data d : List UInt8} {ms : List Middleware} {n : Nat} (hi : instructions (wares E) data = .ok (ms, d))
    (hu : Instruction.unpack d = some (.prune n)) :
    Exchange.run I E P env s accts data = .ok s' ↔
    ∃ dex tok m b k a oo ow rest, accts = dex :: tok :: m :: b :: k :: a :: oo :: ow :: rest ∧ dex.key = E.X.dexId ∧
      tok.key ≠ E.X.rentId ∧ (a.key = E.prune m.key ∨ signs accts a.key = true) ∧
      process I P env s (m :: b :: k :: ⟨a.key, true⟩ :: oo :: oo :: rest) (.prune n) = .ok s' := by
  obtain ⟨b0, bi0, rfl⟩ := wares_kinds hi
  constructor
  · intro h
    rcases ex_split h with ⟨_, hn, _⟩ |
      ⟨dex, l, b', bi', d', ix', k', c1, c, l1, s1, l2, rfl, hd, hi', hu', hm, hlen, hid, hh, ht1, hc, hx, ht2, rfl⟩
    · cases hn _ _ _ hi hu
    · rw [hi] at hi'
      cases hi'
      rw [hu] at hu'
      cases hu'
      cases hm
      have hid : idPrune E ⟨l, [], [], []⟩ = .ok c1 := hid
      unfold idPrune at hid
      obtain ⟨c0, h0, hid⟩ := bind_ok hid
      obtain ⟨tok, l', rfl, hk, rfl⟩ := verifyRevoked_ok h0
      obtain ⟨m, b, k, a, oo, ow, rest, rfl⟩ := six hlen
      obtain ⟨_, h1, hid⟩ := bind_ok hid
      obtain ⟨_, h2, hid⟩ := bind_ok hid
      cases get_ok h1
      cases get_ok h2
      cases hid
      have hp : pdaPrune _ = .ok c := (wares_handle hh).1
      unfold pdaPrune at hp
      obtain ⟨_, h3, hp⟩ := bind_ok hp
      cases get_ok h3
      split at hp
      · cases hp
      · cases hp
        cases ht1
        cases ht2
        refine ⟨dex, tok, m, b, k, a, oo, ow, rest, rfl, hd, hk, ?_, hx⟩
        rcases checkCpi_ok hc (a := preparePda a) (by simp) rfl with ⟨x, hx, hk, hs⟩ | h
        · exact .inr (by have := signs_of hx hs; rw [hk] at this; exact this)
        · simp only [preparePda, List.nil_append, List.mem_singleton, Option.some.injEq] at h
          exact .inl h
  · rintro ⟨dex, tok, m, b, k, a, oo, ow, rest, rfl, hd, hk, ha, hx⟩
    have hval : IxValid (.prune n) := by
      obtain ⟨_, _, _, hv, _⟩ := decoding_is_strict _ _ hu
      exact hv
    have hc : checkCpi (dex :: tok :: m :: b :: k :: a :: oo :: ow :: rest) [some (E.prune m.key)]
        (m :: b :: k :: preparePda a :: oo :: oo :: rest) = .ok () := by
      refine checkCpi_of (ks := [E.prune m.key]) ?_
      intro x hx hs
      simp only [List.mem_cons] at hx
      rcases hx with rfl | rfl | rfl | rfl | rfl | rfl | h
      case inr.inr.inr.inl =>
        rcases ha with ha | ha
        · exact .inr (by simp [preparePda, ha])
        · exact .inl ha
      all_goals exact .inl (signs_of (by simp [*]) hs)
    have hraw : processRaw I P env { s with toks := s.toks } (m :: b :: k :: preparePda a :: oo :: oo :: rest) (Instruction.prune n).pack =
        .ok s' := by
      unfold processRaw
      rw [instruction_round_trip _ hval]
      exact hx
    have hp : Exchange.plan E (fun a => (s.toks a).map Tok.owner) (dex :: tok :: m :: b :: k :: a :: oo :: ow :: rest) data =
        .ok (some (⟨m :: b :: k :: preparePda a :: oo :: oo :: rest, [some (E.prune m.key)], [], []⟩, .prune n)) := by
      simp [Exchange.plan, hd, hi, hu, minAccounts, identity, idPrune, verifyRevoked, hk, Proxy.get, unwrap, handleAll,
        Middleware.handle, pdaPrune, Except.bind, bind, pure, Except.pure]
    unfold Exchange.run
    rw [hp]
    simp only [tokCalls, hc, hraw, Except.bind, bind, pure, Except.pure]

theorem last_three {α : Type} {l : List α} (h : 3 ≤ l.length) : ∃ us a b c, l = us ++ [a, b, c] := by
  refine ⟨l.take (l.length - 3), ?_⟩
  have hd : (l.drop (l.length - 3)).length = 3 := by rw [List.length_drop]; omega
  match hm : l.drop (l.length - 3), hd with
  | [a, b, c], _ => exact ⟨a, b, c, by rw [← hm, List.take_append_drop]⟩

/-- C85. The same for cranking with authority: market, queue and authority are the last three accounts. -/
theorem exchange_crank {I : Impl} {E : ExEnv} {P : Params} {env : Env} {s s' : State I} {accts : List AccMeta}
    {data d : List UInt8} {ms : List Middleware} {n : Nat} (hi : instructions (wares E) data = .ok (ms, d))
    (hu : Instruction.unpack d = some (.consumeEventsPermissioned n)) :
    Exchange.run I E P env s accts data = .ok s' ↔
    ∃ dex tok us m q a, accts = dex :: tok :: (us ++ [m, q, a]) ∧ dex.key = E.X.dexId ∧
      tok.key ≠ E.X.rentId ∧ (a.key = E.prune m.key ∨ signs accts a.key = true) ∧
      process I P env s (us ++ [m, q, ⟨a.key, true⟩]) (.consumeEventsPermissioned n) = .ok s' := by
  obtain ⟨b0, bi0, rfl⟩ := wares_kinds hi
  have g : ∀ (us : List AccMeta) (m q a : AccMeta), (us ++ [m, q, a])[(us ++ [m, q, a]).length - 3]? = some m ∧
      (us ++ [m, q, a])[(us ++ [m, q, a]).length - 1]? = some a ∧
      (us ++ [m, q, a]).set ((us ++ [m, q, a]).length - 1) ⟨a.key, true⟩ = us ++ [m, q, ⟨a.key, true⟩] := by
    intro us m q a
    refine ⟨?_, ?_, ?_⟩
    · rw [List.getElem?_append_right (by simp)]; simp
    · rw [List.getElem?_append_right (by simp)]
      simp
    · rw [List.set_append_right _ _ (by simp)]
      simp
  constructor
  · intro h
    rcases ex_split h with ⟨_, hn, _⟩ |
      ⟨dex, l, b', bi', d', ix', k', c1, c, l1, s1, l2, rfl, hd, hi', hu', hm, hlen, hid, hh, ht1, hc, hx, ht2, rfl⟩
    · cases hn _ _ _ hi hu
    · rw [hi] at hi'
      cases hi'
      rw [hu] at hu'
      cases hu'
      cases hm
      have hid : idConsume E ⟨l, [], [], []⟩ = .ok c1 := hid
      unfold idConsume at hid
      obtain ⟨c0, h0, hid⟩ := bind_ok hid
      obtain ⟨tok, l', rfl, hk, rfl⟩ := verifyRevoked_ok h0
      simp only at hid
      split at hid
      · cases hid
      · rename_i h3
        obtain ⟨us, m, q, a, rfl⟩ := last_three (Nat.not_lt.1 h3)
        obtain ⟨g1, g2, g3⟩ := g us m q a
        obtain ⟨_, h1, hid⟩ := bind_ok hid
        obtain ⟨_, h2, hid⟩ := bind_ok hid
        have e1 := get_ok h1
        rw [g1] at e1
        cases e1
        have e2 := get_ok h2
        rw [g2] at e2
        cases e2
        cases hid
        have hp := (wares_handle hh).1
        cases hp
        cases ht1
        cases ht2
        simp only [preparePda, g3] at hx hc
        refine ⟨dex, tok, us, m, q, a, rfl, hd, hk, ?_, hx⟩
        rcases checkCpi_ok hc (a := ⟨a.key, true⟩) (by simp) rfl with ⟨x, hx, hk, hs⟩ | h
        · exact .inr (by have := signs_of hx hs; rw [hk] at this; exact this)
        · simp only [List.nil_append, List.mem_singleton, Option.some.injEq] at h
          exact .inl h
  · rintro ⟨dex, tok, us, m, q, a, rfl, hd, hk, ha, hx⟩
    have hval : IxValid (.consumeEventsPermissioned n) := by
      obtain ⟨_, _, _, hv, _⟩ := decoding_is_strict _ _ hu
      exact hv
    obtain ⟨g1, g2, g3⟩ := g us m q a
    have hc : checkCpi (dex :: tok :: (us ++ [m, q, a])) [some (E.prune m.key)] (us ++ [m, q, ⟨a.key, true⟩]) = .ok () := by
      refine checkCpi_of (ks := [E.prune m.key]) ?_
      intro x hx hs
      simp only [List.mem_append, List.mem_cons, List.not_mem_nil, or_false] at hx
      rcases hx with h | rfl | rfl | rfl
      case inr.inr.inr =>
        rcases ha with ha | ha
        · exact .inr (by simp [ha])
        · exact .inl ha
      all_goals exact .inl (signs_of (by simp [*]) hs)
    have hraw : processRaw I P env { s with toks := s.toks } (us ++ [m, q, ⟨a.key, true⟩])
        (Instruction.consumeEventsPermissioned n).pack = .ok s' := by
      unfold processRaw
      rw [instruction_round_trip _ hval]
      exact hx
    have hlen : 3 ≤ (us ++ [m, q, a]).length := by simp
    have hid : identity E (some (.consumeEventsPermissioned n)) ⟨tok :: (us ++ [m, q, a]), [], [], []⟩ =
        .ok ⟨us ++ [m, q, ⟨a.key, true⟩], [some (E.prune m.key)], [], []⟩ := by
      simp only [identity, idConsume, verifyRevoked, Proxy.get, List.getElem?_cons_zero, unwrap, Except.bind, bind, pure, Except.pure,
        ne_eq, hk, not_false_eq_true, if_true, List.drop_succ_cons, List.drop_zero, if_neg (Nat.not_lt.2 hlen), g1, g2, preparePda, g3,
        List.nil_append]
    have hp : Exchange.plan E (fun a => (s.toks a).map Tok.owner) (dex :: tok :: (us ++ [m, q, a])) data =
        .ok (some (⟨us ++ [m, q, ⟨a.key, true⟩], [some (E.prune m.key)], [], []⟩, .consumeEventsPermissioned n)) := by
      have hl : ¬ (tok :: (us ++ [m, q, a])).length < 3 := by simp
      simp only [Exchange.plan, hd, hi, hu, minAccounts, Option.bind_some, Option.map_some, if_neg hl, hid, handleAll,
        Middleware.handle, Except.bind, bind, pure, Except.pure, ne_eq, not_true_eq_false, if_false]
    unfold Exchange.run
    rw [hp]
    simp only [tokCalls, hc, hraw, Except.bind, bind, pure, Except.pure]

/-- C85. Cranking without authority is passed on as it stands; the identity token is not looked at. -/
theorem exchange_consume {I : Impl} {E : ExEnv} {P : Params} {env : Env} {s s' : State I} {accts : List AccMeta}
    {data d : List UInt8} {ms : List Middleware} {n : Nat} (hi : instructions (wares E) data = .ok (ms, d))
    (hu : Instruction.unpack d = some (.consumeEvents n)) (h : Exchange.run I E P env s accts data = .ok s') :
    ∃ dex l, accts = dex :: l ∧ dex.key = E.X.dexId ∧ process I P env s l (.consumeEvents n) = .ok s' := by
  rcases ex_split h with ⟨_, hn, _⟩ |
    ⟨dex, l, b', bi', d', ix', k', c1, c, l1, s1, l2, rfl, hd, hi', hu', hm, hlen, hid, hh, ht1, hc, hx, ht2, rfl⟩
  · cases hn _ _ _ hi hu
  · rw [hi] at hi'
    cases hi'
    rw [hu] at hu'
    cases hu'
    cases hid
    cases (wares_handle hh).1
    cases ht1
    cases ht2
    exact ⟨dex, l, rfl, hd, hx⟩

/-- C85. Nothing else is relayed: with any other data, a run that succeeds changes nothing. -/
theorem exchange_ignores_rest {I : Impl} {E : ExEnv} {P : Params} {env : Env} {s s' : State I} {accts : List AccMeta}
    {data d : List UInt8} {ms : List Middleware} (hi : instructions (wares E) data = .ok (ms, d))
    (hd : ∀ ix, Instruction.unpack d = some ix → ¬ Listed ix)
    (h : Exchange.run I E P env s accts data = .ok s') : s' = s := by
  rcases ex_split h with ⟨e, _⟩ |
    ⟨dex, l, b', bi', d', ix', k', c1, c, l1, s1, l2, rfl, _, hi', hu', hm, _⟩
  · exact e
  · rw [hi] at hi'
    cases hi'
    exact absurd (listed_min hm) (hd _ hu')

/-- C85. Anybody can have anybody's orders taken off the book: no account needs to sign, and any account but the identity token
will do as the token that "was revoked". -/
theorem anyone_prunes {I : Impl} {E : ExEnv} {P : Params} {env : Env} {s s' : State I} {dex tok m b k oo ow : AccMeta}
    {rest : List AccMeta} {data d : List UInt8} {ms : List Middleware} {n : Nat}
    (hi : instructions (wares E) data = .ok (ms, d)) (hu : Instruction.unpack d = some (.prune n))
    (hd : dex.key = E.X.dexId) (ht : tok.key ≠ E.X.rentId)
    (hx : process I P env s (m :: b :: k :: ⟨E.prune m.key, true⟩ :: oo :: oo :: rest) (.prune n) = .ok s') :
    Exchange.run I E P env s (dex :: tok :: m :: b :: k :: ⟨E.prune m.key, false⟩ :: oo :: ow :: rest) data = .ok s' :=
  (exchange_prune hi hu).2 ⟨dex, tok, m, b, k, _, oo, ow, rest, rfl, hd, ht, .inl rfl, hx⟩

theorem wares_one {E : ExEnv} : OnePda (wares E) := by
  exact Nat.le_refl 1

/-- The addresses the exchange can sign for. -/
def Derived (E : ExEnv) (k : Nat) : Prop :=
  (∃ m u, k = E.X.pda m u) ∨ (∃ m u b, E.X.createPda m u b = some k) ∨ (∃ m b, E.X.createInit m b = some k) ∨ ∃ m, k = E.prune m

theorem maySignFor_derived {E : ExEnv} {accts : List AccMeta} {ix : Instruction} {k : Nat} (h : MaySignFor E.X accts ix k) :
    Derived E k := by
  obtain ⟨im, iu, io, m, u, _, _, _, _, h⟩ := h
  split at h
  · obtain ⟨b, h | h⟩ := h
    · exact .inr (.inl ⟨_, _, _, h⟩)
    · exact .inr (.inr (.inl ⟨_, _, h⟩))
  · exact .inl ⟨_, _, h⟩

/-- C85. Everything proved about the DEX applies to the exchange's markets: a run leads from reachable to reachable states.
The vault signer is not among the exchange's addresses, and neither it nor the identity token has a key. -/
theorem exchange_reach {E : ExEnv} {P : Params} {env : Env} {s s' : State conc} {accts : List AccMeta} {data : List UInt8}
    (hr : Reach P s) (hn : NotVault P s.mkt accts)
    (hv : ∀ k, Derived E k → P.vaultSigner s.mkt.ownAddress s.mkt.vaultSignerNonce ≠ some k)
    (ht : ∀ a ∈ accts, a.key = E.X.rentId → a.signer = false)
    (h : Exchange.run conc E P env s accts data = .ok s') : Reach P s' := by
  have h0 := h
  rcases ex_split h with ⟨rfl, _⟩ |
    ⟨dex, l, b, bi, d, ix, k, c1, c, l1, s1, l2, rfl, hd, hi, hu, hm, hlen, hid, hh, ht1, hc, hx, ht2, rfl⟩
  · exact hr
  · have hval : IxValid ix := by
      obtain ⟨_, _, _, hv, _⟩ := decoding_is_strict _ _ hu
      exact hv
    have dir : ∀ {relayed : List AccMeta} {s2 : State conc}, process conc P env s relayed ix = .ok s2 →
        (∀ a ∈ relayed, a.signer = true → a ∈ dex :: l ∨ signs (dex :: l) a.key = true ∨ Derived E a.key) → Reach P s2 := by
      intro relayed s2 hx ha
      refine hr.step (.instr (env := env) (accts := relayed) (data := ix.pack) ?_ ?_)
      · intro a hm hs
        rcases ha a hm hs with h | h | h
        · exact hn a h hs
        · obtain ⟨b, hb, hb'⟩ := List.any_eq_true.1 h
          simp only [Bool.and_eq_true, beq_iff_eq] at hb'
          rw [← hb'.1]
          exact hn b hb hb'.2
        · exact hv _ h
      · unfold processRaw
        rw [instruction_round_trip ix hval]
        exact hx
    by_cases hro : roles ix = none
    · cases ix with
      | prune n =>
        obtain ⟨dex', tok, m, b, k, a, oo, ow, rest, e, _, _, ha, hx⟩ := (exchange_prune hi hu).1 h0
        refine dir hx ?_
        rw [e] at *
        intro x hm hs
        simp only [List.mem_cons] at hm
        rcases hm with rfl | rfl | rfl | rfl | rfl | rfl | h
        case inr.inr.inr.inl =>
          rcases ha with ha | ha
          · exact .inr (.inr (.inr (.inr (.inr ⟨m.key, ha⟩))))
          · exact .inr (.inl ha)
        all_goals exact .inl (by simp [*])
      | consumeEventsPermissioned n =>
        obtain ⟨dex', tok, us, m, q, a, e, _, _, ha, hx⟩ := (exchange_crank hi hu).1 h0
        refine dir hx ?_
        rw [e] at *
        intro x hm hs
        simp only [List.mem_append, List.mem_cons, List.not_mem_nil, or_false] at hm
        rcases hm with h | rfl | rfl | rfl
        case inr.inr.inr =>
          rcases ha with ha | ha
          · exact .inr (.inr (.inr (.inr (.inr ⟨m.key, ha⟩))))
          · exact .inr (.inl ha)
        all_goals exact .inl (by simp [*])
      | consumeEvents n =>
        obtain ⟨dex', l', e, _, hx⟩ := exchange_consume hi hu h0
        refine dir hx ?_
        cases e
        exact fun a ha _ => .inl (by simp [ha])
      | _ => first | (cases hm; done) | (cases hro; done)
    · obtain ⟨dex', tok, l', e, _, _, hp⟩ := exchange_user hi hu hro ht h0
      refine proxy_reach wares_one hr ?_ (fun _ k hk => hv k (maySignFor_derived hk)) hp
      rw [e] at hn
      intro a ha hs
      refine hn a ?_ hs
      simp only [List.mem_cons] at ha ⊢
      rcases ha with h | h
      · exact .inl h
      · exact .inr (.inr h)

end Serum.Props
