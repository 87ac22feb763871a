import Verif.ChainHist
import Verif.PropsDocs
import Verif.PropsClaims

/-
C67-C71: the whole chain. Any number of markets live in one account space; anybody may send any instruction with any
accounts and any bytes. The theorems about one market in decoded form hold for each of them, on the bytes.
-/

namespace Serum.Props

variable {P : Params} {n : Nat} {c c' : Chain}

/-- The account at `k` passes as the market `m`. -/
def IsMarket (c : Chain) (k : Nat) (m : Market) : Prop :=
  loadMarketBytes (c.accs k).owned (c.accs k).data true = .ok m

/-- The account at `a` passes as an open-orders account of the market at `k`. -/
def IsOrders (c : Chain) (k a : Nat) : Prop := ∃ o, ooOf k (c.accs a) = some o

/-! ### C67 -/

/-- C67. On every reachable chain an account that passes as a market belongs to a market whose accounts all load, and
(if its lot sizes are positive) to a state of that market's own history: every theorem about `Reach` applies. -/
theorem chain_markets (hP : VaultsDiffer P) (h : CReach P n c) (hn : n < 2 ^ 61) {k : Nat} {m : Market}
    (hm : IsMarket c k m) :
    ∃ s, Rep c k s ∧ s.mkt = m ∧ s.seq ≤ W64 ∧ (0 < m.coinLot → 0 < m.pcLot → Reach P s) := by
  obtain ⟨M, I⟩ := h.holds hP hn
  obtain ⟨s, hM, rfl⟩ := I.found hm
  have mi := I.mkts _ _ hM
  exact ⟨s, mi.rep, rfl, by have := mi.seq; simp only [W64]; omega, mi.reach⟩

/-- C67. Each account the program owns is blank, or one of the accounts of exactly one market, or an open-orders
account of exactly one market. -/
theorem chain_accounts (hP : VaultsDiffer P) (h : CReach P n c) (hn : n < 2 ^ 61) {a : Nat}
    (ha : (c.accs a).owned = true) :
    (∃ l, (c.accs a).data = zeros l) ∨
    (∃ k m, IsMarket c k m ∧ a ∈ m.own ∧ (∀ k' m', IsMarket c k' m' → a ∈ m'.own → k' = k) ∧ ∀ k', ¬ IsOrders c k' a) ∨
    (∃ k m, IsMarket c k m ∧ IsOrders c k a ∧ (∀ k', IsOrders c k' a → k' = k) ∧ ∀ k' m', IsMarket c k' m' → a ∉ m'.own) := by
  obtain ⟨M, I⟩ := h.holds hP hn
  rcases I.kinds a ha with h | ⟨k, s, hM, hk⟩
  · exact .inl h
  · have r := (I.mkts _ _ hM).rep
    have apart : ∀ k' m' k'', IsMarket c k' m' → a ∈ m'.own → ¬ IsOrders c k'' a := by
      rintro k' m' k'' hm hin ⟨o, ho⟩
      obtain ⟨u, hu, rfl⟩ := I.found hm
      have h1 := (I.mkts _ _ hu).rep.nonzero hin
      have h2 := ooOf_word ho
      omega
    rcases hk with hk | ⟨o, ho⟩
    · refine .inr (.inl ⟨k, s.mkt, r.market, hk, ?_, fun k' => apart _ _ _ r.market hk⟩)
      intro k' m' hm hin
      obtain ⟨u, hu, rfl⟩ := I.found hm
      by_cases e : k' = k
      · exact e
      · exact absurd hk (I.disjoint _ _ _ _ hu hM e a hin)
    · rw [r.oos] at ho
      exact .inr (.inr ⟨k, s.mkt, r.market, ⟨o, ho⟩, fun k' ⟨o', h⟩ => ooOf_unique h ho,
        fun k' m' hm hin => apart _ _ _ hm hin ⟨o, ho⟩⟩)

/-- States with the same accounts are represented alike. -/
theorem rep_congr {k : Nat} {s t : State conc} (h : Rep c k s) (hn : Serum.Near (fun _ => True) s t) : Rep c k t := by
  obtain ⟨hr, ho⟩ := hn
  generalize t.oos = l at *
  subst hr
  obtain ⟨h1, h2, h3, h4, h5, h6, h7, h8, h9, h10⟩ := h
  exact ⟨h1, h2, h3, h4, h5, h6, h7, h8, fun a => (ho a trivial).trans (h9 a), h10⟩

/-- The bytes determine the state, but for the order in which the open-orders accounts are listed. -/
theorem rep_unique {k : Nat} {s t : State conc} (h : Rep c k s) (g : Rep c k t) : Serum.Near (fun _ => True) s t := by
  refine ⟨?_, fun a _ => by rw [h.oos, g.oos]⟩
  have e1 := h.load []
  rw [g.load []] at e1
  have e1 := Except.ok.inj e1
  have : ({ t with oos := t.oos } : State conc) = { s with oos := t.oos } :=
    congrArg (fun x : State conc => { x with oos := t.oos }) e1
  exact this

/-- An instruction that succeeds names the market where it should. -/
theorem names_market {I : Impl} {env : Env} {s s' : State I} {accts : List AccMeta} {ix : Instruction}
    (h : process I P env s accts ix = .ok s') (hm : ∀ l, ix ≠ .matchOrders l) :
    marketAt ix accts = some s.mkt.ownAddress := by
  have load : ∀ {m : AccMeta} {b : Bool}, loadMarket s.toCore m b = .ok () → m.key = s.mkt.ownAddress := by
    intro m b h
    unfold loadMarket at h
    obtain ⟨_, h1, _⟩ := bind_ok h
    simpa using checkAssert_ok.1 h1
  have load' : ∀ {m : AccMeta} {b : Bool}, orAssert (loadMarket s.toCore m b) = .ok () → m.key = s.mkt.ownAddress := by
    intro m b h
    refine load (b := b) ?_
    unfold orAssert at h
    split at h
    · rename_i e; exact e
    · cases h
  have cancel : ∀ {a : CancelAccts} {o : OpenOrders}, cancelArgs env s.toCore a = .ok o → a.market.key = s.mkt.ownAddress := by
    intro a o h
    unfold cancelArgs at h
    obtain ⟨_, h1, _⟩ := bind_ok h
    exact load' h1
  have first : ∀ {a : CancelAccts}, parseCancel accts = .ok a → (accts[0]?).map (·.key) = some a.market.key := by
    intro a h
    unfold parseCancel at h
    split at h
    · cases h; rfl
    · cases h
  have byIds : ∀ {l : List AccMeta} {ids : List Nat} {t : State I}, cancelByClientIds I env s l ids = .ok t →
      (l[0]?).map (·.key) = some s.mkt.ownAddress := by
    intro l ids t h
    unfold cancelByClientIds at h
    obtain ⟨a, h1, h⟩ := bind_ok h
    obtain ⟨o, h2, _⟩ := bind_ok h
    unfold parseCancel at h1
    split at h1
    · cases h1; rw [← cancel h2]; rfl
    · cases h1
  have replace : ∀ {ixs : List NewOrderIx}, replaceOrders I P env s accts ixs = .ok s' →
      (accts[0]?).map (·.key) = some s.mkt.ownAddress := by
    intro ixs h
    unfold replaceOrders at h
    obtain ⟨ca, h1, h⟩ := bind_ok h
    obtain ⟨t, h2, _⟩ := bind_ok h
    have := byIds h2
    unfold replaceCancelAccts at h1
    split at h1
    · rename_i e _ _ _ _ _
      cases h1
      rw [e]
      exact this
    · cases h1
  cases ix with
  | initializeMarket => cases h
  | newOrder => cases h
  | matchOrders l => exact absurd rfl (hm l)
  | cancelOrder => cases h
  | cancelOrderByClientId => cases h
  | newOrderV2 => cases h
  | consumeEvents l =>
    have h : consumeEvents I P env s accts l = .ok s' := h
    unfold consumeEvents at h
    obtain ⟨_, h1, h⟩ := bind_ok h
    have h1 : 5 ≤ accts.length := by simpa using checkAssert_ok.1 h1
    split at h
    · rename_i m e _ hd
      obtain ⟨_, h2, _⟩ := bind_ok h
      have := congrArg (fun l => (l[0]?).map (·.key)) hd
      simp only [List.getElem?_drop, Nat.add_zero, List.getElem?_cons_zero, Option.map_some] at this
      simp only [marketAt, if_pos h1, this, load h2]
    · cases h
  | consumeEventsPermissioned l =>
    have h : consumeEventsPermissioned I P env s accts l = .ok s' := h
    unfold consumeEventsPermissioned at h
    obtain ⟨_, h1, h⟩ := bind_ok h
    have h1 : 4 ≤ accts.length := by simpa using checkAssert_ok.1 h1
    split at h
    · rename_i m e _ _ hd
      obtain ⟨_, h2, _⟩ := bind_ok h
      have := congrArg (fun l => (l[0]?).map (·.key)) hd
      simp only [List.getElem?_drop, Nat.add_zero, List.getElem?_cons_zero, Option.map_some] at this
      simp only [marketAt, if_pos h1, this, load h2]
    · cases h
  | settleFunds =>
    have h : settleFunds I P env s accts = .ok s' := h
    unfold settleFunds at h
    obtain ⟨a, h1, h⟩ := bind_ok h
    obtain ⟨o, h2, _⟩ := bind_ok h
    have hk : a.market.key = s.mkt.ownAddress := by
      unfold settleArgs at h2
      obtain ⟨_, _, h2⟩ := bind_ok h2
      obtain ⟨_, h3, _⟩ := bind_ok h2
      exact load h3
    unfold parseSettle at h1
    split at h1
    · cases h1; rw [← hk]; rfl
    · cases h1; rw [← hk]; rfl
    · cases h1
  | disableMarket =>
    have h : disableMarket I P s accts = .ok s' := h
    unfold disableMarket at h
    split at h
    · obtain ⟨_, h2, _⟩ := bind_ok h
      rw [← load h2]; rfl
    · cases h
  | sweepFees =>
    have h : sweepFees I P s accts = .ok s' := h
    unfold sweepFees at h
    split at h
    · obtain ⟨_, h2, _⟩ := bind_ok h
      rw [← load h2]; rfl
    · cases h
  | newOrderV3 ix =>
    have h : newOrderV3 I P env s accts ix = .ok s' := h
    unfold newOrderV3 at h
    obtain ⟨a, h1, h⟩ := bind_ok h
    obtain ⟨o, h2, _⟩ := bind_ok h
    have hk : a.market.key = s.mkt.ownAddress := by
      unfold newOrderArgs at h2
      obtain ⟨_, _, h2⟩ := bind_ok h2
      obtain ⟨_, h3, _⟩ := bind_ok h2
      exact load h3
    unfold parseNewOrder at h1
    split at h1
    · split at h1
      · cases h1; rw [← hk]; rfl
      · cases h1
    · cases h1
  | sendTake ix =>
    have h : sendTake I P s accts ix = .ok s' := h
    unfold sendTake at h
    obtain ⟨a, h1, h⟩ := bind_ok h
    obtain ⟨o, h2, _⟩ := bind_ok h
    have hk : a.market.key = s.mkt.ownAddress := by
      unfold sendTakeArgs at h2
      obtain ⟨_, _, h2⟩ := bind_ok h2
      obtain ⟨_, h3, _⟩ := bind_ok h2
      exact load h3
    unfold parseSendTake at h1
    split at h1
    · split at h1
      · cases h1; rw [← hk]; rfl
      · cases h1
    · cases h1
  | cancelOrderV2 sd id =>
    have h : cancelV2 I env s accts sd id = .ok s' := h
    unfold cancelV2 at h
    obtain ⟨a, h1, h⟩ := bind_ok h
    obtain ⟨o, h2, _⟩ := bind_ok h
    show (accts[0]?).map (·.key) = _
    rw [first h1, cancel h2]
  | cancelOrderByClientIdV2 cid =>
    have h : cancelByClientIdV2 I env s accts cid = .ok s' := h
    unfold cancelByClientIdV2 at h
    obtain ⟨a, h1, h⟩ := bind_ok h
    obtain ⟨_, _, h⟩ := bind_ok h
    obtain ⟨o, h2, _⟩ := bind_ok h
    show (accts[0]?).map (·.key) = _
    rw [first h1, cancel h2]
  | closeOpenOrders =>
    have h : closeOpenOrders I env s accts = .ok s' := h
    unfold closeOpenOrders at h
    split at h
    · obtain ⟨_, _, h⟩ := bind_ok h
      obtain ⟨_, h2, _⟩ := bind_ok h
      rw [← load h2]; rfl
    · cases h
  | initOpenOrders =>
    have h : initOpenOrders I env s accts = .ok s' := h
    unfold initOpenOrders at h
    split at h
    · split at h
      · obtain ⟨_, _, h⟩ := bind_ok h
        obtain ⟨_, _, h⟩ := bind_ok h
        obtain ⟨_, h2, _⟩ := bind_ok h
        rw [← load h2]; rfl
      · cases h
    · cases h
  | prune l =>
    have h : prune I env s accts l = .ok s' := h
    unfold prune at h
    split at h
    · obtain ⟨_, _, h⟩ := bind_ok h
      obtain ⟨_, h2, _⟩ := bind_ok h
      rw [← load h2]; rfl
    · cases h
  | cancelOrdersByClientIds ids => exact byIds h
  | replaceOrderByClientId ix => exact replace h
  | replaceOrdersByClientIds ixs => exact replace h


/-- Instructions for an existing market. -/
def ForMarket (ix : Instruction) : Prop := (∀ i, ix ≠ .initializeMarket i) ∧ ∀ l, ix ≠ .matchOrders l

theorem exec_eq {mints : Nat → Bool} {now : Int} {accts : List AccMeta} {data : List UInt8} {ix : Instruction}
    (hu : Instruction.unpack data = some ix) (hf : ForMarket ix) {k : Nat} (hmk : marketAt ix accts = some k) :
    execBytes P mints now c accts data = do
      let s ← loadState c k (accts.map (·.key))
      let s' ← process conc P (envOf now c) s accts ix
      return storeState c k s s' (accts.map (·.key)) := by
  unfold execBytes
  rw [hu]
  obtain ⟨h1, h2⟩ := hf
  cases ix <;> first
    | exact absurd rfl (h1 _)
    | exact absurd rfl (h2 _)
    | (simp only [hmk]; rfl)

/-- C67. On the bytes an instruction for a market does exactly what it does on the state the bytes stand for: it
succeeds or fails alike, with the same error, and afterwards the bytes stand for the new state. -/
theorem chain_exec (hP : VaultsDiffer P) (h : CReach P n c) (hn : n + 1 < 2 ^ 61) {accts : List AccMeta}
    (hk : ∀ a ∈ accts, a.key < 256 ^ 32) (hs : ∀ a ∈ accts, a.signer = true → ∀ k n, P.vaultSigner k n ≠ some a.key)
    {data : List UInt8} {ix : Instruction} (hu : Instruction.unpack data = some ix) (hf : ForMarket ix)
    {k : Nat} (hmk : marketAt ix accts = some k) {s : State conc} (hr : Rep c k s) (mints : Nat → Bool) (now : Int) :
    (∀ s', process conc P (envOf now c) s accts ix = .ok s' →
      ∃ c', execBytes P mints now c accts data = .ok c' ∧ Rep c' k s') ∧
    (∀ e, process conc P (envOf now c) s accts ix = .error e → execBytes P mints now c accts data = .error e) := by
  obtain ⟨M, I⟩ := h.holds hP (by omega)
  obtain ⟨s0, hM, _⟩ := I.found hr.market
  rw [exec_eq hu hf hmk, hr.load]
  have nr := hr.near (accts.map (·.key))
  have sim := near_process P (envOf now c) nr (fun a ha => List.mem_map_of_mem ha) ix
  refine ⟨fun s' e => ?_, fun e' e => ?_⟩
  · obtain ⟨t', ht', nr'⟩ := Sim.ok_right sim e
    obtain ⟨s1, s1', hM1, hp1, d, es⟩ := I.exec hP hn hk hs hu (hr.load _) ht'
    rw [hM] at hM1
    cases hM1
    have r0 := (I.mkts _ _ hM).rep
    have J := (I.store hM d).mkts k s1' (by simp [Markets.put])
    obtain ⟨s2, h2, n2⟩ := Sim.ok_right (near_process P (envOf now c) (rep_unique r0 hr) (fun _ _ => trivial) ix) hp1
    rw [e] at h2
    cases h2
    refine ⟨_, ?_, rep_congr J.rep n2⟩
    show (process conc P (envOf now c) _ accts ix >>= _) = _
    rw [ht', ← es]
    rfl
  · rw [e] at sim
    show (process conc P (envOf now c) _ accts ix >>= _) = _
    revert sim
    cases process conc P (envOf now c) { s with oos := loadedOos c k (accts.map (·.key)) } accts ix with
    | ok _ => exact fun h => h.elim
    | error _ => intro h; cases h; rfl

/-- C67. An instruction whose market account does not pass as a market fails. -/
theorem chain_no_market {mints : Nat → Bool} {now : Int} {accts : List AccMeta} {data : List UInt8} {ix : Instruction}
    (hu : Instruction.unpack data = some ix) (hf : ForMarket ix)
    (hm : ∀ k, marketAt ix accts = some k → ∀ m, ¬ IsMarket c k m) : ∃ e, execBytes P mints now c accts data = .error e := by
  cases h : execBytes P mints now c accts data with
  | error e => exact ⟨e, rfl⟩
  | ok c' =>
    exfalso
    rcases exec_cases h with ⟨i, _, hu', _⟩ | ⟨l, hu', _⟩ | ⟨ix', k, s, s', hu', hk, hl, _⟩
    · rw [hu] at hu'; exact hf.1 i (Option.some.inj hu')
    · rw [hu] at hu'; exact hf.2 l (Option.some.inj hu')
    · rw [hu] at hu'
      cases hu'
      unfold loadState at hl
      obtain ⟨m, e, _⟩ := bind_ok hl
      exact hm k hk m e

/-! ### C68 -/

theorem created_other {W : Accs} {i : InitMarketIx} {G : Given} {a : Nat} (h : a ∉ G.own) : created W i G a = W a := by
  simp only [Given.own, List.mem_cons, List.not_mem_nil, or_false, not_or] at h
  obtain ⟨h1, h2, h3, h4, h5⟩ := h
  unfold created
  simp only [setData, if_neg h1, if_neg h2, if_neg h3, if_neg h4, if_neg h5]

/-- C68. Markets do not interfere: an instruction that succeeds leaves every account of every market other than the
one it is for as it was, and their vaults do not lose tokens. -/
theorem chain_isolated (hP : VaultsDiffer P) (h : CReach P n c) (hn : n + 1 < 2 ^ 61) {accts : List AccMeta}
    (hk : ∀ a ∈ accts, a.key < 256 ^ 32) (hs : ∀ a ∈ accts, a.signer = true → ∀ k n, P.vaultSigner k n ≠ some a.key)
    {data : List UInt8} {ix : Instruction} (hu : Instruction.unpack data = some ix) {mints : Nat → Bool} {now : Int}
    (hx : execBytes P mints now c accts data = .ok c') {k : Nat} {m : Market} (hm : IsMarket c k m)
    (hne : marketAt ix accts ≠ some k) :
    (∀ a, a ∈ m.own ∨ IsOrders c k a → c'.accs a = c.accs a) ∧ (∀ a, IsOrders c' k a → IsOrders c k a) ∧
    (0 < m.coinLot → 0 < m.pcLot → ∀ v, v = m.coinVault ∨ v = m.pcVault → bal c.toks v ≤ bal c'.toks v) := by
  obtain ⟨M, I⟩ := h.holds hP (by omega)
  obtain ⟨u, hM, rfl⟩ := I.found hm
  have ru := (I.mkts _ _ hM).rep
  rcases exec_cases hx with ⟨i, W, hu', hW, rfl⟩ | ⟨_, _, rfl⟩ | ⟨ix', k', t, t', hu', hk', hl, hp, rfl⟩
  · obtain ⟨G, _, ok, hW'⟩ := (init_market_iff I.bytes).1 hW
    have blank : ∀ a ∈ G.own, flagsWord (c.accs a).data = 0 := by
      intro a ha
      obtain ⟨l, hl⟩ := ok.blank a ha
      rw [hl]
      exact flagsWord_zeros l
    obtain ⟨_, _, _, hv, _⟩ := decoding_is_strict _ _ hu'
    obtain ⟨G', _, _, _, _, _, _, _, _, _, hnone, J⟩ := I.init hk hv hW
    have hkk : k ≠ G'.market := by rintro rfl; rw [hnone] at hM; cases hM
    have ru' := (J.mkts k u (by simp [hkk, hM])).rep
    refine ⟨?_, ?_, fun _ _ _ _ => Nat.le_refl _⟩
    · intro a ha
      have hn : a ∉ G.own := by
        intro hg
        have h0 := blank a hg
        rcases ha with ha | ⟨o, ha⟩
        · have := ru.nonzero ha; omega
        · have := ooOf_word ha; omega
      show W a = c.accs a
      rw [hW']
      exact created_other hn
    · rintro a ⟨o, ho⟩
      exact ⟨o, by rw [← ru.oos a, ru'.oos a]; exact ho⟩
  · exact ⟨fun _ _ => rfl, fun _ h => h, fun _ _ _ _ => Nat.le_refl _⟩
  · rw [hu] at hu'
    cases hu'
    obtain ⟨s, s', hM', _, d, e⟩ := I.exec hP hn hk hs hu hl hp
    rw [e]
    have r := (I.mkts _ _ hM').rep
    have hkk : k ≠ k' := by rintro rfl; exact hne hk'
    have J := (I.store hM' d).mkts k { u with toks := s'.toks } (by simp [Markets.put, hkk, hM])
    refine ⟨fun a ha => store_frame r ru hkk (I.disjoint _ _ _ _ hM hM' hkk) d.ord ha, ?_, ?_⟩
    · rintro a ⟨o, ho⟩
      rw [← J.rep.oos a] at ho
      exact ⟨o, by rw [← ru.oos a]; exact ho⟩
    · intro hc hp v hv
      have := d.vaults k u hM hkk hc hp v hv
      rwa [r.toks] at this

/-- C68. Different markets share no account, and no vault. -/
theorem chain_disjoint (hP : VaultsDiffer P) (h : CReach P n c) (hn : n < 2 ^ 61) {k k' : Nat} {m m' : Market}
    (hm : IsMarket c k m) (hm' : IsMarket c k' m') (hne : k ≠ k') :
    (∀ a ∈ m.own, a ∉ m'.own) ∧ (0 < m.coinLot → 0 < m.pcLot → 0 < m'.coinLot → 0 < m'.pcLot →
      ∀ v, v = m.coinVault ∨ v = m.pcVault → v ≠ m'.coinVault ∧ v ≠ m'.pcVault) := by
  obtain ⟨M, I⟩ := h.holds hP hn
  obtain ⟨s, hM, rfl⟩ := I.found hm
  obtain ⟨u, hM', rfl⟩ := I.found hm'
  refine ⟨I.disjoint _ _ _ _ hM hM' hne, ?_⟩
  intro h1 h2 h3 h4 v hv
  have mi := I.mkts _ _ hM
  have mu := I.mkts _ _ hM'
  have q1 : s.seq ≤ W64 := by have := mi.seq; simp only [W64]; omega
  have q2 : u.seq ≤ W64 := by have := mu.seq; simp only [W64]; omega
  obtain ⟨t, ht, _, _, e⟩ := (vault_solvency (mi.reach h1 h2) q1).2.2.2 v hv
  have key : ¬ (v = u.mkt.coinVault ∨ v = u.mkt.pcVault) := by
    intro hv'
    obtain ⟨t', ht', _, _, e'⟩ := (vault_solvency (mu.reach h3 h4) q2).2.2.2 v hv'
    rw [mi.rep.toks] at ht
    rw [mu.rep.toks, ht] at ht'
    cases ht'
    have := hP _ _ _ _ _ e e'
    rw [mi.rep.own, mu.rep.own] at this
    exact hne this
  exact ⟨fun e => key (.inl e), fun e => key (.inr e)⟩

/-! ### C69 -/

/-- C69. An instruction that succeeds changes only accounts that are given where the documentation says writable; owner and
size of no account change. (`exempt` is a parameter of the chain that only `CStep.alter` changes; the lamports
`CloseOpenOrders` moves are in `Rent`, C92.) -/
theorem chain_writes (hP : VaultsDiffer P) (h : CReach P n c) (hn : n + 1 < 2 ^ 61) {accts : List AccMeta}
    (hk : ∀ a ∈ accts, a.key < 256 ^ 32) (hs : ∀ a ∈ accts, a.signer = true → ∀ k n, P.vaultSigner k n ≠ some a.key)
    {data : List UInt8} {ix : Instruction} (hu : Instruction.unpack data = some ix) {mints : Nat → Bool} {now : Int}
    (hx : execBytes P mints now c accts data = .ok c') (a : Nat) :
    (c'.accs a ≠ c.accs a ∨ c'.toks a ≠ c.toks a → ∃ i ∈ docWritable accts.length ix, keyAt accts i = some a) ∧
    (c'.accs a).owned = (c.accs a).owned ∧ (c'.accs a).exempt = (c.accs a).exempt ∧
    (c'.accs a).data.length = (c.accs a).data.length := by
  obtain ⟨M, I⟩ := h.holds hP (by omega)
  rcases exec_cases hx with ⟨i, W, hu', hW, rfl⟩ | ⟨_, _, rfl⟩ | ⟨ix', k', t, t', hu', hk', hl, hp, rfl⟩
  · rw [hu] at hu'
    cases hu'
    obtain ⟨G, hG, ok, hW'⟩ := (init_market_iff I.bytes).1 hW
    refine ⟨?_, ?_⟩
    · rintro (hc | hc)
      · have hin : a ∈ G.own := by
          by_cases hin : a ∈ G.own
          · exact hin
          · exact absurd (by show W a = _; rw [hW']; exact created_other hin) hc
        have key : ∀ j, (G.keys[j]? = some a) → keyAt accts j = some a := by
          intro j hj
          unfold keyAt
          rw [← List.getElem?_map, hG]
          exact hj
        simp only [Given.own, List.mem_cons, List.not_mem_nil, or_false] at hin
        rcases hin with rfl | rfl | rfl | rfl | rfl
        · exact ⟨0, by simp [docWritable], key _ rfl⟩
        · exact ⟨1, by simp [docWritable], key _ rfl⟩
        · exact ⟨2, by simp [docWritable], key _ rfl⟩
        · exact ⟨3, by simp [docWritable], key _ rfl⟩
        · exact ⟨4, by simp [docWritable], key _ rfl⟩
      · exact absurd rfl hc
    · show (W a).owned = _ ∧ (W a).exempt = _ ∧ (W a).data.length = _
      rw [hW']
      exact ⟨(created_meta _ _ _ a).1, (created_meta _ _ _ a).2, created_length ok a⟩
  · exact ⟨fun h => h.elim (absurd rfl) (absurd rfl), rfl, rfl, rfl⟩
  · rw [hu] at hu'
    cases hu'
    obtain ⟨s, s', hM', hp', d, e⟩ := I.exec hP hn hk hs hu hl hp
    rw [e]
    have mi := I.mkts _ _ hM'
    refine ⟨fun hc => writes_documented hp' ?_, rfl, rfl, store_lengths mi.rep d.upd mi.key d.ord a⟩
    rcases hc with hc | hc
    · have hc : putData k' s s' (accts.map (·.key)) a (c.accs a).data ≠ (c.accs a).data := by
        intro e
        apply hc
        unfold storeState
        simp only [e]
      unfold putData at hc
      unfold Changed
      repeat' split at hc
      all_goals first
        | exact absurd rfl hc
        | skip
      · rename_i e1 e2; exact .inl ⟨e1.trans mi.rep.own.symm, e2⟩
      · rename_i e1 e2; exact .inr (.inr (.inr (.inr (.inl ⟨e1, .inl e2⟩))))
      · rename_i e1 e2; exact .inr (.inr (.inr (.inl ⟨e1, e2⟩)))
      · rename_i e1 e2; exact .inr (.inr (.inl ⟨e1, e2⟩))
      · rename_i e1 e2; exact .inr (.inl ⟨e1, e2⟩)
      · rename_i o e1 e2
        exact .inr (.inr (.inr (.inr (.inr (.inl (by rw [e1]; exact fun e => e2 e.symm))))))
    · rw [← mi.rep.toks] at hc
      exact .inr (.inr (.inr (.inr (.inr (.inr hc)))))


/-! ### C70 -/

/-- Free base units recorded in an account, if it passes as open-orders account of the market at `k`. -/
def freeBase (c : Chain) (k a : Nat) : Nat := match ooOf k (c.accs a) with | some o => o.coinFree | none => 0
/-- Free quote units recorded in an account. -/
def freeQuote (c : Chain) (k a : Nat) : Nat := match ooOf k (c.accs a) with | some o => o.pcFree | none => 0

/-- Looking up distinct keys gives at most the sum of all entries. -/
theorem total_lookup (f : OpenOrders → Nat) (l : List (Nat × OpenOrders)) {L : List Nat} (hL : L.Nodup) :
    total (fun a => match ooAt l a with | some o => f o | none => 0) L ≤ total (fun x => f x.2) l := by
  induction l generalizing L with
  | nil =>
    have : total (fun a => match ooAt ([] : List (Nat × OpenOrders)) a with | some o => f o | none => 0) L = 0 := by
      clear hL
      induction L with
      | nil => rfl
      | cons a L ih => simp only [total, List.map_cons, List.sum_cons] at ih ⊢; rw [ih]; rfl
    omega
  | cons p l ih =>
    obtain ⟨b, o⟩ := p
    have e : ∀ a, ooAt ((b, o) :: l) a = if a = b then some o else ooAt l a := by
      intro a
      unfold ooAt
      rw [List.lookup_cons]
      by_cases h : a = b
      · simp [h]
      · have : (a == b) = false := by simpa using h
        simp [h, this]
    have split : ∀ {K : List Nat}, K.Nodup →
        total (fun a => match ooAt ((b, o) :: l) a with | some o => f o | none => 0) K ≤
        f o + total (fun a => match ooAt l a with | some o => f o | none => 0) (K.filter (· ≠ b)) := by
      intro K
      induction K with
      | nil => intro _; simp [total]
      | cons a K ihK =>
        intro hK
        have hK' := List.nodup_cons.1 hK
        by_cases h : a = b
        · subst h
          have h1 : K.filter (· ≠ a) = K := by
            apply List.filter_eq_self.2
            intro x hx
            simp only [ne_eq, decide_not, Bool.not_eq_eq_eq_not, Bool.not_true, decide_eq_false_iff_not]
            rintro rfl
            exact hK'.1 hx
          have h2 : total (fun x => match ooAt ((a, o) :: l) x with | some o => f o | none => 0) K =
              total (fun x => match ooAt l x with | some o => f o | none => 0) K := by
            unfold total
            congr 1
            apply List.map_congr_left
            intro x hx
            have : x ≠ a := by rintro rfl; exact hK'.1 hx
            rw [e, if_neg this]
          have h3 : (a :: K).filter (· ≠ a) = K := by rw [List.filter_cons_of_neg (by simp), h1]
          rw [h3]
          simp only [total, List.map_cons, List.sum_cons] at h2 ⊢
          rw [h2, e, if_pos rfl]
          exact Nat.le_refl _
        · have h3 : (a :: K).filter (· ≠ b) = a :: K.filter (· ≠ b) := List.filter_cons_of_pos (by simpa using h)
          have := ihK hK'.2
          rw [h3]
          simp only [total, List.map_cons, List.sum_cons] at this ⊢
          rw [e, if_neg h]
          omega
    have h1 := split hL
    have h2 := ih (L := L.filter (· ≠ b)) (hL.sublist List.filter_sublist)
    simp only [total, List.map_cons, List.sum_cons] at h1 h2 ⊢
    omega

/-- C70. The vaults of every market on the chain cover, all at once, the free balances recorded in any accounts that
pass as its open-orders accounts, everything behind the orders in its book accounts, and its fees and rebates. -/
theorem chain_solvency (hP : VaultsDiffer P) (h : CReach P n c) (hn : n < 2 ^ 61) {k : Nat} {m : Market}
    (hm : IsMarket c k m) (hc : 0 < m.coinLot) (hp : 0 < m.pcLot) {L : List Nat} (hL : L.Nodup) :
    ∃ asks bids, loadBookBytes .ask (c.accs m.asks).data = .ok asks ∧
      (m.bids ≠ m.asks → loadBookBytes .bid (c.accs m.bids).data = .ok bids) ∧ (m.bids = m.asks → bids = asks) ∧
      total (freeBase c k) L + total (askValue m) asks.contents ≤ bal c.toks m.coinVault ∧
      total (freeQuote c k) L + total (bidValue m) bids.contents + m.pcFees + m.referrerRebates ≤ bal c.toks m.pcVault ∧
      (m.coinVault = m.pcVault →
        total (freeBase c k) L + total (askValue m) asks.contents + (total (freeQuote c k) L + total (bidValue m) bids.contents +
          m.pcFees + m.referrerRebates) ≤ bal c.toks m.coinVault) := by
  obtain ⟨s, r, rfl, hq, hr⟩ := chain_markets hP h hn hm
  have hr := hr hc hp
  have b := base_conservation hr hq
  have q := quote_conservation hr hq
  obtain ⟨v1, v2, v3, _⟩ := vault_solvency hr hq
  rw [r.toks] at v1 v2 v3
  have e1 := total_lookup (·.coinFree) s.oos hL
  have e2 := total_lookup (·.pcFree) s.oos hL
  have f1 : total (freeBase c k) L ≤ total (fun x => x.2.coinFree) s.oos := by
    refine Nat.le_trans (Nat.le_of_eq ?_) e1
    unfold total
    congr 1
    apply List.map_congr_left
    intro a _
    unfold freeBase
    rw [r.oos]
  have f2 : total (freeQuote c k) L ≤ total (fun x => x.2.pcFree) s.oos := by
    refine Nat.le_trans (Nat.le_of_eq ?_) e2
    unfold total
    congr 1
    apply List.map_congr_left
    intro a _
    unfold freeQuote
    rw [r.oos]
  refine ⟨s.asks, s.bids, r.asks, r.bids, r.same, by omega, by omega, fun e => ?_⟩
  have := v3 e
  omega

/-! ### C71 -/

theorem act_owner {env : Env} {accts : List AccMeta} {s s' : State conc} (h : Reach P s)
    (hn : NotVault P s.mkt accts) (hq : s'.seq ≤ W64) (ha : Act P env accts s s') {b : Nat} {o : OpenOrders}
    (ho : ooAt s.oos b = some o) : ∃ o', ooAt s'.oos b = some o' ∧ o'.owner = o.owner := by
  have hs : s.seq ≤ W64 := Nat.le_trans ha.seq hq
  have keep : ooAt s'.oos b = ooAt s.oos b → ∃ o', ooAt s'.oos b = some o' ∧ o'.owner = o.owner := fun e => ⟨o, e.trans ho, rfl⟩
  have wd : ∀ {a ls}, Withdrawn s s' a ls → ∃ o', ooAt s'.oos b = some o' ∧ o'.owner = o.owner := by
    intro a ls w
    by_cases e : b = a
    · subst e
      obtain ⟨p, hp, hp'⟩ := w.account
      rw [ho] at hp
      cases hp
      exact ⟨_, hp', rfl⟩
    · exact keep (w.others b e)
  cases ha with
  | idle e => subst e; exact keep rfl
  | place hl hv hx =>
    have hlt : s.seq < W64 := by have := (newOrderV3_keeps hx).2.1; omega
    obtain ⟨a, tier, p, p', slot, d, ts, f, evs, e⟩ := place_effect h hlt hv (hn.subset hl) hx
    by_cases hb : b = a.oo.key
    · subst hb
      rcases loadOrders_inv e.args.load with ⟨g, _⟩ | ⟨g, _⟩
      · have g' : ooAt s.oos a.oo.key = some p := g
        rw [ho] at g'
        cases g'
        exact ⟨p', e.account, e.owner.1⟩
      · have g' : ooAt s.oos a.oo.key = none := g
        rw [ho] at g'; cases g'
    · exact keep (e.others b hb)
  | take hl hv hx =>
    have hlt : s.seq < W64 := by have := (sendTake_keeps hx).2.1; omega
    obtain ⟨a, tier, ts, evs, e⟩ := take_effect h hlt hv (hn.subset hl) hx
    exact keep (by rw [e.accounts])
  | cancel hl hx => obtain ⟨_, _, _, _, _, _, _, _, _, w⟩ := cancel_withdrawn h hs (.inl ⟨_, _, hx⟩); exact wd w
  | cancelBy hl hx => obtain ⟨_, _, _, _, _, _, _, _, _, w⟩ := cancel_withdrawn h hs (.inr (.inl ⟨_, hx⟩)); exact wd w
  | batch hl hx => obtain ⟨_, _, _, _, _, _, _, _, _, w⟩ := cancel_withdrawn h hs (.inr (.inr ⟨_, hx⟩)); exact wd w
  | prune hl hx => obtain ⟨_, _, _, _, _, _, _, _, _, _, _, _, _, _, _, w, _⟩ := prune_effect h hs hx; exact wd w
  | crank hl hx =>
    obtain ⟨o', h1, h2, _⟩ := crank_filled h hs hx ho
    exact ⟨o', h1, h2⟩
  | settle hl hx =>
    obtain ⟨m, oo, owner, cv, pv, cw, pw, vsA, tp, refer, p, rfl, _, hsg, how, st⟩ := settle_effect h hs hx
    by_cases hb : b = oo.key
    · subst hb
      have g := st.account
      rw [ho] at g
      cases g
      exact ⟨_, st.after, rfl⟩
    · exact keep (st.others b hb)
  | disable hl hx =>
    obtain ⟨_, _, _, _, _, _, e⟩ := disable_inv hx
    subst e
    exact keep rfl
  | sweep hl hx =>
    obtain ⟨m, pv, auth, w, vsA, tp, l, rfl, h1, h2, h3, e⟩ := sweep_effect h hs hx
    subst e
    exact keep rfl
  | close hl hx =>
    obtain ⟨oo, owner, dest, m, p, rfl, hsg, hp, _, how, _, _, _, e⟩ := (close_is_safe h hs).1 _ _ _ hx
    subst e
    by_cases hb : b = oo.key
    · subst hb
      rw [ho] at hp
      cases hp
      exact ⟨{ o with closed := true }, by rw [ooAt_setOo, if_pos rfl], rfl⟩
    · exact keep (by rw [ooAt_setOo, if_neg hb])
  | init hl hx =>
    obtain ⟨oo, owner, m, rent, rest, rfl, hsg, _, hcase⟩ := init_inv hx
    rcases hcase with ⟨e, _⟩ | ⟨e, hnone, _⟩
    · subst e; exact keep rfl
    · have hne : b ≠ oo.key := by
        rintro rfl
        rw [ho] at hnone; cases hnone
      subst e
      exact keep (by rw [ooAt_setOo, if_neg hne])

/-- No instruction gives an open-orders account another owner. -/
theorem owner_stays {env : Env} {accts : List AccMeta} {ix : Instruction} {s s' : State conc} (h : Reach P s)
    (hn : NotVault P s.mkt accts) (hv : IxValid ix) (hx : process conc P env s accts ix = .ok s') (hq : s'.seq ≤ W64)
    {b : Nat} {o : OpenOrders} (ho : ooAt s.oos b = some o) : ∃ o', ooAt s'.oos b = some o' ∧ o'.owner = o.owner := by
  refine (process_acts h hn hv hx).induct
    (Q := fun s s' => ∀ o, ooAt s.oos b = some o → ∃ o', ooAt s'.oos b = some o' ∧ o'.owner = o.owner) ?_ ?_ ?_ hq o ho
  · exact fun _ _ o ho => ⟨o, ho, rfl⟩
  · intro x y z h1 h2 o ho
    obtain ⟨o1, e1, g1⟩ := h1 o ho
    obtain ⟨o2, e2, g2⟩ := h2 o1 e1
    exact ⟨o2, e2, g2.trans g1⟩
  · exact fun a b hr hn hq ha o ho => act_owner hr hn hq ha ho

/-- What lasts: everything in a market's account but the disabled bit and the running totals. -/
structure Lasts (m m' : Market) : Prop where
  config : m' = { m with
    flags := m'.flags, coinDeposits := m'.coinDeposits, pcDeposits := m'.pcDeposits, pcFees := m'.pcFees
    referrerRebates := m'.referrerRebates }
  flags : m'.flags = m.flags ∨ m'.flags = m.flags ||| 128

theorem Lasts.refl (m : Market) : Lasts m m := ⟨rfl, .inl rfl⟩

theorem or_128_twice (f : Nat) : f ||| 128 ||| 128 = f ||| 128 := by
  rw [Nat.or_assoc, Nat.or_self]

theorem Lasts.trans {a b d : Market} (h : Lasts a b) (g : Lasts b d) : Lasts a d := by
  refine ⟨?_, ?_⟩
  · have h1 := h.config
    have h2 := g.config
    rw [h1] at h2
    exact h2
  · rcases g.flags with e | e <;> rcases h.flags with e' | e'
    · exact .inl (e.trans e')
    · exact .inr (e.trans e')
    · exact .inr (by rw [e, e'])
    · exact .inr (by rw [e, e', or_128_twice])

/-- C71, one step. Whatever happens on the chain, a market stays a market, at its address and with its configuration;
an open-orders account stays one of its market and its owner's, unless it had been closed. -/
theorem chain_step_lasts (hP : VaultsDiffer P) (h : CReach P n c) (hn : n + 1 < 2 ^ 61) (hst : CStep P c c') {k : Nat}
    {m : Market} (hm : IsMarket c k m) : ∃ m', IsMarket c' k m' ∧ Lasts m m' ∧
      (0 < m.coinLot → 0 < m.pcLot → ∀ a o, ooOf k (c.accs a) = some o → o.closed = false →
        ∃ o', ooOf k (c'.accs a) = some o' ∧ o'.owner = o.owner) := by
  obtain ⟨M, I⟩ := h.holds hP (by omega)
  obtain ⟨u, hM, rfl⟩ := I.found hm
  have mu := I.mkts _ _ hM
  have here : k ∈ u.mkt.own := by simp [Market.own, mu.rep.own]
  cases hst with
  | token hs hx => exact ⟨_, hm, .refl _, fun _ _ a o ho _ => ⟨o, ho, rfl⟩⟩
  | @alter a r ha h0 =>
    have key : ∀ x, (x ∈ u.mkt.own ∨ ∃ o, ooOf k (c.accs x) = some o ∧ o.closed = false) →
        ((if x = a then r else c.accs x) : RawAcc).data = (c.accs x).data ∧
        ((if x = a then r else c.accs x) : RawAcc).owned = (c.accs x).owned := by
      intro x hx
      by_cases e : x = a
      · subst e
        rw [if_pos rfl]
        cases ha with
        | lamports e => exact ⟨rfl, rfl⟩
        | other h =>
          exfalso
          rcases hx with hx | ⟨o, ho, hc⟩
          · rcases h with h | h
            · rw [mu.rep.owned _ hx] at h; cases h
            · exact (mu.rep.nonzero hx).2.2.1 h
          · obtain ⟨g1, _, g2, _⟩ := ooOf_some ho
            rcases h with h | h
            · rw [g1] at h; cases h
            · have h : flagsWord (c.accs x).data = 256 := h
              rw [g2, hc] at h
              simp at h
      · rw [if_neg e]; exact ⟨rfl, rfl⟩
    refine ⟨u.mkt, ?_, .refl _, ?_⟩
    · have := key k (.inl here)
      show loadMarketBytes ((if k = a then r else c.accs k) : RawAcc).owned ((if k = a then r else c.accs k) : RawAcc).data true = _
      rw [this.1, this.2]
      exact hm
    · intro _ _ x o ho hc
      have := key x (.inr ⟨o, ho, hc⟩)
      refine ⟨o, ?_, rfl⟩
      rw [← ho]
      show ooOf k ((if x = a then r else c.accs x) : RawAcc) = _
      unfold ooOf
      rw [this.1, this.2]
  | @instr _ mints now accts data hk hs hx =>
    cases hu : Instruction.unpack data with
    | none => unfold execBytes at hx; rw [hu] at hx; cases hx
    | some ix =>
    by_cases hne : marketAt ix accts = some k
    · rcases exec_cases hx with ⟨i, W, hu', hW, rfl⟩ | ⟨_, hu', rfl⟩ | ⟨ix', k', t, t', hu', hk', hl, hp, rfl⟩
      · rw [hu] at hu'; cases hu'; cases hne
      · exact ⟨_, hm, .refl _, fun _ _ a o ho _ => ⟨o, ho, rfl⟩⟩
      · rw [hu] at hu'
        cases hu'
        rw [hne] at hk'
        cases hk'
        obtain ⟨s, s', hM', hp', d, e⟩ := I.exec hP hn hk hs hu hl hp
        rw [hM] at hM'
        cases hM'
        rw [e]
        have J := ((I.store hM d).mkts k s' (by simp [Markets.put])).rep
        refine ⟨s'.mkt, J.market, ⟨?_, ?_⟩, ?_⟩
        · have hc := d.upd.cfg
          cases hm1 : s'.mkt
          cases hm2 : u.mkt
          rw [hm1, hm2] at hc
          simp only [Market.config, Market.mk.injEq] at hc
          simp only [Market.mk.injEq, true_and]
          simp_all
        · rcases process_flags hp' with e | ⟨_, e, _⟩
          · exact .inl e
          · exact .inr e
        · intro hc hpc a o ho _
          obtain ⟨_, _, _, hv, _⟩ := decoding_is_strict _ _ hu
          have ho' : ooAt u.oos a = some o := by rw [mu.rep.oos]; exact ho
          obtain ⟨o', h1, h2⟩ := owner_stays (mu.reach hc hpc) (fun a ha hsg => hs a ha hsg _ _) hv hp'
            (by have := d.seq; simp only [W64]; omega) ho'
          exact ⟨o', by rw [← J.oos]; exact h1, h2⟩
    · obtain ⟨h1, _⟩ := chain_isolated hP h hn hk hs hu hx hm hne
      refine ⟨u.mkt, ?_, .refl _, ?_⟩
      · unfold IsMarket
        rw [h1 k (.inl here)]
        exact hm
      · intro _ _ a o ho _
        exact ⟨o, by rw [h1 a (.inr ⟨o, ho⟩)]; exact ho, rfl⟩

/-- A later point of the history. -/
inductive CLater (P : Params) : Nat → Chain → Nat → Chain → Prop where
  | refl (n : Nat) (c : Chain) : CLater P n c n c
  | step {n i : Nat} {c d e : Chain} (h : CLater P n c i d) (hs : CStep P d e) : CLater P n c (i + 1) e

theorem CLater.reach {i : Nat} {d : Chain} (h : CLater P n c i d) (hr : CReach P n c) : CReach P i d := by
  induction h with
  | refl => exact hr
  | step _ hs ih => exact .step (ih hr) hs

/-- C71. A market once created exists forever, at its address and with the same mints, vaults, queues, books, lot sizes
and authorities. -/
theorem chain_lasts (hP : VaultsDiffer P) {i : Nat} {d : Chain} (h : CLater P n c i d) (hr : CReach P n c) (hi : i < 2 ^ 61)
    {k : Nat} {m : Market} (hm : IsMarket c k m) : ∃ m', IsMarket d k m' ∧ Lasts m m' := by
  induction h with
  | refl => exact ⟨m, hm, .refl _⟩
  | step h hs ih =>
    obtain ⟨m1, h1, l1⟩ := ih hr (by omega) hm
    obtain ⟨m2, h2, l2, _⟩ := chain_step_lasts hP (h.reach hr) hi hs h1
    exact ⟨m2, h2, l1.trans l2⟩

end Serum.Props
