import Verif.InitMarket
import Verif.PropsLayout

/-!
C46: what `InitializeMarket` accepts and what it leaves behind.
-/

namespace Serum.Props

/-- The bytes of an account the program owns are all zero, or were written by the program, which always leaves
its padding around them. (Trusted: the runtime hands accounts over to a program zeroed.) -/
def OwnedBytes (d : List UInt8) : Prop := (∃ n, d = List.replicate n 0) ∨ ∃ b, d = padded b

/-- The accounts given to `InitializeMarket`. -/
structure Given where
  market : Nat
  reqQ : Nat
  eventQ : Nat
  bids : Nat
  asks : Nat
  coinVault : Nat
  pcVault : Nat
  coinMint : Nat
  pcMint : Nat
  rent : Nat
  /-- open-orders, prune and crank authority -/
  auth : List Nat

def Given.keys (G : Given) : List Nat :=
  [G.market, G.reqQ, G.eventQ, G.bids, G.asks, G.coinVault, G.pcVault, G.coinMint, G.pcMint, G.rent] ++ G.auth

def Given.own (G : Given) : List Nat := [G.market, G.reqQ, G.eventQ, G.bids, G.asks]

/-- A vault: an initialised, unfrozen token account of an initialised mint, owned by the vault signer, with
neither delegate nor close authority. -/
structure GoodVault (mints : Nat → Bool) (toks : Ledger) (vs vault mint : Nat) : Prop where
  minted : mints mint = true
  acc : ∃ t, toks vault = some t ∧ t.frozen = false ∧ t.owner = vs ∧ t.delegate = none ∧ t.closeAuth = none ∧
    t.mint = mint

/-- Exactly what is needed to create a market. -/
structure InitOk (P : Params) (mints : Nat → Bool) (toks : Ledger) (W : Accs) (G : Given) (nonce : Nat) : Prop where
  auth : G.auth.length ≤ 3
  exempt : ∀ a ∈ [G.reqQ, G.eventQ, G.bids, G.asks, G.coinVault, G.pcVault, G.coinMint, G.pcMint], (W a).exempt = true
  owned : ∀ a ∈ G.own, (W a).owned = true
  blank : ∀ a ∈ G.own, ∃ n, (W a).data = List.replicate n 0
  aligned : ∀ a ∈ G.own, (W a).data.length % 8 = 4
  market : (W G.market).data.length = if G.auth = [] then 388 else 1476
  reqQ : 124 ≤ (W G.reqQ).data.length
  eventQ : 11308 ≤ (W G.eventQ).data.length
  bids : 14524 ≤ (W G.bids).data.length
  asks : 14524 ≤ (W G.asks).data.length
  distinct : G.reqQ ≠ G.eventQ ∧ G.bids ≠ G.reqQ ∧ G.bids ≠ G.eventQ ∧ G.asks ≠ G.reqQ ∧ G.asks ≠ G.eventQ ∧
    G.market ≠ G.reqQ ∧ G.market ≠ G.eventQ
  vaults : ∃ vs, P.vaultSigner G.market nonce = some vs ∧ GoodVault mints toks vs G.coinVault G.coinMint ∧
    GoodVault mints toks vs G.pcVault G.pcMint

/-! ### Zero bytes -/

theorem zeros_length (n : Nat) : (zeros n).length = n := List.length_replicate ..

theorem middle_zeros (n : Nat) : middle (zeros n) = zeros (n - 12) := by
  unfold middle zeros
  rw [List.drop_replicate, List.take_replicate, List.length_replicate]
  congr 1
  omega

theorem drop_zeros (k n : Nat) : (zeros n).drop k = zeros (n - k) := List.drop_replicate ..

/-- On bytes of a program account the checks of the edges tell that all is zero. -/
theorem checkBlank_iff {a : RawAcc} (ho : a.owned = true → OwnedBytes a.data) :
    checkBlank a = .ok () ↔ a.owned = true ∧ (∃ n, a.data = List.replicate n 0) ∧ a.data.length % 8 = 4 ∧
      20 ≤ a.data.length := by
  constructor
  · intro h
    unfold checkBlank at h
    obtain ⟨_, h1, h⟩ := bind_ok h
    obtain ⟨_, h2, h⟩ := bind_ok h
    obtain ⟨_, h3, h⟩ := bind_ok h
    obtain ⟨_, h4, h⟩ := bind_ok h
    refine ⟨checkAssert_ok.1 h1, ?_, by simpa using checkAssert_ok.1 h2, by simpa using checkAssert_ok.1 h3⟩
    rcases ho (checkAssert_ok.1 h1) with ho | ⟨b, hb⟩
    · exact ho
    · have h4 := checkAssert_ok.1 h4
      rw [hb] at h4
      have e : (padded b).take 5 = headPad := List.take_left' rfl
      rw [e] at h4
      exact absurd h4 (by decide)
  · rintro ⟨h1, ⟨n, h2⟩, h3, h4⟩
    unfold checkBlank
    rw [h2, List.length_replicate] at *
    have e1 : (List.replicate n (0 : UInt8)).take 5 = zeros 5 := by
      rw [List.take_replicate, Nat.min_eq_left (by omega)]; rfl
    have e2 : ((List.replicate n (0 : UInt8)).drop 5).take 8 = zeros 8 := by
      rw [List.drop_replicate, List.take_replicate, Nat.min_eq_left (by omega)]; rfl
    have e3 : (List.replicate n (0 : UInt8)).drop (n - 7) = zeros 7 := by
      rw [List.drop_replicate]
      have : n - (n - 7) = 7 := by omega
      rw [this]; rfl
    rw [e1, e2, e3]
    simp [h1, h3, h4, checkAssert, bind, Except.bind]

theorem checkVault_iff {mints : Nat → Bool} {toks : Ledger} {vs v m : Nat} :
    checkVault mints toks vs v m = .ok () ↔ GoodVault mints toks vs v m := by
  unfold checkVault
  cases ht : toks v with
  | none =>
    constructor
    · intro h; cases h
    · rintro ⟨_, t, h, _⟩; rw [ht] at h; cases h
  | some t =>
    constructor
    · intro h
      obtain ⟨_, h1, h⟩ := bind_ok h
      obtain ⟨_, h2, h⟩ := bind_ok h
      obtain ⟨_, h3, h⟩ := bind_ok h
      obtain ⟨_, h4, h⟩ := bind_ok h
      obtain ⟨_, h5, h⟩ := bind_ok h
      have h1 := checkAssert_ok.1 h1
      have h2 := checkAssert_ok.1 h2
      have h3 := checkAssert_ok.1 h3
      have h4 := checkAssert_ok.1 h4
      have h5 := checkAssert_ok.1 h5
      have h6 := checkAssert_ok.1 h
      exact ⟨h2, t, ht, by simpa using h1, by simpa using h3, by simpa using h4, by simpa using h5, by simpa using h6⟩
    · rintro ⟨h, t', ht', h1, h2, h3, h4, h5⟩
      rw [ht] at ht'
      cases ht'
      simp [h, h1, h2, h3, h4, h5, checkAssert, bind, Except.bind]

/-! ### Each account -/

theorem initPadding_eq {d : List UInt8} (h : d.length % 8 = 4) (h20 : 20 ≤ d.length) : initPadding d = .ok (middle d) := by
  unfold initPadding
  have h1 : (d.length - 12) % 8 = 0 := by omega
  have h2 : 12 ≤ d.length := by omega
  simp [checkAssert, h1, h2, bind, Except.bind, pure, Except.pure]

theorem initReqQ_eq {W : Accs} {a n : Nat} (h : (W a).data = zeros n) (h8 : n % 8 = 4) (h20 : 20 ≤ n) :
    initReqQ W a = if n < 44 then .error .panic else if n < 124 then .error .requestQueueEmpty
      else .ok (setData W a (reqQBytes 0 0 0 (zeros (n - 44)))) := by
  unfold initReqQ
  have hl := zeros_length n
  rw [h, initPadding_eq (by rw [hl]; exact h8) (by rw [hl]; exact h20), middle_zeros]
  simp only [bind, Except.bind, zeros_length, drop_zeros, rustAssert, decide_eq_true_eq]
  by_cases h1 : n < 44
  · rw [if_neg (by omega), if_pos h1]
  · rw [if_pos (by omega), if_neg h1]
    by_cases h2 : n < 124
    · simp only [if_pos h2]; exact if_pos (by omega)
    · simp only [if_neg h2]
      rw [if_neg (by omega)]
      have : n - 12 - 32 = n - 44 := by omega
      rw [this]; rfl

theorem initEventQ_eq {W : Accs} {a n : Nat} (h : (W a).data = zeros n) (h8 : n % 8 = 4) (h20 : 20 ≤ n) :
    initEventQ W a = if n ≤ 44 then .error .assertion else if n < 11308 then .error .eventQueueTooSmall
      else .ok (setData W a (padded (packFields [(8, 17), (8, 0), (8, 0), (8, 0)] ++ zeros (n - 44)))) := by
  unfold initEventQ
  have hl := zeros_length n
  rw [h, initPadding_eq (by rw [hl]; exact h8) (by rw [hl]; exact h20), middle_zeros]
  simp only [bind, Except.bind, zeros_length, drop_zeros, checkAssert, decide_eq_true_eq]
  by_cases h1 : n ≤ 44
  · rw [if_neg (by omega), if_pos h1]
  · rw [if_pos (by omega), if_neg h1]
    by_cases h2 : n < 11308
    · simp only [if_pos h2]; exact if_pos (by omega)
    · simp only [if_neg h2]
      rw [if_neg (by omega)]
      have : n - 12 - 32 = n - 44 := by omega
      rw [this]

theorem initBook_eq {W : Accs} {a n : Nat} {sd : Side} (h : (W a).data.length = n)
    (hm : (middle (W a).data).drop 8 = zeros (n - 20)) (h8 : n % 8 = 4) (h20 : 20 ≤ n) :
    initBook sd W a = if n ≤ 20 then .error .assertion else if n < 52 then .error .panic
      else if n < 14524 then .error .slabTooSmall
      else .ok (setData W a (padded (packFields [(8, sideFlags sd)] ++ zeros (n - 20)))) := by
  unfold initBook
  rw [initPadding_eq (by rw [h]; exact h8) (by rw [h]; exact h20)]
  have hl : (middle (W a).data).length = n - 12 := by
    unfold middle
    rw [List.length_take, List.length_drop, h]
    omega
  simp only [bind, Except.bind, zeros_length, hm, hl, checkAssert, rustAssert, decide_eq_true_eq, Slab.assertMinimumCapacity]
  by_cases h1 : n ≤ 20
  · rw [if_neg (by omega), if_pos h1]
  · rw [if_pos (by omega), if_neg h1]
    by_cases h2 : n < 52
    · simp only [if_pos h2]
      rw [if_neg (by omega)]
    · simp only [if_neg h2]
      rw [if_pos (by omega)]
      by_cases h3 : n < 14524
      · simp only [if_pos h3]
        rw [if_pos (by omega)]
      · simp only [if_neg h3]
        rw [if_neg (by omega)]
        rfl

theorem leBytes_zero (n : Nat) : leBytes n 0 = zeros n := by
  induction n with
  | zero => rfl
  | succ n ih => simp only [leBytes, zeros, List.replicate_succ] at *; rw [show 0 / 256 = 0 from rfl, ih]; rfl

theorem zeros_append (a b : Nat) : zeros a ++ zeros b = zeros (a + b) := List.replicate_append_replicate

theorem initMarketAcc_eq {W : Accs} {m : Market} {crank : Option Nat} {n : Nat} (h : (W m.ownAddress).data = zeros n)
    (h8 : n % 8 = 4) (h20 : 20 ≤ n) (hc : m.crankAuthority = crank.getD 0) :
    initMarketAcc W m crank = if n = (if m.permissioned then 1476 else 388) then .ok (setData W m.ownAddress m.bytes)
      else .error .assertion := by
  unfold initMarketAcc Market.bytes
  have hl := zeros_length n
  rw [h, initPadding_eq (by rw [hl]; exact h8) (by rw [hl]; exact h20), middle_zeros]
  simp only [bind, Except.bind, zeros_length, drop_zeros, checkAssert]
  cases m.permissioned with
  | false =>
    simp only [Bool.false_eq_true, if_false]
    by_cases h1 : n = 388
    · subst h1; rfl
    · rw [if_neg (by simp only [beq_iff_eq]; omega), if_neg h1]
  | true =>
    simp only [if_true]
    by_cases h1 : n = 1476
    · subst h1
      simp only [show (1476 - 12 == 1464) = true from rfl, if_true]
      unfold Market.fieldsV2
      rw [packFields_append]
      cases crank with
      | none =>
        simp only [Option.getD_none] at hc
        simp only [packFields, hc, leBytes_zero, List.append_nil, List.append_assoc, zeros_append]
      | some c =>
        simp only [Option.getD_some] at hc
        simp only [packFields, hc, leBytes_zero, List.append_nil, List.append_assoc]
    · rw [if_neg (by simp only [beq_iff_eq]; omega), if_neg h1]

theorem initMarketAcc_length {W W' : Accs} {m : Market} {crank : Option Nat} (h : initMarketAcc W m crank = .ok W') :
    (W m.ownAddress).data.length ≤ 1476 := by
  unfold initMarketAcc at h
  obtain ⟨b, hb, h⟩ := bind_ok h
  have hl : b.length = (W m.ownAddress).data.length - 12 := by
    unfold initPadding at hb
    obtain ⟨_, h1, hb⟩ := bind_ok hb
    obtain ⟨_, _, hb⟩ := bind_ok hb
    cases hb
    have := checkAssert_ok.1 h1
    simp only [decide_eq_true_eq] at this
    unfold middle
    rw [List.length_take, List.length_drop]
    omega
  split at h
  · obtain ⟨_, h1, h⟩ := bind_ok h
    have := checkAssert_ok.1 h1
    simp only [beq_iff_eq] at this
    omega
  · obtain ⟨_, h1, h⟩ := bind_ok h
    have := checkAssert_ok.1 h1
    simp only [beq_iff_eq] at this
    omega

/-! ### The whole instruction -/

/-- The market that `InitializeMarket` records. -/
def newMarket (ix : InitMarketIx) (G : Given) : Market :=
  { flags := if G.auth = [] then 3 else if G.auth.length < 3 then 515 else 1539
    ownAddress := G.market, vaultSignerNonce := ix.vaultSignerNonce, coinMint := G.coinMint, pcMint := G.pcMint
    coinVault := G.coinVault, coinDeposits := 0, coinFees := 0, pcVault := G.pcVault, pcDeposits := 0, pcFees := 0
    pcDust := ix.pcDustThreshold, reqQ := G.reqQ, eventQ := G.eventQ, bids := G.bids, asks := G.asks
    coinLot := ix.coinLotSize, pcLot := ix.pcLotSize, feeRateBps := ix.feeRateBps, referrerRebates := 0
    ooAuthority := G.auth.getD 0 0, pruneAuthority := G.auth.getD 1 0, crankAuthority := G.auth.getD 2 0 }

/-- The accounts afterwards. -/
def created (W : Accs) (ix : InitMarketIx) (G : Given) : Accs :=
  let len a := (W a).data.length
  let W := setData W G.reqQ (reqQBytes 0 0 0 (zeros (len G.reqQ - 44)))
  let W := setData W G.eventQ (padded (packFields [(8, 17), (8, 0), (8, 0), (8, 0)] ++ zeros (len G.eventQ - 44)))
  let W := setData W G.bids (padded (packFields [(8, 33)] ++ zeros (len G.bids - 20)))
  let W := setData W G.asks (padded (packFields [(8, 65)] ++ zeros (len G.asks - 20)))
  setData W G.market (newMarket ix G).bytes

theorem freshMarket_eq (ix : InitMarketIx) (G : Given) (h : G.auth.length ≤ 3) :
    freshMarket ix G.market G.reqQ G.eventQ G.bids G.asks G.coinVault G.pcVault G.coinMint G.pcMint G.auth =
      newMarket ix G := by
  obtain ⟨_, _, _, _, _, _, _, _, _, _, auth⟩ := G
  match auth, h with
  | [], _ => rfl
  | [_], _ => rfl
  | [_, _], _ => rfl
  | [_, _, _], _ => rfl

theorem newMarket_permissioned (ix : InitMarketIx) (G : Given) : (newMarket ix G).permissioned = !decide (G.auth = []) := by
  unfold newMarket Market.permissioned
  by_cases h : G.auth = []
  · simp [h]; rfl
  · by_cases h2 : G.auth.length < 3 <;> simp [h, h2] <;> rfl

theorem setData_same (W : Accs) (a : Nat) (d : List UInt8) : (setData W a d a).data = d := by simp [setData]
theorem setData_other (W : Accs) {a x : Nat} (d : List UInt8) (h : x ≠ a) : setData W a d x = W x := by simp [setData, h]

theorem side_bytes (k n : Nat) (sd : Side) (h : (padded (packFields [(8, sideFlags sd)] ++ zeros k)).length = n) :
    (middle (padded (packFields [(8, sideFlags sd)] ++ zeros k))).drop 8 = zeros (n - 20) := by
  rw [middle_padded]
  have hl : (packFields [(8, sideFlags sd)]).length = 8 := packFields_length _
  rw [List.drop_left' hl, ← h]
  simp only [padded, List.length_append, hl, zeros_length]
  congr 1
  simp only [headPad, tailPad, List.length_cons, List.length_nil]
  omega

theorem keys_eq {l : List Nat} {market reqQ eventQ bids asks coinVault pcVault coinMint pcMint rent : Nat} {auth : List Nat}
    (h : l = market :: reqQ :: eventQ :: bids :: asks :: coinVault :: pcVault :: coinMint :: pcMint :: rent :: auth) :
    ∃ G : Given, l = G.keys ∧ G = ⟨market, reqQ, eventQ, bids, asks, coinVault, pcVault, coinMint, pcMint, rent, auth⟩ :=
  ⟨⟨market, reqQ, eventQ, bids, asks, coinVault, pcVault, coinMint, pcMint, rent, auth⟩, h, rfl⟩

/-- The same, on named accounts. -/
def initGiven (P : Params) (mints : Nat → Bool) (toks : Ledger) (W : Accs) (G : Given) (ix : InitMarketIx) :
    Except Err Accs := do
  checkAssert (G.auth.length ≤ 3)
  checkAssert ([G.reqQ, G.eventQ, G.bids, G.asks, G.coinVault, G.pcVault, G.coinMint, G.pcMint].all fun a => (W a).exempt)
  checkBlank (W G.market)
  checkBlank (W G.reqQ)
  checkBlank (W G.eventQ)
  checkBlank (W G.bids)
  checkBlank (W G.asks)
  match P.vaultSigner G.market ix.vaultSignerNonce with
  | none => .error .programError
  | some vs =>
    checkVault mints toks vs G.coinVault G.coinMint
    checkVault mints toks vs G.pcVault G.pcMint
    let W ← initReqQ W G.reqQ
    rustAssert (G.eventQ != G.reqQ)
    let W ← initEventQ W G.eventQ
    rustAssert (G.bids != G.reqQ && G.bids != G.eventQ)
    let W ← initBook .bid W G.bids
    rustAssert (G.asks != G.reqQ && G.asks != G.eventQ)
    let W ← initBook .ask W G.asks
    let m := freshMarket ix G.market G.reqQ G.eventQ G.bids G.asks G.coinVault G.pcVault G.coinMint G.pcMint G.auth
    if G.market = G.reqQ ∨ G.market = G.eventQ then .error .programError
    else initMarketAcc W m G.auth[2]?

theorem initMarket_given {P : Params} {mints : Nat → Bool} {toks : Ledger} {W : Accs} {accts : List AccMeta}
    {ix : InitMarketIx} {G : Given} (h : accts.map (·.key) = G.keys) :
    initMarket P mints toks W accts ix = initGiven P mints toks W G ix := by
  unfold initMarket
  rw [h]
  rfl

theorem initMarket_short {P : Params} {mints : Nat → Bool} {toks : Ledger} {W W' : Accs} {accts : List AccMeta}
    {ix : InitMarketIx} (h : initMarket P mints toks W accts ix = .ok W') : ∃ G : Given, accts.map (·.key) = G.keys := by
  unfold initMarket at h
  split at h
  · rename_i e
    obtain ⟨G, h, _⟩ := keys_eq e
    exact ⟨G, h⟩
  · cases h

/-- The books, after the queues: data of `a` in a state of the accounts where only the given ones changed. -/
theorem book_step {W : Accs} {a n : Nat} (h : (W a).data = zeros n) : (W a).data.length = n ∧
    (middle (W a).data).drop 8 = zeros (n - 20) := by
  rw [h, zeros_length, middle_zeros, drop_zeros]
  exact ⟨rfl, by congr 1⟩

theorem side_length (k : Nat) (sd : Side) : (padded (packFields [(8, sideFlags sd)] ++ zeros k)).length = k + 20 := by
  have hl : (packFields [(8, sideFlags sd)]).length = 8 := packFields_length _
  simp only [padded, List.length_append, hl, zeros_length]
  simp only [headPad, tailPad, List.length_cons, List.length_nil]
  omega

theorem asks_step {W : Accs} {bids asks nb na : Nat} {sd : Side} (hb : 20 ≤ nb) (ha : (W asks).data = zeros na)
    (hbd : (W bids).data = zeros nb) :
    let W3 := setData W bids (padded (packFields [(8, sideFlags sd)] ++ zeros (nb - 20)))
    (W3 asks).data.length = na ∧ (middle (W3 asks).data).drop 8 = zeros (na - 20) := by
  intro W3
  by_cases h : asks = bids
  · have hn : na = nb := by
      rw [h, hbd] at ha
      have := congrArg List.length ha
      simpa [zeros_length] using this.symm
    have e : (W3 asks).data = padded (packFields [(8, sideFlags sd)] ++ zeros (nb - 20)) := by
      rw [h]; exact setData_same _ _ _
    have l : (W3 asks).data.length = na := by
      rw [e, side_length]; omega
    refine ⟨l, ?_⟩
    rw [e] at l ⊢
    exact side_bytes _ _ _ l
  · have e : W3 asks = W asks := setData_other _ _ h
    rw [e]
    exact book_step ha

theorem initGiven_iff {P : Params} {mints : Nat → Bool} {toks : Ledger} {W W' : Accs} {G : Given} {ix : InitMarketIx}
    (ho : ∀ a ∈ G.own, (W a).owned = true → OwnedBytes (W a).data) :
    initGiven P mints toks W G ix = .ok W' ↔
      InitOk P mints toks W G ix.vaultSignerNonce ∧ W' = created W ix G := by
  have bl : ∀ a ∈ G.own, checkBlank (W a) = .ok () ↔ _ := fun a ha => checkBlank_iff (ho a ha)
  simp only [Given.own, List.mem_cons, List.not_mem_nil, or_false, forall_eq_or_imp, forall_eq] at bl
  obtain ⟨bm, br, be, bb, ba⟩ := bl
  constructor
  · intro h
    unfold initGiven at h
    obtain ⟨_, h1, h⟩ := bind_ok h
    obtain ⟨_, h2, h⟩ := bind_ok h
    obtain ⟨_, h3, h⟩ := bind_ok h
    obtain ⟨_, h4, h⟩ := bind_ok h
    obtain ⟨_, h5, h⟩ := bind_ok h
    obtain ⟨_, h6, h⟩ := bind_ok h
    obtain ⟨_, h7, h⟩ := bind_ok h
    have h1 := checkAssert_ok.1 h1
    simp only [decide_eq_true_eq] at h1
    have h2 := List.all_eq_true.1 (checkAssert_ok.1 h2)
    obtain ⟨om, ⟨nm, em⟩, am, lm⟩ := bm.1 h3
    obtain ⟨or, ⟨nr, er⟩, ar, lr⟩ := br.1 h4
    obtain ⟨oe, ⟨ne, ee⟩, ae, le⟩ := be.1 h5
    obtain ⟨ob, ⟨nb, eb⟩, ab, lb⟩ := bb.1 h6
    obtain ⟨oa, ⟨na, ea⟩, aa, la⟩ := ba.1 h7
    split at h
    · cases h
    rename_i vs hvs
    obtain ⟨_, h8, h⟩ := bind_ok h
    obtain ⟨_, h9, h⟩ := bind_ok h
    have hcv := checkVault_iff.1 h8
    have hpv := checkVault_iff.1 h9
    have zr : (W G.reqQ).data = zeros nr := er
    have ze : (W G.eventQ).data = zeros ne := ee
    have zb : (W G.bids).data = zeros nb := eb
    have za : (W G.asks).data = zeros na := ea
    have zm : (W G.market).data = zeros nm := em
    rw [er, List.length_replicate] at ar lr
    rw [ee, List.length_replicate] at ae le
    rw [eb, List.length_replicate] at ab lb
    rw [ea, List.length_replicate] at aa la
    rw [em, List.length_replicate] at am lm
    obtain ⟨W1, hr, h⟩ := bind_ok h
    rw [initReqQ_eq zr ar lr] at hr
    split at hr
    · cases hr
    split at hr
    · cases hr
    rename_i hr1 hr2
    cases hr
    obtain ⟨_, d1, h⟩ := bind_ok h
    have d1 := rustAssert_ok.1 d1
    simp only [bne_iff_ne, ne_eq] at d1
    obtain ⟨W2, he, h⟩ := bind_ok h
    rw [initEventQ_eq (n := ne) (by rw [setData_other _ _ d1]; exact ze) ae le] at he
    split at he
    · cases he
    split at he
    · cases he
    rename_i he1 he2
    cases he
    obtain ⟨_, d2, h⟩ := bind_ok h
    have d2 := rustAssert_ok.1 d2
    simp only [bne_iff_ne, ne_eq, Bool.and_eq_true] at d2
    obtain ⟨W3, hb, h⟩ := bind_ok h
    have hb0 := book_step (W := W) zb
    rw [initBook_eq (n := nb) (by rw [setData_other _ _ d2.2, setData_other _ _ d2.1]; exact hb0.1)
      (by rw [setData_other _ _ d2.2, setData_other _ _ d2.1]; exact hb0.2) ab lb] at hb
    split at hb
    · cases hb
    split at hb
    · cases hb
    split at hb
    · cases hb
    rename_i hb1 hb2 hb3
    cases hb
    obtain ⟨_, d3, h⟩ := bind_ok h
    have d3 := rustAssert_ok.1 d3
    simp only [bne_iff_ne, ne_eq, Bool.and_eq_true] at d3
    obtain ⟨W4, ha, h⟩ := bind_ok h
    rw [initBook_eq (n := na)
      (asks_step (sd := .bid) (nb := nb) lb (by rw [setData_other _ _ d3.2, setData_other _ _ d3.1]; exact za)
        (by rw [setData_other _ _ d2.2, setData_other _ _ d2.1]; exact zb)).1
      (asks_step (sd := .bid) (nb := nb) lb (by rw [setData_other _ _ d3.2, setData_other _ _ d3.1]; exact za)
        (by rw [setData_other _ _ d2.2, setData_other _ _ d2.1]; exact zb)).2 aa la] at ha
    split at ha
    · cases ha
    split at ha
    · cases ha
    split at ha
    · cases ha
    rename_i ha1 ha2 ha3
    cases ha
    simp only at h
    split at h
    · cases h
    rename_i dm
    simp only [not_or] at dm
    rw [freshMarket_eq _ _ h1] at h
    have hlen := initMarketAcc_length h
    have hmk : (newMarket ix G).ownAddress = G.market := rfl
    rw [hmk] at hlen
    have dma : G.market ≠ G.asks := by
      intro e
      rw [e, setData_same, side_length] at hlen
      omega
    have dmb : G.market ≠ G.bids := by
      intro e
      rw [setData_other _ _ dma, e, setData_same, side_length] at hlen
      omega
    have zm4 := zm
    rw [← setData_other W (reqQBytes 0 0 0 (zeros (nr - 44))) dm.1] at zm4
    rw [initMarketAcc_eq (n := nm) (by
      rw [hmk, setData_other _ _ dma, setData_other _ _ dmb, setData_other _ _ dm.2]; exact zm4) am lm
      (by simp [newMarket, List.getD_eq_getElem?_getD])] at h
    by_cases hs : nm = if (newMarket ix G).permissioned = true then 1476 else 388
    · rw [if_pos hs] at h
      cases h
      refine ⟨⟨h1, h2, ?_, ?_, ?_, ?_, ?_, ?_, ?_, ?_, ⟨Ne.symm d1, d2.1, d2.2, d3.1, d3.2, dm.1, dm.2⟩, vs, hvs, hcv, hpv⟩, ?_⟩
      · simp only [Given.own, List.mem_cons, List.not_mem_nil, or_false, forall_eq_or_imp, forall_eq]
        exact ⟨om, or, oe, ob, oa⟩
      · simp only [Given.own, List.mem_cons, List.not_mem_nil, or_false, forall_eq_or_imp, forall_eq]
        exact ⟨⟨_, em⟩, ⟨_, er⟩, ⟨_, ee⟩, ⟨_, eb⟩, ⟨_, ea⟩⟩
      · simp only [Given.own, List.mem_cons, List.not_mem_nil, or_false, forall_eq_or_imp, forall_eq]
        rw [zm, zr, ze, zb, za]
        simp only [zeros_length]
        exact ⟨am, ar, ae, ab, aa⟩
      · rw [zm, zeros_length, hs, newMarket_permissioned]
        by_cases hh : G.auth = [] <;> simp [hh]
      · rw [zr, zeros_length]; omega
      · rw [ze, zeros_length]; omega
      · rw [zb, zeros_length]; omega
      · rw [za, zeros_length]; omega
      · simp only [created, zr, ze, zb, za, zeros_length]
        rfl
    · rw [if_neg hs] at h
      cases h
  · rintro ⟨⟨h1, h2, h3, h4, h5, h6, h7, h8, h9, h10, ⟨d1, d2, d3, d4, d5, d6, d7⟩, vs, hvs, hcv, hpv⟩, rfl⟩
    simp only [Given.own, List.mem_cons, List.not_mem_nil, or_false, forall_eq_or_imp, forall_eq] at h3 h4 h5
    obtain ⟨om, or, oe, ob, oa⟩ := h3
    obtain ⟨⟨nm, em⟩, ⟨nr, er⟩, ⟨ne, ee⟩, ⟨nb, eb⟩, ⟨na, ea⟩⟩ := h4
    obtain ⟨am, ar, ae, ab, aa⟩ := h5
    have lm : 20 ≤ (W G.market).data.length := by rw [h6]; split <;> omega
    have cm := bm.2 ⟨om, ⟨_, em⟩, am, lm⟩
    have cr := br.2 ⟨or, ⟨_, er⟩, ar, by omega⟩
    have ce := be.2 ⟨oe, ⟨_, ee⟩, ae, by omega⟩
    have cb := bb.2 ⟨ob, ⟨_, eb⟩, ab, by omega⟩
    have ca := ba.2 ⟨oa, ⟨_, ea⟩, aa, by omega⟩
    have dma : G.market ≠ G.asks := by
      intro e; rw [← e, h6] at h10; split at h10 <;> omega
    have dmb : G.market ≠ G.bids := by
      intro e; rw [← e, h6] at h9; split at h9 <;> omega
    have zr : (W G.reqQ).data = zeros nr := er
    have ze : (W G.eventQ).data = zeros ne := ee
    have zb : (W G.bids).data = zeros nb := eb
    have za : (W G.asks).data = zeros na := ea
    have zm : (W G.market).data = zeros nm := em
    rw [er, List.length_replicate] at ar h7
    rw [ee, List.length_replicate] at ae h8
    rw [eb, List.length_replicate] at ab h9
    rw [ea, List.length_replicate] at aa h10
    rw [em, List.length_replicate] at am lm h6
    unfold initGiven
    have hall : ([G.reqQ, G.eventQ, G.bids, G.asks, G.coinVault, G.pcVault, G.coinMint, G.pcMint].all
        fun a => (W a).exempt) = true := List.all_eq_true.2 h2
    simp only [hall, h1, decide_true, checkAssert, if_true, bind, Except.bind, cm, cr, ce, cb, ca, hvs,
      checkVault_iff.2 hcv, checkVault_iff.2 hpv]
    rw [initReqQ_eq zr ar (by omega), if_neg (by omega), if_neg (by omega)]
    have b1 : (G.eventQ != G.reqQ) = true := by simpa using Ne.symm d1
    have b2 : (G.bids != G.reqQ && G.bids != G.eventQ) = true := by simp [d2, d3]
    have b3 : (G.asks != G.reqQ && G.asks != G.eventQ) = true := by simp [d4, d5]
    simp only [b1, b2, b3, rustAssert, if_true]
    rw [initEventQ_eq (n := ne) (by rw [setData_other _ _ (Ne.symm d1)]; exact ze) ae (by omega), if_neg (by omega),
      if_neg (by omega)]
    simp only
    have hb0 := book_step (W := W) zb
    rw [initBook_eq (n := nb) (by rw [setData_other _ _ d3, setData_other _ _ d2]; exact hb0.1)
      (by rw [setData_other _ _ d3, setData_other _ _ d2]; exact hb0.2) ab (by omega), if_neg (by omega), if_neg (by omega),
      if_neg (by omega)]
    simp only
    rw [initBook_eq (n := na)
      (asks_step (sd := .bid) (nb := nb) (by omega) (by rw [setData_other _ _ d5, setData_other _ _ d4]; exact za)
        (by rw [setData_other _ _ d3, setData_other _ _ d2]; exact zb)).1
      (asks_step (sd := .bid) (nb := nb) (by omega) (by rw [setData_other _ _ d5, setData_other _ _ d4]; exact za)
        (by rw [setData_other _ _ d3, setData_other _ _ d2]; exact zb)).2 aa (by omega), if_neg (by omega), if_neg (by omega),
      if_neg (by omega)]
    simp only
    rw [if_neg (by simp [d6, d7]), freshMarket_eq _ _ h1]
    have hmk : (newMarket ix G).ownAddress = G.market := rfl
    rw [initMarketAcc_eq (n := nm) (by
      rw [hmk, setData_other _ _ dma, setData_other _ _ dmb, setData_other _ _ d7, setData_other _ _ d6]; exact zm) am lm
      (by simp [newMarket, List.getD_eq_getElem?_getD])]
    rw [if_pos (by
      rw [newMarket_permissioned, h6]
      by_cases hh : G.auth = [] <;> simp [hh])]
    simp only [created, zr, ze, zb, za, zeros_length]
    rfl

/-- C46, acceptance. A market is created exactly if everything `InitOk` lists holds; then the five program
accounts are written and nothing else. -/
theorem init_market_iff {P : Params} {mints : Nat → Bool} {toks : Ledger} {W W' : Accs} {accts : List AccMeta}
    {ix : InitMarketIx} (ho : ∀ a, (W a).owned = true → OwnedBytes (W a).data) :
    initMarket P mints toks W accts ix = .ok W' ↔
      ∃ G : Given, accts.map (·.key) = G.keys ∧ InitOk P mints toks W G ix.vaultSignerNonce ∧ W' = created W ix G := by
  constructor
  · intro h
    obtain ⟨G, hG⟩ := initMarket_short h
    rw [initMarket_given hG] at h
    exact ⟨G, hG, (initGiven_iff fun a _ => ho a).1 h⟩
  · rintro ⟨G, hG, h⟩
    rw [initMarket_given hG]
    exact (initGiven_iff fun a _ => ho a).2 h

/-- The accounts `W` hold the market state `s`: each loads as the part of `s` that belongs there. An account
that is both sides of the book loads as the asks only. -/
structure Stored (W : Accs) (s : State conc) : Prop where
  market : loadMarketBytes (W s.mkt.ownAddress).owned (W s.mkt.ownAddress).data false = .ok s.mkt
  reqQ : ∃ slots, 0 < slots ∧ loadReqQBytes (W s.mkt.reqQ).data = .ok (0, s.reqCount, s.seq, slots)
  eventQ : loadEventQBytes (W s.mkt.eventQ).data = .ok s.q
  asks : loadBookBytes .ask (W s.mkt.asks).data = .ok s.asks
  bids : s.mkt.bids ≠ s.mkt.asks → loadBookBytes .bid (W s.mkt.bids).data = .ok s.bids
  same : s.mkt.bids = s.mkt.asks → ∀ b, loadBookBytes .bid (W s.mkt.bids).data ≠ .ok b

/-- The empty state of a new market. -/
def emptyState (toks : Ledger) (m : Market) (nb na nq : Nat) : State conc :=
  { mkt := m, reqCount := 0, seq := 0, oos := [], toks := toks, bids := Slab.fresh nb, asks := Slab.fresh na
    q := Queue.fresh (List.replicate nq Event.zero) }

theorem packList_blank {α : Type} {f : α → List UInt8} {x : α} {k : Nat} (h : f x = zeros k) (n : Nat) :
    packList f (List.replicate n x) = zeros (k * n) := by
  induction n with
  | zero => rfl
  | succ n ih => rw [List.replicate_succ, packList, ih, h, zeros_append]; congr 1; rw [Nat.mul_succ]; omega

theorem zero_event : Event.zero.bytes = zeros 88 := by decide
theorem zero_node : Node.uninit.bytes = zeros 72 := by decide

theorem fresh_eventQ {n : Nat} (h8 : n % 8 = 4) (h : 44 ≤ n) :
    loadEventQBytes (padded (packFields [(8, 17), (8, 0), (8, 0), (8, 0)] ++ zeros (n - 44))) =
      .ok (Queue.fresh (List.replicate ((n - 44) / 88) Event.zero)) := by
  have e : padded (packFields [(8, 17), (8, 0), (8, 0), (8, 0)] ++ zeros (n - 44)) =
      eventQBytes (Queue.fresh (List.replicate ((n - 44) / 88) Event.zero)) (zeros ((n - 44) % 88)) := by
    unfold eventQBytes Queue.fresh
    simp only
    rw [packList_blank zero_event, zeros_append, Nat.div_add_mod]
  rw [e]
  refine event_queue_bytes _ _ (by simp [Queue.fresh]; decide) (by simp [Queue.fresh]; decide) (by simp [Queue.fresh]; decide) ?_ ?_ ?_
  · intro x hx
    rw [List.eq_of_mem_replicate hx]
    intro f hf
    have : (Event.zero.fields.all fun f => decide (f.2 < 256 ^ f.1)) = true := by decide +kernel
    simpa using List.all_eq_true.1 this f hf
  · rw [zeros_length]; exact Nat.mod_lt _ (by omega)
  · rw [zeros_length]; omega

theorem fresh_book {n : Nat} (sd : Side) (h8 : n % 8 = 4) (h : 52 ≤ n) :
    loadBookBytes sd (padded (packFields [(8, sideFlags sd)] ++ zeros (n - 20))) = .ok (Slab.fresh ((n - 52) / 72)) := by
  have hf : packFields (Slab.fresh ((n - 52) / 72)).fields = zeros 32 := by
    simp only [Slab.fields, Slab.fresh, packFields, leBytes_zero, List.append_nil, zeros_append]
  have e : padded (packFields [(8, sideFlags sd)] ++ zeros (n - 20)) =
      bookBytes sd (Slab.fresh ((n - 52) / 72)) (zeros ((n - 52) % 72)) := by
    unfold bookBytes Slab.bytes
    rw [hf]
    have : packList Node.bytes (Slab.fresh ((n - 52) / 72)).nodes = zeros (72 * ((n - 52) / 72)) :=
      packList_blank zero_node _
    rw [this, List.append_assoc, zeros_append, zeros_append, Nat.div_add_mod]
    have : 32 + (n - 52) = n - 20 := by omega
    rw [this]
  rw [e]
  refine book_bytes _ _ _ ?_ ?_ ?_ ?_
  · intro f hf
    simp only [Slab.fields, Slab.fresh, List.mem_cons, List.not_mem_nil, or_false] at hf
    rcases hf with rfl | rfl | rfl | rfl | rfl <;> decide
  · intro x hx
    rw [List.eq_of_mem_replicate hx]
    intro f hf
    have : (Node.uninit.fields.all fun f => decide (f.2 < 256 ^ f.1)) = true := by decide +kernel
    simpa using List.all_eq_true.1 this f hf
  · rw [zeros_length]; exact Nat.mod_lt _ (by omega)
  · rw [zeros_length]; omega

theorem getD_lt {l : List Nat} {b : Nat} (hb : 0 < b) (h : ∀ a ∈ l, a < b) (i : Nat) : l.getD i 0 < b := by
  rw [List.getD_eq_getElem?_getD]
  cases e : l[i]? with
  | none => simpa using hb
  | some x => exact h x (List.mem_of_getElem? e)

theorem new_market_flags (ix : InitMarketIx) (G : Given) :
    (newMarket ix G).flags = 3 ∨ (newMarket ix G).flags = 515 ∨ (newMarket ix G).flags = 1539 := by
  unfold newMarket
  simp only
  split
  · exact .inl rfl
  · split
    · exact .inr (.inl rfl)
    · exact .inr (.inr rfl)

theorem new_market_fits {ix : InitMarketIx} {G : Given} (hk : ∀ a ∈ G.keys, a < 256 ^ 32)
    (hv : IxValid (.initializeMarket ix)) : MarketFits (newMarket ix G) := by
  have h0 : 0 < 256 ^ 32 := by decide
  have hfl := new_market_flags ix G
  refine ⟨?_, ?_⟩
  · have ha : ∀ a ∈ G.auth, a < 256 ^ 32 := fun a h => hk a (List.mem_append.2 (.inr h))
    have h1 := getD_lt h0 ha
    obtain ⟨v1, v2, v3, v4, v5⟩ := hv
    simp only [Given.keys, List.cons_append, List.mem_cons, forall_eq_or_imp] at hk
    intro f hf
    simp only [Market.fieldsV2, Market.fieldsV1, newMarket, List.mem_append, List.mem_cons, List.not_mem_nil,
      or_false] at hf
    have hfl' : (newMarket ix G).flags < 256 ^ 8 := by
      rcases hfl with h | h | h <;> rw [h] <;> decide
    have v3' : ix.feeRateBps < 256 ^ 8 := Nat.lt_of_lt_of_le v3 (by decide)
    rcases hf with (h | h | h | h | h | h | h | h | h | h | h | h | h | h | h | h | h | h | h | h) | h | h | h | h <;> subst h <;>
      first
        | exact hfl'
        | exact v1
        | exact v2
        | exact v3'
        | exact v4
        | exact v5
        | exact h1 _
        | (simp only; omega)
        | exact Nat.pow_pos (by decide)
  · intro hp
    rw [newMarket_permissioned] at hp
    have : G.auth = [] := by simpa using hp
    simp [newMarket, this]

/-- The bytes of the new market are read back as the new market. -/
theorem new_market_loads {ix : InitMarketIx} {G : Given} (hk : ∀ a ∈ G.keys, a < 256 ^ 32)
    (hv : IxValid (.initializeMarket ix)) : loadMarketBytes true (newMarket ix G).bytes false = .ok (newMarket ix G) := by
  rw [market_bytes _ (new_market_fits hk hv)]
  rcases new_market_flags ix G with h | h | h <;> rw [h] <;> rfl

/-- C46. Whatever accounts, sizes and parameters are supplied: if a market is created, the accounts hold an empty
market with all counters zero, at least one request slot, at least 128 event slots and at least 201 nodes per
side; its parameters are those given; with positive lot sizes it is a starting point of the histories of every
other property. No other account changes. -/
theorem fresh_market {P : Params} {mints : Nat → Bool} {toks : Ledger} {W W' : Accs} {accts : List AccMeta}
    {ix : InitMarketIx} (ho : ∀ a, (W a).owned = true → OwnedBytes (W a).data)
    (hl : ∀ a, (W a).data.length < 2 ^ 63) (hk : ∀ a ∈ accts, a.key < 256 ^ 32) (hv : IxValid (.initializeMarket ix))
    (ht : ∀ a t, toks a = some t → t.amount < W64)
    (h : initMarket P mints toks W accts ix = .ok W') :
    ∃ (G : Given) (s : State conc) (nb na nq : Nat), accts.map (·.key) = G.keys ∧ s = emptyState toks (newMarket ix G) nb na nq ∧
      Stored W' s ∧ 201 ≤ nb ∧ 201 ≤ na ∧ 128 ≤ nq ∧ nb = ((W G.bids).data.length - 52) / 72 ∧
      na = ((W G.asks).data.length - 52) / 72 ∧ nq = ((W G.eventQ).data.length - 44) / 88 ∧
      (0 < ix.coinLotSize → 0 < ix.pcLotSize → Genesis P s ∧ Reach P s) ∧
      (∀ a, a ∉ G.own → W' a = W a) ∧ (∀ a ∈ G.own, ∃ b, (W' a).data = padded b) := by
  obtain ⟨G, hG, ok, rfl⟩ := (init_market_iff ho).1 h
  have hk' : ∀ a ∈ G.keys, a < 256 ^ 32 := by
    intro a ha
    rw [← hG] at ha
    obtain ⟨x, hx, rfl⟩ := List.mem_map.1 ha
    exact hk x hx
  obtain ⟨h1, h2, h3, h4, h5, h6, h7, h8, h9, h10, ⟨d1, d2, d3, d4, d5, d6, d7⟩, vs, hvs, hcv, hpv⟩ := ok
  simp only [Given.own, List.mem_cons, List.not_mem_nil, or_false, forall_eq_or_imp, forall_eq] at h5
  have hom : (W G.market).owned = true := h3 _ (by simp [Given.own])
  obtain ⟨am, ar, ae, ab, aa⟩ := h5
  have dma : G.market ≠ G.asks := by
    intro e; rw [← e, h6] at h10; split at h10 <;> omega
  have dmb : G.market ≠ G.bids := by
    intro e; rw [← e, h6] at h9; split at h9 <;> omega
  have wm : (created W ix G G.market).data = (newMarket ix G).bytes := setData_same _ _ _
  have wmo : (created W ix G G.market).owned = true := by
    simp only [created, setData]
    simp [hom, d6, d7, dma, dmb]
  have wa : (created W ix G G.asks).data = padded (packFields [(8, 65)] ++ zeros ((W G.asks).data.length - 20)) := by
    unfold created
    simp only
    rw [setData_other _ _ (Ne.symm dma), setData_same]
  have wb : G.bids ≠ G.asks →
      (created W ix G G.bids).data = padded (packFields [(8, 33)] ++ zeros ((W G.bids).data.length - 20)) := by
    intro hne
    unfold created
    simp only
    rw [setData_other _ _ (Ne.symm dmb), setData_other _ _ hne, setData_same]
  have we : (created W ix G G.eventQ).data =
      padded (packFields [(8, 17), (8, 0), (8, 0), (8, 0)] ++ zeros ((W G.eventQ).data.length - 44)) := by
    unfold created
    simp only
    rw [setData_other _ _ (Ne.symm d7), setData_other _ _ (Ne.symm d5), setData_other _ _ (Ne.symm d3), setData_same]
  have wr : (created W ix G G.reqQ).data = reqQBytes 0 0 0 (zeros ((W G.reqQ).data.length - 44)) := by
    unfold created
    simp only
    rw [setData_other _ _ (Ne.symm d6), setData_other _ _ (Ne.symm d4), setData_other _ _ (Ne.symm d2),
      setData_other _ _ d1, setData_same]
  have la := fresh_book (n := (W G.asks).data.length) .ask aa (by omega)
  have hst : Stored (created W ix G) (emptyState toks (newMarket ix G) (((W G.bids).data.length - 52) / 72)
      (((W G.asks).data.length - 52) / 72) (((W G.eventQ).data.length - 44) / 88)) := by
    refine ⟨?_, ⟨((W G.reqQ).data.length - 44) / 80, by omega, ?_⟩, ?_, ?_, ?_, ?_⟩
    · show loadMarketBytes (created W ix G G.market).owned (created W ix G G.market).data false = _
      rw [wm, wmo]
      exact new_market_loads hk' hv
    · show loadReqQBytes (created W ix G G.reqQ).data = _
      rw [wr, request_queue_bytes _ _ _ _ (by decide) (by decide) (by decide) (by rw [zeros_length]; omega), zeros_length]
      rfl
    · show loadEventQBytes (created W ix G G.eventQ).data = _
      rw [we]
      exact fresh_eventQ ae (by omega)
    · show loadBookBytes .ask (created W ix G G.asks).data = _
      rw [wa]
      exact la
    · intro hne
      show loadBookBytes .bid (created W ix G G.bids).data = _
      rw [wb hne]
      exact fresh_book .bid ab (by omega)
    · intro he b
      show loadBookBytes .bid (created W ix G G.bids).data ≠ _
      have he : G.bids = G.asks := he
      rw [he, wa]
      intro hb
      have := one_kind (k := .bids) (k' := .asks) ⟨b, hb⟩ ⟨_, la⟩
      cases this
  have hgen : 0 < ix.coinLotSize → 0 < ix.pcLotSize → Genesis P (emptyState toks (newMarket ix G)
      (((W G.bids).data.length - 52) / 72) (((W G.asks).data.length - 52) / 72) (((W G.eventQ).data.length - 44) / 88)) := by
    intro hc hp
    obtain ⟨_, tc, htc, _, c1, c2, c3, _⟩ := hcv
    obtain ⟨_, tp, htp, _, p1, p2, p3, _⟩ := hpv
    refine ⟨⟨vs, hvs, ⟨tc, htc, c1, c2, c3⟩, ⟨tp, htp, p1, p2, p3⟩⟩, ?_, hc, hp, rfl, rfl, rfl, rfl, rfl, rfl, rfl, ⟨_, rfl⟩,
      ⟨_, rfl⟩, ⟨_, rfl, ?_⟩, ht⟩
    · show (newMarket ix G).flags = _ ∨ _
      unfold newMarket
      simp only
      split
      · exact .inl rfl
      · split
        · exact .inr (.inl rfl)
        · exact .inr (.inr rfl)
    · rw [List.length_replicate]
      have := hl G.eventQ
      simp only [W64]
      omega
  refine ⟨G, _, _, _, _, hG, rfl, hst, by omega, by omega, by omega, rfl, rfl, rfl, fun hc hp => ⟨hgen hc hp, .start (hgen hc hp)⟩, ?_, ?_⟩
  · intro a ha
    simp only [Given.own, List.mem_cons, List.not_mem_nil, or_false, not_or] at ha
    unfold created
    simp only
    rw [setData_other _ _ ha.1, setData_other _ _ ha.2.2.2.2, setData_other _ _ ha.2.2.2.1, setData_other _ _ ha.2.2.1,
      setData_other _ _ ha.2.1]
  · simp only [Given.own, List.mem_cons, List.not_mem_nil, or_false, forall_eq_or_imp, forall_eq]
    refine ⟨⟨_, wm⟩, ⟨_, wr⟩, ⟨_, we⟩, ?_, ⟨_, wa⟩⟩
    by_cases he : G.bids = G.asks
    · rw [he]; exact ⟨_, wa⟩
    · exact ⟨_, wb he⟩

/-- C46. No account of an existing market can be used to create one again: an account the program has
written to is refused. -/
theorem no_second_market {P : Params} {mints : Nat → Bool} {toks : Ledger} {W : Accs} {accts : List AccMeta}
    {ix : InitMarketIx} {G : Given} (hG : accts.map (·.key) = G.keys) {a : Nat} (ha : a ∈ G.own) {b : List UInt8}
    (hb : (W a).data = padded b) : ∃ e, initMarket P mints toks W accts ix = .error e := by
  have hno : checkBlank (W a) ≠ .ok () := by
    intro h
    obtain ⟨_, ⟨n, hn⟩, _⟩ := (checkBlank_iff fun _ => .inr ⟨b, hb⟩).1 h
    rw [hb] at hn
    have e1 : (padded b).head? = some 115 := rfl
    rw [hn] at e1
    cases n with
    | zero => cases e1
    | succ n =>
      rw [List.replicate_succ, List.head?_cons, Option.some.injEq] at e1
      exact absurd e1 (by decide)
  cases h : initMarket P mints toks W accts ix with
  | error e => exact ⟨e, rfl⟩
  | ok W' =>
    exfalso
    rw [initMarket_given hG] at h
    unfold initGiven at h
    obtain ⟨_, h1, h⟩ := bind_ok h
    obtain ⟨_, h2, h⟩ := bind_ok h
    obtain ⟨_, h3, h⟩ := bind_ok h
    obtain ⟨_, h4, h⟩ := bind_ok h
    obtain ⟨_, h5, h⟩ := bind_ok h
    obtain ⟨_, h6, h⟩ := bind_ok h
    obtain ⟨_, h7, h⟩ := bind_ok h
    simp only [Given.own, List.mem_cons, List.not_mem_nil, or_false] at ha
    rcases ha with rfl | rfl | rfl | rfl | rfl
    · exact hno h3
    · exact hno h4
    · exact hno h5
    · exact hno h6
    · exact hno h7

/-! ### Example -/

/-- Zeroed accounts of the sizes usual in practice. -/
def demoAccs : Accs := fun a =>
  match a with
  | 50 => ⟨true, true, List.replicate 1476 0⟩
  | 53 => ⟨true, true, List.replicate 5132 0⟩
  | 54 => ⟨true, true, List.replicate 262156 0⟩
  | 55 => ⟨true, true, List.replicate 65548 0⟩
  | 56 => ⟨true, true, List.replicate 65548 0⟩
  | _ => ⟨false, true, []⟩

def demoGiven : Given := ⟨50, 53, 54, 55, 56, 51, 52, 80, 81, 1, [90, 91, 92]⟩

/-- A permissioned market with crank authority is created, with 2978 event slots and 909 nodes per side. -/
example : ∃ W', initMarket Demo.P (fun _ => true) Demo.toks demoAccs (demoGiven.keys.map Demo.acc) ⟨100, 10, 0, 0, 5⟩ =
    .ok W' ∧ (newMarket ⟨100, 10, 0, 0, 5⟩ demoGiven).flags = 1539 := by
  refine ⟨_, (init_market_iff ?_).2 ⟨demoGiven, rfl, ?_, rfl⟩, by decide⟩
  · intro a h
    unfold demoAccs at h ⊢
    split <;> first | exact .inl ⟨_, rfl⟩ | exact .inl ⟨0, rfl⟩
  · refine ⟨by decide, ?_, ?_, ?_, ?_, ?_, ?_, ?_, ?_, ?_, by decide, 60, rfl, ⟨rfl, ?_⟩, ⟨rfl, ?_⟩⟩
    · simp only [demoGiven, demoAccs, List.mem_cons, List.not_mem_nil, or_false, forall_eq_or_imp, forall_eq, and_self]
    · simp only [demoGiven, Given.own, demoAccs, List.mem_cons, List.not_mem_nil, or_false, forall_eq_or_imp, forall_eq, and_self]
    · simp only [demoGiven, Given.own, demoAccs, List.mem_cons, List.not_mem_nil, or_false, forall_eq_or_imp, forall_eq]
      exact ⟨⟨_, rfl⟩, ⟨_, rfl⟩, ⟨_, rfl⟩, ⟨_, rfl⟩, ⟨_, rfl⟩⟩
    · simp only [demoGiven, Given.own, demoAccs, List.mem_cons, List.not_mem_nil, or_false, forall_eq_or_imp, forall_eq,
        List.length_replicate]
      decide
    · simp only [demoGiven, demoAccs, List.length_replicate]; decide
    · simp only [demoGiven, demoAccs, List.length_replicate]; decide
    · simp only [demoGiven, demoAccs, List.length_replicate]; decide
    · simp only [demoGiven, demoAccs, List.length_replicate]; decide
    · simp only [demoGiven, demoAccs, List.length_replicate]; decide
    · exact ⟨_, rfl, rfl, rfl, rfl, rfl, rfl⟩
    · exact ⟨_, rfl, rfl, rfl, rfl, rfl, rfl⟩

end Serum.Props
