import Verif.PropsClient

/-!
C61: the builders put every account where the program expects it. Whatever can be done with an instruction can be done with
its builder, given the market's own accounts.
-/

namespace Serum.Props

/-- The call of the builder for an instruction, its arguments being the market's own accounts and those at the documented
positions (`instruction.rs` 327-516) of a list of accounts. -/
inductive BuiltFor (P : Params) (m : Market) (accts : List AccMeta) : Call → Instruction → Prop
  | newOrder (oo payer owner rent srm prog ix) (h1 : keyAt accts 1 = some oo) (h6 : keyAt accts 6 = some payer)
    (h7 : keyAt accts 7 = some owner) (h11 : keyAt accts 11 = some rent) (h12 : keyAt accts 12 = srm) :
    BuiltFor P m accts (Client.newOrder m.ownAddress oo m.reqQ m.eventQ m.bids m.asks payer owner m.coinVault m.pcVault
      P.splToken rent srm prog ix) (.newOrderV3 ix)
  | consumeEvents (oos coinFee pcFee prog limit) (h : oos = (accts.take (accts.length - 4)).map (·.key))
    (h1 : keyAt accts (accts.length - 2) = some coinFee) (h2 : keyAt accts (accts.length - 1) = some pcFee) :
    BuiltFor P m accts (Client.consumeEvents prog oos m.ownAddress m.eventQ coinFee pcFee limit) (.consumeEvents limit)
  | consumeEventsPermissioned (oos auth prog limit) (h : oos = (accts.take (accts.length - 3)).map (·.key))
    (ha : m.crankAuth = some auth) :
    BuiltFor P m accts (Client.consumeEventsPermissioned prog oos m.ownAddress m.eventQ auth limit)
      (.consumeEventsPermissioned limit)
  | cancelOrder (oo owner prog side id) (h3 : keyAt accts 3 = some oo) (h4 : keyAt accts 4 = some owner) :
    BuiltFor P m accts (Client.cancelOrder prog m.ownAddress m.bids m.asks oo owner m.eventQ side id) (.cancelOrderV2 side id)
  | cancelOrderByClientId (oo owner prog cid) (h3 : keyAt accts 3 = some oo) (h4 : keyAt accts 4 = some owner) :
    BuiltFor P m accts (Client.cancelOrderByClientId prog m.ownAddress m.bids m.asks oo owner m.eventQ cid)
      (.cancelOrderByClientIdV2 cid)
  | cancelOrdersByClientIds (oo owner prog ids) (h3 : keyAt accts 3 = some oo) (h4 : keyAt accts 4 = some owner) :
    BuiltFor P m accts (Client.cancelOrdersByClientIds prog m.ownAddress m.bids m.asks oo owner m.eventQ ids)
      (.cancelOrdersByClientIds ids)
  | settleFunds (oo owner coinWallet pcWallet refer vs prog) (h1 : keyAt accts 1 = some oo) (h2 : keyAt accts 2 = some owner)
    (h5 : keyAt accts 5 = some coinWallet) (h6 : keyAt accts 6 = some pcWallet) (h9 : keyAt accts 9 = refer)
    (hv : P.vaultSigner m.ownAddress m.vaultSignerNonce = some vs) :
    BuiltFor P m accts (Client.settleFunds prog m.ownAddress P.splToken oo owner m.coinVault coinWallet m.pcVault pcWallet refer vs)
      .settleFunds
  | disableMarket (prog) : BuiltFor P m accts (Client.disableMarket prog m.ownAddress P.disableAuth) .disableMarket
  | sweepFees (dst vs prog) (h3 : keyAt accts 3 = some dst) (hv : P.vaultSigner m.ownAddress m.vaultSignerNonce = some vs) :
    BuiltFor P m accts (Client.sweepFees prog m.ownAddress m.pcVault P.feeSweeper dst vs P.splToken) .sweepFees
  | sendTake (coinWallet pcWallet owner vs srm prog ix) (h5 : keyAt accts 5 = some coinWallet)
    (h6 : keyAt accts 6 = some pcWallet) (h7 : keyAt accts 7 = some owner) (h12 : keyAt accts 12 = srm)
    (hv : P.vaultSigner m.ownAddress m.vaultSignerNonce = some vs) :
    BuiltFor P m accts (Client.sendTake m.ownAddress m.reqQ m.eventQ m.bids m.asks coinWallet pcWallet owner m.coinVault m.pcVault
      P.splToken vs srm prog ix) (.sendTake ix)
  | closeOpenOrders (oo owner dest prog) (h0 : keyAt accts 0 = some oo) (h1 : keyAt accts 1 = some owner)
    (h2 : keyAt accts 2 = some dest) : BuiltFor P m accts (Client.closeOpenOrders prog oo owner dest m.ownAddress) .closeOpenOrders
  | initOpenOrders (oo owner rent auth prog) (h0 : keyAt accts 0 = some oo) (h1 : keyAt accts 1 = some owner)
    (h3 : keyAt accts 3 = some rent) (h4 : keyAt accts 4 = auth) :
    BuiltFor P m accts (Client.initOpenOrders rent prog oo owner m.ownAddress auth) .initOpenOrders
  | prune (auth oo owner prog limit) (ha : m.pruneAuth = some auth) (h4 : keyAt accts 4 = some oo) (h5 : keyAt accts 5 = some owner) :
    BuiltFor P m accts (Client.prune prog m.ownAddress m.bids m.asks auth oo owner m.eventQ limit) (.prune limit)

theorem BuiltFor.built {P : Params} {m : Market} {accts : List AccMeta} {c : Call} {ix : Instruction}
    (h : BuiltFor P m accts c ix) : Built c ix := by
  cases h <;> constructor

/-- The instructions for which the library has a builder and which do something. -/
def HasBuilder : Instruction → Bool
  | .newOrderV3 _ | .consumeEvents _ | .consumeEventsPermissioned _ | .cancelOrderV2 .. | .cancelOrderByClientIdV2 _
  | .cancelOrdersByClientIds _ | .settleFunds | .disableMarket | .sweepFees | .sendTake _ | .closeOpenOrders | .initOpenOrders
  | .prune _ => true
  | _ => false

section
variable {P : Params} {env : Env} {s s' : State conc} {accts : List AccMeta} {sg : Nat → Bool} {c : Call} {ix : Instruction}

theorem splProgram_key {a : AccMeta} {u : Unit} (h : splProgram P a = .ok u) : a.key = P.splToken := by
  simpa using checkAssert_ok.1 h

theorem vaultSigner_key {k : Core} {a : AccMeta} {u : Unit} (h : vaultSignerAcct P k a = .ok u) :
    P.vaultSigner k.mkt.ownAddress k.mkt.vaultSignerNonce = some a.key := by
  unfold vaultSignerAcct at h
  split at h
  · cases h
  · rename_i e
    have := checkAssert_ok.1 h
    rw [e]
    simp at this
    rw [this]

/-- A list of accounts in which a key has signed or not, once and for all, is that of a call with the same keys. -/
theorem same_accts (hd : ∀ a ∈ accts, a.signer = sg a.key) (h : c.metas.map (·.key) = accts.map (·.key)) :
    c.accts sg = accts := by
  have e1 : c.accts sg = (c.metas.map (·.key)).map fun k => (⟨k, sg k⟩ : AccMeta) := by simp [Call.accts]
  have e2 : accts = (accts.map (·.key)).map fun k => (⟨k, sg k⟩ : AccMeta) := by
    rw [List.map_map]
    conv => lhs; rw [← List.map_id accts]
    refine List.map_congr_left fun a ha => ?_
    have := hd a ha
    cases a
    simp only at this
    simp [this]
  rw [e1, h, ← e2]

/-- The six accounts of a cancellation come first. -/
theorem parseCancel_list {a : CancelAccts} (h : parseCancel accts = .ok a) :
    ∃ t, accts = [a.market, a.bids, a.asks, a.oo, a.signer, a.eventQ] ++ t := by
  unfold parseCancel at h
  split at h
  case h_2 => cases h
  cases h
  exact ⟨_, rfl⟩

/-- The accounts of a new order. -/
theorem parseNewOrder_list {a : NewOrderAccts} (h : parseNewOrder accts = .ok a) :
    accts = [a.market, a.oo, a.reqQ, a.eventQ, a.bids, a.asks, a.payer, a.owner, a.coinVault, a.pcVault, a.splToken, a.rent] ++
      a.discount := by
  unfold parseNewOrder at h
  split at h
  case h_2 => cases h
  split at h
  case isFalse => cases h
  cases h
  rfl

/-- The accounts of a `SendTake`. -/
theorem parseSendTake_list {a : SendTakeAccts} (h : parseSendTake accts = .ok a) :
    accts = [a.market, a.reqQ, a.eventQ, a.bids, a.asks, a.coinWallet, a.pcWallet, a.signer, a.coinVault, a.pcVault, a.splToken,
      a.vaultSigner] ++ a.discount := by
  unfold parseSendTake at h
  split at h
  case h_2 => cases h
  split at h
  case isFalse => cases h
  cases h
  rfl

/-- The accounts of a settlement. -/
theorem parseSettle_list {a : SettleAccts} (h : parseSettle accts = .ok a) :
    accts = [a.market, a.oo, a.owner, a.coinVault, a.pcVault, a.coinWallet, a.pcWallet, a.vaultSigner, a.splToken] ++
      a.referrer.toList := by
  unfold parseSettle at h
  split at h
  · cases h
    rfl
  · cases h
    rfl
  · cases h

/-- A discount account is one account. -/
theorem discount_one {k : Core} {l : List AccMeta} {d : Option Tok} (h : discountAcct k l = .ok d) : l = [] ∨ ∃ a, l = [a] := by
  unfold discountAcct at h
  split at h
  · exact Or.inl rfl
  · exact Or.inr ⟨_, rfl⟩
  · cases h

/-- What has to be shown: the builder's list of keys is the list given. -/
theorem complete_of (hb : BuiltFor P s.mkt accts c ix) (hv : IxValid ix) (hd : ∀ a ∈ accts, a.signer = sg a.key)
    (hk : c.metas.map (·.key) = accts.map (·.key)) (hx : process conc P env s accts ix = .ok s') :
    c.SignedBy sg ∧ Sent P env sg s c s' ∧ ∃ t, accts.map (·.key) = c.metas.map (·.key) ++ t := by
  have h1 : Sent P env sg s c s' := sent_of hb.built hv (by rw [same_accts hd hk]; exact hx)
  exact ⟨(client_signatures hb.built hv).1 s' h1, h1, [], by simp [hk]⟩

/-- The same if accounts follow that the program does not look at. -/
theorem complete_of_prefix {t : List AccMeta} (hb : BuiltFor P s.mkt (accts ++ t) c ix) (hv : IxValid ix)
    (hd : ∀ a ∈ accts ++ t, a.signer = sg a.key) (hk : c.metas.map (·.key) = accts.map (·.key))
    (hx : process conc P env s accts ix = .ok s') :
    c.SignedBy sg ∧ Sent P env sg s c s' ∧ ∃ u, (accts ++ t).map (·.key) = c.metas.map (·.key) ++ u := by
  have hd' : ∀ a ∈ accts, a.signer = sg a.key := fun a ha => hd a (List.mem_append_left _ ha)
  have h1 : Sent P env sg s c s' := sent_of hb.built hv (by rw [same_accts hd' hk]; exact hx)
  exact ⟨(client_signatures hb.built hv).1 s' h1, h1, t.map (·.key), by simp [hk]⟩

/-- C61. Whatever an instruction does, its builder does, given the market's own accounts and the others in their documented
roles; in a transaction with the same signatures, and it asks for no others. -/
theorem client_complete (hx : process conc P env s accts ix = .ok s') (hi : HasBuilder ix = true) (hv : IxValid ix)
    (hd : ∀ a ∈ accts, a.signer = sg a.key) (prog : Nat) :
    ∃ c, BuiltFor P s.mkt accts c ix ∧ c.prog = prog ∧ c.SignedBy sg ∧ Sent P env sg s c s' ∧
      ∃ t, accts.map (·.key) = c.metas.map (·.key) ++ t := by
  cases ix with
  | initializeMarket => cases hi
  | newOrder => cases hi
  | matchOrders => cases hi
  | cancelOrder => cases hi
  | cancelOrderByClientId => cases hi
  | newOrderV2 => cases hi
  | replaceOrderByClientId => cases hi
  | replaceOrdersByClientIds => cases hi
  | newOrderV3 ix =>
    have h : newOrderV3 conc P env s accts ix = .ok s' := hx
    unfold newOrderV3 at h
    obtain ⟨a, hp, h⟩ := bind_ok h
    obtain ⟨⟨tier, oo⟩, ha, h⟩ := bind_ok h
    unfold newOrderArgs at ha
    obtain ⟨_, hdi, ha⟩ := bind_ok ha
    obtain ⟨_, hm, ha⟩ := bind_ok ha
    obtain ⟨_, hs, ha⟩ := bind_ok ha
    obtain ⟨_, _, ha⟩ := bind_ok ha
    obtain ⟨_, hr, ha⟩ := bind_ok ha
    obtain ⟨_, he, ha⟩ := bind_ok ha
    obtain ⟨_, _, ha⟩ := bind_ok ha
    obtain ⟨_, _, ha⟩ := bind_ok ha
    obtain ⟨_, hcv, ha⟩ := bind_ok ha
    obtain ⟨_, hpv, ha⟩ := bind_ok ha
    obtain ⟨_, _, ha⟩ := bind_ok ha
    obtain ⟨_, hsp, ha⟩ := bind_ok ha
    obtain ⟨_, hb, ha⟩ := bind_ok ha
    obtain ⟨_, hk, ha⟩ := bind_ok ha
    have hm := loadMarket_key hm
    have hr := loadReqQ_key hr
    have he := loadEventQ_key he
    have hb := loadBids_key hb
    have hk := loadAsks_key hk
    have hcv := coinVault_key hcv
    have hpv := pcVault_key hpv
    have hsp := splProgram_key hsp
    have hl := parseNewOrder_list hp
    rcases discount_one hdi with e | ⟨d, e⟩
    · rw [e] at hl
      have B := BuiltFor.newOrder (P := P) (m := s.mkt) (accts := accts) a.oo.key a.payer.key a.owner.key a.rent.key none prog ix
        (by rw [hl]; rfl)
        (by rw [hl]; rfl) (by rw [hl]; rfl) (by rw [hl]; rfl) (by rw [hl]; rfl)
      exact ⟨_, B, rfl, complete_of B hv hd
        (by rw [hl]; simp [Client.newOrder, wr, ro, roSig, hm, hr, he, hb, hk, hcv, hpv, hsp]) hx⟩
    · rw [e] at hl
      have B := BuiltFor.newOrder (P := P) (m := s.mkt) (accts := accts) a.oo.key a.payer.key a.owner.key a.rent.key (some d.key) prog
        ix (by rw [hl]; rfl) (by rw [hl]; rfl) (by rw [hl]; rfl) (by rw [hl]; rfl) (by rw [hl]; rfl)
      exact ⟨_, B, rfl, complete_of B hv hd
        (by rw [hl]; simp [Client.newOrder, wr, ro, roSig, hm, hr, he, hb, hk, hcv, hpv, hsp]) hx⟩
  | sendTake ix =>
    have h : sendTake conc P s accts ix = .ok s' := hx
    unfold sendTake at h
    obtain ⟨a, hp, h⟩ := bind_ok h
    obtain ⟨tier, ha, h⟩ := bind_ok h
    unfold sendTakeArgs at ha
    obtain ⟨_, hdi, ha⟩ := bind_ok ha
    obtain ⟨_, hm, ha⟩ := bind_ok ha
    obtain ⟨_, hs, ha⟩ := bind_ok ha
    obtain ⟨_, _, ha⟩ := bind_ok ha
    obtain ⟨_, hr, ha⟩ := bind_ok ha
    obtain ⟨_, he, ha⟩ := bind_ok ha
    obtain ⟨_, _, ha⟩ := bind_ok ha
    obtain ⟨_, _, ha⟩ := bind_ok ha
    obtain ⟨_, hcv, ha⟩ := bind_ok ha
    obtain ⟨_, hpv, ha⟩ := bind_ok ha
    obtain ⟨_, hsp, ha⟩ := bind_ok ha
    obtain ⟨_, hvs, ha⟩ := bind_ok ha
    obtain ⟨_, hb, ha⟩ := bind_ok ha
    obtain ⟨_, hk, ha⟩ := bind_ok ha
    have hm := loadMarket_key hm
    have hr := loadReqQ_key hr
    have he := loadEventQ_key he
    have hb := loadBids_key hb
    have hk := loadAsks_key hk
    have hcv := coinVault_key hcv
    have hpv := pcVault_key hpv
    have hsp := splProgram_key hsp
    have hvs := vaultSigner_key hvs
    have hl := parseSendTake_list hp
    rcases discount_one hdi with e | ⟨d, e⟩
    · rw [e] at hl
      have B := BuiltFor.sendTake (P := P) (m := s.mkt) (accts := accts) a.coinWallet.key a.pcWallet.key a.signer.key
        a.vaultSigner.key none prog ix (by rw [hl]; rfl) (by rw [hl]; rfl) (by rw [hl]; rfl) (by rw [hl]; rfl) hvs
      exact ⟨_, B, rfl, complete_of B hv hd
        (by rw [hl]; simp [Client.sendTake, wr, ro, roSig, hm, hr, he, hb, hk, hcv, hpv, hsp]) hx⟩
    · rw [e] at hl
      have B := BuiltFor.sendTake (P := P) (m := s.mkt) (accts := accts) a.coinWallet.key a.pcWallet.key a.signer.key
        a.vaultSigner.key (some d.key) prog ix (by rw [hl]; rfl) (by rw [hl]; rfl) (by rw [hl]; rfl) (by rw [hl]; rfl) hvs
      exact ⟨_, B, rfl, complete_of B hv hd
        (by rw [hl]; simp [Client.sendTake, wr, ro, roSig, hm, hr, he, hb, hk, hcv, hpv, hsp]) hx⟩
  | cancelOrderV2 sd id =>
    have h : cancelV2 conc env s accts sd id = .ok s' := hx
    unfold cancelV2 at h
    obtain ⟨a, hp, h⟩ := bind_ok h
    obtain ⟨oo, ha, h⟩ := bind_ok h
    obtain ⟨hm, hs, hb, hk, he⟩ := cancelArgs_doc ha
    obtain ⟨t, rfl⟩ := parseCancel_list hp
    have B := BuiltFor.cancelOrder (P := P) (m := s.mkt)
      (accts := [a.market, a.bids, a.asks, a.oo, a.signer, a.eventQ] ++ t) a.oo.key a.signer.key prog sd id rfl rfl
    exact ⟨_, B, rfl, complete_of_prefix B hv hd (by simp [Client.cancelOrder, wr, roSig, hm, hb, hk, he]) hx⟩
  | cancelOrderByClientIdV2 cid =>
    have h : cancelByClientIdV2 conc env s accts cid = .ok s' := hx
    unfold cancelByClientIdV2 at h
    obtain ⟨a, hp, h⟩ := bind_ok h
    obtain ⟨_, _, h⟩ := bind_ok h
    obtain ⟨oo, ha, h⟩ := bind_ok h
    obtain ⟨hm, hs, hb, hk, he⟩ := cancelArgs_doc ha
    obtain ⟨t, rfl⟩ := parseCancel_list hp
    have B := BuiltFor.cancelOrderByClientId (P := P) (m := s.mkt)
      (accts := [a.market, a.bids, a.asks, a.oo, a.signer, a.eventQ] ++ t) a.oo.key a.signer.key prog cid rfl rfl
    exact ⟨_, B, rfl, complete_of_prefix B hv hd (by simp [Client.cancelOrderByClientId, wr, roSig, hm, hb, hk, he]) hx⟩
  | cancelOrdersByClientIds ids =>
    have h : cancelByClientIds conc env s accts ids = .ok s' := hx
    unfold cancelByClientIds at h
    obtain ⟨a, hp, h⟩ := bind_ok h
    obtain ⟨oo, ha, h⟩ := bind_ok h
    obtain ⟨hm, hs, hb, hk, he⟩ := cancelArgs_doc ha
    obtain ⟨t, rfl⟩ := parseCancel_list hp
    have B := BuiltFor.cancelOrdersByClientIds (P := P) (m := s.mkt)
      (accts := [a.market, a.bids, a.asks, a.oo, a.signer, a.eventQ] ++ t) a.oo.key a.signer.key prog ids rfl rfl
    exact ⟨_, B, rfl, complete_of_prefix B hv hd (by simp [Client.cancelOrdersByClientIds, wr, roSig, hm, hb, hk, he]) hx⟩
  | settleFunds =>
    have h : settleFunds conc P env s accts = .ok s' := hx
    unfold settleFunds at h
    obtain ⟨a, hp, h⟩ := bind_ok h
    obtain ⟨oo, ha, h⟩ := bind_ok h
    unfold settleArgs at ha
    obtain ⟨_, hsp, ha⟩ := bind_ok ha
    obtain ⟨_, hm, ha⟩ := bind_ok ha
    obtain ⟨_, _, ha⟩ := bind_ok ha
    obtain ⟨_, hcv, ha⟩ := bind_ok ha
    obtain ⟨_, hpv, ha⟩ := bind_ok ha
    obtain ⟨_, _, ha⟩ := bind_ok ha
    obtain ⟨_, _, ha⟩ := bind_ok ha
    obtain ⟨_, _, ha⟩ := bind_ok ha
    obtain ⟨_, hvs, ha⟩ := bind_ok ha
    have hm := loadMarket_key hm
    have hcv := coinVault_key (orAssert_ok hcv)
    have hpv := pcVault_key (orAssert_ok hpv)
    have hsp := splProgram_key hsp
    have hvs := vaultSigner_key hvs
    have hl := parseSettle_list hp
    rcases e : a.referrer with _ | r
    · rw [e] at hl
      have B := BuiltFor.settleFunds (P := P) (m := s.mkt) (accts := accts) a.oo.key a.owner.key a.coinWallet.key a.pcWallet.key none
        a.vaultSigner.key prog (by rw [hl]; rfl) (by rw [hl]; rfl) (by rw [hl]; rfl) (by rw [hl]; rfl)
        (by rw [hl]; rfl) hvs
      exact ⟨_, B, rfl, complete_of B hv hd
        (by rw [hl]; simp [Client.settleFunds, wr, ro, roSig, hm, hcv, hpv, hsp]) hx⟩
    · rw [e] at hl
      have B := BuiltFor.settleFunds (P := P) (m := s.mkt) (accts := accts) a.oo.key a.owner.key a.coinWallet.key a.pcWallet.key
        (some r.key) a.vaultSigner.key prog (by rw [hl]; rfl) (by rw [hl]; rfl) (by rw [hl]; rfl) (by rw [hl]; rfl)
        (by rw [hl]; rfl) hvs
      exact ⟨_, B, rfl, complete_of B hv hd
        (by rw [hl]; simp [Client.settleFunds, wr, ro, roSig, hm, hcv, hpv, hsp]) hx⟩
  | disableMarket =>
    have h : disableMarket conc P s accts = .ok s' := hx
    unfold disableMarket at h
    split at h
    case h_2 => cases h
    rename_i m au
    obtain ⟨_, hm, h⟩ := bind_ok h
    obtain ⟨_, _, h⟩ := bind_ok h
    obtain ⟨_, ha, h⟩ := bind_ok h
    have hm := loadMarket_key hm
    have ha : au.key = P.disableAuth := by simpa using checkAssert_ok.1 ha
    have B := BuiltFor.disableMarket (P := P) (m := s.mkt) (accts := [m, au]) prog
    exact ⟨_, B, rfl, complete_of B hv hd (by simp [Client.disableMarket, wr, roSig, hm, ha]) hx⟩
  | sweepFees =>
    have h : sweepFees conc P s accts = .ok s' := hx
    unfold sweepFees at h
    split at h
    case h_2 => cases h
    rename_i m pv au w vs t
    obtain ⟨_, hm, h⟩ := bind_ok h
    obtain ⟨_, hpv, h⟩ := bind_ok h
    obtain ⟨_, _, h⟩ := bind_ok h
    obtain ⟨_, hvs, h⟩ := bind_ok h
    obtain ⟨_, hsp, h⟩ := bind_ok h
    obtain ⟨_, _, h⟩ := bind_ok h
    obtain ⟨_, ha, h⟩ := bind_ok h
    have hm := loadMarket_key hm
    have hpv := pcVault_key hpv
    have hsp := splProgram_key hsp
    have hvs := vaultSigner_key hvs
    have ha : au.key = P.feeSweeper := by simpa using checkAssert_ok.1 ha
    have B := BuiltFor.sweepFees (P := P) (m := s.mkt) (accts := [m, pv, au, w, vs, t]) w.key vs.key prog rfl hvs
    exact ⟨_, B, rfl, complete_of B hv hd (by simp [Client.sweepFees, wr, ro, roSig, hm, ha, hpv, hsp]) hx⟩
  | closeOpenOrders =>
    have h : closeOpenOrders conc env s accts = .ok s' := hx
    unfold closeOpenOrders at h
    split at h
    case h_2 => cases h
    rename_i oo o d m
    obtain ⟨_, _, h⟩ := bind_ok h
    obtain ⟨_, hm, h⟩ := bind_ok h
    have hm := loadMarket_key hm
    have B := BuiltFor.closeOpenOrders (P := P) (m := s.mkt) (accts := [oo, o, d, m]) oo.key o.key d.key prog rfl rfl rfl
    exact ⟨_, B, rfl, complete_of B hv hd (by simp [Client.closeOpenOrders, wr, ro, roSig, hm]) hx⟩
  | initOpenOrders =>
    have h : initOpenOrders conc env s accts = .ok s' := hx
    unfold initOpenOrders at h
    split at h
    case h_2 => cases h
    split at h
    case isFalse => cases h
    rename_i oo o m r rest hl
    obtain ⟨_, _, h⟩ := bind_ok h
    obtain ⟨_, _, h⟩ := bind_ok h
    obtain ⟨_, hm, h⟩ := bind_ok h
    have hm := loadMarket_key hm
    rcases rest with _ | ⟨d, _ | ⟨d', rest⟩⟩
    · have B := BuiltFor.initOpenOrders (P := P) (m := s.mkt) (accts := [oo, o, m, r]) oo.key o.key r.key none prog rfl rfl rfl rfl
      exact ⟨_, B, rfl, complete_of B hv hd (by simp [Client.initOpenOrders, wr, ro, roSig, hm]) hx⟩
    · have B := BuiltFor.initOpenOrders (P := P) (m := s.mkt) (accts := [oo, o, m, r, d]) oo.key o.key r.key (some d.key) prog rfl
        rfl rfl rfl
      exact ⟨_, B, rfl, complete_of B hv hd (by simp [Client.initOpenOrders, wr, ro, roSig, hm]) hx⟩
    · simp at hl
  | prune n =>
    have h : prune conc env s accts n = .ok s' := hx
    unfold prune at h
    split at h
    case h_2 => cases h
    rename_i m b k au oo o eq
    obtain ⟨_, _, h⟩ := bind_ok h
    obtain ⟨_, hm, h⟩ := bind_ok h
    obtain ⟨_, ha, h⟩ := bind_ok h
    obtain ⟨_, _, h⟩ := bind_ok h
    obtain ⟨_, hb, h⟩ := bind_ok h
    obtain ⟨_, hk, h⟩ := bind_ok h
    obtain ⟨_, he, h⟩ := bind_ok h
    have hm := loadMarket_key hm
    have he := loadEventQ_key he
    have hb := loadBids_key hb
    have hk := loadAsks_key hk
    have ha : s.mkt.pruneAuth = some au.key := by simpa using checkAssert_ok.1 ha
    have B := BuiltFor.prune (P := P) (m := s.mkt) (accts := [m, b, k, au, oo, o, eq]) au.key oo.key o.key prog n ha rfl rfl
    exact ⟨_, B, rfl, complete_of B hv hd (by simp [Client.prune, wr, ro, roSig, hm, hb, hk, he]) hx⟩
  | consumeEvents n =>
    have h : consumeEvents conc P env s accts n = .ok s' := hx
    unfold consumeEvents at h
    obtain ⟨_, hl, h⟩ := bind_ok h
    have hl : 5 ≤ accts.length := by simpa using checkAssert_ok.1 hl
    obtain ⟨h1, h2⟩ := split_last accts 4 (by omega)
    rcases hdr : accts.drop (accts.length - 4) with _ | ⟨m, _ | ⟨q, _ | ⟨x, _ | ⟨y, _ | ⟨z, t⟩⟩⟩⟩⟩ <;>
      rw [hdr] at h2 <;> try cases h2
    simp only [hdr] at h
    obtain ⟨_, hm, h⟩ := bind_ok h
    obtain ⟨_, _, h⟩ := bind_ok h
    obtain ⟨_, he, h⟩ := bind_ok h
    have hm := loadMarket_key hm
    have he := loadEventQ_key he
    have k1 : keyAt accts (accts.length - 2) = some x.key := by
      unfold keyAt
      have : accts[accts.length - 2]? = (accts.drop (accts.length - 4))[2]? := by
        rw [List.getElem?_drop]; congr 1; omega
      rw [this, hdr]; rfl
    have k2 : keyAt accts (accts.length - 1) = some y.key := by
      unfold keyAt
      have : accts[accts.length - 1]? = (accts.drop (accts.length - 4))[3]? := by
        rw [List.getElem?_drop]; congr 1; omega
      rw [this, hdr]; rfl
    have B := BuiltFor.consumeEvents (P := P) (m := s.mkt) (accts := accts) _ x.key y.key prog n rfl k1 k2
    refine ⟨_, B, rfl, complete_of B hv hd ?_ hx⟩
    conv => rhs; rw [h1, hdr]
    simp [Client.consumeEvents, wr, hm, he, Function.comp_def]
  | consumeEventsPermissioned n =>
    have h : consumeEventsPermissioned conc P env s accts n = .ok s' := hx
    unfold consumeEventsPermissioned at h
    obtain ⟨_, hl, h⟩ := bind_ok h
    have hl : 4 ≤ accts.length := by simpa using checkAssert_ok.1 hl
    obtain ⟨h1, h2⟩ := split_last accts 3 (by omega)
    rcases hdr : accts.drop (accts.length - 3) with _ | ⟨m, _ | ⟨q, _ | ⟨x, _ | ⟨z, t⟩⟩⟩⟩ <;>
      rw [hdr] at h2 <;> try cases h2
    simp only [hdr] at h
    obtain ⟨_, hm, h⟩ := bind_ok h
    obtain ⟨_, _, h⟩ := bind_ok h
    obtain ⟨_, ha, h⟩ := bind_ok h
    obtain ⟨_, he, h⟩ := bind_ok h
    have hm := loadMarket_key hm
    have he := loadEventQ_key he
    have ha : s.mkt.crankAuth = some x.key := by
      have := checkAssert_ok.1 ha
      simp at this
      exact this.symm
    have B := BuiltFor.consumeEventsPermissioned (P := P) (m := s.mkt) (accts := accts) _ x.key prog n rfl ha
    refine ⟨_, B, rfl, complete_of B hv hd ?_ hx⟩
    conv => rhs; rw [h1, hdr]
    simp [Client.consumeEventsPermissioned, wr, roSig, hm, he, Function.comp_def]

end

/-- The cancellation of `Demo`, by its builder. -/
example : ∃ c, BuiltFor Demo.P Demo.s4.mkt (Demo.cancelAccts 42 12) c (.cancelOrderV2 .bid Demo.bidId) ∧ c.prog = 1 ∧ c.SignedBy demoSigners ∧
    Sent Demo.P Demo.env demoSigners Demo.s4 c Demo.s5 ∧ ∃ t, (Demo.cancelAccts 42 12).map (·.key) = c.metas.map (·.key) ++ t :=
  client_complete Demo.e5 rfl (by decide : U128 Demo.bidId) (by decide) 1

/-- The settlement of `Demo`, with its referrer. -/
example : ∃ c, BuiltFor Demo.P Demo.s6.mkt (Demo.settleAccts 42 12 22 32 [Demo.acc 33]) c .settleFunds ∧ c.prog = 1 ∧ c.SignedBy demoSigners ∧
    Sent Demo.P Demo.env demoSigners Demo.s6 c Demo.s7 ∧
    ∃ t, (Demo.settleAccts 42 12 22 32 [Demo.acc 33]).map (·.key) = c.metas.map (·.key) ++ t :=
  client_complete Demo.e7 rfl trivial (by decide) 1

end Serum.Props
