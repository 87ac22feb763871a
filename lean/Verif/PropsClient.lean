import Verif.PropsDocs
import Verif.PropsDisabled
import Verif.PropsInit
import Verif.Client

/-!
C61: the instruction builders of the client library. What a builder makes asks for exactly the signatures the program
needs and for write access to everything the program changes, and does what the builder's arguments say.
-/

namespace Serum.Props

/-! ### Signatures and write access -/

/-- `c` was made by a builder of the library, to carry the instruction `ix`. -/
inductive Built : Call → Instruction → Prop
  | newOrder (market oo reqQ eventQ bids asks payer owner coinVault pcVault spl rent srm prog ix) :
    Built (Client.newOrder market oo reqQ eventQ bids asks payer owner coinVault pcVault spl rent srm prog ix) (.newOrderV3 ix)
  | matchOrders (prog market reqQ bids asks eventQ coinFee pcFee limit) :
    Built (Client.matchOrders prog market reqQ bids asks eventQ coinFee pcFee limit) (.matchOrders limit)
  | consumeEvents (prog oos market eventQ coinFee pcFee limit) :
    Built (Client.consumeEvents prog oos market eventQ coinFee pcFee limit) (.consumeEvents limit)
  | consumeEventsPermissioned (prog oos market eventQ auth limit) :
    Built (Client.consumeEventsPermissioned prog oos market eventQ auth limit) (.consumeEventsPermissioned limit)
  | cancelOrder (prog market bids asks oo owner eventQ side id) :
    Built (Client.cancelOrder prog market bids asks oo owner eventQ side id) (.cancelOrderV2 side id)
  | settleFunds (prog market spl oo owner coinVault coinWallet pcVault pcWallet refer vaultSigner) :
    Built (Client.settleFunds prog market spl oo owner coinVault coinWallet pcVault pcWallet refer vaultSigner) .settleFunds
  | cancelOrderByClientId (prog market bids asks oo owner eventQ cid) :
    Built (Client.cancelOrderByClientId prog market bids asks oo owner eventQ cid) (.cancelOrderByClientIdV2 cid)
  | cancelOrdersByClientIds (prog market bids asks oo owner eventQ ids) :
    Built (Client.cancelOrdersByClientIds prog market bids asks oo owner eventQ ids) (.cancelOrdersByClientIds ids)
  | disableMarket (prog market auth) : Built (Client.disableMarket prog market auth) .disableMarket
  | sweepFees (prog market pcVault auth dst vaultSigner spl) :
    Built (Client.sweepFees prog market pcVault auth dst vaultSigner spl) .sweepFees
  | sendTake (market reqQ eventQ bids asks coinWallet pcWallet owner coinVault pcVault spl vaultSigner srm prog ix) :
    Built (Client.sendTake market reqQ eventQ bids asks coinWallet pcWallet owner coinVault pcVault spl vaultSigner srm prog ix)
      (.sendTake ix)
  | closeOpenOrders (prog oo owner dest market) : Built (Client.closeOpenOrders prog oo owner dest market) .closeOpenOrders
  | initOpenOrders (rent prog oo owner market auth) :
    Built (Client.initOpenOrders rent prog oo owner market auth) .initOpenOrders
  | prune (prog market bids asks auth oo owner eventQ limit) :
    Built (Client.prune prog market bids asks auth oo owner eventQ limit) (.prune limit)

theorem Built.data {c : Call} {ix : Instruction} (h : Built c ix) : c.data = ix.pack := by cases h <;> rfl

theorem metas_append {l : List Nat} {r : List Meta} {i : Nat} :
    (l.map wr ++ r)[i]? = if i < l.length then (l[i]?).map wr else r[i - l.length]? := by
  rw [List.getElem?_append, List.length_map]
  split <;> simp

/-- The flags of a built call agree with the documentation of the instruction. -/
theorem Built.flags {c : Call} {ix : Instruction} (h : Built c ix) :
    (∀ i m, c.metas[i]? = some m → (m.signer = true ↔ i ∈ docSigner c.metas.length ix)) ∧
    (∀ i m, c.metas[i]? = some m → i ∈ docWritable c.metas.length ix → m.writable = true) := by
  cases h with
  | consumeEvents prog oos market eventQ coinFee pcFee limit =>
    simp only [Client.consumeEvents, docSigner, docWritable, List.not_mem_nil, iff_false, metas_append]
    refine ⟨fun i m hm hs => ?_, fun i m hm _ => ?_⟩
    all_goals
      split at hm
      · cases hx : oos[i]? with
        | none => rw [hx] at hm; cases hm
        | some x => rw [hx] at hm; cases hm; first | cases hs | rfl
      · generalize i - oos.length = j at hm
        rcases j with _ | _ | _ | _ | j <;> cases hm <;> first | cases hs | rfl
  | consumeEventsPermissioned prog oos market eventQ auth limit =>
    simp only [Client.consumeEventsPermissioned, docSigner, docWritable, metas_append, List.length_append, List.length_map,
      List.length_cons, List.length_nil, List.mem_range, List.mem_cons, List.not_mem_nil, or_false]
    refine ⟨fun i m hm => ?_, fun i m hm hi => ?_⟩
    · split at hm
      · cases hx : oos[i]? with
        | none => rw [hx] at hm; cases hm
        | some x => rw [hx] at hm; cases hm; simp [wr]; omega
      · rcases hj : i - oos.length with _ | _ | _ | j <;> rw [hj] at hm <;> cases hm <;> simp [wr, roSig] <;> omega
    · split at hm
      · cases hx : oos[i]? with
        | none => rw [hx] at hm; cases hm
        | some x => rw [hx] at hm; cases hm; rfl
      · rcases hj : i - oos.length with _ | _ | _ | j <;> rw [hj] at hm <;> cases hm <;> first | rfl | omega
  | newOrder m oo rq eq b a p o cv pv spl rent srm prog ix =>
    cases srm <;> refine ⟨fun i m hm => ?_, fun i m hm hi => ?_⟩ <;>
      rcases i with _ | _ | _ | _ | _ | _ | _ | _ | _ | _ | _ | _ | _ | i <;> cases hm <;>
      simp [docSigner, docWritable, wr, ro, roSig] at * <;> omega
  | settleFunds _ _ _ _ _ _ _ _ _ refer _ =>
    cases refer <;> refine ⟨fun i m hm => ?_, fun i m hm hi => ?_⟩ <;>
      rcases i with _ | _ | _ | _ | _ | _ | _ | _ | _ | _ | i <;> cases hm <;>
      simp [docSigner, docWritable, wr, ro, roSig] at * <;> omega
  | initOpenOrders _ _ _ _ _ auth =>
    cases auth <;> refine ⟨fun i m hm => ?_, fun i m hm hi => ?_⟩ <;>
      rcases i with _ | _ | _ | _ | _ | i <;> cases hm <;>
      simp [docSigner, docWritable, wr, ro, roSig, Client.initOpenOrders] at * <;> omega
  | sendTake _ _ _ _ _ _ _ _ _ _ _ _ srm _ _ =>
    cases srm <;> refine ⟨fun i m hm => ?_, fun i m hm hi => ?_⟩ <;>
      rcases i with _ | _ | _ | _ | _ | _ | _ | _ | _ | _ | _ | _ | _ | i <;> cases hm <;>
      simp [docSigner, docWritable, wr, ro, roSig] at * <;> omega
  | matchOrders | cancelOrder | cancelOrderByClientId | cancelOrdersByClientIds | disableMarket | sweepFees
  | closeOpenOrders | prune =>
    refine ⟨fun i m hm => ?_, fun i m hm hi => ?_⟩ <;>
      rcases i with _ | _ | _ | _ | _ | _ | _ | i <;> cases hm <;>
      simp [docSigner, docWritable, wr, ro, roSig] at * <;> omega

theorem Call.keyAt {c : Call} {sg : Nat → Bool} {i k : Nat} (h : keyAt (c.accts sg) i = some k) :
    ∃ m, c.metas[i]? = some m ∧ m.key = k := by
  unfold Props.keyAt Call.accts at h
  rw [List.getElem?_map] at h
  cases hm : c.metas[i]? with
  | none => rw [hm] at h; cases h
  | some m => rw [hm] at h; cases h; exact ⟨m, rfl, rfl⟩

/-- C61. A built call needs every signature it asks for, and no other: two transactions that both carry the signatures
asked for have the same outcome. -/
theorem client_signatures {P : Params} {env : Env} {s : State conc} {c : Call} {ix : Instruction} (hb : Built c ix)
    (hv : IxValid ix) {sg : Nat → Bool} :
    (∀ s', processRaw conc P env s (c.accts sg) c.data = .ok s' → c.SignedBy sg) ∧
    (c.SignedBy sg → ∀ sg', c.SignedBy sg' →
      processRaw conc P env s (c.accts sg) c.data = processRaw conc P env s (c.accts sg') c.data) := by
  have hl : ∀ sg, (c.accts sg).length = c.metas.length := fun sg => by simp [Call.accts]
  unfold processRaw
  rw [hb.data, instruction_round_trip ix hv]
  refine ⟨fun s' h m hm hs => ?_, fun h1 sg' h2 => ?_⟩
  · obtain ⟨i, hi⟩ := List.getElem?_of_mem hm
    have := signers_documented h i (by rw [hl]; exact (hb.flags.1 i m hi).1 hs)
    unfold signedAt Call.accts at this
    rw [List.getElem?_map, hi] at this
    exact Option.some.inj this
  · refine only_documented_signatures (by simp [Call.accts, Function.comp_def]) fun i hi => ?_
    rw [hl] at hi
    unfold signedAt Call.accts
    rw [List.getElem?_map, List.getElem?_map]
    cases hm : c.metas[i]? with
    | none => rfl
    | some m =>
      have hs := (hb.flags.1 i m hm).2 hi
      have hmem := List.mem_of_getElem? hm
      simp [h1 m hmem hs, h2 m hmem hs]

/-- C61. A built call has write access to every account it changes. -/
theorem client_writes {P : Params} {env : Env} {s s' : State conc} {c : Call} {ix : Instruction} (hb : Built c ix)
    (hv : IxValid ix) {sg : Nat → Bool} (h : processRaw conc P env s (c.accts sg) c.data = .ok s') {k : Nat}
    (hc : Changed s s' k) : c.mayWrite k := by
  unfold processRaw at h
  rw [hb.data, instruction_round_trip ix hv] at h
  obtain ⟨i, hi, e⟩ := writes_documented h hc
  obtain ⟨m, hm, e⟩ := Call.keyAt e
  refine ⟨m, List.mem_of_getElem? hm, e, hb.flags.2 i m hm ?_⟩
  rw [show c.metas.length = (c.accts sg).length from by simp [Call.accts]]
  exact hi

/-! ### What the calls do -/

/-- The call `c`, sent in a transaction signed by `sg`, turns `s` into `s'`. -/
def Sent (P : Params) (env : Env) (sg : Nat → Bool) (s : State conc) (c : Call) (s' : State conc) : Prop :=
  processRaw conc P env s (c.accts sg) c.data = .ok s'

theorem Sent.process {P : Params} {env : Env} {sg : Nat → Bool} {s s' : State conc} {c : Call} {ix : Instruction}
    (h : Sent P env sg s c s') (hb : Built c ix) (hv : IxValid ix) : process conc P env s (c.accts sg) ix = .ok s' := by
  unfold Sent processRaw at h
  rw [hb.data, instruction_round_trip ix hv] at h
  exact h

/-- C61. `cancel_order`: the owner signed, and exactly the order with this side and id is withdrawn from the account. -/
theorem client_cancel {P : Params} {env : Env} {sg : Nat → Bool} {s s' : State conc} (h : Reach P s) (hq : s.seq ≤ W64)
    {prog market bids asks oo owner eventQ : Nat} {side : Side} {id : Nat} (hv : U128 id)
    (hx : Sent P env sg s (Client.cancelOrder prog market bids asks oo owner eventQ side id) s') :
    sg owner = true ∧ ∃ o l, ooAt s.oos oo = some o ∧ o.owner = owner ∧ l.key = id ∧ Withdrawn s s' oo [(side, l)] := by
  obtain ⟨_, _, _, _, _, _, _, l, o, e, h1, h2, h3, h4, h5⟩ := cancel_effect h hq (hx.process (.cancelOrder ..) hv)
  cases e
  exact ⟨h1, o, l, h2, h3, h4, h5⟩

/-- C61. `cancel_order_by_client_order_id`: exactly one order is withdrawn, one the owner gave this client id. -/
theorem client_cancel_by_id {P : Params} {env : Env} {sg : Nat → Bool} {s s' : State conc} (h : Reach P s)
    (hq : s.seq ≤ W64) {prog market bids asks oo owner eventQ cid : Nat} (hv : U64 cid)
    (hx : Sent P env sg s (Client.cancelOrderByClientId prog market bids asks oo owner eventQ cid) s') :
    sg owner = true ∧ cid ≠ 0 ∧ ∃ o side l, ooAt s.oos oo = some o ∧ o.owner = owner ∧
      recordedId o l.ownerSlot = some cid ∧ Withdrawn s s' oo [(side, l)] := by
  obtain ⟨_, _, _, _, _, _, _, sd, l, o, e, h0, h1, h2, h3, h4, h5⟩ :=
    cancel_by_id_effect h hq (hx.process (.cancelOrderByClientId ..) hv)
  cases e
  exact ⟨h1, h0, o, sd, l, h2, h3, h4, h5⟩

/-- C61. `cancel_orders_by_client_order_ids`: exactly the account's orders with one of these client ids are withdrawn. -/
theorem client_cancel_batch {P : Params} {env : Env} {sg : Nat → Bool} {s s' : State conc} (h : Reach P s)
    (hq : s.seq ≤ W64) {prog market bids asks oo owner eventQ : Nat} {ids : List Nat} (hl : ids.length = 8)
    (hv : ∀ c ∈ ids, U64 c)
    (hx : Sent P env sg s (Client.cancelOrdersByClientIds prog market bids asks oo owner eventQ ids) s') :
    sg owner = true ∧ ∃ o ls, ooAt s.oos oo = some o ∧ o.owner = owner ∧ Withdrawn s s' oo ls ∧
      ∀ sd x, (sd, x) ∈ ls ↔ x ∈ resting s sd ∧ x.owner = oo ∧ x.clientId ≠ 0 ∧ x.clientId ∈ ids := by
  obtain ⟨_, _, _, _, _, _, _, o, ls, e, h1, h2, h3, h4, h5⟩ :=
    batch_cancels_named h hq (hx.process (.cancelOrdersByClientIds ..) ⟨hl, hv⟩)
  cases e
  exact ⟨h1, o, ls, h2, h3, h4, h5⟩

/-- C61. `settle_funds`: the owner signed; the free balances go to the wallets named, the rebates to the referrer named. -/
theorem client_settle {P : Params} {env : Env} {sg : Nat → Bool} {s s' : State conc} (h : Reach P s) (hq : s.seq ≤ W64)
    {prog market spl oo owner coinVault coinWallet pcVault pcWallet vaultSigner : Nat} {refer : Option Nat}
    (hx : Sent P env sg s
      (Client.settleFunds prog market spl oo owner coinVault coinWallet pcVault pcWallet refer vaultSigner) s') :
    sg owner = true ∧ ∃ o, o.owner = owner ∧
      Settled s s' oo coinWallet pcWallet (if 0 < o.rebates then refer else none) o := by
  obtain ⟨_, _, _, _, _, _, _, _, _, rs, o, e, h1, h2, h3, h4⟩ := settle_effect h hq (hx.process (.settleFunds ..) trivial)
  cases refer with
  | none => cases e; exact ⟨h2, o, h3, h4⟩
  | some r => cases e; exact ⟨h2, o, h3, h4⟩

/-- C61. `sweep_fees`: the sweeper signed; all fees go to the account named. -/
theorem client_sweep {P : Params} {env : Env} {sg : Nat → Bool} {s s' : State conc} (h : Reach P s) (hq : s.seq ≤ W64)
    {prog market pcVault auth dst vaultSigner spl : Nat}
    (hx : Sent P env sg s (Client.sweepFees prog market pcVault auth dst vaultSigner spl) s') :
    sg auth = true ∧ auth = P.feeSweeper ∧ ∃ l, Paid s.toks l s.mkt.pcVault dst s.mkt.pcFees ∧
      s' = { s with
        mkt := { s.mkt with pcFees := 0 }
        toks := l } := by
  have g := hx.process (.sweepFees ..) trivial
  simp only [process] at g
  obtain ⟨_, _, _, _, _, _, l, e, h1, h2, h3, h4⟩ := sweep_effect h hq g
  cases e
  exact ⟨h1, h2, l, h3, h4⟩

/-- C61. `prune`: the prune authority signed; only orders of the account named are withdrawn, all of them if the limit is
twice the number of resting orders. -/
theorem client_prune {P : Params} {env : Env} {sg : Nat → Bool} {s s' : State conc} (h : Reach P s) (hq : s.seq ≤ W64)
    {prog market bids asks auth oo owner eventQ limit : Nat} (hv : U16 limit)
    (hx : Sent P env sg s (Client.prune prog market bids asks auth oo owner eventQ limit) s') :
    sg auth = true ∧ s.mkt.pruneAuthority = auth ∧ ∃ o ls, ooAt s.oos oo = some o ∧ o.owner = owner ∧ Withdrawn s s' oo ls ∧
      (2 * ((resting s .bid).length + (resting s .ask).length) ≤ limit →
        ∀ sd x, (sd, x) ∈ ls ↔ x ∈ resting s sd ∧ x.owner = oo) := by
  have g := hx.process (.prune ..) hv
  simp only [process] at g
  obtain ⟨_, _, _, _, _, _, _, o, ls, e, h1, _, h2, h3, h4, h5, h6⟩ := prune_effect h hq g
  cases e
  exact ⟨h1, h2, o, ls, h3, h4, h5, h6⟩

/-- C61. `close_open_orders`: the owner signed, the account was empty, and it is marked as closed. -/
theorem client_close {P : Params} {env : Env} {sg : Nat → Bool} {s s' : State conc} (h : Reach P s) (hq : s.seq ≤ W64)
    {prog oo owner dest market : Nat} (hx : Sent P env sg s (Client.closeOpenOrders prog oo owner dest market) s') :
    sg owner = true ∧ ∃ o, ooAt s.oos oo = some o ∧ o.closed = false ∧ o.owner = owner ∧ (∀ i, slots o i = none) ∧
      o.coinTotal = 0 ∧ o.pcTotal = 0 ∧ s' = { s with oos := setOo s.oos oo { o with closed := true } } := by
  have g := hx.process (.closeOpenOrders ..) trivial
  simp only [process] at g
  obtain ⟨_, _, _, _, o, e, h1, h2, h3, h4, h5, h6, h7, h8⟩ :=
    (close_is_safe h hq).1 env _ s' g
  cases e
  exact ⟨h1, o, h2, h3, h4, h5, h6, h7, h8⟩

/-- C61. `init_open_orders`: the owner signed, and so did the market's authority if it has one, and the account belongs to
them; an account that is open already is left alone. -/
theorem client_open {P : Params} {env : Env} {sg : Nat → Bool} {s s' : State conc} {rent prog oo owner market : Nat}
    {auth : Option Nat} (hx : Sent P env sg s (Client.initOpenOrders rent prog oo owner market auth) s') :
    sg owner = true ∧ market = s.mkt.ownAddress ∧
      ((s' = s ∧ ∃ o, ooAt s.oos oo = some o ∧ o.closed = false ∧ o.owner = owner) ∨
       (s' = { s with oos := setOo s.oos oo (OpenOrders.init owner) } ∧ ooAt s.oos oo = none ∧
        ∀ k, s.mkt.ooAuth = some k → auth = some k ∧ sg k = true)) := by
  have g := hx.process (.initOpenOrders ..) trivial
  simp only [process] at g
  obtain ⟨_, _, _, _, rest, e, h1, h2, h3⟩ := init_inv g
  cases e
  refine ⟨h1, loadMarket_key h2, ?_⟩
  rcases h3 with h3 | ⟨h3, h4, _, h5⟩
  · exact .inl h3
  · refine .inr ⟨h3, h4, fun k hk => ?_⟩
    obtain ⟨a, e, g1, g2⟩ := h5 k hk
    cases auth with
    | none => cases e
    | some x => cases e; cases g2; exact ⟨rfl, g1⟩

/-- C61. `disable_market`: the disable authority signed, and the market is marked as disabled. -/
theorem client_disable {P : Params} {env : Env} {sg : Nat → Bool} {s s' : State conc} {prog market auth : Nat}
    (hx : Sent P env sg s (Client.disableMarket prog market auth) s') :
    sg auth = true ∧ auth = P.disableAuth ∧ market = s.mkt.ownAddress ∧
      s' = { s with mkt := { s.mkt with flags := s.mkt.flags ||| 128 } } := by
  have g := hx.process (.disableMarket ..) trivial
  simp only [process] at g
  obtain ⟨_, _, e, h1, h2, h3, h4⟩ := disable_inv g
  cases e
  exact ⟨h1, h2, loadMarket_key h3, h4⟩

/-- C61. `match_orders` does nothing. -/
theorem client_match {P : Params} {env : Env} {sg : Nat → Bool} {s s' : State conc}
    {prog market reqQ bids asks eventQ coinFee pcFee limit : Nat} (hv : U16 limit)
    (hx : Sent P env sg s (Client.matchOrders prog market reqQ bids asks eventQ coinFee pcFee limit) s') : s' = s := by
  have := hx.process (.matchOrders ..) hv
  cases this
  rfl

/-- C61. `consume_events` and `consume_events_permissioned`: the first events of the queue, at most `limit` and only of
accounts that were given, are delivered to their owners; the crank authority signed the latter. -/
theorem client_crank {P : Params} {env : Env} {sg : Nat → Bool} {s s' : State conc} (h : Reach P s) (hq : s.seq ≤ W64)
    {prog : Nat} {oos : List Nat} {market eventQ limit : Nat} (hv : U16 limit)
    (hx : (∃ coinFee pcFee, Sent P env sg s (Client.consumeEvents prog oos market eventQ coinFee pcFee limit) s') ∨
      (∃ auth, Sent P env sg s (Client.consumeEventsPermissioned prog oos market eventQ auth limit) s')) :
    ∃ k ≤ limit, k ≤ (pending s).length ∧ pending s' = (pending s).drop k ∧
      (∀ a, ooAt s.oos a = none → ooAt s'.oos a = none) ∧
      (∀ a o, ooAt s.oos a = some o → ∃ o', ooAt s'.oos a = some o' ∧
        Delivered o o' (eventsOf a ((pending s).take k))) ∧
      s'.mkt = s.mkt ∧ s'.toks = s.toks ∧ s'.bids = s.bids ∧ s'.asks = s.asks ∧ s'.seq = s.seq := by
  rcases hx with ⟨c, p, hx⟩ | ⟨a, hx⟩
  · obtain ⟨k, h1, h2, h3, _, h4⟩ := crank_delivers h hq (.inl (hx.process (.consumeEvents ..) hv))
    exact ⟨k, h1, h2, h3, h4⟩
  · obtain ⟨k, h1, h2, h3, _, h4⟩ := crank_delivers h hq (.inr (hx.process (.consumeEventsPermissioned ..) hv))
    exact ⟨k, h1, h2, h3, h4⟩

theorem notVault_accts {P : Params} {m : Market} {c : Call} {sg : Nat → Bool}
    (h : ∀ k, sg k = true → P.vaultSigner m.ownAddress m.vaultSignerNonce ≠ some k) : NotVault P m (c.accts sg) := by
  intro a ha hs
  obtain ⟨x, _, rfl⟩ := List.mem_map.1 ha
  exact h _ hs

/-- C61. `new_order`: the order that is placed is the one described by the argument, for the open-orders account, owner
and payer named. -/
theorem client_order {P : Params} {env : Env} {sg : Nat → Bool} {s s' : State conc} (h : Reach P s) (hq : s.seq < W64)
    (hsg : ∀ k, sg k = true → P.vaultSigner s.mkt.ownAddress s.mkt.vaultSignerNonce ≠ some k)
    {market oo reqQ eventQ bids asks payer owner coinVault pcVault spl rent : Nat} {srm : Option Nat} {prog : Nat}
    {ix : NewOrderIx} (hv : OrderValid ix)
    (hx : Sent P env sg s
      (Client.newOrder market oo reqQ eventQ bids asks payer owner coinVault pcVault spl rent srm prog ix) s') :
    sg owner = true ∧ ∃ a tier o o' slot d ts f evs,
      PlaceEffect P env s s' ((Client.newOrder market oo reqQ eventQ bids asks payer owner coinVault pcVault spl rent
        srm prog ix).accts sg) ix a tier o o' slot d ts f evs ∧
      a.oo.key = oo ∧ a.owner.key = owner ∧ a.payer.key = payer := by
  obtain ⟨a, tier, o, o', slot, d, ts, f, evs, e⟩ :=
    place_effect h hq hv (notVault_accts hsg) (hx.process (.newOrder ..) hv)
  have hp := e.args.parse
  have hs := e.args.signed
  cases srm <;> cases hp <;> exact ⟨hs, _, tier, o, o', slot, d, ts, f, evs, e, rfl, rfl, rfl⟩

/-- C61. `send_take`: the trade is the one described by the argument, with the wallets and owner named. -/
theorem client_take {P : Params} {env : Env} {sg : Nat → Bool} {s s' : State conc} (h : Reach P s) (hq : s.seq < W64)
    (hsg : ∀ k, sg k = true → P.vaultSigner s.mkt.ownAddress s.mkt.vaultSignerNonce ≠ some k)
    {market reqQ eventQ bids asks coinWallet pcWallet owner coinVault pcVault spl vaultSigner : Nat} {srm : Option Nat}
    {prog : Nat} {ix : SendTakeIx} (hv : TakeValid ix)
    (hx : Sent P env sg s (Client.sendTake market reqQ eventQ bids asks coinWallet pcWallet owner coinVault pcVault spl
      vaultSigner srm prog ix) s') :
    sg owner = true ∧ ∃ a tier ts evs,
      TakeEffect P s s' ((Client.sendTake market reqQ eventQ bids asks coinWallet pcWallet owner coinVault pcVault spl
        vaultSigner srm prog ix).accts sg) ix a tier ts evs ∧
      a.coinWallet.key = coinWallet ∧ a.pcWallet.key = pcWallet ∧ a.signer.key = owner := by
  obtain ⟨a, tier, ts, evs, e⟩ := take_effect h hq hv (notVault_accts hsg) (hx.process (.sendTake ..) hv)
  have hp := e.args.parse
  have hs := e.args.signed
  cases srm <;> cases hp <;> exact ⟨hs, _, tier, ts, evs, e, rfl, rfl, rfl⟩

/-- C61. `initialize_market`, with the accounts the program needs, makes a market with exactly the addresses, lot sizes
and authorities named. An authority is dropped if the one before it is missing. -/
theorem client_market {P : Params} {mints : Nat → Bool} {toks : Ledger} {W : Accs} (sg : Nat → Bool)
    (ho : ∀ a, (W a).owned = true → OwnedBytes (W a).data)
    {rent market prog coinMint pcMint coinVault pcVault : Nat} {auth prune crank : Option Nat}
    {bids asks reqQ eventQ coinLot pcLot nonce dust : Nat} (hu : U64 coinLot ∧ U64 pcLot ∧ U64 nonce ∧ U64 dust) :
    let c := Client.initializeMarket rent market prog coinMint pcMint coinVault pcVault auth prune crank bids asks reqQ
      eventQ coinLot pcLot nonce dust
    let G : Given := ⟨market, reqQ, eventQ, bids, asks, coinVault, pcVault, coinMint, pcMint, rent,
      match auth, prune, crank with
      | none, _, _ => []
      | some a, none, _ => [a]
      | some a, some p, none => [a, p]
      | some a, some p, some k => [a, p, k]⟩
    ∃ ix, Instruction.unpack c.data = some (.initializeMarket ix) ∧ ix.coinLotSize = coinLot ∧ ix.pcLotSize = pcLot ∧
      ∀ W', initMarket P mints toks W (c.accts sg) ix = .ok W' ↔
        InitOk P mints toks W G nonce ∧ W' = created W ix G := by
  intro c G
  refine ⟨⟨coinLot, pcLot, 0, nonce, dust⟩, instruction_round_trip _ ⟨hu.1, hu.2.1, by simp [U16], hu.2.2.1, hu.2.2.2⟩, rfl, rfl,
    fun W' => ?_⟩
  have hk : (c.accts sg).map (·.key) = G.keys := by
    rcases auth with _ | a <;> rcases prune with _ | p <;> rcases crank with _ | k <;> rfl
  rw [init_market_iff ho]
  constructor
  · rintro ⟨G', e, h1, h2⟩
    have : G' = G := by
      rw [hk] at e
      obtain ⟨_, _, _, _, _, _, _, _, _, _, _⟩ := G'
      simp only [Given.keys, G, List.cons_append, List.nil_append, List.cons.injEq] at e
      obtain ⟨e1, e2, e3, e4, e5, e6, e7, e8, e9, e10, e11⟩ := e
      subst e1 e2 e3 e4 e5 e6 e7 e8 e9 e10 e11
      rfl
    subst this
    exact ⟨h1, h2⟩
  · rintro ⟨h1, h2⟩
    exact ⟨G, hk, h1, h2⟩

/-! ### Calls that always go through -/

theorem sent_of {P : Params} {env : Env} {sg : Nat → Bool} {s s' : State conc} {c : Call} {ix : Instruction}
    (hb : Built c ix) (hv : IxValid ix) (h : process conc P env s (c.accts sg) ix = .ok s') : Sent P env sg s c s' := by
  unfold Sent
  rw [hb.data]
  exact raw_of hv h

/-- C61. In every reachable state the owner of a resting order can cancel it with `cancel_order`. -/
theorem client_cancel_works {P : Params} {s : State conc} (h : Reach P s) (hq : s.seq ≤ W64) (env : Env) {side : Side}
    {l : Leaf} {o : OpenOrders} (hl : l ∈ resting s side) (ho : ooAt s.oos l.owner = some o)
    (hroom : (pending s).length < s.q.buf.length) (hfit : HoldsFit s l.owner o) (prog : Nat)
    {sg : Nat → Bool} (hs : sg o.owner = true) :
    ∃ s', Sent P env sg s
      (Client.cancelOrder prog s.mkt.ownAddress s.mkt.bids s.mkt.asks l.owner o.owner s.mkt.eventQ side l.key) s' ∧
      Withdrawn s s' l.owner [(side, l)] := by
  obtain ⟨s', h1, h2⟩ := cancel_works h hq env hl ho hroom hfit
  have hk : l.key < 2 ^ 128 := by
    have hg := h.good hq
    cases side with
    | bid => exact hg.rs.bids.1.key_lt l hl
    | ask => exact hg.rs.asks.1.key_lt l hl
  refine ⟨s', sent_of (.cancelOrder ..) (by show l.key < 256 ^ 16; simpa using hk) ?_, h2⟩
  rw [← h1]
  refine only_documented_signatures (accts' := cancelAccts s l.owner o.owner) rfl fun i hi => ?_
  cases List.mem_singleton.1 hi
  simp [signedAt, cancelAccts, Call.accts, Client.cancelOrder, roSig, hs]

/-- C61. In every reachable state the owner of an open account can settle it with `settle_funds`. -/
theorem client_settle_works {P : Params} {s : State conc} (h : Reach P s) (hq : s.seq ≤ W64) (env : Env) {a : Nat}
    {o : OpenOrders} (ho : ooAt s.oos a = some o) (hcl : o.closed = false) (hfit : HoldsFit s a o)
    {coinDst pcDst vs : Nat} {refer : Option Nat}
    (hvs : P.vaultSigner s.mkt.ownAddress s.mkt.vaultSignerNonce = some vs)
    (hcv : Usable s.toks s.mkt.coinVault s.mkt.coinMint) (hpv : Usable s.toks s.mkt.pcVault s.mkt.pcMint)
    (hcw : Ready s.toks coinDst s.mkt.coinMint (o.coinFree + (o.pcFree + o.rebates)))
    (hpw : Ready s.toks pcDst s.mkt.pcMint (o.coinFree + (o.pcFree + o.rebates)))
    (hrf : ∀ r, refer = some r → Ready s.toks r s.mkt.pcMint (o.coinFree + (o.pcFree + o.rebates))) (prog : Nat)
    {sg : Nat → Bool} (hs : sg o.owner = true) :
    ∃ s', Sent P env sg s (Client.settleFunds prog s.mkt.ownAddress P.splToken a o.owner s.mkt.coinVault coinDst
        s.mkt.pcVault pcDst refer vs) s' ∧
      Settled s s' a coinDst pcDst (if 0 < o.rebates then refer else none) o := by
  obtain ⟨s', h1, h2⟩ := settle_works h hq env ho hcl hfit hvs hcv hpv hcw hpw hrf
  refine ⟨s', sent_of (.settleFunds ..) trivial ?_, h2⟩
  rw [show Except.ok s' = process conc P env s (settleAccts P s a o.owner coinDst pcDst vs refer) .settleFunds from h1.symm]
  refine only_documented_signatures (by cases refer <;> rfl) fun i hi => ?_
  cases List.mem_singleton.1 hi
  simp [signedAt, settleAccts, Call.accts, Client.settleFunds, roSig, hs]

/-- C61. In every reachable state the owner of an empty account can close it with `close_open_orders`. -/
theorem client_close_works {P : Params} {s : State conc} (h : Reach P s) (env : Env) {a : Nat} {o : OpenOrders}
    (dest : Nat) (ho : ooAt s.oos a = some o) (hcl : o.closed = false) (hz : ∀ i, slots o i = none)
    (hc : o.coinTotal = 0) (hp : o.pcTotal = 0) (prog : Nat) {sg : Nat → Bool} (hs : sg o.owner = true) :
    Sent P env sg s (Client.closeOpenOrders prog a o.owner dest s.mkt.ownAddress)
      { s with oos := setOo s.oos a { o with closed := true } } := by
  refine sent_of (.closeOpenOrders ..) trivial ?_
  rw [show Except.ok _ = process conc P env s (closeAccts s a o.owner dest) .closeOpenOrders from
    (close_works h env dest ho hcl hz hc hp).symm]
  refine only_documented_signatures rfl fun i hi => ?_
  cases List.mem_singleton.1 hi
  simp [signedAt, closeAccts, Call.accts, Client.closeOpenOrders, roSig, hs]

/-- The crank's accounts as the program takes them apart. -/
theorem crank_split {keys : List Nat} {r : List Meta} {sg : Nat → Bool} :
    let l := (keys.map wr ++ r).map fun m => (⟨m.key, sg m.key⟩ : AccMeta)
    l.length = keys.length + r.length ∧ l.drop keys.length = r.map (fun m => ⟨m.key, sg m.key⟩) ∧
      (l.take keys.length).map (·.key) = keys := by
  intro l
  refine ⟨by simp [l], ?_, ?_⟩
  · simp only [l, List.map_append]
    rw [List.drop_append]
    simp
  · simp only [l, List.map_append]
    rw [List.take_append]
    simp [Function.comp_def, wr]

/-- On a market without crank authority `consume_events` runs the event loop, whatever the unused accounts. -/
theorem consume_runs {P : Params} {env : Env} {s : State conc} (h : Reach P s) (hc : s.mkt.crankAuth = none)
    {keys : List Nat} (hk : keys ≠ []) (prog coinFee pcFee n : Nat) (sg : Nat → Bool) :
    process conc P env s
      ((Client.consumeEvents prog keys s.mkt.ownAddress s.mkt.eventQ coinFee pcFee n).accts sg) (.consumeEvents n) =
      consumeLoop conc P env keys n s := by
  have hl : 0 < keys.length := List.length_pos_iff.2 hk
  obtain ⟨e1, e2, e3⟩ := crank_split (keys := keys) (sg := sg)
    (r := [wr s.mkt.ownAddress, wr s.mkt.eventQ, wr coinFee, wr pcFee])
  change (Call.accts (Client.consumeEvents prog keys s.mkt.ownAddress s.mkt.eventQ coinFee pcFee n) sg).length = _ at e1
  change (Call.accts (Client.consumeEvents prog keys s.mkt.ownAddress s.mkt.eventQ coinFee pcFee n) sg).drop _ = _ at e2
  change ((Call.accts (Client.consumeEvents prog keys s.mkt.ownAddress s.mkt.eventQ coinFee pcFee n) sg).take _).map _ = _ at e3
  generalize Call.accts (Client.consumeEvents prog keys s.mkt.ownAddress s.mkt.eventQ coinFee pcFee n) sg = l at *
  simp only [process, consumeEvents]
  rw [e1]
  simp only [List.length_cons, List.length_nil, Nat.reduceAdd, Nat.add_sub_cancel]
  rw [e2, e3]
  have h5 : decide (5 ≤ keys.length + 4) = true := by simp; omega
  simp only [h5, checkAssert, if_true, bind, Except.bind, loadMarket, beq_self_eq_true, goodFlags_load h.flags, hc,
    Option.isNone_none, loadEventQ, ne_eq, not_true_eq_false, if_false, wr, List.map_cons]

/-- On a market with crank authority `consume_events_permissioned` with its signature runs the event loop. -/
theorem consume_permissioned_runs {P : Params} {env : Env} {s : State conc} (h : Reach P s) {auth : Nat}
    (hc : s.mkt.crankAuth = some auth) {keys : List Nat} (hk : keys ≠ []) (prog n : Nat) {sg : Nat → Bool}
    (hs : sg auth = true) :
    process conc P env s
      ((Client.consumeEventsPermissioned prog keys s.mkt.ownAddress s.mkt.eventQ auth n).accts sg)
      (.consumeEventsPermissioned n) = consumeLoop conc P env keys n s := by
  have hl : 0 < keys.length := List.length_pos_iff.2 hk
  obtain ⟨e1, e2, e3⟩ := crank_split (keys := keys) (sg := sg)
    (r := [wr s.mkt.ownAddress, wr s.mkt.eventQ, roSig auth])
  change (Call.accts (Client.consumeEventsPermissioned prog keys s.mkt.ownAddress s.mkt.eventQ auth n) sg).length = _ at e1
  change (Call.accts (Client.consumeEventsPermissioned prog keys s.mkt.ownAddress s.mkt.eventQ auth n) sg).drop _ = _ at e2
  change ((Call.accts (Client.consumeEventsPermissioned prog keys s.mkt.ownAddress s.mkt.eventQ auth n) sg).take _).map _ = _ at e3
  generalize Call.accts (Client.consumeEventsPermissioned prog keys s.mkt.ownAddress s.mkt.eventQ auth n) sg = l at *
  simp only [process, consumeEventsPermissioned]
  rw [e1]
  simp only [List.length_cons, List.length_nil, Nat.reduceAdd, Nat.add_sub_cancel]
  rw [e2, e3]
  have h5 : decide (4 ≤ keys.length + 3) = true := by simp; omega
  simp only [h5, checkAssert, if_true, bind, Except.bind, loadMarket, beq_self_eq_true, goodFlags_load h.flags, hc, hs,
    loadEventQ, ne_eq, not_true_eq_false, if_false, wr, roSig, List.map_cons]

/-- C61. In every reachable state the first `n` events can be delivered with `consume_events`, or with
`consume_events_permissioned` if the market has a crank authority, given their owners' accounts in sorted order. -/
theorem client_crank_works {P : Params} {s : State conc} (h : Reach P s) (hq : s.seq ≤ W64) (env : Env) {keys : List Nat}
    (hk : keys ≠ []) (hs : keys.Pairwise keyLe) {n : Nat} (hv : U16 n) (hn : ∀ v ∈ (pending s).take n, v.owner ∈ keys)
    (hf : ∀ v ∈ (pending s).take n, ∀ o, ooAt s.oos v.owner = some o → Fits s v.owner o) (prog coinFee pcFee : Nat)
    {sg : Nat → Bool} (hsg : ∀ k, s.mkt.crankAuth = some k → sg k = true) :
    ∃ s', pending s' = (pending s).drop n ∧ Sent P env sg s
      (match s.mkt.crankAuth with
      | none => Client.consumeEvents prog keys s.mkt.ownAddress s.mkt.eventQ coinFee pcFee n
      | some k => Client.consumeEventsPermissioned prog keys s.mkt.ownAddress s.mkt.eventQ k n) s' := by
  obtain ⟨s', h1, h2⟩ := drain (P := P) h hq env keys hs n hn hf
  refine ⟨s', h2, ?_⟩
  cases hc : s.mkt.crankAuth with
  | none => exact sent_of (.consumeEvents ..) hv ((consume_runs h hc hk prog coinFee pcFee n sg).trans h1)
  | some k =>
    exact sent_of (.consumeEventsPermissioned ..) hv ((consume_permissioned_runs h hc hk prog n (hsg k hc)).trans h1)

/-! ### Examples -/

/-- The history of `Demo` made with the builders; only the keys of the two traders sign. -/
def demoSigners (k : Nat) : Bool := k == 11 || k == 12

example : Sent Demo.P Demo.env demoSigners Demo.s1
    (Client.newOrder 50 42 53 54 55 56 32 12 51 52 73 0 none 1 (Demo.order .bid 1100 2 30000 8)) Demo.s2 :=
  sent_of (.newOrder ..) (Demo.valid (by decide)) (by
    rw [show Demo.s2 = Demo.run Demo.s1 Demo.a2 Demo.i2 from rfl,
      ← Demo.run_eq (s := Demo.s1) (a := Demo.a2) (ix := Demo.i2) (by decide +kernel)]
    exact only_documented_signatures (by decide) (by decide))

example : Sent Demo.P Demo.env demoSigners Demo.s4 (Client.cancelOrder 1 50 55 56 42 12 54 .bid Demo.bidId) Demo.s5 :=
  sent_of (.cancelOrder ..) (by decide : U128 Demo.bidId) (by
    rw [← Demo.e5]; exact only_documented_signatures (by decide) (by decide))

example : Sent Demo.P Demo.env demoSigners Demo.s6 (Client.settleFunds 1 50 73 42 12 51 22 52 32 (some 33) 60) Demo.s7 :=
  sent_of (.settleFunds ..) trivial (by rw [← Demo.e7]; exact only_documented_signatures (by decide) (by decide))

example : Sent Demo.P Demo.env demoSigners Demo.s7 (Client.closeOpenOrders 1 42 12 12 50) Demo.s8 :=
  sent_of (.closeOpenOrders ..) trivial (by rw [← Demo.e8]; exact only_documented_signatures (by decide) (by decide))

/-- Without a prune authority the crank authority given to `initialize_market` is dropped without notice. -/
example : (Client.initializeMarket 9 1 2 3 4 5 6 (some 7) none (some 8) 10 11 12 13 1 1 0 1).metas =
    (Client.initializeMarket 9 1 2 3 4 5 6 (some 7) none none 10 11 12 13 1 1 0 1).metas := rfl

end Serum.Props
