import Verif.Fit

/-
Machine words through the instruction processor.
-/

namespace Serum

open Props (MarketFits OrdersFit U64 IxValid OrderValid)

/-- An open-orders account fits. -/
structure OoFit (o : OpenOrders) : Prop where
  owner : o.owner < 256 ^ 32
  coinFree : o.coinFree < W64
  coinTotal : o.coinTotal < W64
  pcFree : o.pcFree < W64
  pcTotal : o.pcTotal < W64
  rebates : o.rebates < W64
  ids : ∀ x ∈ o.orders, x < 256 ^ 16
  cids : ∀ x ∈ o.clientIds, x < W64
  idsLen : o.orders.length = 128
  cidsLen : o.clientIds.length = 128

theorem OoFit.orders {o : OpenOrders} (h : OoFit o) {m : Nat} (hm : m < 256 ^ 32) : OrdersFit o m := by
  obtain ⟨h1, h2, h3, h4, h5, h6, h7, h8, h9, h10⟩ := h
  rw [W64_pow] at h2 h3 h4 h5 h6 h8
  refine ⟨h9, h10, ?_⟩
  intro f hf
  simp only [OpenOrders.fields, List.mem_append, List.mem_cons, List.not_mem_nil, or_false, List.mem_map] at hf
  rcases hf with ((hf | ⟨x, hx, rfl⟩) | ⟨x, hx, rfl⟩) | rfl
  · rcases hf with rfl | rfl | rfl | rfl | rfl | rfl | rfl | rfl | rfl
    · show (if o.closed then 256 else 5) < 256 ^ 8
      split <;> decide
    · exact hm
    · exact h1
    · exact h2
    · exact h3
    · exact h4
    · exact h5
    · exact Nat.lt_of_lt_of_eq o.freeBits.isLt (by decide : 2 ^ 128 = 256 ^ 16)
    · exact Nat.lt_of_lt_of_eq o.bidBits.isLt (by decide : 2 ^ 128 = 256 ^ 16)
  · exact h7 x hx
  · exact h8 x hx
  · exact h6

/-- What an instruction may rely on and must keep: the configuration `C` of the market, the capacities `B` of its
accounts; `A`: addresses of open-orders accounts; `K`: addresses the instruction names, outside which open-orders accounts are as given by `F`;
`S`: signers; `T`: a property of the token ledger; `O`: the state before. -/
structure Scope where
  C : Market
  B : Caps
  A : Nat → Prop
  K : Nat → Prop
  S : Nat → Prop
  F : Nat → Option OpenOrders
  T : Ledger → Prop
  O : State conc

/-- Open-orders accounts not named are as given, and none is lost. -/
def Framed (X : Scope) (l : List (Nat × OpenOrders)) : Prop :=
  (∀ a, ¬ X.K a → ooAt l a = X.F a) ∧ ∀ a, ooAt l a = none → ooAt X.O.oos a = none

/-- The state of a market fits its accounts, with at most `N` order ids drawn; accounts not named are as before. -/
structure SFit (X : Scope) (N : Nat) (s : State conc) : Prop where
  mkt : MFit X.C s.mkt
  bids : SlabFit X.B.bids s.bids
  asks : SlabFit X.B.asks s.asks
  same : X.C.bids = X.C.asks → s.bids = s.asks
  q : QueueFit X.B.q s.q
  oos : ∀ a o, ooAt s.oos a = some o → OoFit o ∧ X.A a
  frame : Framed X s.oos
  toks : X.T s.toks
  seq : s.seq ≤ N
  reqCount : s.reqCount = 0
  atReqQ : X.K X.C.reqQ ∨ s.seq = X.O.seq
  atEventQ : X.K X.C.eventQ ∨ s.q = X.O.q
  atBids : X.K X.C.bids ∨ s.bids = X.O.bids
  atAsks : X.K X.C.asks ∨ s.asks = X.O.asks

/-- Addresses have 32 bytes; they are among those named, and signers among the signers. -/
def Addrs (X : Scope) (l : List AccMeta) : Prop :=
  ∀ a ∈ l, a.key < 256 ^ 32 ∧ X.K a.key ∧ (a.signer = true → X.S a.key)

/-- The ledger property survives transfers authorised by signers or by the market's vault signer. -/
def Moves (P : Params) (X : Scope) : Prop :=
  ∀ l l' src dst auth n, X.T l → (X.S auth ∨ P.vaultSigner X.C.ownAddress X.C.vaultSignerNonce = some auth) →
    splTransfer l src dst auth n = .ok l' → X.T l'

/-- Zeroed accounts may become open-orders accounts. -/
def Opens (env : Env) (X : Scope) : Prop := ∀ a b, a ≠ 0 → X.K a → env.acct a = .zeroed b → X.A a

theorem SFit.mono {X : Scope} {N N' : Nat} {s : State conc} (h : SFit X N s) (hn : N ≤ N') : SFit X N' s :=
  { h with seq := Nat.le_trans h.seq hn }

theorem oos_set {X : Scope} {l : List (Nat × OpenOrders)} (h : ∀ a o, ooAt l a = some o → OoFit o ∧ X.A a) {k : Nat}
    {p : OpenOrders} (hp : OoFit p ∧ X.A k) : ∀ a o, ooAt (setOo l k p) a = some o → OoFit o ∧ X.A a := by
  intro a o ho
  rw [ooAt_setOo] at ho
  split at ho
  · rename_i e; cases ho; subst e; exact hp
  · exact h a o ho

theorem frame_set {X : Scope} {l : List (Nat × OpenOrders)} (h : Framed X l) {k : Nat} (hk : X.K k)
    (p : OpenOrders) : Framed X (setOo l k p) := by
  refine ⟨?_, ?_⟩
  · intro a ha
    rw [ooAt_setOo, if_neg (by rintro rfl; exact ha hk)]
    exact h.1 a ha
  · intro a ha
    rw [ooAt_setOo] at ha
    split at ha
    · cases ha
    · exact h.2 a ha

variable {X : Scope} {N : Nat}

theorem config_eq {C m : Market} (h : MFit C m) : m.bids = C.bids ∧ m.asks = C.asks ∧ m.ownAddress = C.ownAddress ∧
    m.vaultSignerNonce = C.vaultSignerNonce := by
  rw [← h.cfg]
  exact ⟨rfl, rfl, rfl, rfl⟩

theorem queues_eq {C m : Market} (h : MFit C m) : m.reqQ = C.reqQ ∧ m.eventQ = C.eventQ := by
  rw [← h.cfg]
  exact ⟨rfl, rfl⟩

/-! ### Open-orders accounts -/

theorem fit_init {w : Nat} (h : w < 256 ^ 32) : OoFit (OpenOrders.init w) := by
  have z : (0 : Nat) < W64 := by decide
  refine ⟨h, z, z, z, z, z, ?_, ?_, by simp [OpenOrders.init], by simp [OpenOrders.init]⟩
  · intro x hx
    rw [(List.mem_replicate.1 hx).2]; decide
  · intro x hx
    rw [(List.mem_replicate.1 hx).2]; decide

theorem fit_loadOrders {c : Core} (h : ∀ a o, ooAt c.oos a = some o → OoFit o ∧ X.A a) {env : Env} (hz : Opens env X) {a : Nat}
    (hk : X.K a) {w : Option Nat} (hw : ∀ x, w = some x → x < 256 ^ 32) (r : Bool) (au : Option Nat) :
    Post (loadOrders c env a w r au) (fun o => OoFit o ∧ X.A a) := by
  unfold loadOrders
  split
  · rename_i oo ho
    refine .ite (fun _ => .error) fun _ => .ite (fun _ => .error) fun _ => .ok (h _ _ ho)
  · refine .ite (fun _ => .error) fun h0 => ?_
    split
    · exact .error
    · rename_i hze
      unfold initOrders
      refine .ite (fun _ => .error) fun _ => .ite (fun _ => .error) fun _ => ?_
      cases w with
      | none => exact .error
      | some x => exact .ite (fun _ => .error) fun _ => .ok ⟨fit_init (hw x rfl), hz a _ h0 hk hze⟩

theorem fit_creditCoin {o : OpenOrders} (h : OoFit o) (n : Nat) : Post (o.creditLockedCoin n) OoFit :=
  Post.unwrapped.bind fun _ e => .ret { h with coinTotal := added e }
theorem fit_creditPc {o : OpenOrders} (h : OoFit o) (n : Nat) : Post (o.creditLockedPc n) OoFit :=
  Post.unwrapped.bind fun _ e => .ret { h with pcTotal := added e }
theorem fit_lockCoin {o : OpenOrders} (h : OoFit o) (n : Nat) : Post (o.lockFreeCoin n) OoFit :=
  Post.unwrapped.bind fun _ e => .ret { h with coinFree := Nat.lt_of_le_of_lt (subbed e) h.coinFree }
theorem fit_lockPc {o : OpenOrders} (h : OoFit o) (n : Nat) : Post (o.lockFreePc n) OoFit :=
  Post.unwrapped.bind fun _ e => .ret { h with pcFree := Nat.lt_of_le_of_lt (subbed e) h.pcFree }
theorem fit_unlockCoin {o : OpenOrders} (h : OoFit o) (n : Nat) : Post (o.unlockCoin n) OoFit :=
  Post.unwrapped.bind fun _ e => Post.any.bind fun _ _ => .ret { h with coinFree := added e }
theorem fit_unlockPc {o : OpenOrders} (h : OoFit o) (n : Nat) : Post (o.unlockPc n) OoFit :=
  Post.unwrapped.bind fun _ e => Post.any.bind fun _ _ => .ret { h with pcFree := added e }

theorem fit_set {l : List Nat} {b : Nat} (h : ∀ x ∈ l, x < b) {i v : Nat} (hv : v < b) : ∀ x ∈ l.set i v, x < b := by
  intro x hx
  rcases List.mem_or_eq_of_mem_set hx with hx | rfl
  · exact h x hx
  · exact hv

theorem fit_removeOrder {o : OpenOrders} (h : OoFit o) (i : Nat) : Post (o.removeOrder i) OoFit :=
  Post.any.bind fun _ _ => Post.any.bind fun _ _ => .ret
    { h with ids := fit_set h.ids (by decide), cids := fit_set h.cids (by decide), idsLen := by simpa using h.idsLen,
             cidsLen := by simpa using h.cidsLen }

theorem fit_addOrder {o : OpenOrders} (h : OoFit o) {id : Nat} (hid : id < 256 ^ 16) (sd : Side) :
    Post (o.addOrder id sd) (fun r => r.1 < 256 ∧ OoFit r.2) := by
  by_cases hf : o.freeBits = 0
  · rw [addOrder_full hf]; exact .error
  · obtain ⟨slot, f, b, e, hs, _⟩ := addOrder_spec hf id sd
    rw [e]
    exact .ok ⟨by simp only; omega, { h with ids := fit_set h.ids hid, idsLen := by simpa using h.idsLen }⟩

theorem fit_setClientId {o : OpenOrders} (h : OoFit o) (i : Nat) {c : Nat} (hc : c < W64) : OoFit (o.setClientId i c) :=
  { h with cids := fit_set h.cids hc, cidsLen := by simpa [OpenOrders.setClientId] using h.cidsLen }

theorem fit_applyProceeds {o : OpenOrders} (h : OoFit o) (n : Nat) (pr : Proceeds) : Post (applyProceeds o n pr) OoFit := by
  unfold applyProceeds
  refine Post.any.bind fun _ _ => Post.any.bind fun _ _ => Post.any.bind fun _ _ => ?_
  refine (fit_creditCoin h _).bind fun o h => (fit_unlockCoin h _).bind fun o h => (fit_unlockCoin h _).bind fun o h => ?_
  refine (fit_creditPc h _).bind fun o h => (fit_unlockPc h _).bind fun o h => (fit_unlockPc h _).bind fun o h => ?_
  refine Post.unwrapped.bind fun _ e => Post.unwrapped.bind fun _ e' => Post.any.bind fun _ _ => Post.any.bind fun _ _ => ?_
  exact .ret { h with coinTotal := Nat.lt_of_le_of_lt (subbed e) h.coinTotal,
                      pcTotal := Nat.lt_of_le_of_lt (subbed e') h.pcTotal }

theorem fit_lockFunds {C m : Market} (hm : MFit C m) {o : OpenOrders} (h : OoFit o) (ix : NewOrderIx) (b : Nat) :
    Post (lockFunds m o ix b) (fun r => MFit C r.1 ∧ OoFit r.2.1) := by
  unfold lockFunds
  obtain ⟨w1, w2, w3, w4⟩ := hm.words
  split
  · refine .ite (fun _ => .error) fun _ => ?_
    refine (fit_lockPc h _).bind fun o h => (fit_creditPc h _).bind fun o h => Post.unwrapped.bind fun d e => ?_
    exact .ret ⟨hm.counters w1 (added e) w3 w4 rfl, h⟩
  · split
    · exact .error
    · refine .ite (fun _ => .error) fun _ => ?_
      refine (fit_lockCoin h _).bind fun o h => (fit_creditCoin h _).bind fun o h => Post.unwrapped.bind fun d e => ?_
      exact .ret ⟨hm.counters (added e) w2 w3 w4 rfl, h⟩

/-! ### New orders and send-take -/

theorem SFit.ob {s : State conc} (h : SFit X N s) {m : Market} (hm : MFit X.C m) : ObFit X.C X.B (s.ob conc m) :=
  ⟨h.bids, h.asks, h.q, hm⟩

theorem fit_id (n p : Nat) (sd : Side) (hp : p < W64) : genOrderId (n % W64) p sd < 256 ^ 16 :=
  Nat.lt_of_lt_of_eq (genOrderId_lt (Nat.mod_lt _ (by decide)) hp) (by decide)

theorem named_bids {s : State conc} (h : SFit X N s) {a : AccMeta} (hk : X.K a.key)
    (hl : orAssert (loadBids s.toCore a) = .ok ()) : X.K X.C.bids := by
  rw [← (config_eq h.mkt).1]
  unfold orAssert at hl
  split at hl
  · rename_i e
    unfold loadBids at e
    split at e
    · cases e
    · rename_i h; simp at h; rw [← h]; exact hk
  · cases hl

theorem named_asks {s : State conc} (h : SFit X N s) {a : AccMeta} (hk : X.K a.key)
    (hl : orAssert (loadAsks s.toCore a) = .ok ()) : X.K X.C.asks := by
  rw [← (config_eq h.mkt).2.1]
  unfold orAssert at hl
  split at hl
  · rename_i e
    unfold loadAsks at e
    split at e
    · cases e
    · rename_i h; simp at h; rw [← h]; exact hk
  · cases hl

theorem named_req {s : State conc} (h : SFit X N s) {a : AccMeta} (hk : X.K a.key)
    (hl : loadReqQ s.toCore a = .ok ()) : X.K X.C.reqQ := by
  rw [← (queues_eq h.mkt).1]
  unfold loadReqQ at hl
  split at hl
  · cases hl
  · rename_i h; simp at h; rw [← h]; exact hk

theorem named_ev {s : State conc} (h : SFit X N s) {a : AccMeta} (hk : X.K a.key)
    (hl : loadEventQ s.toCore a = .ok ()) : X.K X.C.eventQ := by
  rw [← (queues_eq h.mkt).2]
  unfold loadEventQ at hl
  split at hl
  · cases hl
  · rename_i h; simp at h; rw [← h]; exact hk

theorem loadBids_ne {c : Core} {a : AccMeta} (h : orAssert (loadBids c a) = .ok ()) : c.mkt.bids ≠ c.mkt.asks := by
  unfold orAssert at h
  split at h
  · rename_i e
    unfold loadBids at e
    split at e
    · cases e
    · rw [checkAssert_ok] at e
      simpa using e
  · cases h

/-- The accounts the matching engine works on are named, and the two sides are different accounts. -/
structure Names (X : Scope) : Prop where
  ev : X.K X.C.eventQ
  bids : X.K X.C.bids
  asks : X.K X.C.asks
  ne : X.C.bids ≠ X.C.asks

theorem SFit.names {s : State conc} (h : SFit X N s) {b a e : AccMeta} (kb : X.K b.key) (ka : X.K a.key) (ke : X.K e.key)
    (hb : orAssert (loadBids s.toCore b) = .ok ()) (ha : orAssert (loadAsks s.toCore a) = .ok ())
    (he : loadEventQ s.toCore e = .ok ()) : Names X := by
  refine ⟨named_ev h ke he, named_bids h kb hb, named_asks h ka ha, ?_⟩
  obtain ⟨e1, e2, _⟩ := config_eq h.mkt
  intro e
  exact absurd (e1.trans (e.trans e2.symm)) (loadBids_ne hb)

theorem fit_deposit {P : Params} (hT : Moves P X) {l : Ledger} (h : X.T l) {auth : Nat} (ha : X.S auth) (src v n : Nat) :
    Post (depositIn l src v auth n) X.T := by
  unfold depositIn
  refine .ite (fun _ => .ok h) fun _ => ?_
  split
  · exact .error
  · exact .error
  · rename_i e
    exact .ite (fun _ => .ok (hT _ _ _ _ _ _ h (.inl ha) e)) fun _ => .error

theorem fit_send {P : Params} (hT : Moves P X) {m : Market} (hm : MFit X.C m) {l : Ledger} (h : X.T l) (v d n : Nat) :
    Post (sendFromVault P m l v d n) X.T := by
  obtain ⟨_, _, e3, e4⟩ := config_eq hm
  unfold sendFromVault
  rw [e3, e4]
  split
  · exact .error
  · rename_i hv
    split
    · rename_i e
      exact .ok (hT _ _ _ _ _ _ h (.inr hv) e)
    · exact .error

theorem signed_ok {a : AccMeta} (h : signed a = .ok ()) : a.signer = true := by
  unfold signed at h
  rw [checkAssert_ok] at h
  exact h

theorem fit_newOrderV3 {P : Params} (hT : Moves P X) {env : Env} (hz : Opens env X) {s : State conc} (h : SFit X N s)
    {accts : List AccMeta} (ha : Addrs X accts) {ix : NewOrderIx} (hv : OrderValid ix) :
    Post (newOrderV3 conc P env s accts ix) (SFit X (N + 1)) := by
  obtain ⟨⟨_, v1⟩, ⟨_, v2⟩, ⟨_, v3⟩, v4, _⟩ := hv
  rw [← W64_pow] at v1 v2 v3
  replace v4 : ix.clientId < W64 := by rw [W64_pow]; exact v4
  unfold newOrderV3
  have hk : Post (parseNewOrder accts) (fun a => a.oo ∈ accts ∧ a.owner ∈ accts ∧
      a.reqQ ∈ accts ∧ a.eventQ ∈ accts ∧ a.bids ∈ accts ∧ a.asks ∈ accts) := by
    unfold parseNewOrder
    split
    · exact .ite (fun _ => .ok ⟨by simp, by simp, by simp, by simp, by simp, by simp⟩) fun _ => .error
    · exact .error
  refine hk.bind fun a ⟨k1, k2, k3, k4, k5, k6⟩ => ?_
  replace k3 := (ha _ k3).2.1
  replace k4 := (ha _ k4).2.1
  replace k5 := (ha _ k5).2.1
  replace k6 := (ha _ k6).2.1
  obtain ⟨k1, k1', _⟩ := ha _ k1
  obtain ⟨k2, _, k2'⟩ := ha _ k2
  have hoo : Post (newOrderArgs P env s.toCore a ix.side)
      (fun r => (OoFit r.2 ∧ X.A a.oo.key) ∧ X.S a.owner.key ∧ X.K X.C.reqQ ∧ Names X) := by
    unfold newOrderArgs
    refine Post.any.bind fun _ _ => Post.any.bind fun _ _ => Post.self.bind fun _ hs => Post.any.bind fun _ _ => ?_
    refine Post.self.bind fun _ hr => Post.self.bind fun _ he => Post.any.bind fun _ _ => Post.any.bind fun _ _ => ?_
    refine Post.any.bind fun _ _ => Post.any.bind fun _ _ => Post.any.bind fun _ _ => Post.any.bind fun _ _ => ?_
    refine Post.self.bind fun _ hb => Post.self.bind fun _ hk => ?_
    refine (fit_loadOrders h.oos hz k1' (by intro x e; cases e; exact k2) _ _).bind fun o ho => .ret ?_
    exact ⟨ho, k2' (signed_ok hs), named_req h k3 hr, h.names k5 k6 k4 hb hk he⟩
  refine hoo.bind ?_
  rintro ⟨tier, oo⟩ ⟨⟨ho, hA⟩, hS, hrq, hn⟩
  show Post (newOrderExec conc env s a ix tier oo) _
  unfold newOrderExec
  refine Post.any.bind fun _ _ => Post.any.bind fun _ _ => ?_
  refine (fit_lockFunds h.mkt ho ix _).bind ?_
  rintro ⟨m, oo, dep⟩ ⟨hm, ho⟩
  have hid := fit_id s.seq _ ix.side v1
  refine (fit_addOrder ho hid ix.side).bind ?_
  rintro ⟨slot, oo⟩ ⟨hs, ho⟩
  refine (fit_newOrder (h.ob hm) (o := newOrderReq ix _ a.oo.key slot tier) ⟨hid, k1, hs, v4⟩ v2 ?_ _).bind ?_
  · show (match ix.side with | .bid => ix.maxPcQty | .ask => 0) < W64
    split
    · exact v3
    · decide
  rintro ⟨ob, rem, _⟩ hob
  refine Post.any.bind fun _ _ => ?_
  refine (fit_applyProceeds (fit_setClientId ho slot v4) _ _).bind fun o ho => ?_
  refine (fit_deposit hT h.toks hS _ _ _).bind fun l hl => ?_
  exact .ret ⟨hob.mkt, hob.bids, hob.asks, fun e => absurd e hn.ne, hob.q, oos_set h.oos ⟨ho, hA⟩, frame_set h.frame k1' _,
    hl, Nat.succ_le_succ h.seq, h.reqCount, .inl hrq, .inl hn.ev, .inl hn.bids, .inl hn.asks⟩

theorem fit_sendTake {P : Params} (hT : Moves P X) {s : State conc} (h : SFit X N s) {accts : List AccMeta}
    (ha : Addrs X accts) {ix : SendTakeIx} (hv : IxValid (.sendTake ix)) :
    Post (sendTake conc P s accts ix) (SFit X (N + 1)) := by
  obtain ⟨⟨_, v1⟩, ⟨_, v2⟩, ⟨_, v3⟩, _⟩ := hv
  rw [← W64_pow] at v1 v2 v3
  unfold sendTake
  have hk : Post (parseSendTake accts) (fun a => a.signer ∈ accts ∧ a.reqQ ∈ accts ∧ a.eventQ ∈ accts ∧
      a.bids ∈ accts ∧ a.asks ∈ accts) := by
    unfold parseSendTake
    split
    · exact .ite (fun _ => .ok ⟨by simp, by simp, by simp, by simp, by simp⟩) fun _ => .error
    · exact .error
  refine hk.bind fun a ⟨k1, k3, k4, k5, k6⟩ => ?_
  replace k3 := (ha _ k3).2.1
  replace k4 := (ha _ k4).2.1
  replace k5 := (ha _ k5).2.1
  replace k6 := (ha _ k6).2.1
  obtain ⟨_, _, k1⟩ := ha _ k1
  have hoo : Post (sendTakeArgs P s.toCore a)
      (fun _ => X.S a.signer.key ∧ X.K X.C.reqQ ∧ Names X) := by
    unfold sendTakeArgs
    refine Post.any.bind fun _ _ => Post.any.bind fun _ _ => Post.self.bind fun _ hs => Post.any.bind fun _ _ => ?_
    refine Post.self.bind fun _ hr => Post.self.bind fun _ he => Post.any.bind fun _ _ => Post.any.bind fun _ _ => ?_
    refine Post.any.bind fun _ _ => Post.any.bind fun _ _ => Post.any.bind fun _ _ => Post.any.bind fun _ _ => ?_
    refine Post.self.bind fun _ hb => Post.self.bind fun _ hk => .ret ?_
    exact ⟨k1 (signed_ok hs), named_req h k3 hr, h.names k5 k6 k4 hb hk he⟩
  refine hoo.bind fun tier ⟨hS, hrq, hn⟩ => ?_
  unfold sendTakeExec
  refine (fit_newOrder (h.ob h.mkt) (o := sendTakeReq ix _ tier) ⟨fit_id s.seq _ ix.side v1, (by decide : 0 < 256 ^ 32),
    (by decide : 0 < 256), (by decide : 0 < W64)⟩ v2 ?_ _).bind ?_
  · show (match ix.side with | .bid => ix.maxPcQty | .ask => 0) < W64
    split
    · exact v3
    · decide
  rintro ⟨ob, rem, _⟩ hob
  refine Post.any.bind fun _ _ => ?_
  have ht : Post (sendTakeTotals ob.mkt ix.side ob.pr) (fun r => MFit X.C r.1) := by
    obtain ⟨w1, w2, w3, w4⟩ := hob.mkt.words
    unfold sendTakeTotals
    split
    · exact Post.any.bind fun _ _ => Post.any.bind fun _ _ => .ret (hob.mkt.counters (wsub_lt _ _) (wadd_lt _ _) w3 w4 rfl)
    · exact Post.any.bind fun _ _ => Post.any.bind fun _ _ => .ret (hob.mkt.counters (wadd_lt _ _) (wsub_lt _ _) w3 w4 rfl)
  refine ht.bind ?_
  rintro ⟨m, d, w⟩ hm
  have hl : Post (sendTakeTransfers P m s.toks ix.side a d w) X.T := by
    unfold sendTakeTransfers
    split
    · exact (fit_deposit hT h.toks hS _ _ _).bind fun l hl => .ite (fun _ => .ok hl) fun _ => fit_send hT hm hl _ _ _
    · exact (fit_deposit hT h.toks hS _ _ _).bind fun l hl => .ite (fun _ => .ok hl) fun _ => fit_send hT hm hl _ _ _
  exact hl.bind fun l hl => .ret ⟨hm, hob.bids, hob.asks, fun e => absurd e hn.ne, hob.q, h.oos, h.frame, hl,
    Nat.succ_le_succ h.seq, h.reqCount, .inl hrq, .inl hn.ev, .inl hn.bids, .inl hn.asks⟩

/-! ### Cancellations -/

theorem fit_unlockLeaf (m : Market) (l : Leaf) (sd : Side) {o : OpenOrders} (h : OoFit o) :
    Post (unlockLeaf m l sd o) (fun r => r.1 < W64 ∧ OoFit r.2) := by
  unfold unlockLeaf
  split
  · exact Post.any.bind fun _ _ => (fit_unlockPc h _).bind fun o h => .ret ⟨wmul_lt _ _, h⟩
  · exact (fit_unlockCoin h _).bind fun o h => .ret ⟨wmul_lt _ _, h⟩

theorem fit_cancelLeaf {ob : Ob conc} (h : ObFit X.C X.B ob) {l : Leaf} (hl : LeafFit l) (sd : Side) {o : OpenOrders} (ho : OoFit o)
    {a : Nat} (ha : a < 256 ^ 32) (id : Nat) : Post (cancelLeaf conc ob l sd o a id) (fun r => ObFit X.C X.B r.1 ∧ OoFit r.2) := by
  unfold cancelLeaf
  refine .ite (fun _ => .error) fun _ => ?_
  refine Post.unwrapped.bind fun x hx => ?_
  refine Post.self.bind fun _ he => Post.any.bind fun _ _ => ?_
  rw [checkAssert_ok, beq_iff_eq] at he
  subst he
  refine (fit_unlockLeaf _ _ _ ho).bind ?_
  rintro ⟨n, o⟩ ⟨hn, ho'⟩
  refine (fit_pushEv h (out_fit hn (by decide) (ho.ids _ (List.mem_of_getElem? hx)) ha hl.slot hl.cid)).bind fun ob h => ?_
  exact .ret ⟨h, ho'⟩

def Caps.side (B : Caps) : Side → Nat
  | .bid => B.bids
  | .ask => B.asks

theorem ObFit.setSide {ob : Ob conc} (h : ObFit X.C X.B ob) (sd : Side) {b : Slab} (hb : SlabFit (X.B.side sd) b) : ObFit X.C X.B (ob.setSide conc sd b) := by
  cases sd
  · exact ⟨hb, h.asks, h.q, h.mkt⟩
  · exact ⟨h.bids, hb, h.q, h.mkt⟩

theorem ObFit.side {ob : Ob conc} (h : ObFit X.C X.B ob) (sd : Side) : SlabFit (X.B.side sd) (ob.side conc sd) := by
  cases sd
  · exact h.bids
  · exact h.asks

theorem fit_cancelOrderV2 {ob : Ob conc} (h : ObFit X.C X.B ob) (sd : Side) {o : OpenOrders} (ho : OoFit o)
    {a : Nat} (ha : a < 256 ^ 32) (id : Nat) : Post (cancelOrderV2 conc ob sd a o id) (fun r => ObFit X.C X.B r.1 ∧ OoFit r.2) := by
  unfold cancelOrderV2
  refine (fit_removeByKey (h.side sd) id).bind ?_
  rintro ⟨b, l⟩ ⟨hb, hl⟩
  cases l with
  | none => exact .thrown
  | some l => exact fit_cancelLeaf (h.setSide sd hb) (hl l rfl) sd ho ha id

theorem fit_cancelMany {a : Nat} (ha : a < 256 ^ 32) (l : List (Nat × Side)) : ∀ {ob : Ob conc} {o : OpenOrders}, ObFit X.C X.B ob →
    OoFit o → Post (cancelMany conc a ob o l) (fun r => ObFit X.C X.B r.1 ∧ OoFit r.2) := by
  induction l with
  | nil => intro ob o h ho; exact .ok ⟨h, ho⟩
  | cons x l ih =>
    intro ob o h ho
    unfold cancelMany
    have := fit_cancelOrderV2 h x.2 ho ha x.1
    split
    · rename_i ob' o' e
      obtain ⟨h', ho'⟩ := this _ e
      exact ih h' ho'
    · exact ih h ho
    · exact .error

theorem fit_cancelArgs {env : Env} (hz : Opens env X) {s : State conc} (h : SFit X N s) {a : CancelAccts}
    (hk : a.signer.key < 256 ^ 32) (hk' : X.K a.oo.key) (kb : X.K a.bids.key) (ka : X.K a.asks.key) (ke : X.K a.eventQ.key) :
    Post (cancelArgs env s.toCore a)
      (fun o => (OoFit o ∧ X.A a.oo.key) ∧ Names X) := by
  unfold cancelArgs
  refine Post.any.bind fun _ _ => Post.any.bind fun _ _ => ?_
  refine (fit_loadOrders h.oos hz hk' (by intro x e; cases e; exact hk) _ _).bind fun o ho => ?_
  exact Post.self.bind fun _ hb => Post.self.bind fun _ ha => Post.self.bind fun _ he => .ret ⟨ho, h.names kb ka ke hb ha he⟩

theorem fit_parseCancel {accts : List AccMeta} (ha : Addrs X accts) :
    Post (parseCancel accts) (fun a => (a.oo.key < 256 ^ 32 ∧ X.K a.oo.key) ∧ a.signer.key < 256 ^ 32 ∧
      X.K a.bids.key ∧ X.K a.asks.key ∧ X.K a.eventQ.key) := by
  unfold parseCancel
  split
  · rename_i m b a oo sg eq r
    exact .ok ⟨⟨(ha oo (by simp)).1, (ha oo (by simp)).2.1⟩, (ha sg (by simp)).1, (ha b (by simp)).2.1,
      (ha a (by simp)).2.1, (ha eq (by simp)).2.1⟩
  · exact .error

theorem SFit.back {s : State conc} (h : SFit X N s) {ob : Ob conc} (hb : ObFit X.C X.B ob) {a : Nat} (hk : X.K a) {o : OpenOrders}
    (ho : OoFit o ∧ X.A a) (hn : Names X) : SFit X N (s.back conc ob a o) :=
  ⟨hb.mkt, hb.bids, hb.asks, fun e => absurd e hn.ne, hb.q, oos_set h.oos ho, frame_set h.frame hk _, h.toks, h.seq, h.reqCount,
    h.atReqQ, .inl hn.ev, .inl hn.bids, .inl hn.asks⟩

theorem fit_cancelV2 {env : Env} (hz : Opens env X) {s : State conc} (h : SFit X N s) {accts : List AccMeta} (ha : Addrs X accts) (sd : Side) (id : Nat) :
    Post (cancelV2 conc env s accts sd id) (SFit X N) := by
  unfold cancelV2
  refine (fit_parseCancel ha).bind fun a ⟨⟨k1, k1'⟩, k2, k3, k4, k5⟩ => (fit_cancelArgs hz h k2 k1' k3 k4 k5).bind fun o ⟨⟨ho, hA⟩, hne⟩ => ?_
  refine (fit_cancelOrderV2 (h.ob h.mkt) sd ho k1 id).bind ?_
  rintro ⟨ob, o⟩ ⟨hob, ho⟩
  exact .ret (h.back hob k1' ⟨ho, hA⟩ hne)

theorem fit_cancelBy {env : Env} (hz : Opens env X) {s : State conc} (h : SFit X N s) {accts : List AccMeta} (ha : Addrs X accts) (c : Nat) :
    Post (cancelByClientIdV2 conc env s accts c) (SFit X N) := by
  unfold cancelByClientIdV2
  refine (fit_parseCancel ha).bind fun a ⟨⟨k1, k1'⟩, k2, k3, k4, k5⟩ => Post.any.bind fun _ _ => (fit_cancelArgs hz h k2 k1' k3 k4 k5).bind fun o ⟨⟨ho, hA⟩, hne⟩ => ?_
  refine Post.any.bind ?_
  rintro ⟨id, sd⟩ _
  refine (fit_cancelOrderV2 (h.ob h.mkt) sd ho k1 id).bind ?_
  rintro ⟨ob, o⟩ ⟨hob, ho⟩
  exact .ret (h.back hob k1' ⟨ho, hA⟩ hne)

theorem fit_batch {env : Env} (hz : Opens env X) {s : State conc} (h : SFit X N s) {accts : List AccMeta} (ha : Addrs X accts) (cs : List Nat) :
    Post (cancelByClientIds conc env s accts cs) (SFit X N) := by
  unfold cancelByClientIds
  refine (fit_parseCancel ha).bind fun a ⟨⟨k1, k1'⟩, k2, k3, k4, k5⟩ => (fit_cancelArgs hz h k2 k1' k3 k4 k5).bind fun o ⟨⟨ho, hA⟩, hne⟩ => ?_
  refine (fit_cancelMany k1 _ (h.ob h.mkt) ho).bind ?_
  rintro ⟨ob, o⟩ ⟨hob, ho⟩
  exact .ret (h.back hob k1' ⟨ho, hA⟩ hne)

theorem fit_newOrders {P : Params} (hT : Moves P X) {env : Env} (hz : Opens env X) {accts : List AccMeta} (ha : Addrs X accts)
    (l : List NewOrderIx) : ∀ {N : Nat} {s : State conc}, SFit X N s → (∀ i ∈ l, OrderValid i) →
      Post (newOrders conc P env s accts l) (SFit X (N + l.length)) := by
  induction l with
  | nil => intro N s h _; exact .ok h
  | cons x l ih =>
    intro N s h hv
    refine (fit_newOrderV3 hT hz h ha (hv x (by simp))).bind fun s h => ?_
    have := ih h fun i hi => hv i (by simp [hi])
    rw [List.length_cons, show N + (l.length + 1) = N + 1 + l.length by omega]
    exact this

theorem fit_replace {P : Params} (hT : Moves P X) {env : Env} (hz : Opens env X) {s : State conc} (h : SFit X N s) {accts : List AccMeta} (ha : Addrs X accts)
    {l : List NewOrderIx} (hv : ∀ i ∈ l, OrderValid i) : Post (replaceOrders conc P env s accts l) (SFit X (N + l.length)) := by
  unfold replaceOrders
  refine Post.self.bind fun ca hc => ?_
  have hs : Addrs X ca := by
    unfold replaceCancelAccts at hc
    split at hc
    · rename_i h0 h1 h2 h3 h4 h5
      cases hc
      intro x hx
      simp only [List.mem_cons, List.not_mem_nil, or_false] at hx
      rcases hx with rfl | rfl | rfl | rfl | rfl | rfl
      · exact ha _ (List.mem_of_getElem? h0)
      · exact ha _ (List.mem_of_getElem? h1)
      · exact ha _ (List.mem_of_getElem? h2)
      · exact ha _ (List.mem_of_getElem? h3)
      · exact ha _ (List.mem_of_getElem? h4)
      · exact ha _ (List.mem_of_getElem? h5)
    · cases hc
  exact (fit_batch hz h hs _).bind fun s h => fit_newOrders hT hz ha l h hv

/-! ### Consuming events -/

theorem fit_applyEvent {o : OpenOrders} (h : OoFit o) (v : EventView) : Post (applyEvent o v) OoFit := by
  unfold applyEvent
  split
  · refine .ite (fun _ => ?_) fun _ => .ok { h with rebates := wadd_lt _ _ }
    split
    · exact .ok { h with pcTotal := wsub_lt _ _, coinTotal := wadd_lt _ _, coinFree := wadd_lt _ _, pcFree := wadd_lt _ _ }
    · exact .ok { h with coinTotal := wsub_lt _ _, pcTotal := wadd_lt _ _, pcFree := wadd_lt _ _ }
  · rename_i sd rel un st _ _ slot _
    cases sd with
    | bid =>
      have h' : OoFit { o with pcFree := if rel then wadd o.pcFree un else o.pcFree } :=
        { h with pcFree := by
                  show (if rel then wadd o.pcFree un else o.pcFree) < W64
                  split
                  · exact wadd_lt _ _
                  · exact h.pcFree }
      exact .ite (fun _ => .error) fun _ => .ite (fun _ => fit_removeOrder h' _) fun _ => .ok h'
    | ask =>
      have h' : OoFit { o with coinFree := if rel then wadd o.coinFree un else o.coinFree } :=
        { h with coinFree := by
                  show (if rel then wadd o.coinFree un else o.coinFree) < W64
                  split
                  · exact wadd_lt _ _
                  · exact h.coinFree }
      exact .ite (fun _ => .error) fun _ => .ite (fun _ => fit_removeOrder h' _) fun _ => .ok h'

theorem fit_consumeOne {P : Params} {env : Env} (hz : Opens env X) {s : State conc} (h : SFit X N s) {keys : List Nat}
    (hk : ∀ k ∈ keys, X.K k) (hev : X.K X.C.eventQ) :
    Post (consumeOne conc P env s keys) (fun r => ∀ s', r = some s' → SFit X N s') := by
  unfold consumeOne
  split
  · exact .ok (by simp)
  · rename_i e _
    refine Post.any.bind fun v _ => ?_
    have ho : Post (eventOwner P env s.toCore keys e v) (fun r => ∀ o, r = some o →
        (OoFit o ∧ X.A e.owner) ∧ X.K e.owner) := by
      unfold eventOwner
      refine .ite (fun hf => ?_) fun _ => .ok (by simp)
      refine (fit_loadOrders h.oos hz (hk _ (P.search.sound _ _ hf)) (by intro x e; cases e) _ _).bind fun o ho => ?_
      refine Post.any.bind fun _ _ => Post.any.bind fun _ _ => Post.any.bind fun _ _ => Post.any.bind fun _ _ => ?_
      exact .ret (by intro o' e; cases e; exact ⟨ho, hk _ (P.search.sound _ _ hf)⟩)
    refine ho.bind fun r hr => ?_
    cases r with
    | none => exact .ret (by simp)
    | some o =>
      obtain ⟨⟨ho, hA⟩, hke⟩ := hr o rfl
      refine (fit_applyEvent ho v).bind fun o ho => Post.unwrapped.bind fun q hq => ?_
      refine .ret ?_
      intro s' e
      cases e
      exact ⟨h.mkt, h.bids, h.asks, h.same, fit_pop h.q hq, oos_set h.oos ⟨ho, hA⟩, frame_set h.frame hke _, h.toks,
        h.seq, h.reqCount, h.atReqQ, .inl hev, h.atBids, h.atAsks⟩

theorem fit_consumeLoop {P : Params} {env : Env} (hz : Opens env X) {keys : List Nat} (hk : ∀ k ∈ keys, X.K k)
    (hev : X.K X.C.eventQ) (n : Nat) : ∀ {s : State conc}, SFit X N s →
    Post (consumeLoop conc P env keys n s) (SFit X N) := by
  induction n with
  | zero => intro s h; exact .ok h
  | succ n ih =>
    intro s h
    unfold consumeLoop
    refine (fit_consumeOne hz h hk hev).bind fun r hr => ?_
    cases r with
    | none => exact .ret h
    | some s' => exact ih (hr s' rfl)

theorem keys_named {accts : List AccMeta} (ha : Addrs X accts) (n : Nat) : ∀ k ∈ (accts.take n).map (·.key), X.K k := by
  intro k hk
  obtain ⟨a, h, rfl⟩ := List.mem_map.1 hk
  exact (ha a (List.mem_of_mem_take h)).2.1

theorem fit_consume {P : Params} {env : Env} (hz : Opens env X) {s : State conc} (h : SFit X N s) {accts : List AccMeta}
    (ha : Addrs X accts) (n : Nat) :
    Post (consumeEvents conc P env s accts n) (SFit X N) := by
  unfold consumeEvents
  refine Post.any.bind fun _ _ => ?_
  split
  · rename_i m e r hd
    have he : e ∈ accts := List.mem_of_mem_drop (i := accts.length - 4) (by rw [hd]; simp)
    exact Post.any.bind fun _ _ => Post.any.bind fun _ _ => Post.self.bind fun _ hl =>
      fit_consumeLoop hz (keys_named ha _) (named_ev h (ha e he).2.1 hl) n h
  · exact .thrown

theorem fit_consumeP {P : Params} {env : Env} (hz : Opens env X) {s : State conc} (h : SFit X N s) {accts : List AccMeta}
    (ha : Addrs X accts) (n : Nat) :
    Post (consumeEventsPermissioned conc P env s accts n) (SFit X N) := by
  unfold consumeEventsPermissioned
  refine Post.any.bind fun _ _ => ?_
  split
  · rename_i m e au r hd
    have he : e ∈ accts := List.mem_of_mem_drop (i := accts.length - 3) (by rw [hd]; simp)
    exact Post.any.bind fun _ _ => Post.any.bind fun _ _ => Post.any.bind fun _ _ => Post.self.bind fun _ hl =>
      fit_consumeLoop hz (keys_named ha _) (named_ev h (ha e he).2.1 hl) n h
  · exact .thrown

/-! ### The rest -/

theorem fit_settle {P : Params} (hT : Moves P X) {env : Env} (hz : Opens env X) {s : State conc} (h : SFit X N s) {accts : List AccMeta} (ha : Addrs X accts) :
    Post (settleFunds conc P env s accts) (SFit X N) := by
  unfold settleFunds
  have hk : Post (parseSettle accts) (fun a => a.owner ∈ accts ∧ a.oo ∈ accts) := by
    unfold parseSettle
    split
    · exact .ok ⟨by simp, by simp⟩
    · exact .ok ⟨by simp, by simp⟩
    · exact .error
  refine hk.bind fun a ⟨k, k'⟩ => ?_
  obtain ⟨k, _⟩ := ha _ k
  obtain ⟨_, k', _⟩ := ha _ k'
  have hoo : Post (settleArgs P env s.toCore a) (fun o => OoFit o ∧ X.A a.oo.key) := by
    unfold settleArgs
    refine Post.any.bind fun _ _ => Post.any.bind fun _ _ => Post.any.bind fun _ _ => Post.any.bind fun _ _ => ?_
    refine Post.any.bind fun _ _ => Post.any.bind fun _ _ => Post.any.bind fun _ _ => Post.any.bind fun _ _ => ?_
    exact Post.any.bind fun _ _ => fit_loadOrders h.oos hz k' (by intro x e; cases e; exact k) _ _
  refine hoo.bind fun o ⟨ho, hA⟩ => ?_
  unfold settleExec
  obtain ⟨w1, w2, w3, w4⟩ := h.mkt.words
  have hm : MFit X.C { s.mkt with coinDeposits := wsub s.mkt.coinDeposits o.coinFree, pcDeposits := wsub s.mkt.pcDeposits o.pcFree } :=
    h.mkt.counters (wsub_lt _ _) (wsub_lt _ _) w3 w4 rfl
  refine Post.unwrapped.bind fun ct e1 => Post.unwrapped.bind fun pt e2 => (fit_send hT hm h.toks _ _ _).bind fun l hl => ?_
  refine (fit_send hT hm hl _ _ _).bind fun l hl => ?_
  have hr : Post (settleRebates P
      { s.mkt with coinDeposits := wsub s.mkt.coinDeposits o.coinFree, pcDeposits := wsub s.mkt.pcDeposits o.pcFree } l o a.referrer) (fun r => MFit X.C r.1 ∧ X.T r.2) := by
    unfold settleRebates
    obtain ⟨w1, w2, w3, w4⟩ := hm.words
    split
    · exact .ite (fun _ => (fit_send hT hm hl _ _ _).bind fun _ hl => .ret ⟨hm, hl⟩) fun _ => .ok ⟨hm.counters w1 w2 (wadd_lt _ _) w4 rfl, hl⟩
    · exact .ok ⟨hm.counters w1 w2 (wadd_lt _ _) w4 rfl, hl⟩
  refine hr.bind ?_
  rintro ⟨m, l⟩ ⟨hm, hl⟩
  obtain ⟨w1, w2, w3, w4⟩ := hm.words
  have z : (0 : Nat) < W64 := by decide
  exact .ret ⟨hm.counters w1 w2 w3 (wsub_lt _ _) rfl, h.bids, h.asks, h.same, h.q, oos_set h.oos
    ⟨{ ho with coinFree := z, pcFree := z, rebates := z, coinTotal := Nat.lt_of_le_of_lt (subbed e1) ho.coinTotal,
               pcTotal := Nat.lt_of_le_of_lt (subbed e2) ho.pcTotal }, hA⟩, frame_set h.frame k' _, hl, h.seq, h.reqCount,
    h.atReqQ, h.atEventQ, h.atBids, h.atAsks⟩

theorem fit_disable {P : Params} {s : State conc} (h : SFit X N s) (accts : List AccMeta) :
    Post (disableMarket conc P s accts) (SFit X N) := by
  unfold disableMarket
  split
  · refine Post.self.bind fun _ hl => Post.any.bind fun _ _ => Post.any.bind fun _ _ => .ret ?_
    refine { h with mkt := ?_ }
    obtain ⟨⟨hf, hv⟩, hc, _⟩ := h.mkt
    have hd : ∀ f, checkMarketFlags f false = .ok () → f ||| 128 < 256 ^ 8 ∧ hasFlag (f ||| 128) 512 = hasFlag f 512 ∧
        checkMarketFlags (f ||| 128) true = .ok () := by
      intro f hf
      unfold checkMarketFlags at hf
      have : f = 3 ∨ f = 515 ∨ f = 1539 := by
        split at hf
        · cases hf
        · split at hf
          · split at hf
            · rename_i h; simp at h; omega
            · cases hf
          · split at hf
            · rename_i h; simp at h; omega
            · cases hf
      rcases this with rfl | rfl | rfl <;> exact ⟨by decide, by decide, rfl⟩
    obtain ⟨_, _, hl⟩ := bind_ok hl
    obtain ⟨d1, d2, d3⟩ := hd _ hl
    refine ⟨⟨?_, fun hp => hv (by rw [← hp]; exact d2.symm)⟩, hc, d3⟩
    simp only [FieldsFit, Market.fieldsV2, Market.fieldsV1, List.cons_append, List.nil_append, List.mem_cons,
      List.not_mem_nil, or_false, forall_eq_or_imp, forall_eq] at hf ⊢
    exact ⟨d1, hf.2⟩
  · exact .error

theorem fit_sweep {P : Params} (hT : Moves P X) {s : State conc} (h : SFit X N s) (accts : List AccMeta) :
    Post (sweepFees conc P s accts) (SFit X N) := by
  unfold sweepFees
  split
  · refine Post.any.bind fun _ _ => Post.any.bind fun _ _ => Post.any.bind fun _ _ => Post.any.bind fun _ _ => ?_
    refine Post.any.bind fun _ _ => Post.any.bind fun _ _ => Post.any.bind fun _ _ => (fit_send hT h.mkt h.toks _ _ _).bind fun l hl => .ret ?_
    obtain ⟨w1, w2, w3, w4⟩ := h.mkt.words
    exact { h with mkt := h.mkt.counters w1 w2 (by decide : (0 : Nat) < W64) w4 rfl, toks := hl }
  · exact .error

theorem fit_close {env : Env} (hz : Opens env X) {s : State conc} (h : SFit X N s) {accts : List AccMeta} (ha : Addrs X accts) :
    Post (closeOpenOrders conc env s accts) (SFit X N) := by
  unfold closeOpenOrders
  split
  · refine Post.any.bind fun _ _ => Post.any.bind fun _ _ => ?_
    have hk := (ha _ (List.mem_cons_self)).2.1
    refine (fit_loadOrders h.oos hz hk (by intro x e; cases e; exact (ha _ (by simp)).1) _ _).bind fun o ⟨ho, hA⟩ => ?_
    exact Post.any.bind fun _ _ => .ret { h with oos := oos_set h.oos ⟨{ ho with }, hA⟩, frame := frame_set h.frame hk _ }
  · exact .error

theorem fit_initOo {env : Env} (hz : Opens env X) {s : State conc} (h : SFit X N s) {accts : List AccMeta} (ha : Addrs X accts) :
    Post (initOpenOrders conc env s accts) (SFit X N) := by
  unfold initOpenOrders
  split
  · refine .ite (fun _ => ?_) fun _ => .error
    refine Post.any.bind fun _ _ => Post.any.bind fun _ _ => Post.any.bind fun _ _ => ?_
    have hk := (ha _ (List.mem_cons_self)).2.1
    refine (fit_loadOrders h.oos hz hk (by intro x e; cases e; exact (ha _ (by simp)).1) _ _).bind fun o ho => ?_
    exact .ret { h with oos := oos_set h.oos ho, frame := frame_set h.frame hk _ }
  · exact .error

theorem fit_removeKeys {z : Nat} (l : List Nat) : ∀ {b : Slab}, SlabFit z b →
    Post (removeKeys conc b l) (fun r => SlabFit z r.1 ∧ ∀ x ∈ r.2, LeafFit x) := by
  induction l with
  | nil => intro b h; exact .ok ⟨h, by simp⟩
  | cons k l ih =>
    intro b h
    refine (fit_removeByKey h k).bind ?_
    rintro ⟨b, o⟩ ⟨hb, ho⟩
    refine (ih hb).bind ?_
    rintro ⟨b, ls⟩ ⟨hb, hl⟩
    refine .ret ⟨hb, ?_⟩
    intro x hx
    rcases List.mem_append.1 hx with hx | hx
    · cases o with
      | none => simp at hx
      | some y => simp at hx; subst hx; exact ho x rfl
    · exact hl x hx

theorem fit_cancelLeaves (sd : Side) {a : Nat} (ha : a < 256 ^ 32) (l : List Leaf) : ∀ {ob : Ob conc} {o : OpenOrders}, ObFit X.C X.B ob →
    OoFit o → (∀ x ∈ l, LeafFit x) → Post (cancelLeaves conc sd a ob o l) (fun r => ObFit X.C X.B r.1 ∧ OoFit r.2) := by
  induction l with
  | nil => intro ob o h ho _; exact .ok ⟨h, ho⟩
  | cons x l ih =>
    intro ob o h ho hl
    refine Post.any.bind fun id _ => (fit_cancelLeaf h (hl x (by simp)) sd ho ha id).bind ?_
    rintro ⟨ob, o⟩ ⟨h, ho⟩
    exact ih h ho fun y hy => hl y (by simp [hy])

theorem fit_prune {env : Env} (hz : Opens env X) {s : State conc} (h : SFit X N s) {accts : List AccMeta} (ha : Addrs X accts) (n : Nat) :
    Post (prune conc env s accts n) (SFit X N) := by
  unfold prune
  split
  · rename_i m b a auth oo owner eq
    refine Post.any.bind fun _ _ => Post.any.bind fun _ _ => Post.any.bind fun _ _ => ?_
    obtain ⟨hk, k1', _⟩ := ha oo (by simp)
    refine (fit_loadOrders h.oos hz k1' (by intro x e; cases e; exact (ha _ (by simp)).1) _ _).bind fun o ⟨ho, hA⟩ => ?_
    refine Post.self.bind fun _ hb => Post.self.bind fun _ hka => Post.self.bind fun _ hke => ?_
    have hne : Names X := h.names (ha b (by simp)).2.1 (ha a (by simp)).2.1 (ha eq (by simp)).2.1 hb hka hke
    have hr : Post (removeAll conc (s.ob conc s.mkt) oo.key n)
        (fun r => ObFit X.C X.B r.1 ∧ (∀ x ∈ r.2.1, LeafFit x) ∧ ∀ x ∈ r.2.2, LeafFit x) := by
      unfold removeAll
      refine (fit_removeKeys _ h.bids).bind ?_
      rintro ⟨b, l⟩ ⟨hb, hl⟩
      refine (fit_removeKeys _ h.asks).bind ?_
      rintro ⟨a, k⟩ ⟨ha, hk⟩
      exact .ret ⟨⟨hb, ha, h.q, h.mkt⟩, hl, hk⟩
    refine hr.bind ?_
    rintro ⟨ob, bl, al⟩ ⟨hob, hb, ha⟩
    refine (fit_cancelLeaves .bid hk bl hob ho hb).bind ?_
    rintro ⟨ob, o⟩ ⟨hob, ho⟩
    refine (fit_cancelLeaves .ask hk al hob ho ha).bind ?_
    rintro ⟨ob, o⟩ ⟨hob, ho⟩
    exact .ret (h.back hob k1' ⟨ho, hA⟩ hne)
  · exact .error

/-- Every instruction keeps the state of the market within its layout. -/
theorem fit_process {P : Params} (hT : Moves P X) {env : Env} (hz : Opens env X) {s : State conc} (h : SFit X N s)
    {accts : List AccMeta} (ha : Addrs X accts) {ix : Instruction} (hv : IxValid ix) :
    Post (process conc P env s accts ix) (SFit X (N + 8)) := by
  have up : ∀ {n : Nat}, n ≤ 8 → ∀ s : State conc, SFit X (N + n) s → SFit X (N + 8) s := fun hn s h => h.mono (by omega)
  have up0 : ∀ s : State conc, SFit X N s → SFit X (N + 8) s := fun s h => h.mono (by omega)
  cases ix with
  | initializeMarket => exact .error
  | newOrder => exact .error
  | matchOrders => exact .ok (up0 s h)
  | consumeEvents => exact (fit_consume hz h ha _).mono up0
  | cancelOrder => exact .error
  | settleFunds => exact (fit_settle hT hz h ha).mono up0
  | cancelOrderByClientId => exact .error
  | disableMarket => exact (fit_disable h _).mono up0
  | sweepFees => exact (fit_sweep hT h _).mono up0
  | newOrderV2 => exact .error
  | newOrderV3 => exact (fit_newOrderV3 hT hz h ha hv).mono (up (by omega))
  | cancelOrderV2 => exact (fit_cancelV2 hz h ha _ _).mono up0
  | cancelOrderByClientIdV2 => exact (fit_cancelBy hz h ha _).mono up0
  | sendTake => exact (fit_sendTake hT h ha hv).mono (up (by omega))
  | closeOpenOrders => exact (fit_close hz h ha).mono up0
  | initOpenOrders => exact (fit_initOo hz h ha).mono up0
  | prune => exact (fit_prune hz h ha _).mono up0
  | consumeEventsPermissioned => exact (fit_consumeP hz h ha _).mono up0
  | cancelOrdersByClientIds => exact (fit_batch hz h ha _).mono up0
  | replaceOrderByClientId =>
    exact (fit_replace hT hz h ha (by intro i hi; simp at hi; subst hi; exact hv)).mono (up (by simp))
  | replaceOrdersByClientIds => exact (fit_replace hT hz h ha hv.2).mono (up hv.1)

end Serum
