import Verif.PropsExit

/-!
C60: the account lists documented in `dex/src/instruction.rs` 327-516. An instruction changes only accounts documented
as writable, succeeds only if the accounts documented as signers signed, and no other signature makes a difference.
-/

namespace Serum.Props

/-- Positions documented as `[writable]` for a list of `n` accounts, `instruction.rs` 328-515. One difference: the
open-orders account of `Prune` (position 4) is documented as read-only, see `prune_writes_orders`. -/
def docWritable (n : Nat) : Instruction → List Nat
  | .initializeMarket _ => [0, 1, 2, 3, 4, 5, 6]
  | .newOrder _ | .newOrderV2 .. => [0, 1, 2, 3, 5, 6]
  | .matchOrders _ => [0, 1, 2, 3, 4]
  | .consumeEvents _ => List.range (n - 2)
  | .cancelOrder .. | .cancelOrderByClientId _ => [1, 2]
  | .settleFunds => [0, 1, 3, 4, 5, 6, 9]
  | .disableMarket => [0]
  | .sweepFees => [0, 1, 3]
  | .newOrderV3 _ | .replaceOrderByClientId _ | .replaceOrdersByClientIds _ => [0, 1, 2, 3, 4, 5, 6, 8, 9]
  | .cancelOrderV2 .. | .cancelOrderByClientIdV2 _ | .cancelOrdersByClientIds _ => [0, 1, 2, 3, 5]
  | .sendTake _ => [0, 1, 2, 3, 4, 5, 6, 8, 9]
  | .closeOpenOrders => [0, 2]
  | .initOpenOrders => [0]
  | .prune _ => [0, 1, 2, 4, 6]
  | .consumeEventsPermissioned _ => List.range (n - 1)

/-- Positions documented as `[signer]` for a list of `n` accounts, `instruction.rs` 328-515. `SendTake` documents its
signer as `[]` with the word "signer". -/
def docSigner (n : Nat) : Instruction → List Nat
  | .initializeMarket _ | .matchOrders _ | .consumeEvents _ => []
  | .newOrder _ | .newOrderV2 .. => [4]
  | .cancelOrder .. | .cancelOrderByClientId _ => [3]
  | .settleFunds => [2]
  | .disableMarket => [1]
  | .sweepFees => [2]
  | .newOrderV3 _ | .replaceOrderByClientId _ | .replaceOrdersByClientIds _ => [7]
  | .cancelOrderV2 .. | .cancelOrderByClientIdV2 _ | .cancelOrdersByClientIds _ => [4]
  | .sendTake _ => [7]
  | .closeOpenOrders => [1]
  | .initOpenOrders => if 4 < n then [1, 4] else [1]
  | .prune _ => [3]
  | .consumeEventsPermissioned _ => [n - 1]

/-- The content of the account at address `k` differs between two states. -/
def Changed (s s' : State conc) (k : Nat) : Prop :=
  (k = s.mkt.ownAddress ∧ s'.mkt ≠ s.mkt) ∨ (k = s.mkt.bids ∧ s'.bids ≠ s.bids) ∨ (k = s.mkt.asks ∧ s'.asks ≠ s.asks) ∨
  (k = s.mkt.eventQ ∧ s'.q ≠ s.q) ∨ (k = s.mkt.reqQ ∧ (s'.seq ≠ s.seq ∨ s'.reqCount ≠ s.reqCount)) ∨
  ooAt s'.oos k ≠ ooAt s.oos k ∨ s'.toks k ≠ s.toks k

/-- The key at a position. -/
def keyAt (accts : List AccMeta) (i : Nat) : Option Nat := (accts[i]?).map (·.key)

/-- Whether the account at a position signed. -/
def signedAt (accts : List AccMeta) (i : Nat) : Option Bool := (accts[i]?).map (·.signer)

/-! ### Signatures -/

/-- Clear the signatures outside the positions `ps`. -/
def mask (ps : List Nat) : Nat → List AccMeta → List AccMeta
  | _, [] => []
  | i, a :: t => ⟨a.key, a.signer && ps.contains i⟩ :: mask ps (i + 1) t

theorem mask_length (ps : List Nat) (i : Nat) (l : List AccMeta) : (mask ps i l).length = l.length := by
  induction l generalizing i with
  | nil => rfl
  | cons a t ih => simp [mask, ih]

theorem mask_keys (ps : List Nat) (i : Nat) (l : List AccMeta) : (mask ps i l).map (·.key) = l.map (·.key) := by
  induction l generalizing i with
  | nil => rfl
  | cons a t ih => simp [mask, ih]

theorem mask_append (ps : List Nat) (i : Nat) (l k : List AccMeta) :
    mask ps i (l ++ k) = mask ps i l ++ mask ps (i + l.length) k := by
  induction l generalizing i with
  | nil => rfl
  | cons a t ih => simp [mask, ih, Nat.add_comm, Nat.add_left_comm]

theorem mask_congr {ps : List Nat} {l k : List AccMeta} : ∀ {i : Nat}, l.map (·.key) = k.map (·.key) →
    (∀ j, i + j ∈ ps → signedAt l j = signedAt k j) → mask ps i l = mask ps i k := by
  induction l generalizing k with
  | nil =>
    intro i h _
    cases k with
    | nil => rfl
    | cons => cases h
  | cons a t ih =>
    intro i h hs
    cases k with
    | nil => cases h
    | cons b u =>
      simp only [List.map_cons, List.cons.injEq] at h
      simp only [mask]
      rw [ih (i := i + 1) h.2 (fun j hj => by
        have := hs (j + 1) (by rwa [Nat.add_right_comm, ← Nat.add_assoc] at *)
        simpa [signedAt] using this), h.1]
      congr 2
      cases hc : ps.contains i with
      | false => simp
      | true =>
        have := hs 0 (by simpa using hc)
        simp only [signedAt, List.getElem?_cons_zero, Option.map_some, Option.some.injEq] at this
        rw [this]

theorem discount_mask (ps : List Nat) (c : Core) (i : Nat) (l : List AccMeta) :
    discountAcct c (mask ps i l) = discountAcct c l := by
  rcases l with _ | ⟨a, _ | ⟨b, t⟩⟩ <;> rfl

theorem newOrderV3_mask (P : Params) (env : Env) (s : State conc) (accts : List AccMeta) (ix : NewOrderIx) :
    newOrderV3 conc P env s (mask [7] 0 accts) ix = newOrderV3 conc P env s accts ix := by
  rcases accts with _ | ⟨m, _ | ⟨oo, _ | ⟨rq, _ | ⟨eq, _ | ⟨b, _ | ⟨k, _ | ⟨p, _ | ⟨o, _ | ⟨cv, _ | ⟨pv, _ | ⟨t, _ |
    ⟨r, rest⟩⟩⟩⟩⟩⟩⟩⟩⟩⟩⟩⟩ <;> try rfl
  unfold newOrderV3
  simp only [mask, parseNewOrder, mask_length]
  by_cases hl : rest.length ≤ 2
  · simp only [if_pos hl, bind, Except.bind]
    unfold newOrderArgs
    simp only [discount_mask]
    simp
    rfl
  · simp only [if_neg hl]

theorem newOrders_mask (P : Params) (env : Env) (s : State conc) (accts : List AccMeta) (ixs : List NewOrderIx) :
    newOrders conc P env s (mask [7] 0 accts) ixs = newOrders conc P env s accts ixs := by
  induction ixs generalizing s with
  | nil => rfl
  | cons ix ixs ih =>
    simp only [newOrders, newOrderV3_mask]
    congr 1
    funext s'
    exact ih s'

theorem cancelArgs_mask (env : Env) (c : Core) {m b k oo sg eq m' b' k' oo' sg' eq' : AccMeta} (h1 : m'.key = m.key)
    (h2 : b'.key = b.key) (h3 : k'.key = k.key) (h4 : oo'.key = oo.key) (h5 : sg' = sg) (h6 : eq'.key = eq.key) :
    cancelArgs env c ⟨m', b', k', oo', sg', eq'⟩ = cancelArgs env c ⟨m, b, k, oo, sg, eq⟩ := by
  unfold cancelArgs loadMarket loadBids loadAsks loadEventQ
  simp only [h1, h2, h3, h4, h5, h6]

theorem replace_mask (P : Params) (env : Env) (s : State conc) (accts : List AccMeta) (ixs : List NewOrderIx) :
    replaceOrders conc P env s (mask [7] 0 accts) ixs = replaceOrders conc P env s accts ixs := by
  unfold replaceOrders
  simp only [newOrders_mask]
  rcases accts with _ | ⟨m, _ | ⟨oo, _ | ⟨rq, _ | ⟨eq, _ | ⟨b, _ | ⟨k, _ | ⟨p, _ | ⟨o, rest⟩⟩⟩⟩⟩⟩⟩⟩ <;> try rfl
  simp only [mask, replaceCancelAccts]
  simp [bind, Except.bind, cancelByClientIds, parseCancel]
  rfl

theorem cancelV2_mask (env : Env) (s : State conc) (accts : List AccMeta) (sd : Side) (id : Nat) :
    cancelV2 conc env s (mask [4] 0 accts) sd id = cancelV2 conc env s accts sd id := by
  rcases accts with _ | ⟨m, _ | ⟨b, _ | ⟨k, _ | ⟨oo, _ | ⟨sg, _ | ⟨eq, rest⟩⟩⟩⟩⟩⟩ <;> try rfl
  simp [mask, cancelV2, parseCancel, bind, Except.bind]
  rfl

theorem cancelById_mask (env : Env) (s : State conc) (accts : List AccMeta) (cid : Nat) :
    cancelByClientIdV2 conc env s (mask [4] 0 accts) cid = cancelByClientIdV2 conc env s accts cid := by
  rcases accts with _ | ⟨m, _ | ⟨b, _ | ⟨k, _ | ⟨oo, _ | ⟨sg, _ | ⟨eq, rest⟩⟩⟩⟩⟩⟩ <;> try rfl
  simp [mask, cancelByClientIdV2, parseCancel, bind, Except.bind]
  rfl

theorem cancelByIds_mask (env : Env) (s : State conc) (accts : List AccMeta) (cids : List Nat) :
    cancelByClientIds conc env s (mask [4] 0 accts) cids = cancelByClientIds conc env s accts cids := by
  rcases accts with _ | ⟨m, _ | ⟨b, _ | ⟨k, _ | ⟨oo, _ | ⟨sg, _ | ⟨eq, rest⟩⟩⟩⟩⟩⟩ <;> try rfl
  simp [mask, cancelByClientIds, parseCancel, bind, Except.bind]
  rfl

theorem settle_mask (P : Params) (env : Env) (s : State conc) (accts : List AccMeta) :
    settleFunds conc P env s (mask [2] 0 accts) = settleFunds conc P env s accts := by
  rcases accts with _ | ⟨m, _ | ⟨oo, _ | ⟨o, _ | ⟨cv, _ | ⟨pv, _ | ⟨cw, _ | ⟨pw, _ | ⟨vs, _ | ⟨t, _ | ⟨r, _ |
    ⟨x, rest⟩⟩⟩⟩⟩⟩⟩⟩⟩⟩⟩ <;> try rfl
  all_goals
    simp [mask, settleFunds, parseSettle, bind, Except.bind]
    rfl

theorem disable_mask (P : Params) (s : State conc) (accts : List AccMeta) :
    disableMarket conc P s (mask [1] 0 accts) = disableMarket conc P s accts := by
  rcases accts with _ | ⟨m, _ | ⟨b, _ | ⟨k, rest⟩⟩⟩ <;> try rfl
  simp [mask, disableMarket, bind, Except.bind]
  rfl

theorem sweep_mask (P : Params) (s : State conc) (accts : List AccMeta) :
    sweepFees conc P s (mask [2] 0 accts) = sweepFees conc P s accts := by
  rcases accts with _ | ⟨m, _ | ⟨b, _ | ⟨k, _ | ⟨oo, _ | ⟨sg, _ | ⟨eq, _ | ⟨x, rest⟩⟩⟩⟩⟩⟩⟩ <;> try rfl
  simp [mask, sweepFees, bind, Except.bind]
  rfl

theorem take_mask (P : Params) (s : State conc) (accts : List AccMeta) (ix : SendTakeIx) :
    sendTake conc P s (mask [7] 0 accts) ix = sendTake conc P s accts ix := by
  rcases accts with _ | ⟨m, _ | ⟨oo, _ | ⟨rq, _ | ⟨eq, _ | ⟨b, _ | ⟨k, _ | ⟨p, _ | ⟨o, _ | ⟨cv, _ | ⟨pv, _ | ⟨t, _ |
    ⟨r, rest⟩⟩⟩⟩⟩⟩⟩⟩⟩⟩⟩⟩ <;> try rfl
  unfold sendTake
  simp only [mask, parseSendTake, mask_length]
  by_cases hl : rest.length ≤ 1
  · simp only [if_pos hl, bind, Except.bind]
    unfold sendTakeArgs
    simp only [discount_mask]
    simp
    rfl
  · simp only [if_neg hl]

theorem close_mask (env : Env) (s : State conc) (accts : List AccMeta) :
    closeOpenOrders conc env s (mask [1] 0 accts) = closeOpenOrders conc env s accts := by
  rcases accts with _ | ⟨m, _ | ⟨b, _ | ⟨k, _ | ⟨oo, _ | ⟨x, rest⟩⟩⟩⟩⟩ <;> try rfl
  simp [mask, closeOpenOrders, bind, Except.bind]
  rfl

theorem initOpen_mask (env : Env) (s : State conc) (accts : List AccMeta) :
    initOpenOrders conc env s (mask (if 4 < accts.length then [1, 4] else [1]) 0 accts) = initOpenOrders conc env s accts := by
  rcases accts with _ | ⟨m, _ | ⟨b, _ | ⟨k, _ | ⟨oo, _ | ⟨x, _ | ⟨y, rest⟩⟩⟩⟩⟩⟩ <;> try rfl
  · simp [mask, initOpenOrders, bind, Except.bind]
    rfl
  · simp [mask, initOpenOrders, bind, Except.bind]
    rfl

theorem prune_mask (env : Env) (s : State conc) (accts : List AccMeta) (n : Nat) :
    prune conc env s (mask [3] 0 accts) n = prune conc env s accts n := by
  rcases accts with _ | ⟨m, _ | ⟨b, _ | ⟨k, _ | ⟨oo, _ | ⟨sg, _ | ⟨eq, _ | ⟨x, _ | ⟨y, rest⟩⟩⟩⟩⟩⟩⟩⟩ <;> try rfl
  simp [mask, prune, bind, Except.bind]
  rfl

theorem split_last (l : List AccMeta) (k : Nat) (h : k ≤ l.length) :
    l = l.take (l.length - k) ++ l.drop (l.length - k) ∧ (l.drop (l.length - k)).length = k :=
  ⟨(List.take_append_drop ..).symm, by rw [List.length_drop]; omega⟩

theorem mask_drop (ps : List Nat) (i n : Nat) (l : List AccMeta) : (mask ps i l).drop n = mask ps (i + n) (l.drop n) := by
  induction n generalizing i l with
  | zero => rfl
  | succ n ih =>
    cases l with
    | nil => rfl
    | cons a t =>
      simp only [mask, List.drop_succ_cons, ih]
      congr 1
      omega

theorem consume_mask (P : Params) (env : Env) (s : State conc) (accts : List AccMeta) (n : Nat) :
    consumeEvents conc P env s (mask [] 0 accts) n = consumeEvents conc P env s accts n := by
  unfold consumeEvents
  rw [mask_length, mask_drop, List.map_take, mask_keys, ← List.map_take]
  congr 1
  funext _
  rcases accts.drop (accts.length - 4) with _ | ⟨m, _ | ⟨q, r⟩⟩ <;> rfl

theorem consumePermissioned_mask (P : Params) (env : Env) (s : State conc) (accts : List AccMeta) (n : Nat) :
    consumeEventsPermissioned conc P env s (mask [accts.length - 1] 0 accts) n =
      consumeEventsPermissioned conc P env s accts n := by
  unfold consumeEventsPermissioned
  by_cases hl : 4 ≤ accts.length
  rotate_left
  · simp [mask_length, checkAssert, hl, bind, Except.bind]
  rw [mask_length, mask_drop, List.map_take, mask_keys, ← List.map_take]
  congr 1
  funext _
  obtain ⟨h1, h2⟩ := split_last accts 3 (by omega)
  rcases hd : accts.drop (accts.length - 3) with _ | ⟨m, _ | ⟨q, _ | ⟨r, _ | ⟨x, t⟩⟩⟩⟩ <;> rw [hd] at h2 <;> try cases h2
  simp only [mask]
  rw [show ([accts.length - 1].contains (0 + (accts.length - 3) + 1 + 1)) = true from by simp; omega]
  simp only [Bool.and_true]
  rfl

/-- C60. Whether and how an instruction succeeds depends only on the accounts' keys and on the signatures documented. -/
theorem only_documented_signatures {P : Params} {env : Env} {s : State conc} {accts accts' : List AccMeta}
    {ix : Instruction} (hk : accts.map (·.key) = accts'.map (·.key))
    (hs : ∀ i ∈ docSigner accts.length ix, signedAt accts i = signedAt accts' i) :
    process conc P env s accts ix = process conc P env s accts' ix := by
  have hl : accts.length = accts'.length := by simpa using congrArg List.length hk
  have e : mask (docSigner accts.length ix) 0 accts = mask (docSigner accts'.length ix) 0 accts' := by
    rw [← hl]
    exact mask_congr hk (fun j hj => hs j (by simpa using hj))
  have g : ∀ l, process conc P env s (mask (docSigner l.length ix) 0 l) ix = process conc P env s l ix := by
    intro l
    cases ix with
    | initializeMarket => rfl
    | newOrder => rfl
    | matchOrders => rfl
    | consumeEvents n => exact consume_mask P env s l n
    | cancelOrder => rfl
    | settleFunds => exact settle_mask P env s l
    | cancelOrderByClientId => rfl
    | disableMarket => exact disable_mask P s l
    | sweepFees => exact sweep_mask P s l
    | newOrderV2 => rfl
    | newOrderV3 ix => exact newOrderV3_mask P env s l ix
    | cancelOrderV2 sd id => exact cancelV2_mask env s l sd id
    | cancelOrderByClientIdV2 c => exact cancelById_mask env s l c
    | sendTake ix => exact take_mask P s l ix
    | closeOpenOrders => exact close_mask env s l
    | initOpenOrders => exact initOpen_mask env s l
    | prune n => exact prune_mask env s l n
    | consumeEventsPermissioned n => exact consumePermissioned_mask P env s l n
    | cancelOrdersByClientIds c => exact cancelByIds_mask env s l c
    | replaceOrderByClientId ix => exact replace_mask P env s l [ix]
    | replaceOrdersByClientIds ixs => exact replace_mask P env s l ixs
  rw [← g accts, ← g accts', e]

/-! ### Writes -/

theorem loadMarket_key {c : Core} {a : AccMeta} {d : Bool} {u : Unit} (h : loadMarket c a d = .ok u) :
    a.key = c.mkt.ownAddress := by
  unfold loadMarket at h
  obtain ⟨_, h, _⟩ := bind_ok h
  simpa using checkAssert_ok.1 h

theorem loadBids_key {c : Core} {a : AccMeta} {u : Unit} (h : orAssert (loadBids c a) = .ok u) : a.key = c.mkt.bids := by
  have h := orAssert_ok h
  unfold loadBids at h
  split at h
  · cases h
  · rename_i e; simpa using e

theorem loadAsks_key {c : Core} {a : AccMeta} {u : Unit} (h : orAssert (loadAsks c a) = .ok u) : a.key = c.mkt.asks := by
  have h := orAssert_ok h
  unfold loadAsks at h
  split at h
  · cases h
  · rename_i e; simpa using e

theorem loadReqQ_key {c : Core} {a : AccMeta} {u : Unit} (h : loadReqQ c a = .ok u) : a.key = c.mkt.reqQ := by
  unfold loadReqQ at h
  split at h
  · cases h
  · rename_i e; simpa using e

theorem loadEventQ_key {c : Core} {a : AccMeta} {u : Unit} (h : loadEventQ c a = .ok u) : a.key = c.mkt.eventQ := by
  unfold loadEventQ at h
  split at h
  · cases h
  · rename_i e; simpa using e

theorem coinVault_key {c : Core} {a : AccMeta} {u : Unit} (h : coinVault c a = .ok u) : a.key = c.mkt.coinVault := by
  unfold coinVault at h
  obtain ⟨_, _, h⟩ := bind_ok h
  split at h
  · cases h
  · rename_i e; simpa using e

theorem pcVault_key {c : Core} {a : AccMeta} {u : Unit} (h : pcVault c a = .ok u) : a.key = c.mkt.pcVault := by
  unfold pcVault at h
  obtain ⟨_, _, h⟩ := bind_ok h
  split at h
  · cases h
  · rename_i e; simpa using e

theorem spl_changes {l l' : Ledger} {src dst auth n : Nat} (h : splTransfer l src dst auth n = .ok l') {k : Nat}
    (hk : l' k ≠ l k) : k = src ∨ k = dst := by
  rcases spl_shape h with ⟨rfl, _⟩ | ⟨_, d, s', _, rfl⟩
  · exact absurd rfl hk
  · by_cases e : k = dst
    · exact .inr e
    · by_cases e' : k = src
      · exact .inl e'
      · simp [e, e'] at hk

theorem vault_changes {P : Params} {m : Market} {l l' : Ledger} {v dst n : Nat} (h : sendFromVault P m l v dst n = .ok l')
    {k : Nat} (hk : l' k ≠ l k) : k = v ∨ k = dst := by
  unfold sendFromVault at h
  split at h
  · cases h
  · split at h
    · cases h
      exact spl_changes (by assumption) hk
    · cases h

theorem deposit_changes {l l' : Ledger} {src v auth n : Nat} (h : depositIn l src v auth n = .ok l') {k : Nat}
    (hk : l' k ≠ l k) : k = src ∨ k = v := by
  unfold depositIn at h
  split at h
  · cases h; exact absurd rfl hk
  · split at h
    · cases h
    · cases h
    · split at h
      · cases h
        exact spl_changes (by assumption) hk
      · cases h

/-- The account at one of the positions `ps`. -/
def Among (ps : List Nat) (accts : List AccMeta) (k : Nat) : Prop := ∃ i ∈ ps, keyAt accts i = some k

theorem changed_elim {s s' : State conc} {k : Nat} {Q : Nat → Prop} (h : Changed s s' k)
    (h1 : s'.mkt ≠ s.mkt → Q s.mkt.ownAddress) (h2 : s'.bids ≠ s.bids → Q s.mkt.bids)
    (h3 : s'.asks ≠ s.asks → Q s.mkt.asks) (h4 : s'.q ≠ s.q → Q s.mkt.eventQ)
    (h5 : s'.seq ≠ s.seq ∨ s'.reqCount ≠ s.reqCount → Q s.mkt.reqQ)
    (h6 : ∀ k, ooAt s'.oos k ≠ ooAt s.oos k → Q k) (h7 : ∀ k, s'.toks k ≠ s.toks k → Q k) : Q k := by
  rcases h with ⟨rfl, h⟩ | ⟨rfl, h⟩ | ⟨rfl, h⟩ | ⟨rfl, h⟩ | ⟨rfl, h⟩ | h | h
  · exact h1 h
  · exact h2 h
  · exact h3 h
  · exact h4 h
  · exact h5 h
  · exact h6 _ h
  · exact h7 _ h

theorem set_changes {l : List (Nat × OpenOrders)} {a k : Nat} {o : OpenOrders} (h : ooAt (setOo l a o) k ≠ ooAt l k) :
    k = a := by
  rw [ooAt_setOo] at h
  split at h
  · assumption
  · exact absurd rfl h

/-- The result of one instruction: the documented signatures were there and the writes were documented. -/
structure AsDocumented (s s' : State conc) (accts : List AccMeta) (ws sg : List Nat) : Prop where
  signed : ∀ i ∈ sg, signedAt accts i = some true
  writes : ∀ k, Changed s s' k → Among ws accts k

theorem newOrder_doc {P : Params} {env : Env} {s s' : State conc} {accts : List AccMeta} {ix : NewOrderIx}
    (h : newOrderV3 conc P env s accts ix = .ok s') : AsDocumented s s' accts [0, 1, 2, 3, 4, 5, 6, 8, 9] [7] := by
  unfold newOrderV3 at h
  obtain ⟨a, hp, h⟩ := bind_ok h
  obtain ⟨⟨tier, oo⟩, ha, h⟩ := bind_ok h
  unfold parseNewOrder at hp
  split at hp
  case h_2 => cases hp
  split at hp
  case isFalse => cases hp
  cases hp
  unfold newOrderArgs at ha
  obtain ⟨_, _, ha⟩ := bind_ok ha
  obtain ⟨_, hm, ha⟩ := bind_ok ha
  obtain ⟨_, hs, ha⟩ := bind_ok ha
  obtain ⟨_, _, ha⟩ := bind_ok ha
  obtain ⟨_, hr, ha⟩ := bind_ok ha
  obtain ⟨_, he, ha⟩ := bind_ok ha
  obtain ⟨_, _, ha⟩ := bind_ok ha
  obtain ⟨_, _, ha⟩ := bind_ok ha
  obtain ⟨_, hcv, ha⟩ := bind_ok ha
  obtain ⟨_, hpv, ha⟩ := bind_ok ha
  obtain ⟨_, _, ha⟩ := bind_ok ha
  obtain ⟨_, _, ha⟩ := bind_ok ha
  obtain ⟨_, hb, ha⟩ := bind_ok ha
  obtain ⟨_, hk, ha⟩ := bind_ok ha
  have hm := loadMarket_key hm
  have hr := loadReqQ_key hr
  have he := loadEventQ_key he
  have hb := loadBids_key hb
  have hk := loadAsks_key hk
  have hcv := coinVault_key hcv
  have hpv := pcVault_key hpv
  have hs := checkAssert_ok.1 hs
  simp only at hm hr he hb hk hs hcv hpv
  unfold newOrderExec at h
  obtain ⟨_, _, h⟩ := bind_ok h
  obtain ⟨_, _, h⟩ := bind_ok h
  obtain ⟨⟨_, _, _⟩, _, h⟩ := bind_ok h
  obtain ⟨⟨_, _⟩, _, h⟩ := bind_ok h
  obtain ⟨⟨_, _, _⟩, _, h⟩ := bind_ok h
  obtain ⟨_, _, h⟩ := bind_ok h
  obtain ⟨_, _, h⟩ := bind_ok h
  obtain ⟨_, hd, h⟩ := bind_ok h
  cases h
  refine ⟨by simp [signedAt, hs], fun k hc => changed_elim hc ?_ ?_ ?_ ?_ ?_ ?_ ?_⟩
  · exact fun _ => ⟨0, by simp, by simp [keyAt, hm]⟩
  · exact fun _ => ⟨4, by simp, by simp [keyAt, hb]⟩
  · exact fun _ => ⟨5, by simp, by simp [keyAt, hk]⟩
  · exact fun _ => ⟨3, by simp, by simp [keyAt, he]⟩
  · exact fun _ => ⟨2, by simp, by simp [keyAt, hr]⟩
  · intro k hx
    rw [set_changes hx]
    exact ⟨1, by simp, by simp [keyAt]⟩
  · intro k hx
    rcases deposit_changes hd hx with rfl | rfl
    · exact ⟨6, by simp, by simp [keyAt]⟩
    · cases ix.side
      · exact ⟨9, by simp, by simp [keyAt, hpv, Market.depositVault]⟩
      · exact ⟨8, by simp, by simp [keyAt, hcv, Market.depositVault]⟩

theorem take_doc {P : Params} {s s' : State conc} {accts : List AccMeta} {ix : SendTakeIx}
    (h : sendTake conc P s accts ix = .ok s') : AsDocumented s s' accts [0, 1, 2, 3, 4, 5, 6, 8, 9] [7] := by
  have keeps := sendTake_keeps h
  unfold sendTake at h
  obtain ⟨a, hp, h⟩ := bind_ok h
  obtain ⟨tier, ha, h⟩ := bind_ok h
  unfold parseSendTake at hp
  split at hp
  case h_2 => cases hp
  split at hp
  case isFalse => cases hp
  cases hp
  unfold sendTakeArgs at ha
  obtain ⟨_, _, ha⟩ := bind_ok ha
  obtain ⟨_, hm, ha⟩ := bind_ok ha
  obtain ⟨_, hs, ha⟩ := bind_ok ha
  obtain ⟨_, _, ha⟩ := bind_ok ha
  obtain ⟨_, hr, ha⟩ := bind_ok ha
  obtain ⟨_, he, ha⟩ := bind_ok ha
  obtain ⟨_, _, ha⟩ := bind_ok ha
  obtain ⟨_, _, ha⟩ := bind_ok ha
  obtain ⟨_, hcv, ha⟩ := bind_ok ha
  obtain ⟨_, hpv, ha⟩ := bind_ok ha
  obtain ⟨_, _, ha⟩ := bind_ok ha
  obtain ⟨_, _, ha⟩ := bind_ok ha
  obtain ⟨_, hb, ha⟩ := bind_ok ha
  obtain ⟨_, hk, ha⟩ := bind_ok ha
  have hm := loadMarket_key hm
  have hr := loadReqQ_key hr
  have he := loadEventQ_key he
  have hb := loadBids_key hb
  have hk := loadAsks_key hk
  have hcv := coinVault_key hcv
  have hpv := pcVault_key hpv
  have hs := checkAssert_ok.1 hs
  simp only at hm hr he hb hk hs hcv hpv
  unfold sendTakeExec at h
  obtain ⟨⟨ob, _, _⟩, _, h⟩ := bind_ok h
  obtain ⟨_, _, h⟩ := bind_ok h
  obtain ⟨⟨m2, _, _⟩, ht, h⟩ := bind_ok h
  obtain ⟨_, hd, h⟩ := bind_ok h
  cases h
  have hv : m2.coinVault = s.mkt.coinVault ∧ m2.pcVault = s.mkt.pcVault := by
    have e := keeps.1.eq
    simp only at e
    rw [e]
    exact ⟨rfl, rfl⟩
  refine ⟨by simp [signedAt, hs], fun k hc => changed_elim hc ?_ ?_ ?_ ?_ ?_ ?_ ?_⟩
  · exact fun _ => ⟨0, by simp, by simp [keyAt, hm]⟩
  · exact fun _ => ⟨3, by simp, by simp [keyAt, hb]⟩
  · exact fun _ => ⟨4, by simp, by simp [keyAt, hk]⟩
  · exact fun _ => ⟨2, by simp, by simp [keyAt, he]⟩
  · exact fun _ => ⟨1, by simp, by simp [keyAt, hr]⟩
  · intro k hx
    exact absurd rfl hx
  · intro k hx
    unfold sendTakeTransfers at hd
    split at hd
    all_goals
      obtain ⟨l, hd1, hd⟩ := bind_ok hd
      simp only [hv.1, hv.2] at hd1 hd
      by_cases hl : l k = s.toks k
      · rw [← hl] at hx
        split at hd
        · cases hd; exact absurd rfl hx
        · rcases vault_changes hd hx with rfl | rfl
          · first
            | (refine ⟨8, by simp, ?_⟩; simp [keyAt, hcv]; done)
            | (refine ⟨9, by simp, ?_⟩; simp [keyAt, hpv]; done)
          · first
            | (refine ⟨5, by simp, ?_⟩; simp [keyAt]; done)
            | (refine ⟨6, by simp, ?_⟩; simp [keyAt]; done)
      · rcases deposit_changes hd1 hl with rfl | rfl
        · first
          | (refine ⟨5, by simp, ?_⟩; simp [keyAt]; done)
          | (refine ⟨6, by simp, ?_⟩; simp [keyAt]; done)
        · first
          | (refine ⟨8, by simp, ?_⟩; simp [keyAt, hcv]; done)
          | (refine ⟨9, by simp, ?_⟩; simp [keyAt, hpv]; done)

theorem cancelArgs_doc {env : Env} {c : Core} {a : CancelAccts} {oo : OpenOrders} (h : cancelArgs env c a = .ok oo) :
    a.market.key = c.mkt.ownAddress ∧ a.signer.signer = true ∧ a.bids.key = c.mkt.bids ∧ a.asks.key = c.mkt.asks ∧
      a.eventQ.key = c.mkt.eventQ := by
  unfold cancelArgs at h
  obtain ⟨_, hm, h⟩ := bind_ok h
  obtain ⟨_, hs, h⟩ := bind_ok h
  obtain ⟨_, _, h⟩ := bind_ok h
  obtain ⟨_, hb, h⟩ := bind_ok h
  obtain ⟨_, hk, h⟩ := bind_ok h
  obtain ⟨_, he, h⟩ := bind_ok h
  exact ⟨loadMarket_key (orAssert_ok hm), checkAssert_ok.1 hs, loadBids_key hb, loadAsks_key hk, loadEventQ_key he⟩

theorem back_doc {env : Env} {s : State conc} {accts : List AccMeta} {a : CancelAccts} {oo o' : OpenOrders} {ob : Ob conc}
    (hp : parseCancel accts = .ok a) (ha : cancelArgs env s.toCore a = .ok oo) :
    AsDocumented s (s.back conc ob a.oo.key o') accts [0, 1, 2, 3, 5] [4] := by
  obtain ⟨hm, hs, hb, hk, he⟩ := cancelArgs_doc ha
  unfold parseCancel at hp
  split at hp
  case h_2 => cases hp
  cases hp
  simp only at hm hs hb hk he
  refine ⟨by simp [signedAt, hs], fun k hc => changed_elim hc ?_ ?_ ?_ ?_ ?_ ?_ ?_⟩
  · exact fun _ => ⟨0, by simp, by simp [keyAt, hm]⟩
  · exact fun _ => ⟨1, by simp, by simp [keyAt, hb]⟩
  · exact fun _ => ⟨2, by simp, by simp [keyAt, hk]⟩
  · exact fun _ => ⟨5, by simp, by simp [keyAt, he]⟩
  · exact fun hx => hx.elim (fun g => absurd rfl g) (fun g => absurd rfl g)
  · intro k hx
    rw [set_changes hx]
    exact ⟨3, by simp, by simp [keyAt]⟩
  · exact fun k hx => absurd rfl hx

theorem cancelV2_doc {env : Env} {s s' : State conc} {accts : List AccMeta} {sd : Side} {id : Nat}
    (h : cancelV2 conc env s accts sd id = .ok s') : AsDocumented s s' accts [0, 1, 2, 3, 5] [4] := by
  unfold cancelV2 at h
  obtain ⟨a, hp, h⟩ := bind_ok h
  obtain ⟨oo, ha, h⟩ := bind_ok h
  obtain ⟨⟨_, _⟩, _, h⟩ := bind_ok h
  cases h
  exact back_doc hp ha

theorem cancelById_doc {env : Env} {s s' : State conc} {accts : List AccMeta} {cid : Nat}
    (h : cancelByClientIdV2 conc env s accts cid = .ok s') : AsDocumented s s' accts [0, 1, 2, 3, 5] [4] := by
  unfold cancelByClientIdV2 at h
  obtain ⟨a, hp, h⟩ := bind_ok h
  obtain ⟨_, _, h⟩ := bind_ok h
  obtain ⟨oo, ha, h⟩ := bind_ok h
  obtain ⟨⟨_, _⟩, _, h⟩ := bind_ok h
  obtain ⟨⟨_, _⟩, _, h⟩ := bind_ok h
  cases h
  exact back_doc hp ha

theorem cancelByIds_doc {env : Env} {s s' : State conc} {accts : List AccMeta} {cids : List Nat}
    (h : cancelByClientIds conc env s accts cids = .ok s') : AsDocumented s s' accts [0, 1, 2, 3, 5] [4] := by
  unfold cancelByClientIds at h
  obtain ⟨a, hp, h⟩ := bind_ok h
  obtain ⟨oo, ha, h⟩ := bind_ok h
  obtain ⟨⟨_, _⟩, _, h⟩ := bind_ok h
  cases h
  exact back_doc hp ha

theorem changed_trans {s s1 s2 : State conc} {k : Nat} (hk : Keeps s s1) (h : Changed s s2 k) :
    Changed s s1 k ∨ Changed s1 s2 k := by
  have e := hk.eq
  have e1 : s1.mkt.ownAddress = s.mkt.ownAddress := by rw [e]
  have e2 : s1.mkt.bids = s.mkt.bids := by rw [e]
  have e3 : s1.mkt.asks = s.mkt.asks := by rw [e]
  have e4 : s1.mkt.eventQ = s.mkt.eventQ := by rw [e]
  have e5 : s1.mkt.reqQ = s.mkt.reqQ := by rw [e]
  unfold Changed at *
  rw [e1, e2, e3, e4, e5]
  rcases h with ⟨h, g⟩ | ⟨h, g⟩ | ⟨h, g⟩ | ⟨h, g⟩ | ⟨h, g⟩ | g | g
  · by_cases x : s1.mkt = s.mkt
    · exact .inr (.inl ⟨h, by rw [x]; exact g⟩)
    · exact .inl (.inl ⟨h, x⟩)
  · by_cases x : s1.bids = s.bids
    · exact .inr (.inr (.inl ⟨h, by rw [x]; exact g⟩))
    · exact .inl (.inr (.inl ⟨h, x⟩))
  · by_cases x : s1.asks = s.asks
    · exact .inr (.inr (.inr (.inl ⟨h, by rw [x]; exact g⟩)))
    · exact .inl (.inr (.inr (.inl ⟨h, x⟩)))
  · by_cases x : s1.q = s.q
    · exact .inr (.inr (.inr (.inr (.inl ⟨h, by rw [x]; exact g⟩))))
    · exact .inl (.inr (.inr (.inr (.inl ⟨h, x⟩))))
  · by_cases x : s1.seq = s.seq ∧ s1.reqCount = s.reqCount
    · exact .inr (.inr (.inr (.inr (.inr (.inl ⟨h, by rw [x.1, x.2]; exact g⟩)))))
    · exact .inl (.inr (.inr (.inr (.inr (.inl ⟨h, by omega⟩)))))
  · by_cases x : ooAt s1.oos k = ooAt s.oos k
    · exact .inr (.inr (.inr (.inr (.inr (.inr (.inl (by rw [x]; exact g)))))))
    · exact .inl (.inr (.inr (.inr (.inr (.inr (.inl x))))))
  · by_cases x : s1.toks k = s.toks k
    · exact .inr (.inr (.inr (.inr (.inr (.inr (.inr (by rw [x]; exact g)))))))
    · exact .inl (.inr (.inr (.inr (.inr (.inr (.inr x))))))

theorem changed_refl {s : State conc} {k : Nat} (h : Changed s s k) : False := by
  rcases h with ⟨_, g⟩ | ⟨_, g⟩ | ⟨_, g⟩ | ⟨_, g⟩ | ⟨_, g⟩ | g | g
  · exact g rfl
  · exact g rfl
  · exact g rfl
  · exact g rfl
  · exact g.elim (fun g => g rfl) (fun g => g rfl)
  · exact g rfl
  · exact g rfl

theorem newOrders_doc {P : Params} {env : Env} {accts : List AccMeta} {ixs : List NewOrderIx} :
    ∀ {s s' : State conc}, newOrders conc P env s accts ixs = .ok s' →
    ∀ k, Changed s s' k → Among [0, 1, 2, 3, 4, 5, 6, 8, 9] accts k := by
  induction ixs with
  | nil => intro s s' h k hc; cases h; exact (changed_refl hc).elim
  | cons ix ixs ih =>
    intro s s' h k hc
    unfold newOrders at h
    obtain ⟨s1, h1, h⟩ := bind_ok h
    rcases changed_trans (newOrderV3_keeps h1).1 hc with hc | hc
    · exact (newOrder_doc h1).writes k hc
    · exact ih h k hc

theorem replace_doc {P : Params} {env : Env} {s s' : State conc} {accts : List AccMeta} {ixs : List NewOrderIx}
    (h : replaceOrders conc P env s accts ixs = .ok s') : AsDocumented s s' accts [0, 1, 2, 3, 4, 5, 6, 8, 9] [7] := by
  unfold replaceOrders at h
  obtain ⟨ca, hca, h⟩ := bind_ok h
  obtain ⟨s1, h1, h2⟩ := bind_ok h
  clear h
  unfold replaceCancelAccts at hca
  split at hca
  case h_2 => cases hca
  cases hca
  rename_i e0 e4 e5 e1 e7 e3
  have d := cancelByIds_doc h1
  refine ⟨?_, fun k hc => ?_⟩
  · have := d.signed 4 (by simp)
    simp only [signedAt, List.getElem?_cons_succ, List.getElem?_cons_zero, Option.map_some] at this
    simp [signedAt, e7, Option.some.inj this]
  · rcases changed_trans (cancelByClientIds_keeps h1).1 hc with hc | hc
    · obtain ⟨i, hi, hk⟩ := d.writes k hc
      simp only [List.mem_cons, List.not_mem_nil, or_false] at hi
      unfold keyAt at hk
      rcases hi with rfl | rfl | rfl | rfl | rfl <;>
        simp only [List.getElem?_cons_succ, List.getElem?_cons_zero, Option.map_some, Option.some.injEq] at hk <;> subst hk
      · exact ⟨0, by simp, by simp [keyAt, e0]⟩
      · exact ⟨4, by simp, by simp [keyAt, e4]⟩
      · exact ⟨5, by simp, by simp [keyAt, e5]⟩
      · exact ⟨1, by simp, by simp [keyAt, e1]⟩
      · exact ⟨3, by simp, by simp [keyAt, e3]⟩
    · exact newOrders_doc h2 k hc

theorem settle_doc {P : Params} {env : Env} {s s' : State conc} {accts : List AccMeta}
    (h : settleFunds conc P env s accts = .ok s') : AsDocumented s s' accts [0, 1, 3, 4, 5, 6, 9] [2] := by
  unfold settleFunds at h
  obtain ⟨a, hp, h⟩ := bind_ok h
  obtain ⟨oo, ha, h⟩ := bind_ok h
  unfold settleArgs at ha
  obtain ⟨_, _, ha⟩ := bind_ok ha
  obtain ⟨_, hm, ha⟩ := bind_ok ha
  obtain ⟨_, hs, ha⟩ := bind_ok ha
  obtain ⟨_, hcv, ha⟩ := bind_ok ha
  obtain ⟨_, hpv, ha⟩ := bind_ok ha
  have hm := loadMarket_key hm
  have hcv := coinVault_key (orAssert_ok hcv)
  have hpv := pcVault_key (orAssert_ok hpv)
  have hs := checkAssert_ok.1 (orAssert_ok hs)
  unfold settleExec at h
  obtain ⟨_, _, h⟩ := bind_ok h
  obtain ⟨_, _, h⟩ := bind_ok h
  obtain ⟨l1, t1, h⟩ := bind_ok h
  obtain ⟨l2, t2, h⟩ := bind_ok h
  obtain ⟨⟨m3, l3⟩, t3, h⟩ := bind_ok h
  cases h
  have tk : ∀ k, l3 k ≠ s.toks k → k = s.mkt.coinVault ∨ k = a.coinWallet.key ∨ k = s.mkt.pcVault ∨ k = a.pcWallet.key ∨
      ∃ r, a.referrer = some r ∧ k = r.key := by
    intro k hk
    by_cases e1 : l1 k = s.toks k
    · by_cases e2 : l2 k = l1 k
      · rw [← e1, ← e2] at hk
        unfold settleRebates at t3
        split at t3
        · rename_i r hr
          split at t3
          · obtain ⟨l, t, t3⟩ := bind_ok t3
            cases t3
            rcases vault_changes t hk with h | h
            · exact .inr (.inr (.inl h))
            · exact .inr (.inr (.inr (.inr ⟨r, hr, h⟩)))
          · cases t3; exact absurd rfl hk
        · cases t3; exact absurd rfl hk
      · rcases vault_changes t2 e2 with h | h
        · exact .inr (.inr (.inl h))
        · exact .inr (.inr (.inr (.inl h)))
    · rcases vault_changes t1 e1 with h | h
      · exact .inl h
      · exact .inr (.inl h)
  clear t1 t2 t3 ha
  unfold parseSettle at hp
  split at hp
  all_goals first | cases hp | skip
  all_goals
    simp only at hm hcv hpv hs tk
    refine ⟨by simp [signedAt, hs], fun k hc => changed_elim hc ?_ ?_ ?_ ?_ ?_ ?_ ?_⟩
    · exact fun _ => ⟨0, by simp, by simp [keyAt, hm]⟩
    · exact fun hx => absurd rfl hx
    · exact fun hx => absurd rfl hx
    · exact fun hx => absurd rfl hx
    · exact fun hx => hx.elim (fun g => absurd rfl g) (fun g => absurd rfl g)
    · intro k hx
      rw [set_changes hx]
      exact ⟨1, by simp, by simp [keyAt]⟩
    · intro k hx
      rcases tk k hx with rfl | rfl | rfl | rfl | ⟨r, hr, rfl⟩
      · exact ⟨3, by simp, by simp [keyAt, hcv]⟩
      · exact ⟨5, by simp, by simp [keyAt]⟩
      · exact ⟨4, by simp, by simp [keyAt, hpv]⟩
      · exact ⟨6, by simp, by simp [keyAt]⟩
      · cases hr
        all_goals exact ⟨9, by simp, by simp [keyAt]⟩

theorem disable_doc {P : Params} {s s' : State conc} {accts : List AccMeta} (h : disableMarket conc P s accts = .ok s') :
    AsDocumented s s' accts [0] [1] := by
  unfold disableMarket at h
  split at h
  case h_2 => cases h
  obtain ⟨_, hm, h⟩ := bind_ok h
  obtain ⟨_, hs, h⟩ := bind_ok h
  obtain ⟨_, _, h⟩ := bind_ok h
  cases h
  have hm := loadMarket_key hm
  have hs := checkAssert_ok.1 hs
  refine ⟨by simp [signedAt, hs], fun k hc => changed_elim hc ?_ ?_ ?_ ?_ ?_ ?_ ?_⟩
  · exact fun _ => ⟨0, by simp, by simp [keyAt, hm]⟩
  · exact fun hx => absurd rfl hx
  · exact fun hx => absurd rfl hx
  · exact fun hx => absurd rfl hx
  · exact fun hx => hx.elim (fun g => absurd rfl g) (fun g => absurd rfl g)
  · exact fun k hx => absurd rfl hx
  · exact fun k hx => absurd rfl hx

theorem sweep_doc {P : Params} {s s' : State conc} {accts : List AccMeta} (h : sweepFees conc P s accts = .ok s') :
    AsDocumented s s' accts [0, 1, 3] [2] := by
  unfold sweepFees at h
  split at h
  case h_2 => cases h
  obtain ⟨_, hm, h⟩ := bind_ok h
  obtain ⟨_, hpv, h⟩ := bind_ok h
  obtain ⟨_, _, h⟩ := bind_ok h
  obtain ⟨_, _, h⟩ := bind_ok h
  obtain ⟨_, _, h⟩ := bind_ok h
  obtain ⟨_, hs, h⟩ := bind_ok h
  obtain ⟨_, _, h⟩ := bind_ok h
  obtain ⟨l, ht, h⟩ := bind_ok h
  cases h
  have hm := loadMarket_key hm
  have hpv := pcVault_key hpv
  have hs := checkAssert_ok.1 hs
  refine ⟨by simp [signedAt, hs], fun k hc => changed_elim hc ?_ ?_ ?_ ?_ ?_ ?_ ?_⟩
  · exact fun _ => ⟨0, by simp, by simp [keyAt, hm]⟩
  · exact fun hx => absurd rfl hx
  · exact fun hx => absurd rfl hx
  · exact fun hx => absurd rfl hx
  · exact fun hx => hx.elim (fun g => absurd rfl g) (fun g => absurd rfl g)
  · exact fun k hx => absurd rfl hx
  · intro k hx
    rcases vault_changes ht hx with rfl | rfl
    · exact ⟨1, by simp, by simp [keyAt, hpv]⟩
    · exact ⟨3, by simp, by simp [keyAt]⟩

theorem close_doc {env : Env} {s s' : State conc} {accts : List AccMeta} (h : closeOpenOrders conc env s accts = .ok s') :
    AsDocumented s s' accts [0, 2] [1] := by
  unfold closeOpenOrders at h
  split at h
  case h_2 => cases h
  obtain ⟨_, hs, h⟩ := bind_ok h
  obtain ⟨_, _, h⟩ := bind_ok h
  obtain ⟨_, _, h⟩ := bind_ok h
  obtain ⟨_, _, h⟩ := bind_ok h
  cases h
  have hs := checkAssert_ok.1 hs
  refine ⟨by simp [signedAt, hs], fun k hc => changed_elim hc ?_ ?_ ?_ ?_ ?_ ?_ ?_⟩
  · exact fun hx => absurd rfl hx
  · exact fun hx => absurd rfl hx
  · exact fun hx => absurd rfl hx
  · exact fun hx => absurd rfl hx
  · exact fun hx => hx.elim (fun g => absurd rfl g) (fun g => absurd rfl g)
  · intro k hx
    rw [set_changes hx]
    exact ⟨0, by simp, by simp [keyAt]⟩
  · exact fun k hx => absurd rfl hx

theorem initOpen_doc {env : Env} {s s' : State conc} {accts : List AccMeta} (h : initOpenOrders conc env s accts = .ok s') :
    AsDocumented s s' accts [0] (if 4 < accts.length then [1, 4] else [1]) := by
  unfold initOpenOrders at h
  split at h
  case h_2 => cases h
  rename_i oo owner m rent rest
  split at h
  case isFalse => cases h
  obtain ⟨_, ha, h⟩ := bind_ok h
  obtain ⟨_, hs, h⟩ := bind_ok h
  obtain ⟨_, _, h⟩ := bind_ok h
  obtain ⟨_, _, h⟩ := bind_ok h
  cases h
  have hs := checkAssert_ok.1 hs
  refine ⟨?_, fun k hc => changed_elim hc ?_ ?_ ?_ ?_ ?_ ?_ ?_⟩
  · cases rest with
    | nil => simp [signedAt, hs]
    | cons x t =>
      unfold optSigner at ha
      obtain ⟨_, hx, _⟩ := bind_ok ha
      have hx := checkAssert_ok.1 hx
      simp [signedAt, hs, hx]
  · exact fun hx => absurd rfl hx
  · exact fun hx => absurd rfl hx
  · exact fun hx => absurd rfl hx
  · exact fun hx => absurd rfl hx
  · exact fun hx => hx.elim (fun g => absurd rfl g) (fun g => absurd rfl g)
  · intro k hx
    rw [set_changes hx]
    exact ⟨0, by simp, by simp [keyAt]⟩
  · exact fun k hx => absurd rfl hx

theorem prune_doc {env : Env} {s s' : State conc} {accts : List AccMeta} {n : Nat} (h : prune conc env s accts n = .ok s') :
    AsDocumented s s' accts [0, 1, 2, 4, 6] [3] := by
  unfold prune at h
  split at h
  case h_2 => cases h
  obtain ⟨_, hs, h⟩ := bind_ok h
  obtain ⟨_, hm, h⟩ := bind_ok h
  obtain ⟨_, _, h⟩ := bind_ok h
  obtain ⟨_, _, h⟩ := bind_ok h
  obtain ⟨_, hb, h⟩ := bind_ok h
  obtain ⟨_, hk, h⟩ := bind_ok h
  obtain ⟨_, he, h⟩ := bind_ok h
  obtain ⟨⟨_, _, _⟩, _, h⟩ := bind_ok h
  obtain ⟨⟨_, _⟩, _, h⟩ := bind_ok h
  obtain ⟨⟨_, _⟩, _, h⟩ := bind_ok h
  cases h
  have hs := checkAssert_ok.1 hs
  have hm := loadMarket_key hm
  have hb := loadBids_key hb
  have hk := loadAsks_key hk
  have he := loadEventQ_key he
  refine ⟨by simp [signedAt, hs], fun k hc => changed_elim hc ?_ ?_ ?_ ?_ ?_ ?_ ?_⟩
  · exact fun _ => ⟨0, by simp, by simp [keyAt, hm]⟩
  · exact fun _ => ⟨1, by simp, by simp [keyAt, hb]⟩
  · exact fun _ => ⟨2, by simp, by simp [keyAt, hk]⟩
  · exact fun _ => ⟨6, by simp, by simp [keyAt, he]⟩
  · exact fun hx => hx.elim (fun g => absurd rfl g) (fun g => absurd rfl g)
  · intro k hx
    rw [set_changes hx]
    exact ⟨4, by simp, by simp [keyAt]⟩
  · exact fun k hx => absurd rfl hx

theorem loop_changes {P : Params} {env : Env} {keys : List Nat} {n : Nat} :
    ∀ {s s' : State conc}, consumeLoop conc P env keys n s = .ok s' → ∀ k, ooAt s'.oos k ≠ ooAt s.oos k → k ∈ keys := by
  induction n with
  | zero => intro s s' h k hk; cases h; exact absurd rfl hk
  | succ n ih =>
    intro s s' h k hk
    unfold consumeLoop at h
    obtain ⟨r, hr, h⟩ := bind_ok h
    cases r with
    | none => cases h; exact absurd rfl hk
    | some s1 =>
      by_cases e : ooAt s1.oos k = ooAt s.oos k
      · rw [← e] at hk
        exact ih h k hk
      · unfold consumeOne at hr
        split at hr
        · cases hr
        · obtain ⟨_, _, hr⟩ := bind_ok hr
          obtain ⟨x, hx, hr⟩ := bind_ok hr
          cases x with
          | none => cases hr
          | some oo =>
            simp only at hr
            obtain ⟨_, _, hr⟩ := bind_ok hr
            obtain ⟨_, _, hr⟩ := bind_ok hr
            cases hr
            rw [set_changes e]
            unfold eventOwner at hx
            split at hx
            · exact P.search.sound _ _ (by assumption)
            · cases hx

theorem mem_take_key {accts : List AccMeta} {n k : Nat} (h : k ∈ (accts.take n).map (·.key)) :
    ∃ i < n, keyAt accts i = some k := by
  obtain ⟨a, ha, rfl⟩ := List.mem_map.1 h
  obtain ⟨i, hi, e⟩ := List.mem_iff_getElem.1 ha
  have hi' := hi
  rw [List.length_take] at hi'
  refine ⟨i, by omega, ?_⟩
  rw [List.getElem_take] at e
  unfold keyAt
  rw [List.getElem?_eq_getElem (by omega), e]
  rfl

theorem drop_key {accts : List AccMeta} {n j : Nat} {l : List AccMeta} (h : accts.drop n = l) :
    keyAt accts (n + j) = keyAt l j := by
  subst h
  unfold keyAt
  rw [List.getElem?_drop]

theorem consume_doc {P : Params} {env : Env} {s s' : State conc} {accts : List AccMeta} {n : Nat}
    (h : consumeEvents conc P env s accts n = .ok s') : AsDocumented s s' accts (List.range (accts.length - 2)) [] := by
  have keeps := consumeEvents_keeps h
  unfold consumeEvents at h
  obtain ⟨_, hl, h⟩ := bind_ok h
  have hl := checkAssert_ok.1 hl
  simp only [decide_eq_true_eq] at hl
  split at h
  case h_2 => cases h
  rename_i m eq rest hd
  obtain ⟨_, hm, h⟩ := bind_ok h
  obtain ⟨_, _, h⟩ := bind_ok h
  obtain ⟨_, he, h⟩ := bind_ok h
  have he := loadEventQ_key he
  refine ⟨by simp, fun k hc => changed_elim hc ?_ ?_ ?_ ?_ ?_ ?_ ?_⟩
  · exact fun hx => absurd keeps.1 hx
  · exact fun hx => absurd keeps.2.2.2.2.1 hx
  · exact fun hx => absurd keeps.2.2.2.2.2 hx
  · exact fun _ => ⟨accts.length - 4 + 1, by simp; omega, by rw [drop_key hd]; simp [keyAt, he]⟩
  · exact fun hx => hx.elim (fun hx => absurd keeps.2.1 hx) (fun hx => absurd keeps.2.2.1 hx)
  · intro k hx
    obtain ⟨i, hi, e⟩ := mem_take_key (loop_changes h k hx)
    exact ⟨i, by simp; omega, e⟩
  · exact fun k hx => absurd (by rw [keeps.2.2.2.1]) hx

theorem consumePermissioned_doc {P : Params} {env : Env} {s s' : State conc} {accts : List AccMeta} {n : Nat}
    (h : consumeEventsPermissioned conc P env s accts n = .ok s') :
    AsDocumented s s' accts (List.range (accts.length - 1)) [accts.length - 1] := by
  have keeps := consumePermissioned_keeps h
  unfold consumeEventsPermissioned at h
  obtain ⟨_, hl, h⟩ := bind_ok h
  have hl := checkAssert_ok.1 hl
  simp only [decide_eq_true_eq] at hl
  split at h
  case h_2 => cases h
  rename_i m eq auth rest hd
  obtain ⟨_, hm, h⟩ := bind_ok h
  obtain ⟨_, hs, h⟩ := bind_ok h
  obtain ⟨_, _, h⟩ := bind_ok h
  obtain ⟨_, he, h⟩ := bind_ok h
  have he := loadEventQ_key he
  have hs := checkAssert_ok.1 hs
  refine ⟨?_, fun k hc => changed_elim hc ?_ ?_ ?_ ?_ ?_ ?_ ?_⟩
  · intro i hi
    simp only [List.mem_cons, List.not_mem_nil, or_false] at hi
    have e : accts[accts.length - 1]? = some auth := by
      have := congrArg (fun l => l[2]?) hd
      simp only [List.getElem?_drop, List.getElem?_cons_succ, List.getElem?_cons_zero] at this
      rw [← this]
      congr 1
      omega
    rw [hi, signedAt, e, Option.map_some, hs]
  · exact fun hx => absurd keeps.1 hx
  · exact fun hx => absurd keeps.2.2.2.2.1 hx
  · exact fun hx => absurd keeps.2.2.2.2.2 hx
  · exact fun _ => ⟨accts.length - 3 + 1, by simp; omega, by rw [drop_key hd]; simp [keyAt, he]⟩
  · exact fun hx => hx.elim (fun hx => absurd keeps.2.1 hx) (fun hx => absurd keeps.2.2.1 hx)
  · intro k hx
    obtain ⟨i, hi, e⟩ := mem_take_key (loop_changes h k hx)
    exact ⟨i, by simp; omega, e⟩
  · exact fun k hx => absurd (by rw [keeps.2.2.2.1]) hx

theorem process_doc {P : Params} {env : Env} {s s' : State conc} {accts : List AccMeta} {ix : Instruction}
    (h : process conc P env s accts ix = .ok s') :
    AsDocumented s s' accts (docWritable accts.length ix) (docSigner accts.length ix) := by
  cases ix with
  | initializeMarket => cases h
  | newOrder => cases h
  | matchOrders => cases h; exact ⟨by simp [docSigner], fun k hc => (changed_refl hc).elim⟩
  | consumeEvents n => exact consume_doc h
  | cancelOrder => cases h
  | settleFunds => exact settle_doc h
  | cancelOrderByClientId => cases h
  | disableMarket => exact disable_doc h
  | sweepFees => exact sweep_doc h
  | newOrderV2 => cases h
  | newOrderV3 ix => exact newOrder_doc h
  | cancelOrderV2 sd id => exact cancelV2_doc h
  | cancelOrderByClientIdV2 c => exact cancelById_doc h
  | sendTake ix => exact take_doc h
  | closeOpenOrders => exact close_doc h
  | initOpenOrders => exact initOpen_doc h
  | prune n => exact prune_doc h
  | consumeEventsPermissioned n => exact consumePermissioned_doc h
  | cancelOrdersByClientIds c => exact cancelByIds_doc h
  | replaceOrderByClientId ix => exact replace_doc h
  | replaceOrdersByClientIds ixs => exact replace_doc h

/-- C60. An instruction that succeeds was signed by every account documented as signer. -/
theorem signers_documented {P : Params} {env : Env} {s s' : State conc} {accts : List AccMeta} {ix : Instruction}
    (h : process conc P env s accts ix = .ok s') : ∀ i ∈ docSigner accts.length ix, signedAt accts i = some true :=
  (process_doc h).signed

/-- C60. An instruction that succeeds changes only accounts documented as writable. -/
theorem writes_documented {P : Params} {env : Env} {s s' : State conc} {accts : List AccMeta} {ix : Instruction}
    (h : process conc P env s accts ix = .ok s') {k : Nat} (hc : Changed s s' k) :
    ∃ i ∈ docWritable accts.length ix, keyAt accts i = some k := (process_doc h).writes k hc

/-! ### Examples -/

/-- A signature that is not documented makes no difference: the payer's, at position 6. -/
example : process conc Demo.P Demo.env Demo.p3 ((Demo.orderAccts 42 32 12).set 6 ⟨32, true⟩)
      (.newOrderV3 (Demo.order .bid 900 3 40000 8)) =
    process conc Demo.P Demo.env Demo.p3 (Demo.orderAccts 42 32 12) (.newOrderV3 (Demo.order .bid 900 3 40000 8)) :=
  only_documented_signatures (by decide) (by decide)

/-- The documentation of `Prune` lists the open-orders account, position 4, as read-only. It is written: in a reachable
state pruning changes an account that is given at position 4 only. -/
theorem prune_writes_orders : ∃ (P : Params) (env : Env) (s s' : State conc) (accts : List AccMeta) (n k : Nat),
    Reach P s ∧ process conc P env s accts (.prune n) = .ok s' ∧ Changed s s' k ∧
      ∀ i, keyAt accts i = some k → i = 4 := by
  refine ⟨Demo.P, Demo.env, Demo.p6, Demo.p7, Demo.pruneAccts 42 12, 100, 42, Demo.k6, Demo.f7, ?_, ?_⟩
  · exact .inr (.inr (.inr (.inr (.inr (.inl (by decide +kernel))))))
  · intro i h
    match i with
    | 0 | 1 | 2 | 3 | 5 | 6 => revert h; decide
    | 4 => rfl
    | i + 7 => simp [keyAt, Demo.pruneAccts] at h

end Serum.Props
