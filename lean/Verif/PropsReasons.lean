import Verif.Blame
import Verif.PropsTextbook
import Verif.PropsTake
import Verif.PropsDocs
import Verif.PropsRate

/-
C83: the reason a failed instruction gives is true. For every instruction there is a table of the reasons it
can give, each with what must be the case for it to be given; a failure always has an entry in its table.
-/

namespace Serum

/-- Every error of `x` satisfies `R`. -/
def Raises {α : Type} (R : Err → Prop) (x : Except Err α) : Prop := ∀ e, x = .error e → R e

namespace Raises
variable {α β : Type} {R : Err → Prop}

theorem bind {x : Except Err α} {f : α → Except Err β} (h : Raises R x)
    (hf : ∀ a, x = .ok a → Raises R (f a)) : Raises R (x >>= f) := by
  intro e he
  cases x with
  | error e' => cases he; exact h _ rfl
  | ok a => exact hf a rfl e he

theorem use {x : Except Err α} (h : Raises R x) {e : Err} (hx : x = .error e) : R e := h e hx
theorem ok {a : α} : Raises R (.ok a : Except Err α) := fun e h => by cases h
theorem pure {a : α} : Raises R (pure a : Except Err α) := fun e h => by cases h
theorem error {e : Err} (h : R e) : Raises R (.error e : Except Err α) := fun e' h' => by cases h'; exact h

theorem check {b : Bool} (h : R .assertion) : Raises R (checkAssert b) := by
  intro e he
  rcases dull_check he with rfl | rfl
  · unfold checkAssert at he; split at he <;> cases he
  · exact h

theorem orAssert {x : Except Err α} (h : R .assertion) : Raises R (orAssert x) := by
  intro e he
  unfold Serum.orAssert at he
  split at he
  · cases he
  · cases he; exact h

theorem unwrap {o : Option α} (h : R .panic) : Raises R (unwrap o) := by
  intro e he
  cases o with
  | none => cases he; exact h
  | some => cases he

end Raises

namespace Props

/-- A reason without a name of its own: a failed assertion or a panic. -/
def Unnamed (e : Err) : Prop := e = .assertion ∨ e = .panic

/-- The account given in a position. -/
def given (accts : List AccMeta) (i : Nat) : Nat := ((accts[i]?).map (·.key)).getD 0

/-- Why an open-orders account is refused that `owner` wants to use. `may` says whether a blank account may be
made one on the way, `auth` who signed as the market's authority for that. -/
inductive AccountRefused (env : Env) (s : State conc) (a owner : Nat) (may : Bool) (auth : Option Nat) : Err → Prop
  | unnamed {e : Err} (h : Unnamed e) : AccountRefused env s a owner may auth e
  | notYours {o : OpenOrders} (h : ooAt s.oos a = some o) (hn : o.closed = true ∨ o.owner ≠ owner) :
      AccountRefused env s a owner may auth .wrongOrdersAccount
  | foreign {e : Err} (hf : ooAt s.oos a = none) (h : env.acct a = .other e) : AccountRefused env s a owner may auth e
  | authority (hf : ooAt s.oos a = none) (h : auth ≠ if s.mkt.permissioned = true then some s.mkt.ooAuthority else none) :
      AccountRefused env s a owner may auth .invalidOpenOrdersAuthority
  | blank {ex : Bool} (hf : ooAt s.oos a = none) (h : env.acct a = .zeroed ex) (hm : may = false) :
      AccountRefused env s a owner may auth .rentNotProvided
  | rent (hf : ooAt s.oos a = none) (h : env.acct a = .zeroed false) :
      AccountRefused env s a owner may auth .ordersNotRentExempt

theorem loadOrders_raises {env : Env} {s : State conc} {a owner : Nat} {may : Bool} {auth : Option Nat} :
    Raises (AccountRefused env s a owner may auth) (loadOrders s.toCore env a (some owner) may auth) := by
  intro e he
  unfold loadOrders at he
  split at he
  · rename_i o ho
    split at he
    · rename_i hc
      cases he
      exact .notYours ho (.inl hc)
    · split at he
      · rename_i hn
        cases he
        refine .notYours ho (.inr ?_)
        intro k
        exact hn.2 (by rw [k])
      · cases he
  · rename_i ho
    split at he
    · cases he; exact .unnamed (.inl rfl)
    · split at he
      · rename_i e' h'
        cases he
        exact .foreign ho h'
      · rename_i ex h'
        unfold initOrders at he
        split at he
        · rename_i hn
          cases he
          exact .authority ho hn
        · split at he
          · rename_i hr
            cases he
            exact .blank ho h' (by simpa using hr)
          · split at he
            · cases ‹some owner = none›
            · split at he
              · rename_i hx
                cases he
                refine .rent ho ?_
                rw [h']
                congr
                simpa using hx
              · cases he

/-- What `who` can move out of a token account: what is there, and no more than their allowance if they are its
delegate. -/
def spendable (l : Ledger) (a who : Nat) : Nat :=
  match l a with
  | some t => if t.delegate = some who then min t.amount t.delegated else t.amount
  | none => 0

/-- The token program would refuse a transfer for another reason than too low a balance. -/
inductive Barred (l : Ledger) (src dst who n : Nat) : Prop
  | missing (h : l src = none ∨ l dst = none)
  | frozen {t : Tok} (ht : l src = some t ∨ l dst = some t) (h : t.frozen = true)
  | mints {t u : Tok} (ht : l src = some t) (hu : l dst = some u) (h : t.mint ≠ u.mint)
  | stranger {t : Tok} (ht : l src = some t) (h : t.owner ≠ who) (hd : t.delegate ≠ some who)
  | overflow {u : Tok} (hu : l dst = some u) (h : 2 ^ 64 ≤ u.amount + n)

theorem spl_error {l : Ledger} {src dst who n : Nat} {e : TokErr} (h : splTransfer l src dst who n = .error e) :
    (e = .insufficient ∧ spendable l src who < n) ∨ (e = .other ∧ Barred l src dst who n) := by
  unfold splTransfer at h
  split at h
  · rename_i s d hs hd
    split at h
    · rename_i hf
      cases h
      simp only [Bool.or_eq_true] at hf
      rcases hf with hf | hf
      · exact .inr ⟨rfl, .frozen (.inl hs) hf⟩
      · exact .inr ⟨rfl, .frozen (.inr hd) hf⟩
    · split at h
      · rename_i ha
        cases h
        refine .inl ⟨rfl, ?_⟩
        unfold spendable
        rw [hs]
        simp only
        split
        · omega
        · omega
      · split at h
        · rename_i hm
          cases h
          exact .inr ⟨rfl, .mints hs hd hm⟩
        · split at h
          · rename_i e' he
            cases h
            unfold debitTok at he
            split at he
            · rename_i hdel
              split at he
              · cases he
                refine .inl ⟨rfl, ?_⟩
                unfold spendable
                rw [hs]
                simp only
                rw [if_pos hdel]
                omega
              · cases he
            · rename_i hdel
              split at he
              · rename_i ho
                cases he
                exact .inr ⟨rfl, .stranger hs ho hdel⟩
              · cases he
          · split at h
            · cases h
            · split at h
              · rename_i ho
                cases h
                exact .inr ⟨rfl, .overflow hd ho⟩
              · cases h
  · rename_i hn
    cases h
    refine .inr ⟨rfl, .missing ?_⟩
    cases hs : l src with
    | none => exact .inl rfl
    | some s =>
      cases hd : l dst with
      | none => exact .inr rfl
      | some d => exact absurd hd (hn s d hs)

theorem depositIn_raises {R : Err → Prop} {l : Ledger} {src dst who n : Nat} (hu : ∀ e, Unnamed e → R e)
    (hi : spendable l src who < n → R .insufficientFunds) (hb : Barred l src dst who n → R .transferFailed) :
    Raises R (depositIn l src dst who n) := by
  intro e he
  unfold depositIn at he
  split at he
  · cases he
  · split at he
    · rename_i h
      cases he
      rcases spl_error h with ⟨_, h⟩ | ⟨h, _⟩
      · exact hi h
      · cases h
    · rename_i h
      cases he
      rcases spl_error h with ⟨h, _⟩ | ⟨_, h⟩
      · cases h
      · exact hb h
    · split at he
      · cases he
      · cases he; exact hu _ (.inl rfl)

/-- The market is open for orders: otherwise its flags are refused. -/
theorem flags_raise {R : Err → Prop} {s : State conc} (hf : goodFlags s.mkt.flags = true) (hu : ∀ e, Unnamed e → R e)
    (hd : s.mkt.isDisabled = true → R .invalidMarketFlags) (a : AccMeta) :
    Raises R (loadMarket s.toCore a false) := by
  unfold loadMarket
  refine .bind (.check (hu _ (.inl rfl))) fun _ _ => ?_
  intro e he
  cases hdis : s.mkt.isDisabled with
  | false => rw [goodFlags_enabled hf hdis] at he; cases he
  | true =>
    have : e = .invalidMarketFlags := by
      unfold checkMarketFlags at he
      repeat' split at he
      all_goals first | (cases he; rfl) | cases he
    rw [this]
    exact hd hdis

/-! ### New orders -/

/-- The account an order uses: the one at the address, or a fresh one. -/
def accountFor (s : State conc) (a owner : Nat) : OpenOrders := (ooAt s.oos a).getD (OpenOrders.init owner)

/-- Why a new order is refused. -/
inductive OrderRefused (P : Params) (env : Env) (s : State conc) (accts : List AccMeta) (ix : NewOrderIx) : Err → Prop
  | unnamed {e : Err} (h : Unnamed e) : OrderRefused P env s accts ix e
  | disabled (h : s.mkt.isDisabled = true) : OrderRefused P env s accts ix .invalidMarketFlags
  | requests (h : given accts 2 ≠ s.mkt.reqQ) : OrderRefused P env s accts ix .wrongRequestQueueAccount
  | events (h : given accts 3 ≠ s.mkt.eventQ) : OrderRefused P env s accts ix .wrongEventQueueAccount
  | coinVault (h : given accts 8 ≠ s.mkt.coinVault) : OrderRefused P env s accts ix .wrongCoinVault
  | pcVault (h : given accts 9 ≠ s.mkt.pcVault) : OrderRefused P env s accts ix .wrongPcVault
  | account {e : Err} (h : AccountRefused env s (given accts 1) (given accts 7) true none e) :
      OrderRefused P env s accts ix e
  | late (h : ix.maxTs < env.now) : OrderRefused P env s accts ix .orderMaxTimestampExceeded
  | funds (h : spendable s.toks (given accts 6) (given accts 7) <
        stillDue s (accountFor s (given accts 1) (given accts 7)) ix ∨
      (ix.side = .ask ∧ 2 ^ 64 ≤ ix.maxCoinQty * s.mkt.coinLot)) :
      OrderRefused P env s accts ix .insufficientFunds
  | barred (h : Barred s.toks (given accts 6) (payVault s.mkt ix.side) (given accts 7)
        (stillDue s (accountFor s (given accts 1) (given accts 7)) ix)) :
      OrderRefused P env s accts ix .transferFailed
  | slots {o : OpenOrders} (ho : ooAt s.oos (given accts 1) = some o) (h : ∀ j < 128, o.slot j ≠ none) :
      OrderRefused P env s accts ix .tooManyOpenOrders
  | selfTrade {tier : FeeTier} {t : Touch} (hs : ix.stb = .abortTransaction)
      (hr : Due P s.toCore (given accts 7) accts (advertised tier))
      (ht : t ∈ orderMet s ix (given accts 1) tier)
      (h : t.maker.owner = given accts 1) : OrderRefused P env s accts ix .wouldSelfTrade
  | room {tier : FeeTier} (hr : Due P s.toCore (given accts 7) accts (advertised tier))
      (h : s.q.buf.length < (pending s).length + (3 * (orderMet s ix (given accts 1) tier).length + 2)) :
      OrderRefused P env s accts ix .eventQueueFull


theorem parse_order_given {accts : List AccMeta} {a : NewOrderAccts} (h : parseNewOrder accts = .ok a) :
    given accts 1 = a.oo.key ∧ given accts 2 = a.reqQ.key ∧ given accts 3 = a.eventQ.key ∧
    given accts 6 = a.payer.key ∧ given accts 7 = a.owner.key ∧ given accts 8 = a.coinVault.key ∧
    given accts 9 = a.pcVault.key := by
  unfold parseNewOrder at h
  split at h
  · split at h
    · cases h
      exact ⟨rfl, rfl, rfl, rfl, rfl, rfl, rfl⟩
    · cases h
  · cases h

theorem parse_order_raises {R : Err → Prop} (hu : ∀ e, Unnamed e → R e) (accts : List AccMeta) :
    Raises R (parseNewOrder accts) := by
  intro e he
  unfold parseNewOrder at he
  split at he
  · split at he
    · cases he
    · cases he; exact hu _ (.inl rfl)
  · cases he; exact hu _ (.inl rfl)

theorem tokAcct_raises {R : Err → Prop} (h : R .assertion) (l : Ledger) (a : Nat) : Raises R (tokAcct l a) := by
  intro e he
  unfold tokAcct at he
  split at he
  · split at he
    · cases he; exact h
    · cases he
  · cases he; exact h

theorem key_raises {R : Err → Prop} {x y : Nat} {e0 : Err} (h : x ≠ y → R e0) :
    Raises R (if x ≠ y then .error e0 else .ok () : Except Err Unit) := by
  intro e he
  split at he
  · rename_i hn
    cases he; exact h hn
  · cases he

theorem discount_raises {R : Err → Prop} (h : R .assertion) (c : Core) (d : List AccMeta) :
    Raises R (discountAcct c d) := by
  intro e he
  unfold discountAcct at he
  split at he
  · cases he
  · exact (Raises.bind (tokAcct_raises h _ _) fun _ _ => .pure) e he
  · cases he; exact h

theorem tier_raises {R : Err → Prop} (h : R .assertion) (P : Params) (c : Core) (owner : Nat) (t : Option Tok) :
    Raises R (loadFeeTier P c owner t) := by
  intro e he
  unfold loadFeeTier at he
  simp only at he
  split at he
  · cases he
  · split at he
    · cases he; exact h
    · repeat' split at he
      all_goals cases he

theorem enabled_of_load {m : Market} (hf : goodFlags m.flags = true) (h : checkMarketFlags m.flags false = .ok ()) :
    checkEnabled m = .ok () := by
  unfold checkEnabled Market.isDisabled
  simp only [goodFlags, List.contains_eq_mem, List.mem_cons, List.not_mem_nil, or_false,
    decide_eq_true_eq] at hf
  rcases hf with hf | hf | hf | hf | hf | hf <;> rw [hf] at h ⊢ <;> first | rfl | cases h

theorem order_args_raise {P : Params} {env : Env} {s : State conc} {accts : List AccMeta} {ix : NewOrderIx}
    (hf : goodFlags s.mkt.flags = true) {a : NewOrderAccts} (hp : parseNewOrder accts = .ok a) :
    Raises (OrderRefused P env s accts ix) (newOrderArgs P env s.toCore a ix.side) := by
  obtain ⟨g1, g2, g3, g6, g7, g8, g9⟩ := parse_order_given hp
  have hu : ∀ e, Unnamed e → OrderRefused P env s accts ix e := fun e h => .unnamed h
  have ha := hu .assertion (.inl rfl)
  unfold newOrderArgs
  refine .bind (discount_raises ha _ _) fun disc _ => ?_
  refine .bind (flags_raise hf hu .disabled _) fun _ hm => ?_
  refine .bind (.check ha) fun _ _ => ?_
  refine .bind (tier_raises ha _ _ _ _) fun tier _ => ?_
  refine .bind (key_raises fun h => .requests (by rw [g2]; exact h)) fun _ _ => ?_
  refine .bind (key_raises fun h => .events (by rw [g3]; exact h)) fun _ _ => ?_
  refine .bind (tokAcct_raises ha _ _) fun _ _ => ?_
  refine .bind (by unfold checkPayer; cases ix.side <;> exact .orAssert ha) fun _ _ => ?_
  refine .bind (.bind (tokAcct_raises ha _ _) fun _ _ => key_raises fun h => .coinVault (by rw [g8]; exact h))
    fun _ _ => ?_
  refine .bind (.bind (tokAcct_raises ha _ _) fun _ _ => key_raises fun h => .pcVault (by rw [g9]; exact h))
    fun _ _ => ?_
  refine .bind ?_ fun _ _ => ?_
  · intro e he
    unfold loadMarket at hm
    obtain ⟨_, _, hm⟩ := bind_ok hm
    rw [enabled_of_load hf hm] at he
    cases he
  refine .bind (.check ha) fun _ _ => ?_
  refine .bind (.orAssert ha) fun _ _ => ?_
  refine .bind (.orAssert ha) fun _ _ => ?_
  refine .bind ?_ fun _ _ => .pure
  intro e he
  refine .account ?_
  rw [g1, g7]
  exact loadOrders_raises e he

theorem loaded_is {env : Env} {s : State conc} {a owner : Nat} {may : Bool} {o : OpenOrders}
    (h : loadOrders s.toCore env a (some owner) may none = .ok o) : o = accountFor s a owner := by
  unfold accountFor
  rcases loadOrders_inv h with ⟨g, _⟩ | ⟨g, _, _, _, _, w, g6, rfl⟩
  · rw [g]; rfl
  · rw [g]; cases g6; rfl

theorem spendable_le (l : Ledger) (a who : Nat) : spendable l a who ≤ bal l a := by
  unfold spendable bal
  cases l a with
  | none => exact Nat.le_refl _
  | some t =>
    simp only
    split
    · exact Nat.min_le_left _ _
    · exact Nat.le_refl _

theorem lock_raises {R : Err → Prop} {m : Market} {o : OpenOrders} {ix : NewOrderIx} {b : Nat}
    (hu : ∀ e, Unnamed e → R e)
    (hf : b < orderDue m o ix ∨ (ix.side = .ask ∧ 2 ^ 64 ≤ ix.maxCoinQty * m.coinLot) → R .insufficientFunds) :
    Raises R (lockFunds m o ix b) := by
  have hp := hu .panic (.inr rfl)
  intro e he
  unfold lockFunds at he
  unfold orderDue at hf
  cases hs : ix.side with
  | bid =>
    rw [hs] at he hf
    simp only at he hf
    split at he
    · cases he; exact hf (.inl (by omega))
    · revert e
      show Raises R _
      exact .bind (.bind (.unwrap hp) fun _ _ => .pure) fun _ _ =>
        .bind (.bind (.unwrap hp) fun _ _ => .pure) fun _ _ => .bind (.unwrap hp) fun _ _ => .pure
  | ask =>
    rw [hs] at he hf
    simp only at he hf
    split at he
    · rename_i hm
      cases he
      refine hf (.inr ⟨by first | rfl | trivial, ?_⟩)
      unfold checkedMul at hm
      split at hm
      · cases hm
      · rename_i hlt
        unfold W64 at hlt
        omega
    · rename_i lock hm
      obtain ⟨_, rfl⟩ := checkedMul_some.1 hm
      split at he
      · cases he; exact hf (.inl (by omega))
      · revert e
        show Raises R _
        exact .bind (.bind (.unwrap hp) fun _ _ => .pure) fun _ _ =>
          .bind (.bind (.unwrap hp) fun _ _ => .pure) fun _ _ => .bind (.unwrap hp) fun _ _ => .pure

theorem proceeds_raise {R : Err → Prop} (hu : ∀ e, Unnamed e → R e) (o : OpenOrders) (cl : Nat) (pr : Proceeds) :
    Raises R (applyProceeds o cl pr) := by
  have hp := hu .panic (.inr rfl)
  have ha := hu .assertion (.inl rfl)
  unfold applyProceeds
  repeat' first
    | exact Raises.pure
    | exact .unwrap hp
    | exact .check ha
    | (refine .bind ?_ fun _ _ => ?_)
    | exact .orAssert ha
    | (intro e he; rcases dull_rust he with rfl | rfl; exact hp; exact ha)

theorem order_exec_raises {P : Params} {s : State conc} (h : Reach P s) (hq : s.seq < W64) {env : Env}
    {accts : List AccMeta} {ix : NewOrderIx} (hv : OrderValid ix) {a : NewOrderAccts} {tier : FeeTier}
    {oo : OpenOrders} (hA : OrderArgs P env s.toCore accts a ix.side tier oo) :
    Raises (OrderRefused P env s accts ix) (newOrderExec lst env (absState s) a ix tier oo) := by
  obtain ⟨g1, g2, g3, g6, g7, g8, g9⟩ := parse_order_given hA.parse
  obtain ⟨vs, hvs, hqi, hi⟩ := h.view (Nat.le_of_lt hq)
  have hg := h.good (Nat.le_of_lt hq)
  have hL := absState_q hg hqi
  have hu : ∀ e, Unnamed e → OrderRefused P env s accts ix e := fun e h => .unnamed h
  have hacc := loaded_is hA.load
  have hfree : oo.freeBits = 0 → ooAt s.oos a.oo.key = some oo := by
    intro h0
    rcases loadOrders_inv hA.load with ⟨g, _⟩ | ⟨g, _, _, _, _, w, g6, rfl⟩
    · exact g
    · exact absurd (show (OpenOrders.init 0).freeBits = 0 from h0) (by decide)
  have hi0 := hi
  obtain ⟨hi, ha0⟩ := hi.load (c := s.toCore) hA.load
  have hat : ooAt (setOo s.oos a.oo.key oo) a.oo.key = some oo := by rw [ooAt_setOo, if_pos rfl]
  have hok := hi.shape.accts _ _ hat
  have hdue : orderDue s.mkt oo ix = stillDue s (accountFor s (given accts 1) (given accts 7)) ix := by
    rw [g1, g7, ← hacc]; rfl
  unfold newOrderExec
  refine .bind ?_ fun _ _ => ?_
  · intro e he
    unfold checkDeadline at he
    split at he
    · rename_i hd
      cases he
      exact .late hd.2
    · cases he
  refine .bind (.check (hu _ (.inl rfl))) fun _ _ => ?_
  refine .bind (lock_raises hu fun hf => .funds ?_) ?_
  · rw [← hdue]
    rcases hf with hf | hf
    · left
      rw [g6]
      exact Nat.lt_of_le_of_lt (spendable_le _ _ _) hf
    · exact .inr hf
  rintro ⟨m1, o1, d⟩ hlk
  have hd : d = orderDue s.mkt oo ix := by
    have := lockFunds_deposit hlk
    unfold orderDue
    cases hs : ix.side with
    | bid => exact this.1 hs
    | ask => exact this.2 hs
  obtain ⟨⟨hp1, hp2⟩, ⟨hc1, hc2⟩, ⟨hpn, hpc⟩, _⟩ := id hv
  replace hp1 : 0 < ix.limitPrice := Nat.pos_of_ne_zero hp1
  replace hc1 : 0 < ix.maxCoinQty := Nat.pos_of_ne_zero hc1
  replace hc2 : ix.maxCoinQty < W64 := hc2
  have hlots : m1.coinLot = s.mkt.coinLot ∧ m1.pcLot = s.mkt.pcLot ∧ MktOk m1 ∧ o1.freeBits = oo.freeBits ∧
      (ix.side = .ask → ix.maxCoinQty * m1.coinLot < W64) := by
    have hm0 := hi.shape.mkt
    cases hside : ix.side with
    | bid =>
      obtain ⟨x, k⟩ := lockFunds_bid hside hlk
      have k1 := k.mkt
      have k2 := k.acct
      have k3 := k.lt
      subst k1 k2
      exact ⟨rfl, rfl, ⟨hm0.1, hm0.2, hm0.3, hm0.4, k3, hm0.6⟩, rfl, (fun h => by cases h)⟩
    | ask =>
      obtain ⟨k0, x, k⟩ := lockFunds_ask hside hlk
      have k1 := k.mkt
      have k2 := k.acct
      have k3 := k.lt
      subst k1 k2
      exact ⟨rfl, rfl, ⟨hm0.1, hm0.2, hm0.3, hm0.4, hm0.5, k3⟩, rfl, (fun _ => k0)⟩
  obtain ⟨L1, L2, L3, L5, L9⟩ := hlots
  have hmod : (absState s).seq % W64 = s.seq := Nat.mod_eq_of_lt hq
  simp only [hmod]
  refine .bind ?_ ?_
  · intro e he
    unfold OpenOrders.addOrder at he
    by_cases h0 : o1.freeBits = 0
    · have : e = .tooManyOpenOrders := by
        rw [h0] at he
        cases he
        rfl
      subst this
      rw [L5] at h0
      refine .slots (o := oo) (by rw [g1]; exact hfree h0) ?_
      intro j hj hn
      exact free_slot hok.orders ⟨j, hj, hn⟩ h0
    · obtain ⟨slot, f, b, hadd, _⟩ := addOrder_spec h0 (genOrderId s.seq ix.limitPrice ix.side) ix.side
      unfold OpenOrders.addOrder at hadd
      rw [hadd] at he
      cases he
  rintro ⟨slot, o2⟩ hadd
  have hbook : BookOk m1 (absState s).bids.items (absState s).asks.items := (hi.shape.market L3 L1 L2).book
  let req := newOrderReq ix (genOrderId s.seq ix.limitPrice ix.side) a.oo.key slot tier
  have hstart : RoundIn req ((absState s).ob lst m1) ix.maxCoinQty req.pcLocked :=
    ⟨L3, hbook, hc1, hc2, by
        show (match ix.side with | .bid => ix.maxPcQty | .ask => 0) < W64
        cases ix.side with
        | bid => exact hpc
        | ask => exact (by decide : 0 < W64),
      fun h0 _ => L9 h0, by
        have := hi.shape.fresh (sd := ix.side) (p := ix.limitPrice) hq
        show genOrderId s.seq ix.limitPrice ix.side ∉ (((absState s).ob lst m1).own ix.side).items.map (·.key)
        cases hsd : ix.side <;> rw [hsd] at this <;> exact this⟩
  have hook : OrderOk req := ⟨by
      show 0 < extractPrice (genOrderId s.seq ix.limitPrice ix.side)
      rw [extractPrice_genOrderId hq hp2]; exact hp1,
    fun h0 => absurd h0 ha0⟩
  have hwant : Want.of req m1 = wantOrder s.mkt ix (given accts 1) tier := by
    rw [g1, ← want_order hv hq a.oo.key slot tier]
    unfold Want.of
    rw [L2]
  refine .bind ?_ fun r _ => ?_
  · intro e he
    rcases loop_blame hook hstart (fun hk => by
      show (match ix.side with | .bid => ix.maxPcQty | .ask => 0) = 0
      rw [show ix.side = .ask from hk]) he with hd | ⟨rfl, hs, t, ht, ho⟩ | ⟨rfl, hr⟩
    · rcases hd with rfl | rfl
      · exact hu _ (.inr rfl)
      · exact hu _ (.inl rfl)
    · refine .selfTrade (tier := tier) (t := t) hs (by rw [g7]; exact order_due hA) ?_ (by rw [g1]; exact ho)
      unfold orderMet
      rw [← hwant, ← opposite_eq s ix.side]
      exact ht
    · refine .room (tier := tier) (by rw [g7]; exact order_due hA) ?_
      unfold orderMet
      rw [← hwant, ← opposite_eq s ix.side]
      have h1 : ((absState s).ob lst m1).q.items.length = (pending s).length := by
        show (absState s).q.items.length = _
        rw [hL, List.length_map]
      rw [← h1]
      exact hr
  refine .bind (.check (hu _ (.inl rfl))) fun _ _ => ?_
  refine .bind (proceeds_raise hu _ _ _) fun _ _ => ?_
  refine .bind (depositIn_raises hu (fun hf => .funds (.inl ?_)) fun hb => .barred ?_) fun _ _ => .pure
  · rw [← hdue, ← hd, g6, g7]; exact hf
  · rw [← hdue, ← hd, g6, g7]
    cases hs : ix.side <;> rw [hs] at hb <;> exact hb

/-- C83, new orders. When `NewOrderV3` fails, in any reachable state, the reason it gives is true: every reason with a
name has an entry in `OrderRefused`, and what the entry says is the case. -/
theorem order_refused {P : Params} {s : State conc} (h : Reach P s) (hq : s.seq < W64) {env : Env}
    {accts : List AccMeta} {ix : NewOrderIx} {e : Err} (hv : OrderValid ix)
    (hx : newOrderV3 conc P env s accts ix = .error e) : OrderRefused P env s accts ix e := by
  have hg := h.good (Nat.le_of_lt hq)
  have hx := Sim.error_right (Refines.sim_newOrderV3 hg.rs P env accts ix hv.1.2) hx
  refine Raises.use ?_ hx
  unfold newOrderV3
  refine .bind (parse_order_raises (fun e h => .unnamed h) accts) fun a hp => ?_
  refine .bind (order_args_raise h.flags hp) ?_
  rintro ⟨tier, oo⟩ hA
  exact order_exec_raises h hq hv (newOrderArgs_inv hp hA)

end Props
end Serum
