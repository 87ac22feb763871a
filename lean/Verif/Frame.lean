import Verif.InvOrder

/-
What no instruction changes: the configuration of the market, for any book and queue implementation.
-/

namespace Serum

variable {I : Impl}

/-! ### The engine changes the market only by accruing fees -/

theorem pushEv_mkt {ob ob' : Ob I} {v : EventView} (h : pushEv I ob v = .ok ob') : ob'.mkt = ob.mkt := by
  unfold pushEv at h
  split at h
  · cases h; rfl
  · cases h

theorem pushIf_mkt {c : Bool} {ob ob' : Ob I} {v : EventView} (h : pushIf I c ob v = .ok ob') :
    ob'.mkt = ob.mkt := by
  unfold pushIf at h
  split at h
  · exact pushEv_mkt h
  · cases h; rfl

theorem postAsk_mkt {ob ob' : Ob I} {p : IterParams} {n : Nat} (h : postAsk I ob p n = .ok ob') :
    ob'.mkt = ob.mkt := by
  unfold postAsk at h
  obtain ⟨⟨b, ok⟩, _, h⟩ := bind_ok h
  cases ok with
  | true => cases h; rfl
  | false =>
    simp only at h
    obtain ⟨⟨b1, l⟩, _, h⟩ := bind_ok h
    simp only at h
    obtain ⟨l, _, h⟩ := bind_ok h
    obtain ⟨ob1, h1, h⟩ := bind_ok h
    obtain ⟨⟨b2, ok⟩, _, h⟩ := bind_ok h
    simp only at h
    obtain ⟨_, _, h⟩ := bind_ok h
    cases h
    exact (pushEv_mkt h1).trans rfl

theorem postBid_mkt {ob ob' : Ob I} {p : IterParams} {n : Nat} (h : postBid I ob p n = .ok ob') :
    ob'.mkt = ob.mkt := by
  unfold postBid at h
  obtain ⟨⟨b, ok⟩, _, h⟩ := bind_ok h
  cases ok with
  | true => cases h; rfl
  | false =>
    simp only at h
    obtain ⟨⟨b1, l⟩, _, h⟩ := bind_ok h
    simp only at h
    obtain ⟨l, _, h⟩ := bind_ok h
    obtain ⟨_, _, h⟩ := bind_ok h
    obtain ⟨ob1, h1, h⟩ := bind_ok h
    obtain ⟨⟨b2, ok⟩, _, h⟩ := bind_ok h
    simp only at h
    obtain ⟨_, _, h⟩ := bind_ok h
    cases h
    exact (pushEv_mkt h1).trans rfl

theorem shrinkBest_mkt {ob ob' : Ob I} {sd : Side} {id n : Nat} (h : shrinkBest I ob sd id n = .ok ob') :
    ob'.mkt = ob.mkt := by
  unfold shrinkBest at h
  split at h <;> split at h
  · obtain ⟨⟨_, _⟩, _, h⟩ := bind_ok h
    simp only at h
    obtain ⟨_, _, h⟩ := bind_ok h
    cases h; rfl
  · obtain ⟨_, _, h⟩ := bind_ok h
    cases h; rfl
  · obtain ⟨⟨_, _⟩, _, h⟩ := bind_ok h
    simp only at h
    obtain ⟨_, _, h⟩ := bind_ok h
    cases h; rfl
  · obtain ⟨_, _, h⟩ := bind_ok h
    cases h; rfl

theorem fillBest_mkt {ob ob' : Ob I} {sd : Side} {l : Leaf} {n : Nat} (h : fillBest I ob sd l n = .ok ob') :
    ob'.mkt = ob.mkt := by
  unfold fillBest at h
  simp only at h
  split at h <;> obtain ⟨b, _, h⟩ := bind_ok h <;> split at h
  · obtain ⟨ob1, h1, h⟩ := bind_ok h
    obtain ⟨⟨_, _⟩, _, h⟩ := bind_ok h
    simp only at h
    obtain ⟨_, _, h⟩ := bind_ok h
    cases h
    exact (pushEv_mkt h1).trans rfl
  · cases h; rfl
  · obtain ⟨ob1, h1, h⟩ := bind_ok h
    obtain ⟨⟨_, _⟩, _, h⟩ := bind_ok h
    simp only at h
    obtain ⟨_, _, h⟩ := bind_ok h
    cases h
    exact (pushEv_mkt h1).trans rfl
  · cases h; rfl

theorem SameMarket.of_eq {m m' : Market} (h : m' = m) : SameMarket m m' := by subst h; exact .refl _

theorem askSettle_mkt {ob ob' : Ob I} {p : IterParams} {a b c : Nat} (h : askSettle I ob p a b c = .ok ob') :
    SameMarket ob.mkt ob'.mkt := by
  unfold askSettle at h
  simp only at h
  obtain ⟨_, _, h⟩ := bind_ok h
  obtain ⟨_, _, h⟩ := bind_ok h
  obtain ⟨ob1, h1, h⟩ := bind_ok h
  cases h
  have e := pushIf_mkt h1
  show SameMarket ob.mkt (ob1.mkt.accrueFees _ _)
  rw [e]
  exact .accrue _ _ _

theorem askRest_mkt {ob ob' : Ob I} {p : IterParams} {a : Nat} {b : Bool} (h : askRest I ob p a b = .ok ob') :
    ob'.mkt = ob.mkt := by
  unfold askRest at h
  split at h
  · obtain ⟨_, _, h⟩ := bind_ok h
    exact postAsk_mkt h
  · split at h
    · cases h; rfl
    · obtain ⟨_, _, h⟩ := bind_ok h
      exact (pushEv_mkt h).trans rfl

theorem askFinish_mkt {ob ob' : Ob I} {p : IterParams} {a b c : Nat} {d e : Bool} {r : Option Remaining}
    (h : askFinish I ob p a b c d e = .ok (ob', r)) : SameMarket ob.mkt ob'.mkt := by
  unfold askFinish at h
  obtain ⟨ob1, h1, h⟩ := bind_ok h
  split at h
  · cases h; exact askSettle_mkt h1
  · obtain ⟨ob2, h2, h⟩ := bind_ok h
    cases h
    exact (askSettle_mkt h1).trans (.of_eq (askRest_mkt h2))

theorem askSelfTrade_mkt {ob ob' : Ob I} {p : IterParams} {l : Leaf} {a b : Nat} {r : Option Remaining}
    (h : askSelfTrade I ob p l a b = .ok (ob', r)) : ob'.mkt = ob.mkt := by
  unfold askSelfTrade at h
  obtain ⟨⟨_, _⟩, _, h⟩ := bind_ok h
  simp only at h
  obtain ⟨ob1, h1, h⟩ := bind_ok h
  obtain ⟨ob2, h2, h⟩ := bind_ok h
  obtain ⟨ob3, h3, h⟩ := bind_ok h
  obtain ⟨_, _, h⟩ := bind_ok h
  cases h
  show ob3.mkt = _
  rw [pushEv_mkt h3, shrinkBest_mkt h2, pushEv_mkt h1]

theorem newAsk_mkt {ob ob' : Ob I} {p : IterParams} {r : Option Remaining}
    (h : newAsk I ob p = .ok (ob', r)) : SameMarket ob.mkt ob'.mkt := by
  unfold newAsk at h
  obtain ⟨best, _, h⟩ := bind_ok h
  cases best with
  | none => exact askFinish_mkt h
  | some best =>
    simp only at h
    obtain ⟨price, _, h⟩ := bind_ok h
    split at h
    · exact askFinish_mkt h
    · split at h
      · exact askFinish_mkt h
      · split at h
        · exact .of_eq (askSelfTrade_mkt h)
        · obtain ⟨ob1, h1, h⟩ := bind_ok h
          obtain ⟨ob2, h2, h⟩ := bind_ok h
          have := askFinish_mkt h
          rw [fillBest_mkt h2, pushEv_mkt h1] at this
          exact this

theorem bidSettle_mkt {ob ob' : Ob I} {p : IterParams} {a b c n : Nat}
    (h : bidSettle I ob p a b c = .ok (ob', n)) : SameMarket ob.mkt ob'.mkt := by
  unfold bidSettle at h
  simp only at h
  obtain ⟨_, _, h⟩ := bind_ok h
  obtain ⟨_, _, h⟩ := bind_ok h
  obtain ⟨ob1, h1, h⟩ := bind_ok h
  cases h
  have e := pushIf_mkt h1
  show SameMarket ob.mkt (ob1.mkt.accrueFees _ _)
  rw [e]
  exact .accrue _ _ _

theorem bidRest_mkt {ob ob' : Ob I} {p : IterParams} {a b : Nat} {c : Bool}
    (h : bidRest I ob p a b c = .ok ob') : ob'.mkt = ob.mkt := by
  unfold bidRest at h
  simp only at h
  obtain ⟨ob1, h1, h⟩ := bind_ok h
  have e1 : ob1.mkt = ob.mkt := by
    unfold bidRelease at h1
    split at h1
    · cases h1; rfl
    · simp only at h1
      obtain ⟨_, _, h1⟩ := bind_ok h1
      exact (pushEv_mkt h1).trans rfl
  split at h
  · exact (postBid_mkt h).trans e1
  · cases h; exact e1

theorem bidFinish_mkt {ob ob' : Ob I} {p : IterParams} {a b c : Nat} {d e : Bool} {r : Option Remaining}
    (h : bidFinish I ob p a b c d e = .ok (ob', r)) : SameMarket ob.mkt ob'.mkt := by
  unfold bidFinish at h
  obtain ⟨⟨ob1, n⟩, h1, h⟩ := bind_ok h
  simp only at h
  split at h
  · cases h; exact bidSettle_mkt h1
  · obtain ⟨ob2, h2, h⟩ := bind_ok h
    cases h
    exact (bidSettle_mkt h1).trans (.of_eq (bidRest_mkt h2))

theorem bidSelfTrade_mkt {ob ob' : Ob I} {p : IterParams} {l : Leaf} {a b : Nat} {r : Option Remaining}
    (h : bidSelfTrade I ob p l a b = .ok (ob', r)) : ob'.mkt = ob.mkt := by
  unfold bidSelfTrade at h
  obtain ⟨⟨_, _⟩, _, h⟩ := bind_ok h
  simp only at h
  obtain ⟨ob1, h1, h⟩ := bind_ok h
  obtain ⟨ob2, h2, h⟩ := bind_ok h
  obtain ⟨_, _, h⟩ := bind_ok h
  obtain ⟨ob3, h3, h⟩ := bind_ok h
  cases h
  rw [pushEv_mkt h3]
  show ob2.mkt = _
  rw [shrinkBest_mkt h2, pushEv_mkt h1]

theorem newBid_mkt {ob ob' : Ob I} {p : IterParams} {r : Option Remaining}
    (h : newBid I ob p = .ok (ob', r)) : SameMarket ob.mkt ob'.mkt := by
  unfold newBid at h
  obtain ⟨_, _, h⟩ := bind_ok h
  obtain ⟨_, _, h⟩ := bind_ok h
  simp only at h
  obtain ⟨best, _, h⟩ := bind_ok h
  cases best with
  | none => exact bidFinish_mkt h
  | some best =>
    simp only at h
    obtain ⟨price, _, h⟩ := bind_ok h
    split at h
    · exact bidFinish_mkt h
    · split at h
      · exact bidFinish_mkt h
      · split at h
        · exact .of_eq (bidSelfTrade_mkt h)
        · obtain ⟨ob1, h1, h⟩ := bind_ok h
          obtain ⟨ob2, h2, h⟩ := bind_ok h
          have := bidFinish_mkt h
          rw [fillBest_mkt h2, pushEv_mkt h1] at this
          exact this

theorem newOrderStep_mkt {ob ob' : Ob I} {o : OrderParams} {a b : Nat} {c : Bool} {r : Option Remaining}
    (h : newOrderStep I ob o a b c = .ok (ob', r)) : SameMarket ob.mkt ob'.mkt := by
  unfold newOrderStep at h
  split at h
  · obtain ⟨_, _, h⟩ := bind_ok h
    exact newBid_mkt h
  · obtain ⟨_, _, h⟩ := bind_ok h
    obtain ⟨_, _, h⟩ := bind_ok h
    exact newAsk_mkt h

theorem newOrderLoop_mkt {o : OrderParams} {n : Nat} : ∀ {ob ob' : Ob I} {a b : Nat} {r : Option Remaining}
    {k : Nat}, newOrderLoop I o n ob a b = .ok (ob', r, k) → SameMarket ob.mkt ob'.mkt := by
  induction n with
  | zero =>
    intro ob ob' a b r k h
    unfold newOrderLoop at h
    obtain ⟨⟨ob1, r1⟩, h1, h⟩ := bind_ok h
    cases h
    exact newOrderStep_mkt h1
  | succ n ih =>
    intro ob ob' a b r k h
    unfold newOrderLoop at h
    obtain ⟨⟨ob1, r1⟩, h1, h⟩ := bind_ok h
    simp only at h
    cases r1 with
    | none => cases h; exact newOrderStep_mkt h1
    | some r1 => exact (newOrderStep_mkt h1).trans (ih h)

theorem newOrder_mkt {ob ob' : Ob I} {o : OrderParams} {n k : Nat} {r : Option Remaining}
    (h : newOrder I ob o n = .ok (ob', r, k)) : SameMarket ob.mkt ob'.mkt := newOrderLoop_mkt h

theorem cancelLeaf_mkt {ob ob' : Ob I} {l : Leaf} {sd : Side} {oo oo' : OpenOrders} {a id : Nat}
    (h : cancelLeaf I ob l sd oo a id = .ok (ob', oo')) : ob'.mkt = ob.mkt := by
  unfold cancelLeaf at h
  split at h
  · cases h
  · obtain ⟨_, _, h⟩ := bind_ok h
    obtain ⟨_, _, h⟩ := bind_ok h
    obtain ⟨_, _, h⟩ := bind_ok h
    obtain ⟨⟨_, _⟩, _, h⟩ := bind_ok h
    simp only at h
    obtain ⟨ob1, h1, h⟩ := bind_ok h
    cases h
    exact pushEv_mkt h1

theorem cancelOrderV2_mkt {ob ob' : Ob I} {sd : Side} {oo oo' : OpenOrders} {a id : Nat}
    (h : cancelOrderV2 I ob sd a oo id = .ok (ob', oo')) : ob'.mkt = ob.mkt := by
  unfold cancelOrderV2 at h
  obtain ⟨⟨b, l⟩, _, h⟩ := bind_ok h
  simp only at h
  cases l with
  | none => cases h
  | some l =>
    rw [cancelLeaf_mkt h]
    cases sd <;> rfl

theorem cancelMany_mkt {a : Nat} {L : List (Nat × Side)} : ∀ {ob ob' : Ob I} {oo oo' : OpenOrders},
    cancelMany I a ob oo L = .ok (ob', oo') → ob'.mkt = ob.mkt := by
  induction L with
  | nil => intro ob ob' oo oo' h; cases h; rfl
  | cons x xs ih =>
    intro ob ob' oo oo' h
    obtain ⟨id, sd⟩ := x
    unfold cancelMany at h
    split at h
    · rename_i h1
      exact (ih h).trans (cancelOrderV2_mkt h1)
    · exact ih h
    · cases h

theorem cancelLeaves_mkt {sd : Side} {a : Nat} {L : List Leaf} : ∀ {ob ob' : Ob I} {oo oo' : OpenOrders},
    cancelLeaves I sd a ob oo L = .ok (ob', oo') → ob'.mkt = ob.mkt := by
  induction L with
  | nil => intro ob ob' oo oo' h; cases h; rfl
  | cons x xs ih =>
    intro ob ob' oo oo' h
    unfold cancelLeaves at h
    obtain ⟨_, _, h⟩ := bind_ok h
    obtain ⟨⟨ob1, oo1⟩, h1, h⟩ := bind_ok h
    simp only at h
    exact (ih h).trans (cancelLeaf_mkt h1)

theorem removeAll_mkt {ob ob' : Ob I} {a n : Nat} {bl al : List Leaf}
    (h : removeAll I ob a n = .ok (ob', bl, al)) : ob'.mkt = ob.mkt := by
  unfold removeAll at h
  simp only at h
  obtain ⟨⟨_, _⟩, _, h⟩ := bind_ok h
  simp only at h
  obtain ⟨⟨_, _⟩, _, h⟩ := bind_ok h
  cases h; rfl

/-! ### Instructions -/

/-- Two states of a market with the same configuration: all fields of the market but the flags and the
four counters agree, and the order counter did not go back. -/
structure Keeps (s s' : State I) : Prop where
  eq : s'.mkt = { s.mkt with
    flags := s'.mkt.flags
    coinDeposits := s'.mkt.coinDeposits
    pcDeposits := s'.mkt.pcDeposits
    pcFees := s'.mkt.pcFees
    referrerRebates := s'.mkt.referrerRebates }
  seq : s.seq ≤ s'.seq
  reqCount : s'.reqCount = s.reqCount

theorem Keeps.refl (s : State I) : Keeps s s := ⟨rfl, Nat.le_refl _, rfl⟩
theorem Keeps.trans {a b c : State I} (h : Keeps a b) (h' : Keeps b c) : Keeps a c := by
  refine ⟨?_, Nat.le_trans h.seq h'.seq, h'.reqCount.trans h.reqCount⟩
  have h1 := h.eq
  have h2 := h'.eq
  rw [h1] at h2
  exact h2

theorem Keeps.own {s s' : State I} (h : Keeps s s') :
    s'.mkt.ownAddress = s.mkt.ownAddress ∧ s'.mkt.vaultSignerNonce = s.mkt.vaultSignerNonce := by
  rw [h.eq]; exact ⟨rfl, rfl⟩

theorem Keeps.of_same {s s' : State I} (hm : s'.mkt = s.mkt) (hq : s'.seq = s.seq)
    (hr : s'.reqCount = s.reqCount) : Keeps s s' :=
  ⟨by rw [hm], by omega, hr⟩

theorem back_keeps {s : State I} {ob : Ob I} {a : Nat} {oo : OpenOrders} (h : ob.mkt = s.mkt) :
    Keeps s (s.back I ob a oo) := .of_same h rfl rfl

theorem lockFunds_mkt {m m' : Market} {oo oo' : OpenOrders} {ix : NewOrderIx} {b d : Nat}
    (h : lockFunds m oo ix b = .ok (m', oo', d)) :
    m' = { m with coinDeposits := m'.coinDeposits, pcDeposits := m'.pcDeposits } := by
  cases hs : ix.side with
  | bid =>
    obtain ⟨x, k⟩ := lockFunds_bid hs h
    rw [k.mkt]
  | ask =>
    obtain ⟨_, x, k⟩ := lockFunds_ask hs h
    rw [k.mkt]

theorem newOrderExec_keeps {env : Env} {s s' : State I} {a : NewOrderAccts} {ix : NewOrderIx} {tier : FeeTier}
    {oo : OpenOrders} (h : newOrderExec I env s a ix tier oo = .ok s') :
    Keeps s s' ∧ s'.seq = s.seq + 1 ∧ s'.mkt.flags = s.mkt.flags := by
  unfold newOrderExec at h
  obtain ⟨_, _, h⟩ := bind_ok h
  obtain ⟨_, _, h⟩ := bind_ok h
  obtain ⟨⟨m1, o1, d⟩, hlk, h⟩ := bind_ok h
  simp only at h
  obtain ⟨⟨slot, o2⟩, hadd, h⟩ := bind_ok h
  simp only at h
  obtain ⟨⟨ob', rem, lim'⟩, hno, h⟩ := bind_ok h
  simp only at h
  obtain ⟨_, _, h⟩ := bind_ok h
  obtain ⟨o', hpr, h⟩ := bind_ok h
  obtain ⟨l', hdep, h⟩ := bind_ok h
  cases h
  have h1 := (newOrder_mkt hno).eq
  have h2 : m1 = _ := lockFunds_mkt hlk
  have h3 : (State.ob I s m1).mkt = m1 := rfl
  rw [h3, h2] at h1
  refine ⟨⟨?_, Nat.le_succ _, rfl⟩, rfl, ?_⟩
  · rw [h1]
  · rw [h1]

theorem newOrderV3_keeps {P : Params} {env : Env} {s s' : State I} {accts : List AccMeta} {ix : NewOrderIx}
    (h : newOrderV3 I P env s accts ix = .ok s') :
    Keeps s s' ∧ s'.seq = s.seq + 1 ∧ s'.mkt.flags = s.mkt.flags := by
  unfold newOrderV3 at h
  obtain ⟨_, _, h⟩ := bind_ok h
  obtain ⟨⟨_, _⟩, _, h⟩ := bind_ok h
  exact newOrderExec_keeps h

theorem newOrders_keeps {P : Params} {env : Env} {accts : List AccMeta} {ixs : List NewOrderIx} :
    ∀ {s s' : State I}, newOrders I P env s accts ixs = .ok s' →
    Keeps s s' ∧ s'.seq = s.seq + ixs.length ∧ s'.mkt.flags = s.mkt.flags := by
  induction ixs with
  | nil => intro s s' h; cases h; exact ⟨.refl _, rfl, rfl⟩
  | cons ix ixs ih =>
    intro s s' h
    unfold newOrders at h
    obtain ⟨s1, h1, h⟩ := bind_ok h
    obtain ⟨k1, k2, k3⟩ := newOrderV3_keeps h1
    obtain ⟨j1, j2, j3⟩ := ih h
    refine ⟨k1.trans j1, ?_, j3.trans k3⟩
    rw [j2, k2, List.length_cons]; omega

theorem sendTake_keeps {P : Params} {s s' : State I} {accts : List AccMeta} {ix : SendTakeIx}
    (h : sendTake I P s accts ix = .ok s') : Keeps s s' ∧ s'.seq = s.seq + 1 ∧ s'.mkt.flags = s.mkt.flags := by
  unfold sendTake at h
  obtain ⟨_, _, h⟩ := bind_ok h
  obtain ⟨_, _, h⟩ := bind_ok h
  unfold sendTakeExec at h
  simp only at h
  obtain ⟨⟨ob', rem, lim'⟩, hno, h⟩ := bind_ok h
  simp only at h
  obtain ⟨_, _, h⟩ := bind_ok h
  obtain ⟨⟨m', D, w⟩, htot, h⟩ := bind_ok h
  simp only at h
  obtain ⟨l', htr, h⟩ := bind_ok h
  cases h
  have h1 := (newOrder_mkt hno).eq
  have h3 : (State.ob I s s.mkt).mkt = s.mkt := rfl
  rw [h3] at h1
  have h2 : m' = { ob'.mkt with coinDeposits := m'.coinDeposits, pcDeposits := m'.pcDeposits } := by
    unfold sendTakeTotals at htot
    split at htot <;>
    · obtain ⟨_, _, htot⟩ := bind_ok htot
      obtain ⟨_, _, htot⟩ := bind_ok htot
      cases htot
      rfl
  rw [h1] at h2
  refine ⟨⟨?_, Nat.le_succ _, rfl⟩, rfl, ?_⟩
  · show m' = _
    rw [h2]
  · show m'.flags = _
    rw [h2]

theorem cancelV2_keeps {env : Env} {s s' : State I} {accts : List AccMeta} {sd : Side} {id : Nat}
    (h : cancelV2 I env s accts sd id = .ok s') :
    Keeps s s' ∧ s'.seq = s.seq ∧ s'.mkt = s.mkt ∧ s'.toks = s.toks := by
  unfold cancelV2 at h
  obtain ⟨_, _, h⟩ := bind_ok h
  obtain ⟨_, _, h⟩ := bind_ok h
  obtain ⟨⟨_, _⟩, h1, h⟩ := bind_ok h
  cases h
  exact ⟨back_keeps (cancelOrderV2_mkt h1), rfl, cancelOrderV2_mkt h1, rfl⟩

theorem cancelByClientIdV2_keeps {env : Env} {s s' : State I} {accts : List AccMeta} {cid : Nat}
    (h : cancelByClientIdV2 I env s accts cid = .ok s') :
    Keeps s s' ∧ s'.seq = s.seq ∧ s'.mkt = s.mkt ∧ s'.toks = s.toks := by
  unfold cancelByClientIdV2 at h
  obtain ⟨_, _, h⟩ := bind_ok h
  obtain ⟨_, _, h⟩ := bind_ok h
  obtain ⟨_, _, h⟩ := bind_ok h
  obtain ⟨⟨_, _⟩, _, h⟩ := bind_ok h
  simp only at h
  obtain ⟨⟨_, _⟩, h1, h⟩ := bind_ok h
  cases h
  exact ⟨back_keeps (cancelOrderV2_mkt h1), rfl, cancelOrderV2_mkt h1, rfl⟩

theorem cancelByClientIds_keeps {env : Env} {s s' : State I} {accts : List AccMeta} {cids : List Nat}
    (h : cancelByClientIds I env s accts cids = .ok s') :
    Keeps s s' ∧ s'.seq = s.seq ∧ s'.mkt = s.mkt ∧ s'.toks = s.toks := by
  unfold cancelByClientIds at h
  obtain ⟨_, _, h⟩ := bind_ok h
  simp only at h
  obtain ⟨_, _, h⟩ := bind_ok h
  obtain ⟨⟨_, _⟩, h1, h⟩ := bind_ok h
  cases h
  exact ⟨back_keeps (cancelMany_mkt h1), rfl, cancelMany_mkt h1, rfl⟩

theorem replaceOrders_keeps {P : Params} {env : Env} {s s' : State I} {accts : List AccMeta}
    {ixs : List NewOrderIx} (h : replaceOrders I P env s accts ixs = .ok s') :
    Keeps s s' ∧ s'.seq = s.seq + ixs.length ∧ s'.mkt.flags = s.mkt.flags := by
  unfold replaceOrders at h
  obtain ⟨_, _, h⟩ := bind_ok h
  obtain ⟨s1, h1, h⟩ := bind_ok h
  obtain ⟨k1, k2, k3, _⟩ := cancelByClientIds_keeps h1
  obtain ⟨j1, j2, j3⟩ := newOrders_keeps h
  exact ⟨k1.trans j1, by rw [j2, k2], by rw [j3, k3]⟩

theorem consumeOne_keeps {P : Params} {env : Env} {s s' : State I} {keys : List Nat}
    (h : consumeOne I P env s keys = .ok (some s')) :
    s'.mkt = s.mkt ∧ s'.seq = s.seq ∧ s'.reqCount = s.reqCount ∧ s'.toks = s.toks ∧ s'.bids = s.bids ∧
      s'.asks = s.asks := by
  unfold consumeOne at h
  split at h
  · cases h
  · obtain ⟨_, _, h⟩ := bind_ok h
    obtain ⟨r, _, h⟩ := bind_ok h
    cases r with
    | none => cases h
    | some oo =>
      simp only at h
      obtain ⟨_, _, h⟩ := bind_ok h
      obtain ⟨_, _, h⟩ := bind_ok h
      cases h
      exact ⟨rfl, rfl, rfl, rfl, rfl, rfl⟩

theorem consumeLoop_keeps {P : Params} {env : Env} {keys : List Nat} {n : Nat} :
    ∀ {s s' : State I}, consumeLoop I P env keys n s = .ok s' →
    s'.mkt = s.mkt ∧ s'.seq = s.seq ∧ s'.reqCount = s.reqCount ∧ s'.toks = s.toks ∧ s'.bids = s.bids ∧
      s'.asks = s.asks := by
  induction n with
  | zero => intro s s' h; cases h; exact ⟨rfl, rfl, rfl, rfl, rfl, rfl⟩
  | succ n ih =>
    intro s s' h
    unfold consumeLoop at h
    obtain ⟨r, hr, h⟩ := bind_ok h
    cases r with
    | none => cases h; exact ⟨rfl, rfl, rfl, rfl, rfl, rfl⟩
    | some s1 =>
      obtain ⟨a1, a2, a3, a4, a5, a6⟩ := consumeOne_keeps hr
      obtain ⟨b1, b2, b3, b4, b5, b6⟩ := ih h
      exact ⟨b1.trans a1, b2.trans a2, b3.trans a3, b4.trans a4, b5.trans a5, b6.trans a6⟩

theorem consumeEvents_keeps {P : Params} {env : Env} {s s' : State I} {accts : List AccMeta} {n : Nat}
    (h : consumeEvents I P env s accts n = .ok s') :
    s'.mkt = s.mkt ∧ s'.seq = s.seq ∧ s'.reqCount = s.reqCount ∧ s'.toks = s.toks ∧ s'.bids = s.bids ∧
      s'.asks = s.asks := by
  unfold consumeEvents at h
  obtain ⟨_, _, h⟩ := bind_ok h
  split at h
  · obtain ⟨_, _, h⟩ := bind_ok h
    obtain ⟨_, _, h⟩ := bind_ok h
    obtain ⟨_, _, h⟩ := bind_ok h
    exact consumeLoop_keeps h
  · cases h

theorem consumePermissioned_keeps {P : Params} {env : Env} {s s' : State I} {accts : List AccMeta} {n : Nat}
    (h : consumeEventsPermissioned I P env s accts n = .ok s') :
    s'.mkt = s.mkt ∧ s'.seq = s.seq ∧ s'.reqCount = s.reqCount ∧ s'.toks = s.toks ∧ s'.bids = s.bids ∧
      s'.asks = s.asks := by
  unfold consumeEventsPermissioned at h
  obtain ⟨_, _, h⟩ := bind_ok h
  split at h
  · obtain ⟨_, _, h⟩ := bind_ok h
    obtain ⟨_, _, h⟩ := bind_ok h
    obtain ⟨_, _, h⟩ := bind_ok h
    obtain ⟨_, _, h⟩ := bind_ok h
    exact consumeLoop_keeps h
  · cases h

theorem settleFunds_keeps {P : Params} {env : Env} {s s' : State I} {accts : List AccMeta}
    (h : settleFunds I P env s accts = .ok s') :
    Keeps s s' ∧ s'.seq = s.seq ∧ s'.mkt.flags = s.mkt.flags ∧ s'.bids = s.bids ∧ s'.asks = s.asks ∧
      s'.q = s.q := by
  unfold settleFunds at h
  obtain ⟨a, _, h⟩ := bind_ok h
  obtain ⟨oo, _, h⟩ := bind_ok h
  unfold settleExec at h
  simp only at h
  obtain ⟨_, _, h⟩ := bind_ok h
  obtain ⟨_, _, h⟩ := bind_ok h
  obtain ⟨_, _, h⟩ := bind_ok h
  obtain ⟨_, _, h⟩ := bind_ok h
  obtain ⟨⟨m, l⟩, hr, h⟩ := bind_ok h
  cases h
  unfold settleRebates at hr
  split at hr
  · split at hr
    · obtain ⟨_, _, hr⟩ := bind_ok hr
      cases hr
      exact ⟨⟨rfl, Nat.le_refl _, rfl⟩, rfl, rfl, rfl, rfl, rfl⟩
    · cases hr
      exact ⟨⟨rfl, Nat.le_refl _, rfl⟩, rfl, rfl, rfl, rfl, rfl⟩
  · cases hr
    exact ⟨⟨rfl, Nat.le_refl _, rfl⟩, rfl, rfl, rfl, rfl, rfl⟩

theorem disable_keeps {P : Params} {s s' : State I} {accts : List AccMeta}
    (h : disableMarket I P s accts = .ok s') : Keeps s s' ∧ s'.seq = s.seq := by
  unfold disableMarket at h
  split at h
  · obtain ⟨_, _, h⟩ := bind_ok h
    obtain ⟨_, _, h⟩ := bind_ok h
    obtain ⟨_, _, h⟩ := bind_ok h
    cases h
    exact ⟨⟨rfl, Nat.le_refl _, rfl⟩, rfl⟩
  · cases h

theorem sweep_keeps {P : Params} {s s' : State I} {accts : List AccMeta}
    (h : sweepFees I P s accts = .ok s') : Keeps s s' ∧ s'.seq = s.seq ∧ s'.mkt.flags = s.mkt.flags := by
  unfold sweepFees at h
  split at h
  · iterate 8 obtain ⟨_, _, h⟩ := bind_ok h
    cases h
    exact ⟨⟨rfl, Nat.le_refl _, rfl⟩, rfl, rfl⟩
  · cases h

theorem close_keeps {env : Env} {s s' : State I} {accts : List AccMeta}
    (h : closeOpenOrders I env s accts = .ok s') : s'.mkt = s.mkt ∧ s'.seq = s.seq ∧ s'.reqCount = s.reqCount := by
  unfold closeOpenOrders at h
  split at h
  · iterate 4 obtain ⟨_, _, h⟩ := bind_ok h
    cases h
    exact ⟨rfl, rfl, rfl⟩
  · cases h

theorem initOpen_keeps {env : Env} {s s' : State I} {accts : List AccMeta}
    (h : initOpenOrders I env s accts = .ok s') : s'.mkt = s.mkt ∧ s'.seq = s.seq ∧ s'.reqCount = s.reqCount := by
  unfold initOpenOrders at h
  split at h
  · split at h
    · iterate 4 obtain ⟨_, _, h⟩ := bind_ok h
      cases h
      exact ⟨rfl, rfl, rfl⟩
    · cases h
  · cases h

theorem prune_keeps {env : Env} {s s' : State I} {accts : List AccMeta} {n : Nat}
    (h : prune I env s accts n = .ok s') :
    Keeps s s' ∧ s'.seq = s.seq ∧ s'.mkt = s.mkt ∧ s'.toks = s.toks := by
  unfold prune at h
  split at h
  · iterate 7 obtain ⟨_, _, h⟩ := bind_ok h
    obtain ⟨⟨ob, bl, al⟩, h1, h⟩ := bind_ok h
    simp only at h
    obtain ⟨⟨ob2, o2⟩, h2, h⟩ := bind_ok h
    simp only at h
    obtain ⟨⟨ob3, o3⟩, h3, h⟩ := bind_ok h
    cases h
    have e : ob3.mkt = s.mkt := by rw [cancelLeaves_mkt h3, cancelLeaves_mkt h2, removeAll_mkt h1]; rfl
    exact ⟨back_keeps e, rfl, e, rfl⟩
  · cases h

/-- No instruction changes the configuration of the market or turns back the order counter. -/
theorem process_keeps {P : Params} {env : Env} {s s' : State I} {accts : List AccMeta} {ix : Instruction}
    (h : process I P env s accts ix = .ok s') : Keeps s s' := by
  unfold process at h
  split at h
  · cases h
  · cases h
  · cases h; exact .refl _
  · obtain ⟨a, b, c, _⟩ := consumeEvents_keeps h; exact .of_same a b c
  · cases h
  · exact (settleFunds_keeps h).1
  · cases h
  · exact (disable_keeps h).1
  · exact (sweep_keeps h).1
  · cases h
  · exact (newOrderV3_keeps h).1
  · exact (cancelV2_keeps h).1
  · exact (cancelByClientIdV2_keeps h).1
  · exact (sendTake_keeps h).1
  · obtain ⟨a, b, c⟩ := close_keeps h; exact .of_same a b c
  · obtain ⟨a, b, c⟩ := initOpen_keeps h; exact .of_same a b c
  · exact (prune_keeps h).1
  · obtain ⟨a, b, c, _⟩ := consumePermissioned_keeps h; exact .of_same a b c
  · exact (cancelByClientIds_keeps h).1
  · exact (replaceOrders_keeps h).1
  · exact (replaceOrders_keeps h).1

end Serum
