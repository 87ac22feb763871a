import Verif.InvOrder

/-
When the matching engine cannot fail: with room in the event queue and amounts that fit in 64 bits, every
round of `newOrder` on list-level books returns.
-/

namespace Serum

/-- A computation that returns. -/
def Runs {α : Type} (x : Except Err α) : Prop := ∃ a, x = .ok a

theorem Runs.bind {α β : Type} {x : Except Err α} {f : α → Except Err β} (h : Runs x)
    (k : ∀ a, x = .ok a → Runs (f a)) : Runs (x >>= f) := by
  obtain ⟨a, rfl⟩ := h
  exact k a rfl

theorem Runs.ok {α : Type} (a : α) : Runs (.ok a) := ⟨a, rfl⟩
theorem Runs.pure {α : Type} (a : α) : Runs (pure a : Except Err α) := ⟨a, rfl⟩

theorem pushEv_go {ob : Ob lst} (h : ob.q.items.length < ob.q.cap) (v : EventView) :
    pushEv lst ob v = .ok (ob.push [v]) := by
  unfold pushEv
  simp only [h, if_true]
  rfl

theorem pushIf_go {ob : Ob lst} {c : Bool} (h : c = true → ob.q.items.length < ob.q.cap) (v : EventView) :
    ∃ vs, pushIf lst c ob v = .ok (ob.push vs) ∧ vs.length ≤ 1 ∧ (c = false → vs = []) := by
  unfold pushIf
  cases c with
  | false => exact ⟨[], by rw [Ob.push_nil]; rfl, by simp, fun _ => rfl⟩
  | true =>
    rw [if_pos rfl]
    exact ⟨[v], pushEv_go (h rfl) v, by simp, fun h => by cases h⟩

theorem unwrapAdd {a b : Nat} (h : a + b < W64) : unwrap (checkedAdd a b) = .ok (a + b) := by
  rw [unwrap_ok, checkedAdd_some]; exact ⟨h, rfl⟩

theorem unlockCoin_go {r : Proceeds} {n : Nat} (h : r.coinUnlocked + n < W64) :
    r.unlockCoin n = .ok { r with coinUnlocked := r.coinUnlocked + n } := by
  unfold Proceeds.unlockCoin; rw [unwrapAdd h]; rfl
theorem unlockPc_go {r : Proceeds} {n : Nat} (h : r.pcUnlocked + n < W64) :
    r.unlockPc n = .ok { r with pcUnlocked := r.pcUnlocked + n } := by
  unfold Proceeds.unlockPc; rw [unwrapAdd h]; rfl
theorem creditCoin_go {r : Proceeds} {n : Nat} (h : r.coinCredit + n < W64) :
    r.creditCoin n = .ok { r with coinCredit := r.coinCredit + n } := by
  unfold Proceeds.creditCoin; rw [unwrapAdd h]; rfl
theorem creditPc_go {r : Proceeds} {n : Nat} (h : r.pcCredit + n < W64) :
    r.creditPc n = .ok { r with pcCredit := r.pcCredit + n } := by
  unfold Proceeds.creditPc; rw [unwrapAdd h]; rfl
theorem debitCoin_go {r : Proceeds} {n : Nat} (h : r.coinDebit + n < W64) :
    r.addDebitCoin n = .ok { r with coinDebit := r.coinDebit + n } := by
  unfold Proceeds.addDebitCoin; rw [unwrapAdd h]; rfl
theorem debitPc_go {r : Proceeds} {n : Nat} (h : r.pcDebit + n < W64) :
    r.addDebitPc n = .ok { r with pcDebit := r.pcDebit + n } := by
  unfold Proceeds.addDebitPc; rw [unwrapAdd h]; rfl

theorem nzPrice_go {l : Leaf} (h : 0 < l.price) : nzPrice l = .ok l.price := by
  unfold nzPrice; rw [if_neg (by omega)]

/-- A book side on which one more order can be put, if need be in place of another. -/
def Roomy (b : LBook) : Prop := 0 < b.cap ∧ 2 * b.items.length ≤ b.cap + 1

theorem postAsk_runs {ob : Ob lst} {p : IterParams} {qty : Nat} (hc : Roomy ob.asks)
    (hf : p.orderId ∉ ob.asks.items.map (·.key)) (hq : ob.q.items.length < ob.q.cap) :
    Runs (postAsk lst ob p qty) := by
  unfold postAsk
  have hkey : (p.leaf qty).key = p.orderId := rfl
  simp only [hkey, hf, false_or]
  by_cases h : 2 * ob.asks.items.length + 1 ≤ ob.asks.cap
  · simp only [h, if_true]
    exact .pure _
  · simp only [h, if_false]
    cases hl : ob.asks.items.getLast? with
    | none =>
      rw [List.getLast?_eq_none_iff] at hl
      rw [hl] at h
      have := hc.1
      simp at h
      omega
    | some l =>
      obtain ⟨A, hA⟩ := List.getLast?_eq_some_iff.1 hl
      have hlen : 2 * A.length + 1 ≤ ob.asks.cap := by
        have := hc.2
        rw [hA] at this
        simp at this
        omega
      refine Runs.bind (.ok _) fun a e => ?_
      cases e
      refine Runs.bind (.ok _) fun a e => ?_
      cases e
      simp only [hl, unwrap]
      refine Runs.bind (.ok _) fun x e => ?_
      cases e
      rw [pushEv_go (by exact hq)]
      refine Runs.bind (.ok _) fun o2 e => ?_
      cases e
      have hc2 : p.orderId ∈ List.map (·.key) A ∨ 2 * A.length + 1 ≤ ob.asks.cap := .inr hlen
      simp only [Ob.push_asks, hA, List.dropLast_concat, hc2, if_true]
      exact ⟨_, rfl⟩

theorem postBid_runs {ob : Ob lst} {p : IterParams} {qty : Nat} (hc : Roomy ob.bids)
    (hb : ∀ l ∈ ob.bids.items, 0 < l.price)
    (hf : p.orderId ∉ ob.bids.items.map (·.key)) (hq : ob.q.items.length < ob.q.cap) :
    Runs (postBid lst ob p qty) := by
  unfold postBid
  have hkey : (p.leaf qty).key = p.orderId := rfl
  simp only [hkey, hf, false_or]
  by_cases h : 2 * ob.bids.items.length + 1 ≤ ob.bids.cap
  · simp only [h, if_true]
    exact .pure _
  · simp only [h, if_false]
    cases hl : ob.bids.items with
    | nil =>
      rw [hl] at h
      have := hc.1
      simp at h
      omega
    | cons l B =>
      have hlen : 2 * B.length + 1 ≤ ob.bids.cap := by
        have := hc.2
        rw [hl] at this
        simp at this
        omega
      refine Runs.bind (.ok _) fun a e => ?_
      cases e
      refine Runs.bind (.ok _) fun a e => ?_
      cases e
      simp only [hl, unwrap, List.head?_cons]
      refine Runs.bind (.ok _) fun x e => ?_
      cases e
      have hp := hb l (by rw [hl]; simp)
      rw [nzPrice_go hp]
      refine Runs.bind (.ok _) fun x e => ?_
      cases e
      rw [pushEv_go (by exact hq)]
      refine Runs.bind (.ok _) fun o2 e => ?_
      cases e
      have hc2 : p.orderId ∈ List.map (·.key) B ∨ 2 * B.length + 1 ≤ ob.bids.cap := .inr hlen
      simp only [Ob.push_bids, List.tail_cons, hc2, if_true]
      exact ⟨_, rfl⟩

/-- What settling a round leaves alone. -/
structure Settles (ob ob' : Ob lst) : Prop where
  bids : ob'.bids = ob.bids
  asks : ob'.asks = ob.asks
  cap : ob'.q.cap = ob.q.cap
  len : ob'.q.items.length ≤ ob.q.items.length + 1
  coinU : ob'.pr.coinUnlocked = ob.pr.coinUnlocked
  pcU : ob'.pr.pcUnlocked = ob.pr.pcUnlocked
  pcLot : ob'.mkt.pcLot = ob.mkt.pcLot

theorem askSettle_go {ob : Ob lst} {p : IterParams} {unf acc reb : Nat}
    (hq : ob.q.items.length < ob.q.cap ∨ wmul acc ob.mkt.pcLot = 0)
    (h1 : ob.pr.pcCredit + wsub (wmul acc ob.mkt.pcLot) (p.feeTier.takerFee (wmul acc ob.mkt.pcLot)) < W64)
    (h2 : ob.pr.coinDebit + wsub p.coinQty unf < W64) :
    ∃ ob', askSettle lst ob p unf acc reb = .ok ob' ∧ Settles ob ob' ∧
      (wmul acc ob.mkt.pcLot = 0 → ob'.q = ob.q) := by
  unfold askSettle
  simp only
  rw [creditPc_go h1]
  simp only [bind, Except.bind]
  rw [debitCoin_go (by exact h2)]
  have hp := pushIf_go (ob := { ob with pr := { ob.pr with
      pcCredit := ob.pr.pcCredit + wsub (wmul acc ob.mkt.pcLot) (p.feeTier.takerFee (wmul acc ob.mkt.pcLot))
      coinDebit := ob.pr.coinDebit + wsub p.coinQty unf } })
    (c := wmul acc ob.mkt.pcLot > 0 && !p.isSendTake) (by
      intro h
      simp only [Bool.and_eq_true, decide_eq_true_eq] at h
      rcases hq with hq | hq
      · exact hq
      · omega) (.fill .ask false (wmul (wsub p.coinQty unf) ob.mkt.coinLot)
        (wsub (wmul acc ob.mkt.pcLot) (p.feeTier.takerFee (wmul acc ob.mkt.pcLot)))
        (p.feeTier.takerFee (wmul acc ob.mkt.pcLot)) p.orderId p.owner p.ownerSlot p.feeTier p.clientId)
  obtain ⟨vs, e, hl, h0⟩ := hp
  simp only [e]
  refine ⟨_, rfl, ⟨rfl, rfl, rfl, ?_, rfl, rfl, rfl⟩, fun h => ?_⟩
  · simp only [Ob.push, List.length_append, List.length_map]
    omega
  · rw [h0 (by simp [h])]
    simp [Ob.push]

theorem bidSettle_go {ob : Ob lst} {p : IterParams} {rem spent reb : Nat}
    (hq : ob.q.items.length < ob.q.cap ∨ wmul spent ob.mkt.pcLot = 0)
    (h1 : ob.pr.coinCredit + wsub p.coinQty rem < W64)
    (h2 : ob.pr.pcDebit + wadd (wmul spent ob.mkt.pcLot) (p.feeTier.takerFee (wmul spent ob.mkt.pcLot)) < W64) :
    ∃ ob', bidSettle lst ob p rem spent reb = .ok (ob', wsub (wsub p.pcLocked (wmul spent ob.mkt.pcLot))
        (p.feeTier.takerFee (wmul spent ob.mkt.pcLot))) ∧ Settles ob ob' ∧
      (wmul spent ob.mkt.pcLot = 0 → ob'.q = ob.q) := by
  unfold bidSettle
  simp only
  rw [creditCoin_go h1]
  simp only [bind, Except.bind]
  rw [debitPc_go (by exact h2)]
  have hp := pushIf_go (ob := { ob with pr := { ob.pr with
      coinCredit := ob.pr.coinCredit + wsub p.coinQty rem
      pcDebit := ob.pr.pcDebit + wadd (wmul spent ob.mkt.pcLot)
        (p.feeTier.takerFee (wmul spent ob.mkt.pcLot)) } })
    (c := wmul spent ob.mkt.pcLot > 0 && !p.isSendTake) (by
      intro h
      simp only [Bool.and_eq_true, decide_eq_true_eq] at h
      rcases hq with hq | hq
      · exact hq
      · omega) (.fill .bid false
        (wadd (wmul spent ob.mkt.pcLot) (p.feeTier.takerFee (wmul spent ob.mkt.pcLot)))
        (wmul (wsub p.coinQty rem) ob.mkt.coinLot)
        (p.feeTier.takerFee (wmul spent ob.mkt.pcLot)) p.orderId p.owner p.ownerSlot p.feeTier p.clientId)
  obtain ⟨vs, e, hl, h0⟩ := hp
  simp only [e]
  refine ⟨_, rfl, ⟨rfl, rfl, rfl, ?_, rfl, rfl, rfl⟩, fun h => ?_⟩
  · simp only [Ob.push, List.length_append, List.length_map]
    omega
  · rw [h0 (by simp [h])]
    simp [Ob.push]

theorem askRest_runs {ob : Ob lst} {p : IterParams} {unf : Nat} {crossed : Bool} (hc : Roomy ob.asks)
    (hf : p.orderId ∉ ob.asks.items.map (·.key)) (hq : ob.q.items.length < ob.q.cap)
    (ht : p.owner = 0 → p.postAllowed = false) (hu : ob.pr.coinUnlocked + unf < W64) :
    Runs (askRest lst ob p unf crossed) := by
  unfold askRest
  split
  · rename_i h
    simp only [Bool.and_eq_true] at h
    have hns : (!p.isSendTake) = true := by
      cases hs : p.isSendTake with
      | false => rfl
      | true =>
        have := ht (by simpa [IterParams.isSendTake] using hs)
        rw [this] at h
        exact absurd h.1.1 (by decide)
    refine Runs.bind ⟨(), checkAssert_ok.2 hns⟩ fun _ _ => ?_
    exact postAsk_runs hc hf hq
  · split
    · exact .pure _
    · rw [unlockCoin_go hu]
      exact ⟨_, pushEv_go (by exact hq) _⟩

theorem bidPostQty_le {m : Market} {p : IterParams} {coin pc : Nat} {crossed : Bool} (hm : 0 < m.pcLot)
    (hp : 0 < p.limitPrice) :
    bidPostQty m p coin pc crossed * p.limitPrice * m.pcLot ≤ pc := by
  have hq : bidPostQty m p coin pc crossed ≤ pc / m.pcLot / p.limitPrice := by
    unfold bidPostQty; split
    · exact Nat.min_le_right _ _
    · exact Nat.zero_le _
  have h1 := (Nat.le_div_iff_mul_le hp).1 hq
  exact (Nat.le_div_iff_mul_le hm).1 h1

theorem bidRest_runs {ob : Ob lst} {p : IterParams} {coin pc : Nat} {crossed : Bool} (hc : Roomy ob.bids)
    (hm : 0 < ob.mkt.pcLot) (hp : 0 < p.limitPrice)
    (hb : ∀ l ∈ ob.bids.items, 0 < l.price)
    (hf : p.orderId ∉ ob.bids.items.map (·.key))
    (hq : ob.q.items.length + (if crossed then 1 else 2) ≤ ob.q.cap)
    (ht : p.owner = 0 → p.postAllowed = false) (hpc : pc < W64) (hu : ob.pr.pcUnlocked + pc < W64) :
    Runs (bidRest lst ob p coin pc crossed) := by
  unfold bidRest
  simp only
  have hle := bidPostQty_le (m := ob.mkt) (p := p) (coin := coin) (pc := pc) (crossed := crossed) hm hp
  have h0 : crossed = true → bidPostQty ob.mkt p coin pc crossed = 0 := by
    intro h; simp [bidPostQty, h]
  have h00 : p.owner = 0 → bidPostQty ob.mkt p coin pc crossed = 0 := by
    intro h; simp [bidPostQty, ht h]
  generalize bidPostQty ob.mkt p coin pc crossed = qty at *
  have e1 : qty * p.limitPrice * ob.mkt.pcLot < W64 := Nat.lt_of_le_of_lt hle hpc
  have e2 : qty * p.limitPrice < W64 := Nat.lt_of_le_of_lt (Nat.le_mul_of_pos_right _ hm) e1
  rw [wmul_eq e2]
  unfold bidRelease
  by_cases hs : p.owner = 0
  · have hs' : p.isSendTake = true := by simp [IterParams.isSendTake, hs]
    rw [h00 hs, hs']
    simp [bind, Except.bind, pure, Except.pure]
    exact .ok _
  · have hs' : p.isSendTake = false := by simp [IterParams.isSendTake, hs]
    simp only [hs', Bool.false_eq_true, if_false]
    rw [wmul_eq e1, wsub_eq hle hpc, unlockPc_go (by omega)]
    have hq1 : ob.q.items.length < ob.q.cap := by split at hq <;> omega
    simp only [bind, Except.bind]
    rw [pushEv_go (by exact hq1)]
    simp only
    split
    · rename_i hk
      refine postBid_runs hc hb hf ?_
      have hcr : crossed = false := by
        cases h : crossed with
        | false => rfl
        | true => rw [h0 h] at hk; simp at hk
      simp only [hcr, Bool.false_eq_true, if_false] at hq
      simp [Ob.push]
      omega
    · exact .pure _

theorem shrinkBest_bid_runs {ob : Ob lst} {B : List Leaf} {best : Leaf} {rest : Nat}
    (hB : ob.bids.items = B ++ [best]) (hs : ob.bids.items.Pairwise (fun a b => a.key < b.key)) :
    Runs (shrinkBest lst ob .bid best.key rest) := by
  unfold shrinkBest
  simp only
  split
  · refine Runs.bind (.ok _) fun a e => ?_
    cases e
    simp only
    rw [hB] at hs ⊢
    rw [find_last rfl hs]
    exact ⟨_, rfl⟩
  · simp only [hB, setLast_append, unwrap, Except.map]
    exact ⟨_, rfl⟩

theorem shrinkBest_ask_runs {ob : Ob lst} {A : List Leaf} {best : Leaf} {rest : Nat}
    (hA : ob.asks.items = best :: A) :
    Runs (shrinkBest lst ob .ask best.key rest) := by
  unfold shrinkBest
  simp only
  split
  · refine Runs.bind (.ok _) fun a e => ?_
    cases e
    simp only
    rw [hA, find_first rfl]
    exact ⟨_, rfl⟩
  · simp only [hA, setFirst, unwrap, Except.map]
    exact ⟨_, rfl⟩

theorem fillBest_bid_runs {ob : Ob lst} {B : List Leaf} {best : Leaf} {n : Nat}
    (hB : ob.bids.items = B ++ [best]) (hs : ob.bids.items.Pairwise (fun a b => a.key < b.key))
    (hq : ob.q.items.length < ob.q.cap) : Runs (fillBest lst ob .bid best n) := by
  unfold fillBest
  simp only [hB, setLast_append, unwrap, Except.map]
  refine Runs.bind (.ok _) fun a e => ?_
  cases e
  split
  · rw [pushEv_go (by exact hq)]
    rw [hB] at hs
    simp only [bind, Except.bind, Ob.push_bids]
    rw [find_last (best := best) (b' := { best with quantity := wsub best.quantity n }) rfl hs]
    exact ⟨_, rfl⟩
  · exact .pure _

theorem fillBest_ask_runs {ob : Ob lst} {A : List Leaf} {best : Leaf} {n : Nat}
    (hA : ob.asks.items = best :: A)
    (hq : ob.q.items.length < ob.q.cap) : Runs (fillBest lst ob .ask best n) := by
  unfold fillBest
  simp only [hA, setFirst, unwrap, Except.map]
  refine Runs.bind (.ok _) fun a e => ?_
  cases e
  split
  · rw [pushEv_go (by exact hq)]
    simp only [bind, Except.bind, Ob.push_asks]
    rw [find_first (best := best) (b' := { best with quantity := wsub best.quantity n }) rfl]
    exact ⟨_, rfl⟩
  · exact .pure _

theorem selfTradeQty_runs {stb : SelfTradeBehavior} {a b : Nat} (h : stb ≠ .abortTransaction) :
    ∃ x y, selfTradeQty stb a b = .ok (x, y) ∧ (y = 0 ∨ y = b) := by
  cases stb with
  | decrementTake => exact ⟨b, b, rfl, .inr rfl⟩
  | cancelProvide => exact ⟨a, 0, rfl, .inl rfl⟩
  | abortTransaction => exact absurd rfl h

/-- What a round of an ask needs in order to return. -/
structure AskFit (p : IterParams) (ob : Ob lst) : Prop where
  mkt : MktOk ob.mkt
  book : BookOk ob.mkt ob.bids.items ob.asks.items
  pos : 0 < p.coinQty
  lt : p.coinQty < W64
  fresh : p.orderId ∉ ob.asks.items.map (·.key)
  take : p.owner = 0 → p.postAllowed = false
  own : Roomy ob.asks
  unlocked : ob.pr.coinUnlocked + p.coinQty < W64
  debit : ob.pr.coinDebit + p.coinQty < W64
  credit : ob.pr.pcCredit + bookLock .bid ob.mkt every ob.bids.items < W64
  abort : ∀ b ∈ ob.bids.items, p.owner = b.owner → p.stb ≠ .abortTransaction
  room : ob.q.items.length + (if p.postOnly then 2 else 4) ≤ ob.q.cap

theorem askFinish_done_runs {p : IterParams} {ob : Ob lst} (h : AskFit p ob) (crossed : Bool) :
    Runs (askFinish lst ob p p.coinQty 0 0 true crossed) := by
  unfold askFinish
  have e0 : wmul 0 ob.mkt.pcLot = 0 := by unfold wmul; simp
  have e1 : wsub p.coinQty p.coinQty = 0 := by rw [wsub_eq (Nat.le_refl _) h.lt]; omega
  have e2 : wsub 0 0 = 0 := by decide
  have hc := h.credit
  have hd := h.debit
  have hr := h.room
  obtain ⟨o2, e, hs, hq⟩ := askSettle_go (ob := ob) (p := p) (unf := p.coinQty) (acc := 0) (reb := 0)
    (.inr e0) (by rw [e0, takerFee_zero, e2]; omega) (by rw [e1]; omega)
  have := hq e0
  rw [e]
  refine Runs.bind (.ok _) fun a ea => ?_
  cases ea
  simp only [Bool.not_true, Bool.false_and, Bool.false_eq_true, if_false]
  refine Runs.bind (askRest_runs ?_ ?_ ?_ h.take ?_) fun _ _ => .pure _
  · rw [hs.asks]; exact h.own
  · rw [hs.asks]; exact h.fresh
  · rw [this]; split at hr <;> omega
  · rw [hs.coinU]; exact h.unlocked

theorem bookLock_mem {sd : Side} {m : Market} {L : List Leaf} {l : Leaf} (h : l ∈ L) :
    lockedValue sd m l.price l.quantity ≤ bookLock sd m every L := by
  obtain ⟨A, B, rfl⟩ := List.append_of_mem h
  simp only [bookLock_append, bookLock_cons, leafLock, every, if_true]
  omega

theorem newAsk_runs {p : IterParams} {ob : Ob lst} (h : AskFit p ob) : Runs (newAsk lst ob p) := by
  unfold newAsk
  refine Runs.bind (.ok _) fun bo e => ?_
  cases e
  cases hbest : ob.bids.items.getLast? with
  | none => exact askFinish_done_runs h _
  | some best =>
    simp only
    obtain ⟨B, hB⟩ := List.getLast?_eq_some_iff.1 hbest
    have hmem : best ∈ ob.bids.items := by rw [hB]; simp
    have hpr := h.book.bidPrice _ hmem
    rw [nzPrice_go hpr]
    refine Runs.bind (.ok _) fun a ea => ?_
    cases ea
    split
    · exact askFinish_done_runs h _
    · rename_i hc
      have hpo : p.postOnly = false := by
        cases hp : p.postOnly with
        | false => rfl
        | true => simp [hp] at hc
      have hcr : decide (p.limitPrice ≤ best.price) = true := by
        cases hp : decide (p.limitPrice ≤ best.price) with
        | true => rfl
        | false => rw [hp] at hc; simp at hc
      have hroom := h.room
      rw [hpo] at hroom
      simp only [Bool.false_eq_true, if_false] at hroom
      split
      · exact askFinish_done_runs h _
      · rename_i hz
        have hz' : min best.quantity p.coinQty ≠ 0 := by simpa using hz
        have hval := h.book.bidVal _ hmem
        have hpl := h.mkt.pcLot
        have hqp : best.quantity * best.price < W64 :=
          Nat.lt_of_le_of_lt (Nat.le_mul_of_pos_right _ hpl) hval
        have hbq : best.quantity < W64 :=
          Nat.lt_of_le_of_lt (Nat.le_mul_of_pos_right _ (by omega)) hqp
        have hlock := bookLock_mem (sd := .bid) (m := ob.mkt) hmem
        have hcred := h.credit
        have hdeb := h.debit
        have hunl := h.unlocked
        have hlt := h.lt
        have htle : min best.quantity p.coinQty ≤ best.quantity := Nat.min_le_left _ _
        have htle2 : min best.quantity p.coinQty ≤ p.coinQty := Nat.min_le_right _ _
        split
        · rename_i hown
          have hab := h.abort _ hmem (by simpa using hown)
          unfold askSelfTrade
          obtain ⟨x, y, est, hy⟩ := selfTradeQty_runs (a := best.quantity) (b := min best.quantity p.coinQty) hab
          rw [est]
          refine Runs.bind (.ok _) fun a ea => ?_
          cases ea
          simp only
          rw [pushEv_go (by omega)]
          refine Runs.bind (.ok _) fun a ea => ?_
          cases ea
          refine Runs.bind (shrinkBest_bid_runs (by exact hB) (by exact h.book.bidSort)) fun o3 e3 => ?_
          have hx : x ≤ best.quantity := by
            cases hs : p.stb with
            | decrementTake =>
              rw [hs] at est
              simp only [selfTradeQty, Except.ok.injEq, Prod.mk.injEq] at est
              omega
            | cancelProvide =>
              rw [hs] at est
              simp only [selfTradeQty, Except.ok.injEq, Prod.mk.injEq] at est
              omega
            | abortTransaction => exact absurd hs hab
          rw [wsub_eq hx hbq] at e3
          have := shrinkBest_bid (ob := ob.push _) hB h.book.bidSort hx e3
          subst this
          rw [pushEv_go (by simp [Ob.push, Ob.putBids]; omega)]
          refine Runs.bind (.ok _) fun a ea => ?_
          cases ea
          rw [unlockCoin_go (by show ob.pr.coinUnlocked + y < W64; omega)]
          exact ⟨_, rfl⟩
        · generalize min best.quantity p.coinQty = tq at *
          have e1 : tq * best.price * ob.mkt.pcLot < W64 :=
            Nat.lt_of_le_of_lt (Nat.mul_le_mul_right _ (Nat.mul_le_mul_right _ htle)) hval
          have e2 : tq * best.price < W64 :=
            Nat.lt_of_le_of_lt (Nat.mul_le_mul_right _ htle) hqp
          have e3 : tq * best.price * ob.mkt.pcLot ≤ best.quantity * best.price * ob.mkt.pcLot :=
            Nat.mul_le_mul_right _ (Nat.mul_le_mul_right _ htle)
          have hfee := takerFee_le p.feeTier e1
          rw [pushEv_go (by omega)]
          refine Runs.bind (.ok _) fun a ea => ?_
          cases ea
          refine Runs.bind (fillBest_bid_runs (by exact hB) (by exact h.book.bidSort)
            (by simp [Ob.push]; omega)) fun o3 eo3 => ?_
          have := fillBest_bid (ob := ob.push _) hB h.book.bidSort htle hbq eo3
          have hlen : o3.q.items.length ≤ ob.q.items.length + 2 ∧ o3.q.cap = ob.q.cap ∧ o3.mkt = ob.mkt ∧
              o3.pr = ob.pr ∧ o3.asks = ob.asks := by
            subst this
            refine ⟨?_, rfl, rfl, rfl, rfl⟩
            simp only [Ob.push, Ob.putBids, List.length_append, List.length_map]
            split <;> simp
          clear this eo3
          obtain ⟨l1, l2, l3, l4, l5⟩ := hlen
          unfold askFinish
          have ew : wsub p.coinQty (wsub p.coinQty tq) = tq := by
            rw [wsub_eq htle2 hlt, wsub_eq (by omega) hlt]; omega
          have ea : wmul (wmul tq best.price) o3.mkt.pcLot = tq * best.price * ob.mkt.pcLot := by
            rw [l3, wmul_eq e2, wmul_eq e1]
          obtain ⟨o4, e4, hs, _⟩ := askSettle_go (ob := o3) (p := p) (unf := wsub p.coinQty tq)
            (acc := wmul tq best.price)
            (reb := best.feeTier.makerRebate (wmul (wmul tq best.price) ob.mkt.pcLot))
            (.inl (by rw [l2]; omega)) (by
              rw [ea, l4, wsub_eq hfee e1]
              simp only [lockedValue] at hlock
              omega) (by rw [ew, l4]; omega)
          rw [e4]
          refine Runs.bind (.ok _) fun a ea => ?_
          cases ea
          split
          · exact .pure _
          · refine Runs.bind (askRest_runs ?_ ?_ ?_ h.take ?_) fun _ _ => .pure _
            · rw [hs.asks, l5]; exact h.own
            · rw [hs.asks, l5]; exact h.fresh
            · have h1 := hs.len; have h2 := hs.cap
              omega
            · rw [hs.coinU, l4, wsub_eq htle2 hlt]; omega

/-- What a round of a bid needs in order to return. -/
structure BidFit (p : IterParams) (ob : Ob lst) : Prop where
  mkt : MktOk ob.mkt
  book : BookOk ob.mkt ob.bids.items ob.asks.items
  pos : 0 < p.coinQty
  lt : p.coinQty < W64
  pcLt : p.pcLocked < W64
  price : 0 < p.limitPrice
  fresh : p.orderId ∉ ob.bids.items.map (·.key)
  take : p.owner = 0 → p.postAllowed = false
  own : Roomy ob.bids
  unlocked : ob.pr.pcUnlocked + p.pcLocked < W64
  debit : ob.pr.pcDebit + p.pcLocked < W64
  credit : ob.pr.coinCredit + p.coinQty < W64
  abort : ∀ b ∈ ob.asks.items, p.owner = b.owner → p.stb ≠ .abortTransaction
  room : ob.q.items.length + (if p.postOnly then 2 else 4) ≤ ob.q.cap

theorem bidFinish_done_runs {p : IterParams} {ob : Ob lst} (h : BidFit p ob) (crossed : Bool) :
    Runs (bidFinish lst ob p p.coinQty 0 0 true crossed) := by
  unfold bidFinish
  have e0 : wmul 0 ob.mkt.pcLot = 0 := by unfold wmul; simp
  have e1 : wsub p.coinQty p.coinQty = 0 := by rw [wsub_eq (Nat.le_refl _) h.lt]; omega
  have e2 : wadd 0 0 = 0 := by decide
  have e3 : wsub p.pcLocked 0 = p.pcLocked := wsub_eq (Nat.zero_le _) h.pcLt
  have hc := h.credit
  have hd := h.debit
  have hr := h.room
  obtain ⟨o2, e, hs, hq⟩ := bidSettle_go (ob := ob) (p := p) (rem := p.coinQty) (spent := 0) (reb := 0)
    (.inr e0) (by rw [e1]; omega) (by rw [e0, takerFee_zero, e2]; omega)
  have := hq e0
  rw [e]
  refine Runs.bind (.ok _) fun a ea => ?_
  cases ea
  simp only [Bool.not_true, Bool.false_and, Bool.false_eq_true, if_false]
  refine Runs.bind (bidRest_runs ?_ ?_ h.price ?_ ?_ ?_ h.take ?_ ?_) fun _ _ => .pure _
  · rw [hs.bids]; exact h.own
  · rw [hs.pcLot]; exact h.mkt.pcLot
  · rw [hs.bids]; exact h.book.bidPrice
  · rw [hs.bids]; exact h.fresh
  · rw [this]; split at hr <;> split <;> omega
  · rw [e0, takerFee_zero, e3, e3]; exact h.pcLt
  · rw [e0, takerFee_zero, e3, e3, hs.pcU]; exact h.unlocked

theorem newBid_runs {p : IterParams} {ob : Ob lst} (h : BidFit p ob) : Runs (newBid lst ob p) := by
  unfold newBid
  have hpl := h.mkt.pcLot
  have hp0 := h.price
  refine Runs.bind ⟨(), checkAssert_ok.2 (by simp; right; omega)⟩ fun _ _ => ?_
  refine Runs.bind ⟨(), rustAssert_ok.2 (by simp; omega)⟩ fun _ _ => ?_
  refine Runs.bind (.ok _) fun bo e => ?_
  cases e
  cases hbest : ob.asks.items.head? with
  | none => exact bidFinish_done_runs h _
  | some best =>
    simp only
    obtain ⟨A, hA⟩ := List.head?_eq_some_iff.1 hbest
    have hmem : best ∈ ob.asks.items := by rw [hA]; simp
    have hpr := h.book.askPrice _ hmem
    rw [nzPrice_go hpr]
    refine Runs.bind (.ok _) fun a ea => ?_
    cases ea
    split
    · exact bidFinish_done_runs h _
    · rename_i hc
      have hpo : p.postOnly = false := by
        cases hp : p.postOnly with
        | false => rfl
        | true => simp [hp] at hc
      have hcr : (decide (p.limitPrice = 0) || decide (best.price ≤ p.limitPrice)) = true := by
        cases hp : (decide (p.limitPrice = 0) || decide (best.price ≤ p.limitPrice)) with
        | true => rfl
        | false => rw [hp] at hc; simp at hc
      have hroom := h.room
      rw [hpo] at hroom
      simp only [Bool.false_eq_true, if_false] at hroom
      split
      · exact bidFinish_done_runs h _
      · rename_i hz
        have hT0 : min (min best.quantity p.coinQty)
            (p.feeTier.removeTakerFee p.pcLocked / ob.mkt.pcLot / best.price) =
            bidTradeQty ob.mkt p best := rfl
        rw [hT0] at hz ⊢
        have hz' : bidTradeQty ob.mkt p best ≠ 0 := by simpa using hz
        have hval := h.book.askVal _ hmem
        have hcl := h.mkt.coinLot
        have hbq : best.quantity < W64 := Nat.lt_of_le_of_lt (Nat.le_mul_of_pos_right _ hcl) hval
        have hcred := h.credit
        have hdeb := h.debit
        have hunl := h.unlocked
        have hlt := h.lt
        have hl := h.pcLt
        have htle : bidTradeQty ob.mkt p best ≤ best.quantity := by unfold bidTradeQty; omega
        have htle2 : bidTradeQty ob.mkt p best ≤ p.coinQty := by unfold bidTradeQty; omega
        have htle3 : bidTradeQty ob.mkt p best * best.price ≤
            p.feeTier.removeTakerFee p.pcLocked / ob.mkt.pcLot := by
          have : bidTradeQty ob.mkt p best ≤
            p.feeTier.removeTakerFee p.pcLocked / ob.mkt.pcLot / best.price := by
              unfold bidTradeQty; omega
          exact (Nat.le_div_iff_mul_le (by omega)).1 this
        have htle4 : bidTradeQty ob.mkt p best * best.price * ob.mkt.pcLot ≤
            p.feeTier.removeTakerFee p.pcLocked := (Nat.le_div_iff_mul_le hpl).1 htle3
        have htle5 := Nat.le_trans htle4 (removeTakerFee_le _ _)
        generalize bidTradeQty ob.mkt p best = tq at *
        have e1 : tq * best.price * ob.mkt.pcLot < W64 := Nat.lt_of_le_of_lt htle5 hl
        have e2 : tq * best.price < W64 := Nat.lt_of_le_of_lt (Nat.le_mul_of_pos_right _ hpl) e1
        split
        · rename_i hown
          have hab := h.abort _ hmem (by simpa using hown)
          unfold bidSelfTrade
          obtain ⟨x, y, est, hy⟩ := selfTradeQty_runs (a := best.quantity) (b := tq) hab
          rw [est]
          refine Runs.bind (.ok _) fun a ea => ?_
          cases ea
          simp only
          rw [pushEv_go (by omega)]
          refine Runs.bind (.ok _) fun a ea => ?_
          cases ea
          refine Runs.bind (shrinkBest_ask_runs (by exact hA)) fun o3 e3 => ?_
          have hx : x ≤ best.quantity := by
            cases hs : p.stb with
            | decrementTake =>
              rw [hs] at est
              simp only [selfTradeQty, Except.ok.injEq, Prod.mk.injEq] at est
              omega
            | cancelProvide =>
              rw [hs] at est
              simp only [selfTradeQty, Except.ok.injEq, Prod.mk.injEq] at est
              omega
            | abortTransaction => exact absurd hs hab
          rw [wsub_eq hx hbq] at e3
          have := shrinkBest_ask (ob := ob.push _) hA h.book.askSort hx e3
          subst this
          have hyt : y ≤ tq := by omega
          have f1 : y * best.price * ob.mkt.pcLot ≤ p.pcLocked :=
            Nat.le_trans (Nat.mul_le_mul_right _ (Nat.mul_le_mul_right _ hyt)) htle5
          have f2 : y * best.price * ob.mkt.pcLot < W64 := Nat.lt_of_le_of_lt f1 hl
          have f3 : y * best.price < W64 := Nat.lt_of_le_of_lt (Nat.le_mul_of_pos_right _ hpl) f2
          have hmk : ∀ (o : Ob lst) (L : List Leaf) (u : List EventView),
              ((o.push u).putAsks L).mkt = o.mkt := fun _ _ _ => rfl
          have hprr : ∀ (o : Ob lst) (L : List Leaf) (u : List EventView),
              ((o.push u).putAsks L).pr = o.pr := fun _ _ _ => rfl
          simp only [hmk, hprr, wmul_eq f3, wmul_eq f2, wsub_eq f1 hl]
          rw [unlockPc_go (by split <;> omega)]
          refine Runs.bind (.ok _) fun a ea => ?_
          cases ea
          rw [pushEv_go (by simp [Ob.push, Ob.putAsks]; omega)]
          exact ⟨_, rfl⟩
        · have hmax : p.feeTier.removeTakerFee p.pcLocked / ob.mkt.pcLot < W64 :=
            Nat.lt_of_le_of_lt (Nat.le_trans (Nat.div_le_self _ _) (removeTakerFee_le _ _)) hl
          have hspent : wsub (p.feeTier.removeTakerFee p.pcLocked / ob.mkt.pcLot)
              (wsub (p.feeTier.removeTakerFee p.pcLocked / ob.mkt.pcLot) (tq * best.price)) =
              tq * best.price := by
            rw [wsub_eq htle3 hmax, wsub_eq (Nat.sub_le _ _) hmax]; omega
          have hsf := spend_fee_le p.feeTier hl htle4
          rw [pushEv_go (by omega)]
          refine Runs.bind (.ok _) fun a ea => ?_
          cases ea
          refine Runs.bind (fillBest_ask_runs (by exact hA) (by simp [Ob.push]; omega)) fun o3 eo3 => ?_
          have := fillBest_ask (ob := ob.push _) hA h.book.askSort htle hbq eo3
          have hlen : o3.q.items.length ≤ ob.q.items.length + 2 ∧ o3.q.cap = ob.q.cap ∧ o3.mkt = ob.mkt ∧
              o3.pr = ob.pr ∧ o3.bids = ob.bids := by
            subst this
            refine ⟨?_, rfl, rfl, rfl, rfl⟩
            simp only [Ob.push, Ob.putAsks, List.length_append, List.length_map]
            split <;> simp
          clear this eo3
          obtain ⟨l1, l2, l3, l4, l5⟩ := hlen
          unfold bidFinish
          have ew : wsub p.coinQty (wsub p.coinQty tq) = tq := by
            rw [wsub_eq htle2 hlt, wsub_eq (by omega) hlt]; omega
          simp only [wmul_eq e2, hspent]
          have ea : wmul (tq * best.price) o3.mkt.pcLot = tq * best.price * ob.mkt.pcLot := by
            rw [l3, wmul_eq e1]
          generalize hF : p.feeTier.takerFee (tq * best.price * ob.mkt.pcLot) = fee at *
          have g1 : wsub p.pcLocked (tq * best.price * ob.mkt.pcLot) =
            p.pcLocked - tq * best.price * ob.mkt.pcLot := wsub_eq htle5 hl
          have g2 : wsub (p.pcLocked - tq * best.price * ob.mkt.pcLot) fee =
            p.pcLocked - tq * best.price * ob.mkt.pcLot - fee := wsub_eq (by omega) (by omega)
          have g3 : wadd (tq * best.price * ob.mkt.pcLot) fee =
            tq * best.price * ob.mkt.pcLot + fee := wadd_eq (by omega)
          obtain ⟨o4, e4, hs, _⟩ := bidSettle_go (ob := o3) (p := p) (rem := wsub p.coinQty tq)
            (spent := tq * best.price)
            (reb := best.feeTier.makerRebate (wmul (tq * best.price) ob.mkt.pcLot))
            (.inl (by rw [l2]; omega)) (by rw [ew, l4]; omega) (by
              rw [ea, hF, g3, l4]
              omega)
          rw [ea, hF, g1, g2] at e4
          rw [e4]
          refine Runs.bind (.ok _) fun a ea => ?_
          cases ea
          split
          · exact .pure _
          · refine Runs.bind (bidRest_runs ?_ ?_ h.price ?_ ?_ ?_ h.take ?_ ?_) fun _ _ => .pure _
            · rw [hs.bids, l5]; exact h.own
            · rw [hs.pcLot, l3]; exact hpl
            · rw [hs.bids, l5]; exact h.book.bidPrice
            · rw [hs.bids, l5]; exact h.fresh
            · have h1 := hs.len; have h2 := hs.cap
              have h3 : (if (decide (p.limitPrice = 0) || decide (best.price ≤ p.limitPrice)) = true
                then 1 else 2) = 1 := if_pos hcr
              refine Nat.le_trans (Nat.add_le_add_left (Nat.le_of_eq h3) _) ?_
              show o4.q.items.length + 1 ≤ o4.q.cap
              omega
            · omega
            · rw [hs.pcU, l4]; omega

/-- Amounts an order may still add to its proceeds. -/
def PrFit (o : OrderParams) (ob : Ob lst) (coin pc : Nat) : Prop :=
  match o.side with
  | .bid => ob.pr.pcUnlocked + pc < W64 ∧ ob.pr.pcDebit + pc < W64 ∧ ob.pr.coinCredit + coin < W64
  | .ask => ob.pr.coinUnlocked + coin < W64 ∧ ob.pr.coinDebit + coin < W64 ∧
      ob.pr.pcCredit + bookLock .bid ob.mkt every ob.bids.items < W64

/-- What the remaining rounds of an order need in order to return. -/
structure LoopFit (o : OrderParams) (ob : Ob lst) (coin pc limit : Nat) : Prop where
  start : RoundIn o ob coin pc
  funds : match o.side with
    | .bid => pc ≠ 0
    | .ask => pc = 0
  own : Roomy (ob.own o.side)
  fit : PrFit o ob coin pc
  abort : ∀ l ∈ opposite o.side ob.bids.items ob.asks.items, o.owner = l.owner → o.stb ≠ .abortTransaction
  room : ob.q.items.length + (3 * limit + 2) ≤ ob.q.cap

theorem step_runs {o : OrderParams} {ob : Ob lst} {coin pc limit : Nat} {po : Bool} (ho : OrderOk o)
    (h : LoopFit o ob coin pc limit) (hl : po = true ∨ 0 < limit) :
    Runs (newOrderStep lst ob o coin pc po) := by
  obtain ⟨⟨h1, h2, h3, h4, h5, h6, h7⟩, hpc, hown, hfit, hab, hroom⟩ := h
  have hr : ob.q.items.length + (if po then 2 else 4) ≤ ob.q.cap := by
    split
    · omega
    · rcases hl with h | h
      · contradiction
      · omega
  have ht : o.owner = 0 → (o.iter coin pc po).postAllowed = false := by
    intro h0
    simp [OrderParams.iter, ho.take h0]
  unfold newOrderStep
  cases hs : o.side with
  | bid =>
    simp only [PrFit, hs] at hfit hpc hab hown h7 ⊢
    refine Runs.bind ⟨(), rustAssert_ok.2 (by simpa using hpc)⟩ fun _ _ => ?_
    exact newBid_runs ⟨h1, h2, h3, h4, h5, ho.price, h7, ht, hown, hfit.1, hfit.2.1, hfit.2.2, hab, hr⟩
  | ask =>
    simp only [PrFit, hs] at hfit hpc hab hown h7 ⊢
    have hp := ho.price
    refine Runs.bind ⟨(), rustAssert_ok.2 (by simpa using hpc)⟩ fun _ _ => ?_
    refine Runs.bind ⟨(), rustAssert_ok.2 (by simp; omega)⟩ fun _ _ => ?_
    refine newAsk_runs ⟨h1, h2, h3, h4, h7, ht, hown, hfit.1, hfit.2.1, hfit.2.2, ?_, hr⟩
    intro b hb
    exact hab b (by simpa [opposite] using hb)

theorem lock_shrink {m : Market} {best : Leaf} {n : Nat} (h : n ≤ best.quantity) :
    bookLock .bid m every (shrink best n) + n * best.price * m.pcLot =
      best.quantity * best.price * m.pcLot := by
  unfold shrink
  split
  · rename_i e
    subst e
    simp
  · simp only [bookLock_cons, bookLock_nil, leafLock, every, if_true, lockedValue, Leaf.price]
    rw [Nat.add_zero, ← Nat.add_mul, ← Nat.add_mul, Nat.sub_add_cancel h]

theorem loop_fit {o : OrderParams} {ob ob' : Ob lst} {coin pc limit : Nat} {po : Bool} (ho : OrderOk o)
    {r : Remaining} {ts : List Touch} {f : Option Posting}
    (h : LoopFit o ob coin pc (limit + 1)) (hr : Round o po ob coin pc ob' (some r) ts f) :
    LoopFit o ob' r.coin r.pc limit := by
  obtain ⟨hin, hpc, hown, hfit, hab, hroom⟩ := h
  have hin' := (round_pres ho hin hr).2.2.2 r rfl
  have hbk := hin.book
  unfold Round at hr
  cases hs : o.side with
  | ask =>
    simp only [PrFit, hs, opposite] at hfit hpc hab hown hr
    generalize he : some r = r' at hr
    cases hr with
    | post | evict | release | stop => cases he
    | selfTrade B best provide take hB hpr hpo hw hst hb =>
      split at he
      · cases he
      · rename_i hne
        cases he
        have hple : provide ≤ best.quantity := by
          rcases hst with ⟨_, h, _⟩ | ⟨_, h, _⟩ <;> omega
        have htle : take ≤ coin := by
          rcases hst with ⟨_, _, h⟩ | ⟨_, _, h⟩
          · rw [h]; exact Nat.min_le_right _ _
          · omega
        have hlk := lock_shrink (m := ob.mkt) hple
        have hlk0 : bookLock .bid ob.mkt every ob.bids.items =
            bookLock .bid ob.mkt every B + best.quantity * best.price * ob.mkt.pcLot := by
          rw [hB]; simp [leafLock, every, lockedValue]
        refine ⟨hin', by rw [hs], ?_, ?_, ?_, ?_⟩
        · rw [hs]; exact hown
        · simp only [PrFit, hs]
          refine ⟨?_, ?_, ?_⟩
          · show ob.pr.coinUnlocked + take + (coin - take) < W64
            omega
          · show ob.pr.coinDebit + (coin - take) < W64
            omega
          · show ob.pr.pcCredit + bookLock .bid ob.mkt every (B ++ shrink best provide) < W64
            rw [bookLock_append]
            omega
        · rw [hs]
          intro l hl
          have hl : l ∈ B ++ shrink best provide := List.mem_reverse.1 hl
          rcases mem_shrink_last hl with h | ⟨rfl, _⟩
          · exact hab l (by rw [hB]; simp [h])
          · exact hab best (by rw [hB]; simp)
        · simp [Ob.push, Ob.putBids, Ob.putPr]
          omega
    | fill B best tq fee hB hpr hpo hw htq hfee hb hb2 =>
      split at he
      · cases he
      · rename_i hne
        cases he
        have hle : tq ≤ best.quantity := by subst htq; exact Nat.min_le_left _ _
        have hle' : tq ≤ coin := by subst htq; exact Nat.min_le_right _ _
        have hlk := lock_shrink (m := ob.mkt) hle
        have hlk0 : bookLock .bid ob.mkt every ob.bids.items =
            bookLock .bid ob.mkt every B + best.quantity * best.price * ob.mkt.pcLot := by
          rw [hB]; simp [leafLock, every, lockedValue]
        refine ⟨hin', by rw [hs], ?_, ?_, ?_, ?_⟩
        · rw [hs]; exact hown
        · simp only [PrFit, hs]
          refine ⟨?_, ?_, ?_⟩
          · show ob.pr.coinUnlocked + (coin - tq) < W64
            omega
          · show ob.pr.coinDebit + tq + (coin - tq) < W64
            omega
          · show ob.pr.pcCredit + (tq * best.price * ob.mkt.pcLot - fee) +
              bookLock .bid (ob.mkt.accrueFees fee 0) every (B ++ shrink best tq) < W64
            rw [bookLock_congr (SameMarket.accrue ob.mkt fee 0).coinLot (SameMarket.accrue ob.mkt fee 0).pcLot,
              bookLock_append]
            omega
        · rw [hs]
          intro l hl
          have hl : l ∈ B ++ shrink best tq := List.mem_reverse.1 hl
          rcases mem_shrink_last hl with h | ⟨rfl, _⟩
          · exact hab l (by rw [hB]; simp [h])
          · exact hab best (by rw [hB]; simp)
        · have hlen : (askFillEvs ob.mkt (o.iter coin pc po) best tq).length ≤ 3 := by
            have hne' : ¬ (o.iter coin pc po).coinQty = tq := hne
            simp only [askFillEvs, if_neg hne', List.length_append]
            split <;> split <;> simp
          show (ob.q.items ++ (askFillEvs ob.mkt (o.iter coin pc po) best tq).map Event.new).length +
            (3 * limit + 2) ≤ ob.q.cap
          rw [List.length_append, List.length_map]
          omega
  | bid =>
    simp only [PrFit, hs, opposite] at hfit hpc hab hown hr
    generalize he : some r = r' at hr
    cases hr with
    | post | evict | release | stop => cases he
    | selfTrade A best provide take unlocked still hA hpr hpo hw htq hst hle hgo hb =>
      split at he
      · cases he
      · rename_i hne
        cases he
        have htle : take ≤ coin := by
          have : bidTradeQty ob.mkt (o.iter coin pc po) best ≤ coin := by
            unfold bidTradeQty; show _ ≤ (o.iter coin pc po).coinQty; omega
          rcases hst with ⟨_, _, h⟩ | ⟨_, _, h⟩ <;> omega
        have hsum : unlocked + still = pc := by
          have hle : take * best.price * ob.mkt.pcLot ≤ pc := hle
          rcases hgo with ⟨_, _, h1, h2⟩ | ⟨_, _, h2⟩
          · have h2 : still = pc - take * best.price * ob.mkt.pcLot := h2
            omega
          · exact absurd h2 hne
        refine ⟨hin', by rw [hs]; exact hne, ?_, ?_, ?_, ?_⟩
        · rw [hs]; exact hown
        · simp only [PrFit, hs]
          refine ⟨?_, ?_, ?_⟩
          · show ob.pr.pcUnlocked + unlocked + still < W64
            omega
          · show ob.pr.pcDebit + still < W64
            omega
          · show ob.pr.coinCredit + (coin - take) < W64
            omega
        · rw [hs]
          intro l hl
          have hl : l ∈ shrink best provide ++ A := hl
          rcases mem_shrink_first hl with h | ⟨rfl, _⟩
          · exact hab l (by rw [hA]; simp [h])
          · exact hab best (by rw [hA]; simp)
        · simp [Ob.push, Ob.putAsks, Ob.putPr]
          omega
    | fill A best tq pc' fee left hA hpr hpo hw htq htpos hpc' hfee hleft hb hb2 =>
      split at he
      · rename_i hne
        cases he
        have hle' : tq ≤ coin := by
          subst htq; unfold bidTradeQty; show _ ≤ (o.iter coin pc po).coinQty; omega
        have hleft : pc' + fee + left = pc := hleft
        refine ⟨hin', by rw [hs]; exact hne.2, ?_, ?_, ?_, ?_⟩
        · rw [hs]; exact hown
        · simp only [PrFit, hs]
          refine ⟨?_, ?_, ?_⟩
          · show ob.pr.pcUnlocked + (if (o.iter coin pc po).owner = 0 ∨
              ((o.iter coin pc po).coinQty ≠ tq ∧ left ≠ 0) then 0 else left) + left < W64
            rw [if_pos (.inr hne)]
            omega
          · show ob.pr.pcDebit + (pc' + fee) + left < W64
            omega
          · show ob.pr.coinCredit + tq + (coin - tq) < W64
            omega
        · rw [hs]
          intro l hl
          have hl : l ∈ shrink best tq ++ A := hl
          rcases mem_shrink_first hl with h | ⟨rfl, _⟩
          · exact hab l (by rw [hA]; simp [h])
          · exact hab best (by rw [hA]; simp)
        · have hlen : (bidFillEvs ob.mkt (o.iter coin pc po) best tq left).length ≤ 3 := by
            simp only [bidFillEvs, if_pos hne, List.length_append]
            split <;> split <;> simp
          show (ob.q.items ++ (bidFillEvs ob.mkt (o.iter coin pc po) best tq left).map Event.new).length +
            (3 * limit + 2) ≤ ob.q.cap
          rw [List.length_append, List.length_map]
          omega
      · cases he

/-- With room and amounts that fit, the engine returns. -/
theorem loop_runs {o : OrderParams} (ho : OrderOk o) {limit : Nat} {ob : Ob lst} {coin pc : Nat}
    (h : LoopFit o ob coin pc limit) : Runs (newOrderLoop lst o limit ob coin pc) := by
  induction limit generalizing ob coin pc with
  | zero =>
    unfold newOrderLoop
    exact Runs.bind (step_runs ho h (.inl rfl)) fun _ _ => .pure _
  | succ n ih =>
    unfold newOrderLoop
    refine Runs.bind (step_runs ho h (.inr (by omega))) fun a e => ?_
    obtain ⟨ob', r⟩ := a
    cases r with
    | none => exact .pure _
    | some r =>
      obtain ⟨ts, f, hr⟩ := round_of_step ho h.start e
      exact ih (loop_fit ho h hr)

end Serum
