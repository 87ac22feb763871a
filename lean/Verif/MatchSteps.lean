import Verif.Refine

/-
What one round of the matching engine does to list-level books: the possible outcomes of `newAsk` and
`newBid` with their exact effects, free of machine-arithmetic wrap-around.
-/

namespace Serum

theorem bind_ok {ε α β : Type} {x : Except ε α} {f : α → Except ε β} {b : β}
    (h : (x >>= f) = .ok b) : ∃ a, x = .ok a ∧ f a = .ok b := by
  cases x with
  | error e => simp [bind, Except.bind] at h
  | ok a => exact ⟨a, rfl, h⟩

/-- Facts about a market that every reachable state satisfies. -/
structure MktOk (m : Market) : Prop where
  coinLot : 0 < m.coinLot
  pcLot : 0 < m.pcLot
  pcFees : m.pcFees < W64
  rebates : m.referrerRebates < W64
  pcDeposits : m.pcDeposits < W64
  coinDeposits : m.coinDeposits < W64

/-- Facts about resting orders: positive quantities and prices, values below 2^64, ids sorted. -/
structure BookOk (m : Market) (bids asks : List Leaf) : Prop where
  bidSort : bids.Pairwise (fun a b => a.key < b.key)
  askSort : asks.Pairwise (fun a b => a.key < b.key)
  bidQty : ∀ l ∈ bids, 0 < l.quantity
  askQty : ∀ l ∈ asks, 0 < l.quantity
  bidPrice : ∀ l ∈ bids, 0 < l.price
  askPrice : ∀ l ∈ asks, 0 < l.price
  bidVal : ∀ l ∈ bids, l.quantity * l.price * m.pcLot < W64
  askVal : ∀ l ∈ asks, l.quantity * m.coinLot < W64

/-- Append events. -/
def Ob.push (ob : Ob lst) (vs : List EventView) : Ob lst :=
  { ob with q := ⟨ob.q.items ++ vs.map Event.new, ob.q.cap⟩ }

/-- Replace the bids. -/
def Ob.putBids (ob : Ob lst) (L : List Leaf) : Ob lst := { ob with bids := ⟨L, ob.bids.cap⟩ }
/-- Replace the asks. -/
def Ob.putAsks (ob : Ob lst) (L : List Leaf) : Ob lst := { ob with asks := ⟨L, ob.asks.cap⟩ }
def Ob.putPr (ob : Ob lst) (pr : Proceeds) : Ob lst := { ob with pr := pr }
def Ob.putMkt (ob : Ob lst) (m : Market) : Ob lst := { ob with mkt := m }

@[simp] theorem Ob.push_bids (ob : Ob lst) (vs) : (ob.push vs).bids = ob.bids := rfl
@[simp] theorem Ob.push_asks (ob : Ob lst) (vs) : (ob.push vs).asks = ob.asks := rfl
@[simp] theorem Ob.push_mkt (ob : Ob lst) (vs) : (ob.push vs).mkt = ob.mkt := rfl
@[simp] theorem Ob.push_pr (ob : Ob lst) (vs) : (ob.push vs).pr = ob.pr := rfl
theorem Ob.push_push (ob : Ob lst) (u v) : (ob.push u).push v = ob.push (u ++ v) := by
  simp [Ob.push, List.append_assoc]
theorem Ob.push_nil (ob : Ob lst) : ob.push [] = ob := by
  obtain ⟨b, a, ⟨q, c⟩, m, p⟩ := ob
  simp [Ob.push]

theorem pushEv_lst {ob ob' : Ob lst} {v : EventView} (h : pushEv lst ob v = .ok ob') :
    ob' = ob.push [v] ∧ ob.q.items.length < ob.q.cap := by
  unfold pushEv at h
  simp only at h
  split at h
  · rename_i q hq
    split at hq
    · rename_i hl
      simp only [Option.some.injEq] at hq
      subst hq
      simp only [Except.ok.injEq] at h
      subst h
      exact ⟨rfl, hl⟩
    · cases hq
  · cases h

/-- What is left of the best order after `n` lots of it are gone. -/
def shrink (best : Leaf) (n : Nat) : List Leaf :=
  if best.quantity = n then [] else [{ best with quantity := best.quantity - n }]

/-! ### Asks -/

/-- A resting order met by an incoming one: the order as it stood, the lots it lost and whether they
were traded (`true`) or cancelled by self-trade protection. -/
structure Touch where
  maker : Leaf
  lots : Nat
  filled : Bool

/-- A remainder put on the book: its lots, and the order evicted to make room. -/
structure Posting where
  lots : Nat
  evicted : Option Leaf

/-- Events of a fill by an incoming ask. -/
def askFillEvs (m : Market) (p : IterParams) (best : Leaf) (tq : Nat) : List EventView :=
  [.fill .bid true (tq * best.price * m.pcLot) (wmul tq m.coinLot) 0 best.key best.owner best.ownerSlot
      best.feeTier best.clientId]
  ++ (if best.quantity = tq then [best.out .bid true 0 0] else [])
  ++ (if p.owner = 0 then [] else
      [.fill .ask false (wmul tq m.coinLot)
        (tq * best.price * m.pcLot - p.feeTier.takerFee (tq * best.price * m.pcLot))
        (p.feeTier.takerFee (tq * best.price * m.pcLot)) p.orderId p.owner p.ownerSlot p.feeTier
        p.clientId])
  ++ (if p.owner = 0 then [] else if p.coinQty = tq then [p.out .ask 0 0] else [])

/-- Possible outcomes of one round of an incoming ask. -/
inductive AskStep (p : IterParams) (ob : Ob lst) : Ob lst → Option Remaining → List Touch → Option Posting → Prop where
  /-- The order rests on the book. -/
  | post (hlim : ∀ b, ob.bids.items.getLast? = some b → b.price < p.limitPrice)
      (hpa : p.postAllowed = true) (hns : p.owner ≠ 0)
      (hcap : 2 * ob.asks.items.length + 1 ≤ ob.asks.cap) :
      AskStep p ob (ob.putAsks (insKey (p.leaf p.coinQty) ob.asks.items)) none [] (some ⟨p.coinQty, none⟩)
  /-- The order rests on a full book in place of the highest ask. -/
  | evict (A : List Leaf) (l : Leaf)
      (hlim : ∀ b, ob.bids.items.getLast? = some b → b.price < p.limitPrice)
      (hpa : p.postAllowed = true) (hns : p.owner ≠ 0)
      (hcap : ¬ 2 * ob.asks.items.length + 1 ≤ ob.asks.cap) (hA : ob.asks.items = A ++ [l]) :
      AskStep p ob ((ob.putAsks (insKey (p.leaf p.coinQty) A)).push
        [l.out .ask true (l.quantity * ob.mkt.coinLot) 0]) none [] (some ⟨p.coinQty, some l⟩)
  /-- The order may not rest and its remainder is released. -/
  | release (hlim : ∀ b, ob.bids.items.getLast? = some b → b.price < p.limitPrice ∨ p.postOnly = true)
      (hwhy : p.postAllowed = false ∨
        ∃ b, ob.bids.items.getLast? = some b ∧ p.limitPrice ≤ b.price)
      (hns : p.owner ≠ 0) (hb : ob.pr.coinUnlocked + p.coinQty < W64) :
      AskStep p ob ((ob.putPr { ob.pr with coinUnlocked := ob.pr.coinUnlocked + p.coinQty }).push
        [p.out .ask (wmul p.coinQty ob.mkt.coinLot) 0]) none [] none
  /-- A send-take stops. -/
  | stop (hlim : ∀ b, ob.bids.items.getLast? = some b → b.price < p.limitPrice ∨ p.postOnly = true)
      (hs : p.owner = 0) : AskStep p ob ob none [] none
  /-- The best bid belongs to the same account. -/
  | selfTrade (B : List Leaf) (best : Leaf) (provide take : Nat) (hB : ob.bids.items = B ++ [best])
      (hpr : p.limitPrice ≤ best.price) (hpo : p.postOnly = false) (hown : p.owner = best.owner)
      (hst : (p.stb = .decrementTake ∧ provide = min best.quantity p.coinQty ∧
          take = min best.quantity p.coinQty) ∨
        (p.stb = .cancelProvide ∧ provide = best.quantity ∧ take = 0))
      (hb : ob.pr.coinUnlocked + take < W64) :
      AskStep p ob
        (((ob.putBids (B ++ shrink best provide)).putPr
            { ob.pr with coinUnlocked := ob.pr.coinUnlocked + take }).push
          [best.out .bid true (provide * best.price * ob.mkt.pcLot)
            ((best.quantity - provide) * best.price * ob.mkt.pcLot),
           p.out .ask (wmul take ob.mkt.coinLot) (p.coinQty - take)])
        (if p.coinQty = take then none else some ⟨p.coinQty - take, 0⟩) [⟨best, provide, false⟩] none
  /-- A fill against the best bid. -/
  | fill (B : List Leaf) (best : Leaf) (tq fee : Nat) (hB : ob.bids.items = B ++ [best])
      (hpr : p.limitPrice ≤ best.price) (hpo : p.postOnly = false) (hown : p.owner ≠ best.owner)
      (htq : tq = min best.quantity p.coinQty)
      (hfee : fee = p.feeTier.takerFee (tq * best.price * ob.mkt.pcLot))
      (hb : ob.pr.coinDebit + tq < W64)
      (hb2 : ob.pr.pcCredit + (tq * best.price * ob.mkt.pcLot - fee) < W64) :
      AskStep p ob
        ((((ob.putBids (B ++ shrink best tq)).putPr
            { ob.pr with
              pcCredit := ob.pr.pcCredit + (tq * best.price * ob.mkt.pcLot - fee)
              coinDebit := ob.pr.coinDebit + tq }).putMkt (ob.mkt.accrueFees fee 0)).push
          (askFillEvs ob.mkt p best tq))
        (if p.coinQty = tq then none else some ⟨p.coinQty - tq, 0⟩) [⟨best, tq, true⟩] none

theorem AskStep.cast {p : IterParams} {ob o o' : Ob lst} {r : Option Remaining} {ts : List Touch}
    {f : Option Posting} (h : AskStep p ob o r ts f) (e : o = o') : ∃ ts f, AskStep p ob o' r ts f :=
  ⟨ts, f, e ▸ h⟩

theorem accrueFees_zero {m : Market} (h : MktOk m) : m.accrueFees 0 0 = m := by
  unfold Market.accrueFees
  obtain ⟨_, _, h1, h2, h3, _⟩ := h
  have e1 : wsub 0 0 = 0 := by decide
  have e2 : referrerRebate 0 = 0 := by decide
  simp only [e1, e2]
  have a : wadd m.referrerRebates 0 = m.referrerRebates := wadd_eq (by simpa using h2)
  have b : wadd m.pcFees 0 = m.pcFees := wadd_eq (by simpa using h1)
  have c : wsub m.pcDeposits 0 = m.pcDeposits := wsub_eq (by omega) h3
  rw [a, b, c]

theorem askSettle_zero {ob ob' : Ob lst} {p : IterParams} (hm : MktOk ob.mkt) (hq : p.coinQty < W64)
    (h : askSettle lst ob p p.coinQty 0 0 = .ok ob') : ob' = ob := by
  unfold askSettle at h
  have e0 : wmul 0 ob.mkt.pcLot = 0 := by unfold wmul; simp
  have e1 : wsub p.coinQty p.coinQty = 0 := by rw [wsub_eq (Nat.le_refl _) hq]; omega
  have e2 : wsub 0 0 = 0 := by decide
  simp only [e0, e1, takerFee_zero, e2] at h
  obtain ⟨pr, h1, h⟩ := bind_ok h
  obtain ⟨pr', h2, h⟩ := bind_ok h
  unfold Proceeds.creditPc at h1
  obtain ⟨x, hx, h1⟩ := bind_ok h1
  rw [unwrap_ok, checkedAdd_some] at hx
  unfold Proceeds.addDebitCoin at h2
  obtain ⟨y, hy, h2⟩ := bind_ok h2
  rw [unwrap_ok, checkedAdd_some] at hy
  simp only [pure, Except.pure, Except.ok.injEq] at h1 h2
  subst h1
  subst h2
  obtain ⟨_, rfl⟩ := hx
  obtain ⟨_, rfl⟩ := hy
  simp [pushIf, bind, Except.bind, pure, Except.pure, accrueFees_zero hm] at h
  exact h.symm

theorem postAsk_inv {ob ob' : Ob lst} {p : IterParams} {qty : Nat}
    (hb : BookOk ob.mkt ob.bids.items ob.asks.items)
    (hfresh : p.orderId ∉ ob.asks.items.map (·.key)) (h : postAsk lst ob p qty = .ok ob') :
    (2 * ob.asks.items.length + 1 ≤ ob.asks.cap ∧ ob' = ob.putAsks (insKey (p.leaf qty) ob.asks.items)) ∨
    (¬ 2 * ob.asks.items.length + 1 ≤ ob.asks.cap ∧ ∃ A l, ob.asks.items = A ++ [l] ∧
      ob' = (ob.putAsks (insKey (p.leaf qty) A)).push [l.out .ask true (l.quantity * ob.mkt.coinLot) 0]) := by
  unfold postAsk at h
  have hkey : (p.leaf qty).key = p.orderId := rfl
  simp only [hkey, hfresh, false_or] at h
  by_cases hc : 2 * ob.asks.items.length + 1 ≤ ob.asks.cap
  · left
    simp only [hc, if_true, bind, Except.bind, pure, Except.pure, Except.ok.injEq] at h
    exact ⟨hc, h.symm⟩
  · right
    simp only [hc, if_false] at h
    refine ⟨hc, ?_⟩
    obtain ⟨x, hx, h⟩ := bind_ok h
    simp only [Except.ok.injEq] at hx
    subst hx
    obtain ⟨x, hx, h⟩ := bind_ok h
    simp only [Except.ok.injEq] at hx
    subst hx
    simp only at h
    obtain ⟨l, hl, h⟩ := bind_ok h
    rw [unwrap_ok] at hl
    obtain ⟨A, hA⟩ := List.getLast?_eq_some_iff.1 hl
    obtain ⟨o2, ho, h⟩ := bind_ok h
    obtain ⟨rfl, _⟩ := pushEv_lst ho
    have hmem : l ∈ ob.asks.items := by rw [hA]; simp
    obtain ⟨x, hx, h⟩ := bind_ok h
    have hfr : ¬ (p.orderId ∈ List.map (·.key) A) := by
      intro hin; apply hfresh; rw [hA, List.map_append]; exact List.mem_append_left _ hin
    simp only [Ob.push_asks, hA, List.dropLast_concat, hfr, false_or] at hx
    split at hx
    · simp only [Except.ok.injEq] at hx
      subst hx
      simp only [rustAssert, if_true, bind, Except.bind, pure, Except.pure, Except.ok.injEq] at h
      refine ⟨A, l, hA, ?_⟩
      subst h
      rw [wmul_eq (hb.askVal l hmem)]
      rfl
    · simp only [Except.ok.injEq] at hx
      subst hx
      simp [rustAssert, bind, Except.bind] at h

/-- The last order of a sorted book is removed by its id. -/
theorem filter_last {B : List Leaf} {best b' : Leaf} (hk : b'.key = best.key)
    (hs : (B ++ [best]).Pairwise (fun a b => a.key < b.key)) :
    (B ++ [b']).filter (fun x => x.key != best.key) = B := by
  rw [List.filter_append]
  have h1 : B.filter (fun x => x.key != best.key) = B := by
    rw [List.filter_eq_self]
    intro x hx
    have := (List.pairwise_append.1 hs).2.2 x hx best (by simp)
    simp; omega
  rw [h1]; simp [hk]

theorem find_last {B : List Leaf} {best b' : Leaf} (hk : b'.key = best.key)
    (hs : (B ++ [best]).Pairwise (fun a b => a.key < b.key)) :
    (B ++ [b']).find? (fun x => x.key == best.key) = some b' := by
  rw [List.find?_append]
  have h1 : B.find? (fun x => x.key == best.key) = none := by
    rw [List.find?_eq_none]
    intro x hx
    have := (List.pairwise_append.1 hs).2.2 x hx best (by simp)
    simp; omega
  rw [h1]; simp [hk]

theorem filter_first {A : List Leaf} {best b' : Leaf} (hk : b'.key = best.key)
    (hs : (best :: A).Pairwise (fun a b => a.key < b.key)) :
    (b' :: A).filter (fun x => x.key != best.key) = A := by
  have h1 : A.filter (fun x => x.key != best.key) = A := by
    rw [List.filter_eq_self]
    intro x hx
    have := (List.pairwise_cons.1 hs).1 x hx
    simp; omega
  rw [List.filter_cons, h1]; simp [hk]

theorem find_first {A : List Leaf} {best b' : Leaf} (hk : b'.key = best.key) :
    (b' :: A).find? (fun x => x.key == best.key) = some b' := by
  simp [hk]

theorem shrinkBest_bid {ob ob' : Ob lst} {B : List Leaf} {best : Leaf} {n : Nat}
    (hB : ob.bids.items = B ++ [best])
    (hs : ob.bids.items.Pairwise (fun a b => a.key < b.key)) (hn : n ≤ best.quantity)
    (h : shrinkBest lst ob .bid best.key (best.quantity - n) = .ok ob') :
    ob' = ob.putBids (B ++ shrink best n) := by
  unfold shrinkBest at h
  simp only at h
  by_cases h0 : best.quantity = n
  · have e : best.quantity - n = 0 := by omega
    simp only [e, beq_self_eq_true, if_true] at h
    obtain ⟨x, hx, h⟩ := bind_ok h
    simp only [Except.ok.injEq] at hx
    subst hx
    simp only at h
    obtain ⟨y, hy, h⟩ := bind_ok h
    simp only [pure, Except.pure, Except.ok.injEq] at h
    subst h
    rw [hB] at hs ⊢
    simp only [shrink, h0, if_true, List.append_nil]
    rw [filter_last rfl hs]
    rfl
  · have e : ¬ (best.quantity - n == 0) = true := by simp; omega
    rw [if_neg e] at h
    simp only [hB, setLast_append, unwrap, Except.map, bind, Except.bind, pure, Except.pure] at h
    simp only [Except.ok.injEq] at h
    subst h
    simp only [shrink, h0, if_false]
    rfl

theorem shrinkBest_ask {ob ob' : Ob lst} {A : List Leaf} {best : Leaf} {n : Nat}
    (hA : ob.asks.items = best :: A)
    (hs : ob.asks.items.Pairwise (fun a b => a.key < b.key)) (hn : n ≤ best.quantity)
    (h : shrinkBest lst ob .ask best.key (best.quantity - n) = .ok ob') :
    ob' = ob.putAsks (shrink best n ++ A) := by
  unfold shrinkBest at h
  simp only at h
  by_cases h0 : best.quantity = n
  · have e : best.quantity - n = 0 := by omega
    simp only [e, beq_self_eq_true, if_true] at h
    obtain ⟨x, hx, h⟩ := bind_ok h
    simp only [Except.ok.injEq] at hx
    subst hx
    simp only at h
    obtain ⟨y, hy, h⟩ := bind_ok h
    simp only [pure, Except.pure, Except.ok.injEq] at h
    subst h
    rw [hA] at hs ⊢
    simp only [shrink, h0, if_true, List.nil_append]
    rw [filter_first rfl hs]
    rfl
  · have e : ¬ (best.quantity - n == 0) = true := by simp; omega
    rw [if_neg e] at h
    simp only [hA, setFirst, unwrap, Except.map, bind, Except.bind, pure, Except.pure] at h
    simp only [Except.ok.injEq] at h
    subst h
    simp only [shrink, h0, if_false]
    rfl

theorem fillBest_bid {ob ob' : Ob lst} {B : List Leaf} {best : Leaf} {n : Nat}
    (hB : ob.bids.items = B ++ [best])
    (hs : ob.bids.items.Pairwise (fun a b => a.key < b.key)) (hn : n ≤ best.quantity)
    (hq : best.quantity < W64)
    (h : fillBest lst ob .bid best n = .ok ob') :
    ob' = (ob.putBids (B ++ shrink best n)).push
      (if best.quantity = n then [best.out .bid true 0 0] else []) := by
  unfold fillBest at h
  rw [wsub_eq hn hq] at h
  simp only [hB, setLast_append, unwrap, Except.map] at h
  obtain ⟨b, hb, h⟩ := bind_ok h
  simp only [Except.ok.injEq] at hb
  subst hb
  by_cases h0 : best.quantity = n
  · have e : best.quantity - n = 0 := by omega
    simp only [e, beq_self_eq_true, if_true] at h
    obtain ⟨o2, ho, h⟩ := bind_ok h
    obtain ⟨rfl, _⟩ := pushEv_lst ho
    obtain ⟨x, hx, h⟩ := bind_ok h
    simp only [Except.ok.injEq] at hx
    subst hx
    simp only at h
    obtain ⟨y, hy, h⟩ := bind_ok h
    simp only [pure, Except.pure, Except.ok.injEq] at h
    subst h
    rw [hB] at hs
    simp only [shrink, h0, if_true, List.append_nil, Ob.push_bids]
    rw [filter_last (by rfl) hs]
    rfl
  · have e : ¬ (best.quantity - n == 0) = true := by simp; omega
    simp only [e] at h
    simp only [pure, Except.pure] at h
    simp only [Bool.false_eq_true, if_false, Except.ok.injEq] at h
    subst h
    simp only [shrink, h0, if_false, Ob.push_nil]
    rfl

theorem fillBest_ask {ob ob' : Ob lst} {A : List Leaf} {best : Leaf} {n : Nat}
    (hA : ob.asks.items = best :: A)
    (hs : ob.asks.items.Pairwise (fun a b => a.key < b.key)) (hn : n ≤ best.quantity)
    (hq : best.quantity < W64)
    (h : fillBest lst ob .ask best n = .ok ob') :
    ob' = (ob.putAsks (shrink best n ++ A)).push
      (if best.quantity = n then [best.out .ask true 0 0] else []) := by
  unfold fillBest at h
  rw [wsub_eq hn hq] at h
  simp only [hA, setFirst, unwrap, Except.map] at h
  obtain ⟨b, hb, h⟩ := bind_ok h
  simp only [Except.ok.injEq] at hb
  subst hb
  by_cases h0 : best.quantity = n
  · have e : best.quantity - n = 0 := by omega
    simp only [e, beq_self_eq_true, if_true] at h
    obtain ⟨o2, ho, h⟩ := bind_ok h
    obtain ⟨rfl, _⟩ := pushEv_lst ho
    obtain ⟨x, hx, h⟩ := bind_ok h
    simp only [Except.ok.injEq] at hx
    subst hx
    simp only at h
    obtain ⟨y, hy, h⟩ := bind_ok h
    simp only [pure, Except.pure, Except.ok.injEq] at h
    subst h
    rw [hA] at hs
    simp only [shrink, h0, if_true, List.nil_append, Ob.push_asks]
    rw [filter_first (by rfl) hs]
    rfl
  · have e : ¬ (best.quantity - n == 0) = true := by simp; omega
    simp only [e] at h
    simp only [pure, Except.pure] at h
    simp only [Bool.false_eq_true, if_false, Except.ok.injEq] at h
    subst h
    simp only [shrink, h0, if_false, Ob.push_nil]
    rfl

theorem shrink_owner {best l : Leaf} {n : Nat} (h : l ∈ shrink best n) :
    l = { best with quantity := best.quantity - n } ∧ best.quantity ≠ n := by
  unfold shrink at h
  split at h
  · simp at h
  · rename_i hne
    simp at h
    exact ⟨h, hne⟩

theorem nzPrice_ok {l : Leaf} {x : Nat} (h : nzPrice l = .ok x) : x = l.price ∧ l.price ≠ 0 := by
  unfold nzPrice at h
  split at h
  · cases h
  · rename_i hne
    simp only [Except.ok.injEq] at h
    exact ⟨h.symm, hne⟩

/-- The part of `newAsk` that does not trade. -/
theorem askFinish_done {ob ob' : Ob lst} {p : IterParams} {r : Option Remaining} {crossed : Bool}
    (hm : MktOk ob.mkt) (hb : BookOk ob.mkt ob.bids.items ob.asks.items)
    (hq0 : 0 < p.coinQty) (hq : p.coinQty < W64)
    (hfresh : p.orderId ∉ ob.asks.items.map (·.key))
    (hcr : (crossed = false ∧ ∀ b, ob.bids.items.getLast? = some b → b.price < p.limitPrice) ∨
      (crossed = true ∧ p.postOnly = true ∧
        ∃ b, ob.bids.items.getLast? = some b ∧ p.limitPrice ≤ b.price))
    (h : askFinish lst ob p p.coinQty 0 0 true crossed = .ok (ob', r)) : ∃ ts f, AskStep p ob ob' r ts f := by
  unfold askFinish at h
  obtain ⟨o2, h1, h'⟩ := bind_ok h
  clear h
  have := askSettle_zero hm hq h1
  subst this
  clear h1
  have h := h'
  clear h'
  simp only [Bool.not_true, Bool.false_and, Bool.false_eq_true, if_false] at h
  obtain ⟨o3, h2, h⟩ := bind_ok h
  simp only [pure, Except.pure, Except.ok.injEq, Prod.mk.injEq] at h
  obtain ⟨rfl, rfl⟩ := h
  unfold askRest at h2
  have hlim' : ∀ b, o2.bids.items.getLast? = some b → b.price < p.limitPrice ∨ p.postOnly = true := by
    intro b hb'
    rcases hcr with ⟨_, h⟩ | ⟨_, h, _⟩
    · exact .inl (h b hb')
    · exact .inr h
  split at h2
  · rename_i hc
    simp only [Bool.and_eq_true, Bool.not_eq_true', decide_eq_true_eq] at hc
    obtain ⟨⟨hpa, hnc⟩, _⟩ := hc
    obtain ⟨_, hns, h2⟩ := bind_ok h2
    rw [checkAssert_ok] at hns
    have hown : p.owner ≠ 0 := by simpa [IterParams.isSendTake] using hns
    have hlim : ∀ b, o2.bids.items.getLast? = some b → b.price < p.limitPrice := by
      rcases hcr with ⟨_, h⟩ | ⟨h, _⟩
      · exact h
      · rw [h] at hnc; cases hnc
    rcases postAsk_inv hb hfresh h2 with ⟨hc, rfl⟩ | ⟨hc, A, l, hA, rfl⟩
    · exact ⟨_, _, .post hlim hpa hown hc⟩
    · exact ⟨_, _, .evict A l hlim hpa hown hc hA⟩
  · rename_i hc
    split at h2
    · rename_i hs
      simp only [pure, Except.pure, Except.ok.injEq] at h2
      subst h2
      exact ⟨_, _, .stop hlim' (by simpa [IterParams.isSendTake] using hs)⟩
    · rename_i hs
      have hown : p.owner ≠ 0 := by simpa [IterParams.isSendTake] using hs
      obtain ⟨pr, h3, h2⟩ := bind_ok h2
      unfold Proceeds.unlockCoin at h3
      obtain ⟨x, hx, h3⟩ := bind_ok h3
      rw [unwrap_ok, checkedAdd_some] at hx
      simp only [pure, Except.pure, Except.ok.injEq] at h3
      subst h3
      obtain ⟨hlt, rfl⟩ := hx
      obtain ⟨rfl, _⟩ := pushEv_lst h2
      refine ⟨_, _, .release hlim' ?_ hown hlt⟩
      rcases hcr with ⟨hcf, _⟩ | ⟨_, _, h⟩
      · left
        simp [hcf, hq0] at hc
        exact hc
      · right; exact h

theorem newAsk_inv {ob ob' : Ob lst} {p : IterParams} {r : Option Remaining}
    (hm : MktOk ob.mkt) (hb : BookOk ob.mkt ob.bids.items ob.asks.items)
    (hq0 : 0 < p.coinQty) (hq : p.coinQty < W64)
    (hfresh : p.orderId ∉ ob.asks.items.map (·.key))
    (h : newAsk lst ob p = .ok (ob', r)) : ∃ ts f, AskStep p ob ob' r ts f := by
  unfold newAsk at h
  obtain ⟨bo, hbo, h⟩ := bind_ok h
  simp only [Except.ok.injEq] at hbo
  subst hbo
  split at h
  · rename_i hnone
    refine askFinish_done hm hb hq0 hq hfresh (.inl ⟨rfl, ?_⟩) h
    intro b hb'
    rw [hnone] at hb'; cases hb'
  · rename_i best hbest
    obtain ⟨price, hpr, h⟩ := bind_ok h
    obtain ⟨rfl, hp0⟩ := nzPrice_ok hpr
    obtain ⟨B, hB⟩ := List.getLast?_eq_some_iff.1 hbest
    have hmem : best ∈ ob.bids.items := by rw [hB]; simp
    simp only at h
    have hq0' := hb.bidQty _ hmem
    have hval := hb.bidVal _ hmem
    have hpl := hm.pcLot
    have hqp : best.quantity * best.price < W64 :=
      Nat.lt_of_le_of_lt (Nat.le_mul_of_pos_right _ hpl) hval
    have hbq : best.quantity < W64 :=
      Nat.lt_of_le_of_lt (Nat.le_mul_of_pos_right _ (by omega)) hqp
    by_cases hlim : p.limitPrice ≤ best.price
    · simp only [hlim, decide_true, Bool.not_true, Bool.false_or] at h
      by_cases hpo : p.postOnly = true
      · rw [if_pos hpo] at h
        exact askFinish_done hm hb hq0 hq hfresh (.inr ⟨rfl, hpo, best, hbest, hlim⟩) h
      · rw [if_neg hpo] at h
        have hpo' : p.postOnly = false := by simpa using hpo
        have htq : ¬ (min best.quantity p.coinQty == 0) = true := by simp; omega
        rw [if_neg htq] at h
        have htle : min best.quantity p.coinQty ≤ best.quantity := Nat.min_le_left _ _
        by_cases hown : p.owner = best.owner
        · have hown' : (p.owner == best.owner) = true := by simp [hown]
          rw [if_pos hown'] at h
          unfold askSelfTrade at h
          obtain ⟨⟨provide, take⟩, hst, h⟩ := bind_ok h
          have hst' : (p.stb = .decrementTake ∧ provide = min best.quantity p.coinQty ∧
              take = min best.quantity p.coinQty) ∨
              (p.stb = .cancelProvide ∧ provide = best.quantity ∧ take = 0) := by
            unfold selfTradeQty at hst
            split at hst
            · simp only [Except.ok.injEq, Prod.mk.injEq] at hst
              left; refine ⟨by assumption, hst.1.symm, hst.2.symm⟩
            · simp only [Except.ok.injEq, Prod.mk.injEq] at hst
              right; refine ⟨by assumption, hst.1.symm, hst.2.symm⟩
            · cases hst
          have hple : provide ≤ best.quantity := by
            rcases hst' with ⟨_, h, _⟩ | ⟨_, h, _⟩ <;> omega
          have htle' : take ≤ p.coinQty := by
            rcases hst' with ⟨_, _, h⟩ | ⟨_, _, h⟩ <;> omega
          simp only at h
          obtain ⟨o2, ho2, h⟩ := bind_ok h
          obtain ⟨rfl, _⟩ := pushEv_lst ho2
          obtain ⟨o3, ho3, h⟩ := bind_ok h
          rw [wsub_eq hple hbq] at ho3
          have := shrinkBest_bid (ob := ob.push _) hB hb.bidSort hple ho3
          subst this
          obtain ⟨o4, ho4, h⟩ := bind_ok h
          obtain ⟨rfl, _⟩ := pushEv_lst ho4
          obtain ⟨pr, hpr', h⟩ := bind_ok h
          unfold Proceeds.unlockCoin at hpr'
          obtain ⟨x, hx, hpr'⟩ := bind_ok hpr'
          rw [unwrap_ok, checkedAdd_some] at hx
          simp only [pure, Except.pure, Except.ok.injEq, Prod.mk.injEq] at h hpr'
          subst hpr'
          obtain ⟨hlt, rfl⟩ := hx
          obtain ⟨rfl, rfl⟩ := h
          have hs := AskStep.selfTrade (p := p) (ob := ob) B best provide take hB hlim hpo' hown hst' hlt
          have e1 : provide * best.price * ob.mkt.pcLot < W64 :=
            Nat.lt_of_le_of_lt (Nat.mul_le_mul_right _ (Nat.mul_le_mul_right _ hple)) hval
          have e2 : provide * best.price < W64 :=
            Nat.lt_of_le_of_lt (Nat.mul_le_mul_right _ hple) hqp
          have e3 : (best.quantity - provide) * best.price * ob.mkt.pcLot < W64 :=
            Nat.lt_of_le_of_lt (Nat.mul_le_mul_right _ (Nat.mul_le_mul_right _ (Nat.sub_le _ _))) hval
          have e4 : (best.quantity - provide) * best.price < W64 :=
            Nat.lt_of_le_of_lt (Nat.mul_le_mul_right _ (Nat.sub_le _ _)) hqp
          rw [wsub_eq htle' hq, wmul_eq e2, wmul_eq e1, wmul_eq e4, wmul_eq e3]
          have e5 : (p.coinQty - take = 0) = (p.coinQty = take) := by
            apply propext; omega
          simp only [e5]
          exact hs.cast (by simp [Ob.push, Ob.putBids, Ob.putPr])
        · have hown' : ¬ (p.owner == best.owner) = true := by simp [hown]
          rw [if_neg hown'] at h
          have htle2 : min best.quantity p.coinQty ≤ p.coinQty := Nat.min_le_right _ _
          have htpos : 0 < min best.quantity p.coinQty := by omega
          generalize hT : min best.quantity p.coinQty = tq at h htle htle2 htpos
          have e1 : tq * best.price * ob.mkt.pcLot < W64 :=
            Nat.lt_of_le_of_lt (Nat.mul_le_mul_right _ (Nat.mul_le_mul_right _ htle)) hval
          have e2 : tq * best.price < W64 :=
            Nat.lt_of_le_of_lt (Nat.mul_le_mul_right _ htle) hqp
          have hpcpos : 0 < tq * best.price * ob.mkt.pcLot :=
            Nat.mul_pos (Nat.mul_pos htpos (by omega)) hpl
          simp only [wmul_eq e2, wmul_eq e1, makerRebate_zero _ e1] at h
          have e0 : wsub (tq * best.price * ob.mkt.pcLot) 0 = tq * best.price * ob.mkt.pcLot :=
            wsub_eq (Nat.zero_le _) e1
          rw [e0] at h
          obtain ⟨o2, ho2, h⟩ := bind_ok h
          obtain ⟨rfl, _⟩ := pushEv_lst ho2
          obtain ⟨o3, ho3, h⟩ := bind_ok h
          have := fillBest_bid (ob := ob.push _) hB hb.bidSort htle hbq ho3
          subst this
          rw [wsub_eq htle2 hq] at h
          unfold askFinish at h
          obtain ⟨o4, ho4, h⟩ := bind_ok h
          unfold askSettle at ho4
          have hmk : ∀ (o : Ob lst) (L : List Leaf) (u v : List EventView),
              (((o.push u).putBids L).push v).mkt = o.mkt := fun _ _ _ _ => rfl
          have hprr : ∀ (o : Ob lst) (L : List Leaf) (u v : List EventView),
              (((o.push u).putBids L).push v).pr = o.pr := fun _ _ _ _ => rfl
          have e3 : wsub p.coinQty (p.coinQty - tq) = tq := by
            rw [wsub_eq (by omega) hq]; omega
          have hfle := takerFee_le p.feeTier e1
          simp only [hmk, hprr, wmul_eq e1, e3, wsub_eq hfle e1] at ho4
          obtain ⟨pr1, hp1, ho4⟩ := bind_ok ho4
          obtain ⟨pr2, hp2, ho4⟩ := bind_ok ho4
          unfold Proceeds.creditPc at hp1
          obtain ⟨x, hx, hp1⟩ := bind_ok hp1
          rw [unwrap_ok, checkedAdd_some] at hx
          unfold Proceeds.addDebitCoin at hp2
          obtain ⟨y, hy, hp2⟩ := bind_ok hp2
          rw [unwrap_ok, checkedAdd_some] at hy
          simp only [pure, Except.pure, Except.ok.injEq] at hp1 hp2
          subst hp1
          subst hp2
          obtain ⟨hx1, rfl⟩ := hx
          obtain ⟨hy1, rfl⟩ := hy
          obtain ⟨o5, ho5, ho4⟩ := bind_ok ho4
          have hgoal := AskStep.fill (p := p) (ob := ob) B best tq _ hB hlim hpo' hown hT.symm rfl hy1 hx1
          simp only [pure, Except.pure, Except.ok.injEq] at ho4
          subst ho4
          have h0 : ¬ p.coinQty - tq = 0 ↔ ¬ p.coinQty = tq := by omega
          unfold pushIf at ho5
          have hpc' : (decide (tq * best.price * ob.mkt.pcLot > 0) && !p.isSendTake) = !p.isSendTake := by
            simp [hpcpos]
          rw [hpc'] at ho5
          by_cases hs : p.owner = 0
          · have hs' : p.isSendTake = true := by simp [IterParams.isSendTake, hs]
            simp only [hs', Bool.not_true, Bool.false_eq_true, if_false, Except.ok.injEq] at ho5
            subst ho5
            have hev : askFillEvs ob.mkt p best tq =
                [EventView.fill .bid true (tq * best.price * ob.mkt.pcLot) (wmul tq ob.mkt.coinLot) 0
                  best.key best.owner best.ownerSlot best.feeTier best.clientId]
                ++ (if best.quantity = tq then [best.out .bid true 0 0] else []) := by
              simp [askFillEvs, hs]
            rw [hev] at hgoal
            by_cases hr : p.coinQty = tq
            · have hr' : p.coinQty - tq = 0 := by omega
              simp only [hr', bne_self_eq_false, Bool.and_false, Bool.false_eq_true, if_false] at h
              obtain ⟨o6, ho6, h⟩ := bind_ok h
              simp only [pure, Except.pure, Except.ok.injEq, Prod.mk.injEq] at h
              obtain ⟨rfl, rfl⟩ := h
              unfold askRest at ho6
              simp [hs', pure, Except.pure] at ho6
              subst ho6
              rw [if_pos hr] at hgoal
              exact hgoal.cast (by simp [Ob.push, Ob.putBids, Ob.putPr, Ob.putMkt])
            · have hr' : (p.coinQty - tq != 0) = true := by simp; omega
              simp only [hr', Bool.not_false, Bool.and_self, if_true, pure, Except.pure,
                Except.ok.injEq, Prod.mk.injEq] at h
              obtain ⟨rfl, rfl⟩ := h
              rw [if_neg hr] at hgoal
              exact hgoal.cast (by simp [Ob.push, Ob.putBids, Ob.putPr, Ob.putMkt])
          · have hs' : p.isSendTake = false := by simp [IterParams.isSendTake, hs]
            simp only [hs', Bool.not_false, if_true] at ho5
            obtain ⟨rfl, _⟩ := pushEv_lst ho5
            by_cases hr : p.coinQty = tq
            · have hr' : p.coinQty - tq = 0 := by omega
              simp only [hr', bne_self_eq_false, Bool.and_false, Bool.false_eq_true, if_false] at h
              obtain ⟨o6, ho6, h⟩ := bind_ok h
              simp only [pure, Except.pure, Except.ok.injEq, Prod.mk.injEq] at h
              obtain ⟨rfl, rfl⟩ := h
              unfold askRest at ho6
              simp only [hs', Nat.lt_irrefl, decide_false, Bool.and_false, Bool.false_eq_true,
                if_false, gt_iff_lt] at ho6
              obtain ⟨pr, hpr', ho6⟩ := bind_ok ho6
              unfold Proceeds.unlockCoin at hpr'
              obtain ⟨x, hx, hpr'⟩ := bind_ok hpr'
              rw [unwrap_ok, checkedAdd_some] at hx
              simp only [pure, Except.pure, Except.ok.injEq] at hpr'
              subst hpr'
              obtain ⟨hlt, rfl⟩ := hx
              obtain ⟨rfl, _⟩ := pushEv_lst ho6
              rw [if_pos hr] at hgoal
              have hz : ∀ x, wmul 0 x = 0 := by intro x; unfold wmul; simp
              exact hgoal.cast (by simp [Ob.push, Ob.putBids, Ob.putPr, Ob.putMkt, askFillEvs, hs, hr, hz])
            · have hr' : (p.coinQty - tq != 0) = true := by simp; omega
              simp only [hr', Bool.not_false, Bool.and_self, if_true, pure, Except.pure,
                Except.ok.injEq, Prod.mk.injEq] at h
              obtain ⟨rfl, rfl⟩ := h
              rw [if_neg hr] at hgoal
              exact hgoal.cast (by simp [Ob.push, Ob.putBids, Ob.putPr, Ob.putMkt, askFillEvs, hs, hr])
    · simp only [hlim, decide_false, Bool.not_false, Bool.true_or, if_true] at h
      refine askFinish_done hm hb hq0 hq hfresh (.inl ⟨rfl, ?_⟩) h
      intro b hb'
      rw [hbest] at hb'
      simp only [Option.some.injEq] at hb'
      subst hb'
      omega

/-! ### Bids -/

/-- Lots an incoming bid can take from the best ask within its locked funds. -/
def bidTradeQty (m : Market) (p : IterParams) (best : Leaf) : Nat :=
  min (min best.quantity p.coinQty) (p.feeTier.removeTakerFee p.pcLocked / m.pcLot / best.price)

/-- Events of a fill by an incoming bid. `left` is what remains locked. -/
def bidFillEvs (m : Market) (p : IterParams) (best : Leaf) (tq left : Nat) : List EventView :=
  [.fill .ask true (tq * m.coinLot) (tq * best.price * m.pcLot) 0 best.key best.owner best.ownerSlot
      best.feeTier best.clientId]
  ++ (if best.quantity = tq then [best.out .ask true 0 0] else [])
  ++ (if p.owner = 0 then [] else
      [.fill .bid false
        (tq * best.price * m.pcLot + p.feeTier.takerFee (tq * best.price * m.pcLot)) (tq * m.coinLot)
        (p.feeTier.takerFee (tq * best.price * m.pcLot)) p.orderId p.owner p.ownerSlot p.feeTier
        p.clientId])
  ++ (if p.owner = 0 then [] else if p.coinQty ≠ tq ∧ left ≠ 0 then [] else [p.out .bid left 0])

/-- Possible outcomes of one round of an incoming bid. -/
inductive BidStep (p : IterParams) (ob : Ob lst) : Ob lst → Option Remaining → List Touch → Option Posting → Prop where
  /-- The order rests on the book; the funds it does not need are released. -/
  | post (qty : Nat) (hlim : ∀ b, ob.asks.items.head? = some b → p.limitPrice < b.price)
      (hpa : p.postAllowed = true) (hns : p.owner ≠ 0)
      (hqty : qty = min p.coinQty (p.pcLocked / ob.mkt.pcLot / p.limitPrice)) (hq0 : 0 < qty)
      (hle : qty * p.limitPrice * ob.mkt.pcLot ≤ p.pcLocked)
      (hb : ob.pr.pcUnlocked + (p.pcLocked - qty * p.limitPrice * ob.mkt.pcLot) < W64)
      (hcap : 2 * ob.bids.items.length + 1 ≤ ob.bids.cap) :
      BidStep p ob
        (((ob.putPr { ob.pr with
              pcUnlocked := ob.pr.pcUnlocked + (p.pcLocked - qty * p.limitPrice * ob.mkt.pcLot) }).putBids
            (insKey (p.leaf qty) ob.bids.items)).push
          [p.out .bid (p.pcLocked - qty * p.limitPrice * ob.mkt.pcLot)
            (qty * p.limitPrice * ob.mkt.pcLot)]) none [] (some ⟨qty, none⟩)
  /-- The order rests on a full book in place of the lowest bid. -/
  | evict (qty : Nat) (B : List Leaf) (l : Leaf)
      (hlim : ∀ b, ob.asks.items.head? = some b → p.limitPrice < b.price)
      (hpa : p.postAllowed = true) (hns : p.owner ≠ 0)
      (hqty : qty = min p.coinQty (p.pcLocked / ob.mkt.pcLot / p.limitPrice)) (hq0 : 0 < qty)
      (hle : qty * p.limitPrice * ob.mkt.pcLot ≤ p.pcLocked)
      (hb : ob.pr.pcUnlocked + (p.pcLocked - qty * p.limitPrice * ob.mkt.pcLot) < W64)
      (hcap : ¬ 2 * ob.bids.items.length + 1 ≤ ob.bids.cap) (hB : ob.bids.items = l :: B) :
      BidStep p ob
        (((ob.putPr { ob.pr with
              pcUnlocked := ob.pr.pcUnlocked + (p.pcLocked - qty * p.limitPrice * ob.mkt.pcLot) }).putBids
            (insKey (p.leaf qty) B)).push
          [p.out .bid (p.pcLocked - qty * p.limitPrice * ob.mkt.pcLot)
            (qty * p.limitPrice * ob.mkt.pcLot),
           l.out .bid true (l.quantity * l.price * ob.mkt.pcLot) 0]) none [] (some ⟨qty, some l⟩)
  /-- The order may not rest and its locked funds are released. -/
  | release
      (hlim : ∀ b, ob.asks.items.head? = some b →
        p.limitPrice < b.price ∨ p.postOnly = true ∨ bidTradeQty ob.mkt p b = 0)
      (hwhy : p.postAllowed = false ∨ p.pcLocked / ob.mkt.pcLot / p.limitPrice = 0 ∨
        ∃ b, ob.asks.items.head? = some b ∧ b.price ≤ p.limitPrice)
      (hns : p.owner ≠ 0) (hb : ob.pr.pcUnlocked + p.pcLocked < W64) :
      BidStep p ob ((ob.putPr { ob.pr with pcUnlocked := ob.pr.pcUnlocked + p.pcLocked }).push
        [p.out .bid p.pcLocked 0]) none [] none
  /-- A send-take stops. -/
  | stop (hlim : ∀ b, ob.asks.items.head? = some b →
        p.limitPrice < b.price ∨ p.postOnly = true ∨ bidTradeQty ob.mkt p b = 0)
      (hs : p.owner = 0) : BidStep p ob ob none [] none
  /-- The best ask belongs to the same account. -/
  | selfTrade (A : List Leaf) (best : Leaf) (provide take unlocked still : Nat)
      (hA : ob.asks.items = best :: A)
      (hpr : best.price ≤ p.limitPrice) (hpo : p.postOnly = false) (hown : p.owner = best.owner)
      (htq : 0 < bidTradeQty ob.mkt p best)
      (hst : (p.stb = .decrementTake ∧ provide = bidTradeQty ob.mkt p best ∧
          take = bidTradeQty ob.mkt p best) ∨
        (p.stb = .cancelProvide ∧ provide = best.quantity ∧ take = 0))
      (hle : take * best.price * ob.mkt.pcLot ≤ p.pcLocked)
      (hgo : (p.coinQty ≠ take ∧ p.pcLocked ≠ take * best.price * ob.mkt.pcLot ∧
          unlocked = take * best.price * ob.mkt.pcLot ∧
          still = p.pcLocked - take * best.price * ob.mkt.pcLot) ∨
        ((p.coinQty = take ∨ p.pcLocked = take * best.price * ob.mkt.pcLot) ∧
          unlocked = p.pcLocked ∧ still = 0))
      (hb : ob.pr.pcUnlocked + unlocked < W64) :
      BidStep p ob
        (((ob.putAsks (shrink best provide ++ A)).putPr
            { ob.pr with pcUnlocked := ob.pr.pcUnlocked + unlocked }).push
          [best.out .ask true (provide * ob.mkt.coinLot) ((best.quantity - provide) * ob.mkt.coinLot),
           p.out .bid unlocked still])
        (if still = 0 then none else some ⟨p.coinQty - take, still⟩) [⟨best, provide, false⟩] none
  /-- A fill against the best ask. -/
  | fill (A : List Leaf) (best : Leaf) (tq pc fee left : Nat) (hA : ob.asks.items = best :: A)
      (hpr : best.price ≤ p.limitPrice) (hpo : p.postOnly = false) (hown : p.owner ≠ best.owner)
      (htq : tq = bidTradeQty ob.mkt p best) (htpos : 0 < tq)
      (hpc : pc = tq * best.price * ob.mkt.pcLot) (hfee : fee = p.feeTier.takerFee pc)
      (hleft : pc + fee + left = p.pcLocked)
      (hb : ob.pr.coinCredit + tq < W64) (hb2 : ob.pr.pcDebit + (pc + fee) < W64) :
      BidStep p ob
        ((((ob.putAsks (shrink best tq ++ A)).putPr
            { ob.pr with
              coinCredit := ob.pr.coinCredit + tq
              pcDebit := ob.pr.pcDebit + (pc + fee)
              pcUnlocked := ob.pr.pcUnlocked +
                if p.owner = 0 ∨ (p.coinQty ≠ tq ∧ left ≠ 0) then 0 else left }).putMkt
                  (ob.mkt.accrueFees fee 0)).push
          (bidFillEvs ob.mkt p best tq left))
        (if p.coinQty ≠ tq ∧ left ≠ 0 then some ⟨p.coinQty - tq, left⟩ else none) [⟨best, tq, true⟩] none

theorem BidStep.cast {p : IterParams} {ob o o' : Ob lst} {r r' : Option Remaining} {ts : List Touch}
    {f : Option Posting} (h : BidStep p ob o r ts f) (e : o = o') (e2 : r = r') :
    ∃ ts f, BidStep p ob o' r' ts f := ⟨ts, f, e ▸ e2 ▸ h⟩

theorem bidSettle_zero {ob ob' : Ob lst} {p : IterParams} {rem : Nat} (hm : MktOk ob.mkt)
    (hq : p.coinQty < W64) (hl : p.pcLocked < W64)
    (h : bidSettle lst ob p p.coinQty 0 0 = .ok (ob', rem)) : ob' = ob ∧ rem = p.pcLocked := by
  unfold bidSettle at h
  have e0 : wmul 0 ob.mkt.pcLot = 0 := by unfold wmul; simp
  have e1 : wsub p.coinQty p.coinQty = 0 := by rw [wsub_eq (Nat.le_refl _) hq]; omega
  have e2 : wadd 0 0 = 0 := by decide
  have e3 : wsub p.pcLocked 0 = p.pcLocked := wsub_eq (Nat.zero_le _) hl
  simp only [e0, e1, takerFee_zero, e2, e3] at h
  obtain ⟨pr, h1, h⟩ := bind_ok h
  obtain ⟨pr', h2, h⟩ := bind_ok h
  unfold Proceeds.creditCoin at h1
  obtain ⟨x, hx, h1⟩ := bind_ok h1
  rw [unwrap_ok, checkedAdd_some] at hx
  unfold Proceeds.addDebitPc at h2
  obtain ⟨y, hy, h2⟩ := bind_ok h2
  rw [unwrap_ok, checkedAdd_some] at hy
  simp only [pure, Except.pure, Except.ok.injEq] at h1 h2
  subst h1
  subst h2
  obtain ⟨_, rfl⟩ := hx
  obtain ⟨_, rfl⟩ := hy
  simp [pushIf, bind, Except.bind, pure, Except.pure, accrueFees_zero hm] at h
  exact ⟨h.1.symm, h.2.symm⟩

theorem postBid_inv {ob ob' : Ob lst} {p : IterParams} {qty : Nat} (hpl : 0 < ob.mkt.pcLot)
    (hb : BookOk ob.mkt ob.bids.items ob.asks.items)
    (hfresh : p.orderId ∉ ob.bids.items.map (·.key)) (h : postBid lst ob p qty = .ok ob') :
    (2 * ob.bids.items.length + 1 ≤ ob.bids.cap ∧ ob' = ob.putBids (insKey (p.leaf qty) ob.bids.items)) ∨
    (¬ 2 * ob.bids.items.length + 1 ≤ ob.bids.cap ∧ ∃ B l, ob.bids.items = l :: B ∧
      ob' = (ob.putBids (insKey (p.leaf qty) B)).push
        [l.out .bid true (l.quantity * l.price * ob.mkt.pcLot) 0]) := by
  unfold postBid at h
  have hkey : (p.leaf qty).key = p.orderId := rfl
  simp only [hkey, hfresh, false_or] at h
  by_cases hc : 2 * ob.bids.items.length + 1 ≤ ob.bids.cap
  · left
    simp only [hc, if_true, bind, Except.bind, pure, Except.pure, Except.ok.injEq] at h
    exact ⟨hc, h.symm⟩
  · right
    simp only [hc, if_false] at h
    refine ⟨hc, ?_⟩
    obtain ⟨x, hx, h⟩ := bind_ok h
    simp only [Except.ok.injEq] at hx
    subst hx
    obtain ⟨x, hx, h⟩ := bind_ok h
    simp only [Except.ok.injEq] at hx
    subst hx
    simp only at h
    obtain ⟨l, hl, h⟩ := bind_ok h
    rw [unwrap_ok] at hl
    obtain ⟨B, hB⟩ := List.head?_eq_some_iff.1 hl
    obtain ⟨price, hpr, h⟩ := bind_ok h
    obtain ⟨rfl, hp0⟩ := nzPrice_ok hpr
    obtain ⟨o2, ho, h⟩ := bind_ok h
    obtain ⟨rfl, _⟩ := pushEv_lst ho
    have hmem : l ∈ ob.bids.items := by rw [hB]; simp
    obtain ⟨x, hx, h⟩ := bind_ok h
    have hfr : ¬ (p.orderId ∈ List.map (·.key) B) := by
      intro hin; apply hfresh; rw [hB, List.map_cons]; exact List.mem_cons_of_mem _ hin
    simp only [Ob.push_bids, hB, List.tail_cons, hfr, false_or] at hx
    split at hx
    · simp only [Except.ok.injEq] at hx
      subst hx
      simp only [rustAssert, if_true, bind, Except.bind, pure, Except.pure, Except.ok.injEq] at h
      refine ⟨B, l, hB, ?_⟩
      subst h
      have hv := hb.bidVal l hmem
      rw [wmul_eq (Nat.lt_of_le_of_lt (Nat.le_mul_of_pos_right _ hpl) hv), wmul_eq hv]
      rfl
    · simp only [Except.ok.injEq] at hx
      subst hx
      simp [rustAssert, bind, Except.bind] at h

/-- The part of `newBid` that does not trade. -/
theorem bidFinish_done {ob ob' : Ob lst} {p : IterParams} {r : Option Remaining} {crossed : Bool}
    (hm : MktOk ob.mkt) (hb : BookOk ob.mkt ob.bids.items ob.asks.items)
    (hq0 : 0 < p.coinQty) (hq : p.coinQty < W64) (hl : p.pcLocked < W64) (hp0 : 0 < p.limitPrice)
    (hst : p.owner = 0 → p.postAllowed = false)
    (hfresh : p.orderId ∉ ob.bids.items.map (·.key))
    (hcr : (crossed = false ∧ ∀ b, ob.asks.items.head? = some b → p.limitPrice < b.price) ∨
      (crossed = true ∧ ∃ b, ob.asks.items.head? = some b ∧ b.price ≤ p.limitPrice ∧
        (p.postOnly = true ∨ bidTradeQty ob.mkt p b = 0)))
    (h : bidFinish lst ob p p.coinQty 0 0 true crossed = .ok (ob', r)) : ∃ ts f, BidStep p ob ob' r ts f := by
  unfold bidFinish at h
  obtain ⟨⟨o2, rem⟩, h1, h'⟩ := bind_ok h
  clear h
  obtain ⟨e1, e2⟩ := bidSettle_zero hm hq hl h1
  subst e1
  subst e2
  clear h1
  have h := h'
  clear h'
  simp only [Bool.not_true, Bool.false_and, Bool.false_eq_true, if_false] at h
  obtain ⟨o3, h2, h⟩ := bind_ok h
  simp only [pure, Except.pure, Except.ok.injEq, Prod.mk.injEq] at h
  obtain ⟨rfl, rfl⟩ := h
  unfold bidRest at h2
  have hlim' : ∀ b, o2.asks.items.head? = some b →
      p.limitPrice < b.price ∨ p.postOnly = true ∨ bidTradeQty o2.mkt p b = 0 := by
    intro b hb'
    rcases hcr with ⟨_, h⟩ | ⟨_, b', h, _, h'⟩
    · exact .inl (h b hb')
    · rw [hb'] at h
      simp only [Option.some.injEq] at h
      subst h
      exact .inr h'
  have hpl := hm.pcLot
  simp only at h2
  have hle0 : ∀ qty, qty ≤ p.pcLocked / o2.mkt.pcLot / p.limitPrice →
      qty * p.limitPrice * o2.mkt.pcLot ≤ p.pcLocked := by
    intro qty hqty
    have h1 : qty * p.limitPrice ≤ p.pcLocked / o2.mkt.pcLot := (Nat.le_div_iff_mul_le hp0).1 hqty
    exact (Nat.le_div_iff_mul_le hpl).1 h1
  by_cases hs : p.owner = 0
  · have hs' : p.isSendTake = true := by simp [IterParams.isSendTake, hs]
    have hpa := hst hs
    have hz : wmul 0 p.limitPrice = 0 := by unfold wmul; simp
    simp [bidPostQty, hpa, hz, bidRelease, hs', bind, Except.bind, pure, Except.pure] at h2
    subst h2
    exact ⟨_, _, .stop hlim' hs⟩
  · have hs' : p.isSendTake = false := by simp [IterParams.isSendTake, hs]
    obtain ⟨o4, h4, h2⟩ := bind_ok h2
    unfold bidRelease at h4
    simp only [hs', Bool.false_eq_true, if_false] at h4
    obtain ⟨pr, h3, h4⟩ := bind_ok h4
    unfold Proceeds.unlockPc at h3
    obtain ⟨x, hx, h3⟩ := bind_ok h3
    rw [unwrap_ok, checkedAdd_some] at hx
    simp only [pure, Except.pure, Except.ok.injEq] at h3
    subst h3
    obtain ⟨hlt, rfl⟩ := hx
    obtain ⟨rfl, _⟩ := pushEv_lst h4
    generalize hQ : bidPostQty o2.mkt p p.coinQty p.pcLocked crossed = qty at h2 hlt
    have hqle : qty ≤ p.pcLocked / o2.mkt.pcLot / p.limitPrice := by
      subst hQ; unfold bidPostQty; split
      · exact Nat.min_le_right _ _
      · exact Nat.zero_le _
    have hle := hle0 qty hqle
    have e1 : qty * p.limitPrice * o2.mkt.pcLot < W64 := Nat.lt_of_le_of_lt hle hl
    have e2 : qty * p.limitPrice < W64 := Nat.lt_of_le_of_lt (Nat.le_mul_of_pos_right _ hpl) e1
    simp only [wmul_eq e2, wmul_eq e1, wsub_eq hle hl] at h2 hlt
    by_cases hz : qty = 0
    · subst hz
      have hng : ¬ (0 * p.limitPrice > 0) := by simp
      rw [if_neg hng] at h2
      simp only [pure, Except.pure, Except.ok.injEq] at h2
      subst h2
      simp only [Nat.zero_mul, Nat.sub_zero] at hlt ⊢
      refine ⟨_, _, .release hlim' ?_ hs hlt⟩
      unfold bidPostQty at hQ
      split at hQ
      · right; left; omega
      · rename_i hc
        rcases hcr with ⟨hcf, _⟩ | ⟨_, b, hb1, hb2, _⟩
        · left
          simp only [hcf] at hc
          cases hpa : p.postAllowed with
          | false => rfl
          | true => exfalso; apply hc; simp [hpa]; omega
        · right; right; exact ⟨b, hb1, hb2⟩
    · have hpos : qty * p.limitPrice > 0 := Nat.mul_pos (by omega) hp0
      rw [if_pos hpos] at h2
      have hall : p.limitPrice ≠ 0 ∧ p.postAllowed = true ∧ ¬ crossed = true ∧
          qty = min p.coinQty (p.pcLocked / o2.mkt.pcLot / p.limitPrice) := by
        unfold bidPostQty at hQ
        split at hQ
        · rename_i hc
          exact ⟨hc.1, hc.2.1, hc.2.2, hQ.symm⟩
        · omega
      obtain ⟨_, hpa, hnc, hqty⟩ := hall
      have hlim : ∀ b, o2.asks.items.head? = some b → p.limitPrice < b.price := by
        rcases hcr with ⟨_, h⟩ | ⟨h, _⟩
        · exact h
        · exact absurd h hnc
      have hinv := fun a b c => postBid_inv a b c h2
      rcases hinv hpl hb hfresh with ⟨hc, rfl⟩ | ⟨hc, B, l, hB, rfl⟩
      · exact (BidStep.post qty hlim hpa hs hqty (by omega) hle hlt hc).cast
          (by simp [Ob.push, Ob.putBids, Ob.putPr]) rfl
      · exact (BidStep.evict qty B l hlim hpa hs hqty (by omega) hle hlt hc hB).cast
          (by simp [Ob.push, Ob.putBids, Ob.putPr]) rfl

theorem newBid_inv {ob ob' : Ob lst} {p : IterParams} {r : Option Remaining}
    (hm : MktOk ob.mkt) (hb : BookOk ob.mkt ob.bids.items ob.asks.items)
    (hq0 : 0 < p.coinQty) (hq : p.coinQty < W64) (hl : p.pcLocked < W64)
    (hp0 : 0 < p.limitPrice) (hst : p.owner = 0 → p.postAllowed = false)
    (hfresh : p.orderId ∉ ob.bids.items.map (·.key))
    (h : newBid lst ob p = .ok (ob', r)) : ∃ ts f, BidStep p ob ob' r ts f := by
  unfold newBid at h
  obtain ⟨_, _, h⟩ := bind_ok h
  obtain ⟨_, _, h⟩ := bind_ok h
  obtain ⟨bo, hbo, h⟩ := bind_ok h
  simp only [Except.ok.injEq] at hbo
  subst hbo
  split at h
  · rename_i hnone
    refine bidFinish_done hm hb hq0 hq hl hp0 hst hfresh (.inl ⟨rfl, ?_⟩) h
    intro b hb'
    rw [hnone] at hb'; cases hb'
  · rename_i best hbest
    obtain ⟨price, hpr, h⟩ := bind_ok h
    obtain ⟨rfl, hp0'⟩ := nzPrice_ok hpr
    obtain ⟨A, hA⟩ := List.head?_eq_some_iff.1 hbest
    have hmem : best ∈ ob.asks.items := by rw [hA]; simp
    simp only at h
    have hq0' := hb.askQty _ hmem
    have hval := hb.askVal _ hmem
    have hpl := hm.pcLot
    have hcl := hm.coinLot
    have hbq : best.quantity < W64 := Nat.lt_of_le_of_lt (Nat.le_mul_of_pos_right _ hcl) hval
    have hlz : decide (p.limitPrice = 0) = false := by simp; omega
    by_cases hlim : best.price ≤ p.limitPrice
    · simp only [hlim, hlz, decide_true, Bool.or_true, Bool.not_true, Bool.false_or] at h
      by_cases hpo : p.postOnly = true
      · rw [if_pos hpo] at h
        exact bidFinish_done hm hb hq0 hq hl hp0 hst hfresh (.inr ⟨rfl, best, hbest, hlim, .inl hpo⟩) h
      · rw [if_neg hpo] at h
        have hpo' : p.postOnly = false := by simpa using hpo
        have hT0 : min (min best.quantity p.coinQty)
            (p.feeTier.removeTakerFee p.pcLocked / ob.mkt.pcLot / best.price) =
            bidTradeQty ob.mkt p best := rfl
        rw [hT0] at h
        by_cases htz : bidTradeQty ob.mkt p best = 0
        · have : (bidTradeQty ob.mkt p best == 0) = true := by simp [htz]
          rw [if_pos this] at h
          exact bidFinish_done hm hb hq0 hq hl hp0 hst hfresh
            (.inr ⟨rfl, best, hbest, hlim, .inr htz⟩) h
        have htq : ¬ (bidTradeQty ob.mkt p best == 0) = true := by simp [htz]
        rw [if_neg htq] at h
        have htle : bidTradeQty ob.mkt p best ≤ best.quantity := by unfold bidTradeQty; omega
        have htle2 : bidTradeQty ob.mkt p best ≤ p.coinQty := by unfold bidTradeQty; omega
        have htle3 : bidTradeQty ob.mkt p best * best.price ≤
            p.feeTier.removeTakerFee p.pcLocked / ob.mkt.pcLot := by
          have : bidTradeQty ob.mkt p best ≤
            p.feeTier.removeTakerFee p.pcLocked / ob.mkt.pcLot / best.price := by
              unfold bidTradeQty; omega
          exact (Nat.le_div_iff_mul_le (by omega)).1 this
        have htle4 : bidTradeQty ob.mkt p best * best.price * ob.mkt.pcLot ≤
            p.feeTier.removeTakerFee p.pcLocked := (Nat.le_div_iff_mul_le hpl).1 htle3
        have htle5 := Nat.le_trans htle4 (removeTakerFee_le _ _)
        generalize hT : bidTradeQty ob.mkt p best = tq at h htle htle2 htle3 htle4 htle5 htz
        have e1 : tq * best.price * ob.mkt.pcLot < W64 := Nat.lt_of_le_of_lt htle5 hl
        have e2 : tq * best.price < W64 := Nat.lt_of_le_of_lt (Nat.le_mul_of_pos_right _ hpl) e1
        by_cases hown : p.owner = best.owner
        · have hown' : (p.owner == best.owner) = true := by simp [hown]
          rw [if_pos hown'] at h
          unfold bidSelfTrade at h
          obtain ⟨⟨provide, take⟩, hstq, h⟩ := bind_ok h
          have hst' : (p.stb = .decrementTake ∧ provide = tq ∧ take = tq) ∨
              (p.stb = .cancelProvide ∧ provide = best.quantity ∧ take = 0) := by
            unfold selfTradeQty at hstq
            split at hstq
            · simp only [Except.ok.injEq, Prod.mk.injEq] at hstq
              left; refine ⟨by assumption, hstq.1.symm, hstq.2.symm⟩
            · simp only [Except.ok.injEq, Prod.mk.injEq] at hstq
              right; refine ⟨by assumption, hstq.1.symm, hstq.2.symm⟩
            · cases hstq
          have hple : provide ≤ best.quantity := by
            rcases hst' with ⟨_, h, _⟩ | ⟨_, h, _⟩ <;> omega
          have htt : take ≤ tq := by
            rcases hst' with ⟨_, _, h⟩ | ⟨_, _, h⟩ <;> omega
          have f1 : take * best.price * ob.mkt.pcLot ≤ p.pcLocked :=
            Nat.le_trans (Nat.mul_le_mul_right _ (Nat.mul_le_mul_right _ htt)) htle5
          have f2 : take * best.price * ob.mkt.pcLot < W64 := Nat.lt_of_le_of_lt f1 hl
          have f3 : take * best.price < W64 := Nat.lt_of_le_of_lt (Nat.le_mul_of_pos_right _ hpl) f2
          have f4 : provide * ob.mkt.coinLot < W64 :=
            Nat.lt_of_le_of_lt (Nat.mul_le_mul_right _ hple) hval
          have f5 : (best.quantity - provide) * ob.mkt.coinLot < W64 :=
            Nat.lt_of_le_of_lt (Nat.mul_le_mul_right _ (Nat.sub_le _ _)) hval
          simp only at h
          obtain ⟨o2, ho2, h⟩ := bind_ok h
          obtain ⟨rfl, _⟩ := pushEv_lst ho2
          obtain ⟨o3, ho3, h⟩ := bind_ok h
          rw [wsub_eq hple hbq] at ho3
          have := shrinkBest_ask (ob := ob.push _) hA hb.askSort hple ho3
          subst this
          have hmk : ∀ (o : Ob lst) (L : List Leaf) (u : List EventView),
              ((o.push u).putAsks L).mkt = o.mkt := fun _ _ _ => rfl
          have hprr : ∀ (o : Ob lst) (L : List Leaf) (u : List EventView),
              ((o.push u).putAsks L).pr = o.pr := fun _ _ _ => rfl
          simp only [hmk, hprr, wmul_eq f3, wmul_eq f2, wmul_eq f4, wmul_eq f5, wsub_eq f1 hl,
            wsub_eq (Nat.le_trans htt htle2) hq] at h
          obtain ⟨pr, hpr', h⟩ := bind_ok h
          unfold Proceeds.unlockPc at hpr'
          obtain ⟨x, hx, hpr'⟩ := bind_ok hpr'
          rw [unwrap_ok, checkedAdd_some] at hx
          simp only [pure, Except.pure, Except.ok.injEq] at hpr'
          subst hpr'
          obtain ⟨hlt, rfl⟩ := hx
          obtain ⟨o4, ho4, h⟩ := bind_ok h
          obtain ⟨rfl, _⟩ := pushEv_lst ho4
          simp only [pure, Except.pure, Except.ok.injEq, Prod.mk.injEq] at h
          obtain ⟨rfl, rfl⟩ := h
          rw [← hT] at hst'
          have htq0 : 0 < bidTradeQty ob.mkt p best := by omega
          by_cases hgo : p.coinQty - take ≠ 0 ∧ p.pcLocked - take * best.price * ob.mkt.pcLot ≠ 0
          · have hg : (p.coinQty - take != 0 && p.pcLocked - take * best.price * ob.mkt.pcLot != 0) = true := by
              simp only [Bool.and_eq_true, bne_iff_ne]; exact hgo
            simp only [hg, if_true] at hlt ⊢
            exact (BidStep.selfTrade A best provide take _ _ hA hlim hpo' hown htq0 hst' f1
              (.inl ⟨by omega, by omega, rfl, rfl⟩) hlt).cast
                (by simp [Ob.push, Ob.putAsks, Ob.putPr]) (by rw [if_neg (by omega)])
          · have hg : (p.coinQty - take != 0 && p.pcLocked - take * best.price * ob.mkt.pcLot != 0) = false := by
              rw [Bool.eq_false_iff]
              simp only [ne_eq, Bool.and_eq_true, bne_iff_ne]; exact hgo
            simp only [hg, Bool.false_eq_true, if_false] at hlt ⊢
            exact (BidStep.selfTrade A best provide take _ 0 hA hlim hpo' hown htq0 hst' f1
              (.inr ⟨by omega, rfl, rfl⟩) hlt).cast
                (by simp [Ob.push, Ob.putAsks, Ob.putPr]) (by rw [if_pos rfl])
        · have hown' : ¬ (p.owner == best.owner) = true := by simp [hown]
          rw [if_neg hown'] at h
          have htpos : 0 < tq := by omega
          have hpcpos : 0 < tq * best.price * ob.mkt.pcLot :=
            Nat.mul_pos (Nat.mul_pos htpos (by omega)) hpl
          have f4 : tq * ob.mkt.coinLot < W64 :=
            Nat.lt_of_le_of_lt (Nat.mul_le_mul_right _ htle) hval
          have hmax : p.feeTier.removeTakerFee p.pcLocked / ob.mkt.pcLot < W64 :=
            Nat.lt_of_le_of_lt (Nat.le_trans (Nat.div_le_self _ _) (removeTakerFee_le _ _)) hl
          have hspent : wsub (p.feeTier.removeTakerFee p.pcLocked / ob.mkt.pcLot)
              (wsub (p.feeTier.removeTakerFee p.pcLocked / ob.mkt.pcLot) (tq * best.price)) =
              tq * best.price := by
            rw [wsub_eq htle3 hmax, wsub_eq (Nat.sub_le _ _) hmax]; omega
          have hwa : wadd (tq * best.price * ob.mkt.pcLot) 0 = tq * best.price * ob.mkt.pcLot :=
            wadd_eq (by omega)
          simp only [wmul_eq e2, wmul_eq e1, makerRebate_zero _ e1, hspent, hwa, wmul_eq f4] at h
          obtain ⟨o2, ho2, h⟩ := bind_ok h
          obtain ⟨rfl, _⟩ := pushEv_lst ho2
          obtain ⟨o3, ho3, h⟩ := bind_ok h
          have := fillBest_ask (ob := ob.push _) hA hb.askSort htle hbq ho3
          subst this
          rw [wsub_eq htle2 hq] at h
          unfold bidFinish at h
          obtain ⟨⟨o4, pcRem⟩, ho4, h⟩ := bind_ok h
          unfold bidSettle at ho4
          have hmk : ∀ (o : Ob lst) (L : List Leaf) (u v : List EventView),
              (((o.push u).putAsks L).push v).mkt = o.mkt := fun _ _ _ _ => rfl
          have hprr : ∀ (o : Ob lst) (L : List Leaf) (u v : List EventView),
              (((o.push u).putAsks L).push v).pr = o.pr := fun _ _ _ _ => rfl
          have e3 : wsub p.coinQty (p.coinQty - tq) = tq := by
            rw [wsub_eq (by omega) hq]; omega
          have hsf := spend_fee_le p.feeTier hl htle4
          have g1 : wsub p.pcLocked (tq * best.price * ob.mkt.pcLot) =
            p.pcLocked - tq * best.price * ob.mkt.pcLot := wsub_eq htle5 hl
          generalize hF : p.feeTier.takerFee (tq * best.price * ob.mkt.pcLot) = fee at *
          have g2 : wsub (p.pcLocked - tq * best.price * ob.mkt.pcLot) fee =
            p.pcLocked - tq * best.price * ob.mkt.pcLot - fee := wsub_eq (by omega) (by omega)
          have g3 : wadd (tq * best.price * ob.mkt.pcLot) fee =
            tq * best.price * ob.mkt.pcLot + fee := wadd_eq (by omega)
          simp only [hmk, hprr, wmul_eq e1, e3, g1, hF, g2, g3, wmul_eq f4] at ho4
          obtain ⟨pr1, hp1, ho4⟩ := bind_ok ho4
          obtain ⟨pr2, hp2, ho4⟩ := bind_ok ho4
          unfold Proceeds.creditCoin at hp1
          obtain ⟨x, hx, hp1⟩ := bind_ok hp1
          rw [unwrap_ok, checkedAdd_some] at hx
          unfold Proceeds.addDebitPc at hp2
          obtain ⟨y, hy, hp2⟩ := bind_ok hp2
          rw [unwrap_ok, checkedAdd_some] at hy
          simp only [pure, Except.pure, Except.ok.injEq] at hp1 hp2
          subst hp1
          subst hp2
          obtain ⟨hx1, rfl⟩ := hx
          obtain ⟨hy1, rfl⟩ := hy
          obtain ⟨o5, ho5, ho4⟩ := bind_ok ho4
          simp only [pure, Except.pure, Except.ok.injEq, Prod.mk.injEq] at ho4
          obtain ⟨rfl, hrem⟩ := ho4
          have hleft : tq * best.price * ob.mkt.pcLot + fee + pcRem = p.pcLocked := by omega
          have hgoal := BidStep.fill (p := p) (ob := ob) A best tq _ _ pcRem hA hlim hpo' hown hT.symm
            htpos rfl hF.symm hleft hx1 hy1
          unfold pushIf at ho5
          have hpc' : (decide (tq * best.price * ob.mkt.pcLot > 0) && !p.isSendTake) = !p.isSendTake := by
            simp [hpcpos]
          rw [hpc'] at ho5
          have hremlt : pcRem < W64 := by omega
          have hz : ∀ x, wmul 0 x = 0 := by intro x; unfold wmul; simp
          have hgo : (!false && p.coinQty - tq != 0 && pcRem != 0) = true ↔
              (p.coinQty ≠ tq ∧ pcRem ≠ 0) := by
            simp only [Bool.not_false, Bool.true_and, Bool.and_eq_true, bne_iff_ne]; omega
          have hpq : ∀ m, bidPostQty m p (p.coinQty - tq) pcRem true = 0 := by
            intro m; simp [bidPostQty]
          by_cases hs : p.owner = 0
          · have hs' : p.isSendTake = true := by simp [IterParams.isSendTake, hs]
            simp only [hs', Bool.not_true, Bool.false_eq_true, if_false, Except.ok.injEq] at ho5
            subst ho5
            by_cases hr : p.coinQty ≠ tq ∧ pcRem ≠ 0
            · simp only [hgo.2 hr, if_true, pure, Except.pure, Except.ok.injEq, Prod.mk.injEq] at h
              obtain ⟨rfl, rfl⟩ := h
              exact hgoal.cast (by simp [Ob.push, Ob.putAsks, Ob.putPr, Ob.putMkt, bidFillEvs, hs])
                (by rw [if_pos hr])
            · simp only [mt hgo.1 hr, Bool.false_eq_true, if_false] at h
              obtain ⟨o6, ho6, h⟩ := bind_ok h
              simp only [pure, Except.pure, Except.ok.injEq, Prod.mk.injEq] at h
              obtain ⟨rfl, rfl⟩ := h
              unfold bidRest at ho6
              simp [hs', hpq, hz, bidRelease, bind, Except.bind, pure, Except.pure] at ho6
              subst ho6
              exact hgoal.cast (by simp [Ob.push, Ob.putAsks, Ob.putPr, Ob.putMkt, bidFillEvs, hs])
                (by rw [if_neg hr])
          · have hs' : p.isSendTake = false := by simp [IterParams.isSendTake, hs]
            simp only [hs', Bool.not_false, if_true] at ho5
            obtain ⟨rfl, _⟩ := pushEv_lst ho5
            by_cases hr : p.coinQty ≠ tq ∧ pcRem ≠ 0
            · simp only [hgo.2 hr, if_true, pure, Except.pure, Except.ok.injEq, Prod.mk.injEq] at h
              obtain ⟨rfl, rfl⟩ := h
              exact hgoal.cast
                (by simp [Ob.push, Ob.putAsks, Ob.putPr, Ob.putMkt, bidFillEvs, hs, hr, hF])
                (by rw [if_pos hr])
            · simp only [mt hgo.1 hr, Bool.false_eq_true, if_false] at h
              obtain ⟨o6, ho6, h⟩ := bind_ok h
              simp only [pure, Except.pure, Except.ok.injEq, Prod.mk.injEq] at h
              obtain ⟨rfl, rfl⟩ := h
              unfold bidRest at ho6
              obtain ⟨o7, ho7, ho6⟩ := bind_ok ho6
              simp only [hpq, hz, gt_iff_lt, Nat.lt_irrefl, if_false, pure, Except.pure,
                Except.ok.injEq] at ho6
              subst ho6
              unfold bidRelease at ho7
              simp only [hpq, hz, hs', Bool.false_eq_true, if_false,
                wsub_eq (Nat.zero_le _) hremlt, Nat.sub_zero] at ho7
              obtain ⟨pr, hpr', ho7⟩ := bind_ok ho7
              unfold Proceeds.unlockPc at hpr'
              obtain ⟨x, hx, hpr'⟩ := bind_ok hpr'
              rw [unwrap_ok, checkedAdd_some] at hx
              simp only [pure, Except.pure, Except.ok.injEq] at hpr'
              subst hpr'
              obtain ⟨hlt, rfl⟩ := hx
              obtain ⟨rfl, _⟩ := pushEv_lst ho7
              exact hgoal.cast
                (by simp [Ob.push, Ob.putAsks, Ob.putPr, Ob.putMkt, bidFillEvs, hs, hr, hF])
                (by rw [if_neg hr])
    · simp only [hlim, hlz, decide_false, Bool.or_false, Bool.not_false, Bool.true_or, if_true] at h
      refine bidFinish_done hm hb hq0 hq hl hp0 hst hfresh (.inl ⟨rfl, ?_⟩) h
      intro b hb'
      rw [hbest] at hb'
      simp only [Option.some.injEq] at hb'
      subst hb'
      omega

end Serum
