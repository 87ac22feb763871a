import Verif.PropsBest
import Verif.PropsDepth

/-
C120: more orders on the book hardly ever mean fewer lots for a taker.
-/

namespace Serum.Props
open Serum

/-! ### What the textbook lets a taker spend -/

theorem takes_afford (w : Want) (hlot : 0 < w.pcLot) : ∀ (k : Nat) {L : List Leaf} {coin pc : Nat}, pc < W64 →
    (∀ l ∈ L, 0 < l.price) →
    total w.coinUsed (w.takes k L coin pc) ≤ coin ∧ (w.side = .bid → total w.pcUsed (w.takes k L coin pc) ≤ pc)
  | 0, _, _, _, _, _ => ⟨Nat.zero_le _, fun _ => Nat.zero_le _⟩
  | _ + 1, [], _, _, _, _ => ⟨Nat.zero_le _, fun _ => Nat.zero_le _⟩
  | k + 1, l :: L, coin, pc, hq, hp => by
    unfold Want.takes
    split
    · have hl := (lots_greatest w (hp l (by simp)) hlot hq (w.lots l coin pc) (coin := coin)).1 (Nat.le_refl _)
      have hc : w.coinUsed (w.meet l coin pc) ≤ coin := by
        unfold Want.coinUsed Want.meet
        repeat' split
        all_goals simp_all
      have hpc : w.side = .bid → w.pcUsed (w.meet l coin pc) ≤ pc := by
        intro hs
        have := hl.2.2 hs
        unfold Want.pcUsed Want.meet
        repeat' split
        all_goals simp_all
        all_goals omega
      have ih := takes_afford w hlot k (L := cutFirst l (w.meet l coin pc).lots L)
        (coin := coin - w.coinUsed (w.meet l coin pc)) (pc := pc - w.pcUsed (w.meet l coin pc)) (by omega) (by
          intro x hx
          unfold cutFirst at hx
          split at hx
          · exact hp x (by simp [hx])
          · rcases List.mem_cons.1 hx with rfl | hx
            · exact hp l (by simp)
            · exact hp x (by simp [hx]))
      rw [total_cons, total_cons]
      refine ⟨by have := ih.1; omega, fun hs => ?_⟩
      have h1 := ih.2 hs
      have h2 := hpc hs
      omega
    · exact ⟨Nat.zero_le _, fun _ => Nat.zero_le _⟩

/-- The orders met and the orders left make up the orders there were, price by price. -/
theorem front_weighted {g : Nat → Nat} : ∀ {ts : List Touch} {L L' : List Leaf}, takeFront L ts = some L' →
    total (fun l => g l.price * l.quantity) L =
      total (fun t => g t.maker.price * t.lots) ts + total (fun l => g l.price * l.quantity) L'
  | [], L, L', h => by
    have e : L = L' := by cases L <;> exact Option.some.inj h
    rw [e]
    simp [total]
  | t :: ts, [], L', h => by cases h
  | t :: ts, l :: L, L', h => by
    simp only [takeFront] at h
    split at h
    · rename_i hc
      obtain ⟨rfl, _, hle⟩ := hc
      have ih := front_weighted (g := g) h
      rw [total_cons, total_cons]
      split at ih
      · rename_i e
        rw [ih, e]
        omega
      · rw [total_cons] at ih
        rw [show ({ t.maker with quantity := t.maker.quantity - t.lots } : Leaf).price = t.maker.price from rfl] at ih
        simp only at ih
        have : g t.maker.price * t.maker.quantity = g t.maker.price * t.lots + g t.maker.price * (t.maker.quantity - t.lots) := by
          rw [← Nat.mul_add]
          congr 1
          omega
        omega
    · cases h

theorem total_sublist {α : Type} {f : α → Nat} {L M : List α} (h : List.Sublist L M) : total f L ≤ total f M := by
  induction h with
  | slnil => exact Nat.le_refl _
  | cons a _ ih => rw [total_cons]; omega
  | cons_cons a _ ih => rw [total_cons, total_cons]; omega

/-- What is left is no better than what was met. -/
theorem front_ranked {sd : Side} {L L' : List Leaf} {ts : List Touch} (h : takeFront L ts = some L')
    (hs : L.Pairwise (fun a b => NoWorse sd a.price b.price)) {t : Touch} (ht : t ∈ ts) {l : Leaf} (hl : l ∈ L') :
    NoWorse sd t.maker.price l.price := by
  obtain ⟨p, h1, h2⟩ := threshold h hs (by rintro rfl; cases ht)
  exact (h1 t ht).trans (h2 l hl)

theorem front_sorted {sd : Side} : ∀ {ts : List Touch} {L L' : List Leaf}, takeFront L ts = some L' →
    L.Pairwise (fun a b => NoWorse sd a.price b.price) → L'.Pairwise (fun a b => NoWorse sd a.price b.price)
  | [], L, L', h, hs => by
    have e : L = L' := by cases L <;> exact Option.some.inj h
    rw [← e]
    exact hs
  | t :: ts, [], L', h, _ => by cases h
  | t :: ts, l :: L, L', h, hs => by
    simp only [takeFront] at h
    split at h
    · refine front_sorted h ?_
      rw [List.pairwise_cons] at hs
      split
      · exact hs.2
      · exact List.pairwise_cons.2 ⟨hs.1, hs.2⟩
    · cases h

/-- Trades and their fees cost no more than what was used up. -/
theorem spent_le (w : Want) (m : Market) (hlot : w.pcLot = m.pcLot) (ts : List Touch) :
    tradedQuote m ts + takerFees m w.tier ts ≤ total w.pcUsed ts := by
  unfold tradedQuote takerFees
  rw [← total_add]
  refine total_le fun t _ => ?_
  unfold Touch.tradedPc Touch.fee Want.pcUsed Touch.pc
  rw [hlot]
  split
  · exact Nat.le_refl _
  · exact Nat.zero_le _

theorem spent_eq (w : Want) (m : Market) (hlot : w.pcLot = m.pcLot) {ts : List Touch} (hf : ∀ t ∈ ts, t.filled = true) :
    total w.pcUsed ts = tradedQuote m ts + takerFees m w.tier ts := by
  unfold tradedQuote takerFees
  rw [← total_add]
  refine total_congr fun t ht => ?_
  unfold Touch.tradedPc Touch.fee Want.pcUsed Touch.pc
  rw [hlot, if_pos (hf t ht), if_pos (hf t ht), if_pos (hf t ht)]

theorem used_filled (w : Want) {ts : List Touch} (hf : ∀ t ∈ ts, t.filled = true) : total w.coinUsed ts = tradedLots ts := by
  refine total_congr fun t ht => ?_
  unfold Want.coinUsed Touch.traded
  rw [if_pos (hf t ht), if_neg (by rw [hf t ht]; simp)]

theorem traded_le_used (w : Want) (ts : List Touch) : tradedLots ts ≤ total w.coinUsed ts := by
  refine total_le fun t _ => ?_
  unfold Want.coinUsed Touch.traded
  split
  · rename_i h; rw [if_neg (by rw [h]; simp)]; exact Nat.le_refl _
  · exact Nat.zero_le _

/-- A buyer stopped for lack of money, and what they missed by `missed` lots is, but for one lot and at the price of the best
order left, worth less than one unit for each of their matches. -/
def Shortfall (t t' : State conc) (side : Side) (us : List Touch) (missed : Nat) : Prop :=
  side = .bid ∧ ∃ l L, bestFirst t' .ask = l :: L ∧ (missed - 1) * (l.price * t.mkt.pcLot) < us.length

theorem deeper_core {W rate rate' C F C' F' p fp k m pc pc' rem : Nat} (hW : 0 < W)
    (hr : rate' ≤ rate) (a : rate * C ≤ F * W) (b : F' * W ≤ rate' * C' + m * (W - 1)) (c : fp * W ≤ rate' * p + (W - 1))
    (d : C + F ≤ pc) (hpc : pc ≤ pc') (e : pc' ≤ C' + F' + rem) (hrem : rem < p + fp) (g : C' + p + k * p ≤ C) : k * p < m := by
  have h1 : rate' * (C' + p) ≤ F * W := by
    refine Nat.le_trans (Nat.mul_le_mul hr (show C' + p ≤ C by omega)) a
  have h2 : (C + F + 1) * W ≤ (C' + p + F' + fp) * W := Nat.mul_le_mul_right _ (by omega)
  have h3 : (C' + p + k * p) * W ≤ C * W := Nat.mul_le_mul_right _ g
  refine Nat.lt_of_not_le fun hle => ?_
  have h4 : m * W ≤ k * p * W := Nat.mul_le_mul_right _ hle
  have h5 : m * (W - 1) + m = m * W := by
    rw [← Nat.mul_succ]
    congr 1
    omega
  simp only [Nat.add_mul, Nat.mul_add, Nat.one_mul] at *
  generalize k * p * W = x1 at *
  generalize m * W = x2 at *
  generalize m * (W - 1) = x3 at *
  generalize C * W = x4 at *
  generalize C' * W = x5 at *
  generalize p * W = x6 at *
  generalize F * W = x7 at *
  generalize F' * W = x8 at *
  generalize fp * W = x9 at *
  omega

theorem front_owner {L L' : List Leaf} {vs : List Touch} : takeFront L vs = some L' → ∀ v ∈ vs,
    ∃ l ∈ L, l.owner = v.maker.owner := by
  induction vs generalizing L with
  | nil => intro _ v hv; cases hv
  | cons w vs ih =>
    intro h v hv
    cases L with
    | nil => cases h
    | cons l L =>
      simp only [takeFront] at h
      split at h
      · rename_i hc
        obtain ⟨rfl, _, _⟩ := hc
        rcases List.mem_cons.1 hv with rfl | hv
        · exact ⟨_, by simp, rfl⟩
        · obtain ⟨y, hy, hyo⟩ := ih h v hv
          split at hy
          · exact ⟨y, by simp [hy], hyo⟩
          · rcases List.mem_cons.1 hy with rfl | hy
            · exact ⟨w.maker, by simp, hyo⟩
            · exact ⟨y, by simp [hy], hyo⟩
      · cases h

theorem deeper_lots {P P' : Params} {s s' t t' : State conc} (hs : Reach P s) (hq : s.seq ≤ W64) (ht : Reach P' t)
    (hq' : t.seq ≤ W64) {o o' : OrderParams} {limit limit' : Nat} {ts us : List Touch} {f f' : Option Posting}
    {evs evs' : List EventView} (hm : Matched s s' o limit ts f evs) (hm' : Matched t t' o' limit' us f' evs')
    (hside : o'.side = o.side) (hbook : List.Sublist (resting s o.side.other) (resting t o.side.other))
    (hlot : t.mkt.pcLot = s.mkt.pcLot) (hpl : 0 < s.mkt.pcLot)
    (hacc : ∀ p, (Want.of o s.mkt).accepts p = true → (Want.of o' t.mkt).accepts p = true)
    (hcoin : o.maxCoinQty ≤ o'.maxCoinQty) (hpc : o.pcLocked ≤ o'.pcLocked) (hpc' : o'.pcLocked < W64)
    (hrate : o'.feeTier.takerRate ≤ o.feeTier.takerRate) (hkind : o'.orderType ≠ .postOnly) (hlim : us.length < limit')
    (hfill : ∀ u ∈ us, u.filled = true) (hoth : ∀ x ∈ ts, x.filled = true → x.maker.owner ≠ o'.owner) :
    tradedLots ts ≤ tradedLots us ∨ Shortfall t t' o.side us (tradedLots ts - tradedLots us) := by
  have hb : List.Sublist (bestFirst s o.side.other) (bestFirst t o.side.other) := by
    unfold bestFirst
    revert hbook
    cases o.side.other
    · exact fun h => h.reverse
    · exact fun h => h
  have hopp := hm.opp
  have hopp' := hm'.opp
  rw [hside] at hopp'
  obtain ⟨ns, n1, n2, n3⟩ := trades_picks hopp hoth
  obtain ⟨ks, k1, k2, k3⟩ := picks_sublist hb n1
  have hsort : (bestFirst t o.side.other).Pairwise (fun a b => NoWorse o.side a.price b.price) := by
    refine List.Pairwise.imp ?_ (bestFirst_ok ht hq' o.side.other).1
    intro a b hab
    cases h : o.side <;> rw [h] at hab <;> exact hab
  have haff := takes_afford (Want.of o s.mkt) hpl limit (L := bestFirst s o.side.other) (coin := o.maxCoinQty)
    (pc := o.pcLocked) (by omega) (fun l hl => ((bestFirst_ok hs hq _).2 l hl).2)
  have haff' := takes_afford (Want.of o' t.mkt) (by show 0 < t.mkt.pcLot; omega) limit' (L := bestFirst t o'.side.other)
    (coin := o'.maxCoinQty) (pc := o'.pcLocked) hpc' (fun l hl => ((bestFirst_ok ht hq' _).2 l hl).2)
  rw [← hm.takes] at haff
  rw [← hm'.takes] at haff'
  have hsize : tradedLots ts ≤ o.maxCoinQty := Nat.le_trans (traded_le_used _ ts) haff.1
  have hsp := matched_spent ht hq' hm' hpc'
  rcases hsp.why with h1 | h1 | h1 | h1 | ⟨h1, l, L1, hL, hpoor⟩
  · exact absurd h1 hkind
  · omega
  · left
    have := used_filled (Want.of o' t.mkt) hfill
    omega
  · left
    have e1 := front_weighted (g := fun p => if (Want.of o' t.mkt).accepts p then 1 else 0) hopp
    have e2 := front_weighted (g := fun p => if (Want.of o' t.mkt).accepts p then 1 else 0) hopp'
    have e3 := total_sublist (f := fun l : Leaf => (if (Want.of o' t.mkt).accepts l.price then 1 else 0) * l.quantity) hb
    have e4 : total (fun l : Leaf => (if (Want.of o' t.mkt).accepts l.price then 1 else 0) * l.quantity)
        (bestFirst t' o.side.other) = 0 := by
      refine Nat.le_zero.1 (Nat.le_trans (total_le (g := fun _ => 0) fun x hx => ?_) ?_)
      · rw [h1 x (by rw [hside]; exact hx)]; simp
      · generalize bestFirst t' o.side.other = L
        induction L with
        | nil => exact Nat.le_refl _
        | cons _ _ ih => rw [total_cons]; omega
    have e5 : tradedLots ts ≤ total (fun v : Touch => (if (Want.of o' t.mkt).accepts v.maker.price then 1 else 0) * v.lots) ts := by
      refine total_le fun v hv => ?_
      have h2 : (Want.of o s.mkt).accepts v.maker.price = true := by
        have := (hm.touches v hv).price
        unfold priceOk at this
        unfold Want.accepts
        show (match o.side with | .bid => _ | .ask => _) = true
        cases h : o.side <;> rw [h] at this <;> exact decide_eq_true this
      rw [hacc _ h2]
      unfold Touch.traded
      split <;> simp
    have e6 : total (fun v : Touch => (if (Want.of o' t.mkt).accepts v.maker.price then 1 else 0) * v.lots) us ≤ tradedLots us := by
      refine total_le fun v hv => ?_
      unfold Touch.traded
      rw [if_pos (hfill v hv)]
      split <;> simp
    omega
  · by_cases hle : tradedLots ts ≤ tradedLots us
    · exact .inl hle
    right
    have hbid : o.side = .bid := by rw [← hside]; exact h1
    rw [hside] at hL
    have hleft : ∀ x ∈ bestFirst t' o.side.other, NoWorse o.side l.price x.price := by
      have := front_sorted hopp' hsort
      rw [hL] at this ⊢
      intro x hx
      rcases List.mem_cons.1 hx with rfl | hx
      · exact .refl _ _
      · exact (List.pairwise_cons.1 this).1 x hx
    have hb2 := picks_beaten hopp' (me := o'.owner) (p := l.price) (fun u hu => (hm'.touches u hu).who)
      (fun u hu => front_ranked hopp' hsort hu (by rw [hL]; simp)) hleft k1
    rw [k2, k3, n2, n3, hbid] at hb2
    have hb2 : total touchCost us + l.price * tradedLots ts ≤ total touchCost ts + l.price * tradedLots us := hb2
    obtain ⟨k, hk⟩ : ∃ k, tradedLots ts = tradedLots us + 1 + k := ⟨tradedLots ts - tradedLots us - 1, by omega⟩
    have hC : tradedQuote t.mkt us + l.price * t.mkt.pcLot + k * (l.price * t.mkt.pcLot) ≤ tradedQuote s.mkt ts := by
      rw [quote_touch, quote_touch, hlot]
      have h2 : total touchCost us + l.price + k * l.price ≤ total touchCost ts := by
        rw [hk] at hb2
        simp only [Nat.mul_add, Nat.mul_one, Nat.mul_comm l.price k] at hb2
        omega
      have h3 := Nat.mul_le_mul_right s.mkt.pcLot h2
      rw [Nat.add_mul, Nat.add_mul, Nat.mul_assoc k] at h3
      exact h3
    have hd := Nat.le_trans (spent_le (Want.of o s.mkt) s.mkt rfl ts) (haff.2 hbid)
    have he := spent_eq (Want.of o' t.mkt) t.mkt rfl hfill
    have hvu : ∀ u ∈ us, u.filled = true → u.pc t.mkt < W64 := by
      intro u hu hf
      have h2 : u.pc t.mkt ≤ tradedQuote t.mkt us := by
        have := total_mem (Touch.tradedPc t.mkt) hu
        unfold Touch.tradedPc at this
        rw [if_pos hf] at this
        exact this
      omega
    have hvt : ∀ u ∈ ts, u.filled = true → u.pc s.mkt < W64 := by
      intro u hu hf
      have h2 : u.pc s.mkt ≤ tradedQuote s.mkt ts := by
        have := total_mem (Touch.tradedPc s.mkt) hu
        unfold Touch.tradedPc at this
        rw [if_pos hf] at this
        exact this
      omega
    refine ⟨hbid, l, L1, by rw [hbid] at hL; exact hL, ?_⟩
    rw [show tradedLots ts - tradedLots us - 1 = k by omega]
    exact deeper_core (W := W64) (by decide) hrate (fees_bounds s.mkt o.feeTier hvt).1 (fees_bounds t.mkt o'.feeTier hvu).2
      (takerFee_bounds o'.feeTier (q := l.price * t.mkt.pcLot) (by omega)).2 hd hpc
      (rem := o'.pcLocked - total (Want.of o' t.mkt).pcUsed us)
      (by have : total (Want.of o' t.mkt).pcUsed us = tradedQuote t.mkt us + takerFees t.mkt o'.feeTier us := he
          omega) hpoor hC

/-- The second of two orders (or send-takes) on the same side asks for no less: for as many lots, at as generous a limit, with
as much money. -/
structure AsksMore (side : Side) (price price' coin coin' pc pc' : Nat) : Prop where
  price : NoWorse side price price'
  coin : coin ≤ coin'
  pc : pc ≤ pc'

theorem payable_mono {side : Side} {a b : Nat} (h : a ≤ b) : payable side a ≤ payable side b := by
  cases side
  · exact h
  · exact Nat.le_refl _

theorem rate_of_advertised {t u : FeeTier} (h : advertised t ≤ advertised u) : t.takerRate ≤ u.takerRate := by
  cases t <;> cases u <;> revert h <;> decide

theorem accepts_mono {w w' : Want} (hs : w'.side = w.side) (hp : NoWorse w.side w.price w'.price) {p : Nat}
    (h : w.accepts p = true) : w'.accepts p = true := by
  unfold Want.accepts at *
  rw [hs]
  cases hw : w.side <;> rw [hw] at h hp <;> simp only [decide_eq_true_eq] at * <;> unfold NoWorse at hp <;>
    simp only at hp <;> omega

/-- C120, new orders. Take two markets with the same quote lot, the second of whose books holds all the orders of the first on
the side traded with, and perhaps more; and an order on each, the second asking for no less at a fee no higher, not
post-only, not stopped by its limit of matches and meeting no orders of its own account. Then a seller at the deeper book
sells no fewer lots. A buyer buys no fewer either, unless their money ran out; then but for one lot what they miss is worth
less, at the price of the next order, than one unit for each match. -/
theorem deeper_order_lots {P P' : Params} {s s' t t' : State conc} (hs : Reach P s) (hq : s.seq < W64) (ht : Reach P' t)
    (hq' : t.seq < W64) {env env' : Env} {accts accts' : List AccMeta} {ix ix' : NewOrderIx} (hv : OrderValid ix)
    (hv' : OrderValid ix') (hn : NotVault P s.mkt accts) (hn' : NotVault P' t.mkt accts')
    (hx : newOrderV3 conc P env s accts ix = .ok s') (hx' : newOrderV3 conc P' env' t accts' ix' = .ok t')
    (hside : ix'.side = ix.side) (hbook : List.Sublist (resting s ix.side.other) (resting t ix.side.other))
    (hlot : t.mkt.pcLot = s.mkt.pcLot)
    (hmore : AsksMore ix.side ix.limitPrice ix'.limitPrice ix.maxCoinQty ix'.maxCoinQty ix.maxPcQty ix'.maxPcQty)
    (hkind : ix'.orderType ≠ .postOnly) :
    ∃ a tier o o' slot d ts f evs a' tier' p p' slot' d' us f' evs',
      PlaceEffect P env s s' accts ix a tier o o' slot d ts f evs ∧
      PlaceEffect P' env' t t' accts' ix' a' tier' p p' slot' d' us f' evs' ∧
      (advertised tier' ≤ advertised tier → us.length < ix'.limit →
        (∀ l ∈ resting t ix.side.other, l.owner ≠ a'.oo.key) →
        tradedLots ts ≤ tradedLots us ∨ Shortfall t t' ix.side us (tradedLots ts - tradedLots us)) := by
  obtain ⟨a, tier, o, o', slot, d, ts, f, evs, he, _⟩ := order_by_the_book hs hq hv hn hx
  obtain ⟨a', tier', p, p', slot', d', us, f', evs', he', _⟩ := order_by_the_book ht hq' hv' hn' hx'
  refine ⟨a, tier, o, o', slot, d, ts, f, evs, a', tier', p, p', slot', d', us, f', evs', he, he', fun htier hlim hown => ?_⟩
  obtain ⟨_, _, _, hi⟩ := hs.view (Nat.le_of_lt hq)
  have hmem : ∀ {x : State conc} {sd : Side} {l : Leaf}, l ∈ bestFirst x sd ↔ l ∈ resting x sd := by
    intro x sd l
    unfold bestFirst
    cases sd <;> simp
  refine deeper_lots hs (Nat.le_of_lt hq) ht (Nat.le_of_lt hq') he.matched he'.matched hside hbook hlot hi.shape.mkt.pcLot ?_
    hmore.coin ?_ (payable_lt hv'.2.2.1.2) (rate_of_advertised htier) hkind hlim ?_ ?_
  · intro x hx
    rw [want_order hv hq] at hx
    rw [want_order hv' hq']
    exact accepts_mono (w := wantOrder s.mkt ix a.oo.key tier) (w' := wantOrder t.mkt ix' a'.oo.key tier') hside hmore.price hx
  · show payable ix.side ix.maxPcQty ≤ payable ix'.side ix'.maxPcQty
    rw [hside]
    exact payable_mono hmore.pc
  · intro u hu
    refine (he'.matched.touches u hu).who.2 fun e => ?_
    obtain ⟨l, hl, hlo⟩ := front_owner he'.matched.opp u hu
    have hl' : l ∈ resting t ix'.side.other := hmem.1 hl
    rw [hside] at hl'
    exact hown l hl' (by rw [hlo, ← e]; rfl)
  · intro x hx _ e
    obtain ⟨l, hl, hlo⟩ := front_owner he.matched.opp x hx
    exact hown l (hbook.subset (hmem.1 hl)) (by rw [hlo, e]; rfl)

/-- C120, send-takes, whose sender owns no resting order. -/
theorem deeper_take_lots {P P' : Params} {s s' t t' : State conc} (hs : Reach P s) (hq : s.seq < W64) (ht : Reach P' t)
    (hq' : t.seq < W64) {accts accts' : List AccMeta} {ix ix' : SendTakeIx} (hv : TakeValid ix)
    (hv' : TakeValid ix') (hn : NotVault P s.mkt accts) (hn' : NotVault P' t.mkt accts')
    (hx : sendTake conc P s accts ix = .ok s') (hx' : sendTake conc P' t accts' ix' = .ok t')
    (hside : ix'.side = ix.side) (hbook : List.Sublist (resting s ix.side.other) (resting t ix.side.other))
    (hlot : t.mkt.pcLot = s.mkt.pcLot)
    (hmore : AsksMore ix.side ix.limitPrice ix'.limitPrice ix.maxCoinQty ix'.maxCoinQty ix.maxPcQty ix'.maxPcQty) :
    ∃ a tier ts evs a' tier' us evs',
      TakeEffect P s s' accts ix a tier ts evs ∧ TakeEffect P' t t' accts' ix' a' tier' us evs' ∧
      (advertised tier' ≤ advertised tier → us.length < ix'.limit →
        tradedLots ts ≤ tradedLots us ∨ Shortfall t t' ix.side us (tradedLots ts - tradedLots us)) := by
  obtain ⟨a, tier, ts, evs, he, _⟩ := send_take_by_the_book hs hq hv hn hx
  obtain ⟨a', tier', us, evs', he', _⟩ := send_take_by_the_book ht hq' hv' hn' hx'
  refine ⟨a, tier, ts, evs, a', tier', us, evs', he, he', fun htier hlim => ?_⟩
  obtain ⟨_, _, _, hi⟩ := hs.view (Nat.le_of_lt hq)
  refine deeper_lots hs (Nat.le_of_lt hq) ht (Nat.le_of_lt hq') he.matched he'.matched hside hbook hlot hi.shape.mkt.pcLot ?_
    hmore.coin ?_ (payable_lt hv'.2.2.1.2) (rate_of_advertised htier) (by intro h; cases h) hlim ?_ ?_
  · intro x hx
    rw [want_take hv hq] at hx
    rw [want_take hv' hq']
    exact accepts_mono (w := wantTake s.mkt ix tier) (w' := wantTake t.mkt ix' tier') hside hmore.price hx
  · show payable ix.side ix.maxPcQty ≤ payable ix'.side ix'.maxPcQty
    rw [hside]
    exact payable_mono hmore.pc
  · intro u hu
    cases hc : u.filled with
    | true => rfl
    | false => rcases (he'.matched.touches u hu).self hc with h1 | ⟨h1, _⟩ <;> cases h1
  · intro x hx hf e
    exact ((he.matched.touches x hx).who.1 hf) e.symm

/-- So on a market where every order left costs at least one unit a lot for each match made, at most one lot is missed. -/
theorem shortfall_one {t t' : State conc} {side : Side} {us : List Touch} {n : Nat} (h : Shortfall t t' side us n)
    (hp : ∀ l ∈ resting t' .ask, us.length ≤ l.price * t.mkt.pcLot) : n ≤ 1 := by
  obtain ⟨_, l, L, e, hlt⟩ := h
  have hl : l ∈ resting t' .ask := by
    have : l ∈ bestFirst t' .ask := by rw [e]; simp
    exact this
  have h1 := hp l hl
  refine Nat.le_of_not_lt fun hn => ?_
  have : 1 * (l.price * t.mkt.pcLot) ≤ (n - 1) * (l.price * t.mkt.pcLot) := Nat.mul_le_mul_right _ (by omega)
  omega

end Serum.Props

namespace Serum.Demo
open Serum Props

/-- Asks of one lot and of two lots, both at price 1, that is 10 units a lot. -/
def split0 : State conc := run (run s0 a1 (.newOrderV3 (order .ask 1 1 1 30))) a1 (.newOrderV3 (order .ask 1 2 1 31))
/-- The same without the first. -/
def split1 : State conc := run split0 (Demo.cancelAccts 41 11) (.cancelOrderV2 .ask (genOrderId 0 1 .ask))
/-- Two lots, with 21 units: their price and one fee. -/
def twoIx : NewOrderIx := { order .bid 1 2 21 32 with orderType := .ioc }

/-- With the smaller ask out of the way the buyer gets two lots, for 21 units; with both asks there, one lot, for 11 units,
and the 10 left no longer pay for the other. -/
theorem split_demo :
    (∃ a tier o o' slot d ts f evs a' tier' p p' slot' d' us f' evs',
      PlaceEffect P env split1 (run split1 a2 (.newOrderV3 twoIx)) a2 twoIx a tier o o' slot d ts f evs ∧
      PlaceEffect P env split0 (run split0 a2 (.newOrderV3 twoIx)) a2 twoIx a' tier' p p' slot' d' us f' evs' ∧
      (advertised tier' ≤ advertised tier → us.length < twoIx.limit →
        (∀ l ∈ resting split0 .ask, l.owner ≠ a'.oo.key) →
        tradedLots ts ≤ tradedLots us ∨
          Shortfall split0 (run split0 a2 (.newOrderV3 twoIx)) .bid us (tradedLots ts - tradedLots us))) ∧
    (resting split0 .ask).map (fun l => (l.price, l.quantity, l.owner)) = [(1, 1, 41), (1, 2, 41)] ∧
    (resting split1 .ask).map (fun l => (l.price, l.quantity, l.owner)) = [(1, 2, 41)] ∧
    (ooAt (run split1 a2 (.newOrderV3 twoIx)).oos 42).map (fun o => (o.coinFree, o.pcFree)) = some (200, 0) ∧
    (ooAt (run split0 a2 (.newOrderV3 twoIx)).oos 42).map (fun o => (o.coinFree, o.pcFree)) = some (100, 10) := by
  have hr0 : Reach P split0 := next (next r0 (valid (by decide)) (by decide +kernel) (by decide)) (valid (by decide))
    (by decide +kernel) (by decide)
  have hr1 : Reach P split1 := next hr0 (show genOrderId 0 1 .ask < _ from by decide) (by decide +kernel) (by decide)
  have h0 : process conc P env split0 a2 (.newOrderV3 twoIx) = .ok (run split0 a2 (.newOrderV3 twoIx)) :=
    run_eq (by decide +kernel)
  have h1 : process conc P env split1 a2 (.newOrderV3 twoIx) = .ok (run split1 a2 (.newOrderV3 twoIx)) :=
    run_eq (by decide +kernel)
  have hv : OrderValid twoIx := valid (sd := .bid) (p := 1) (c := 2) (q := 21) (k := 32) (by decide)
  refine ⟨deeper_order_lots hr1 (by decide +kernel) hr0 (by decide +kernel) hv hv (notVault _ (by decide)) (notVault _ (by decide))
    h1 h0 rfl ?_ (by decide +kernel) ⟨Nat.le_refl _, Nat.le_refl _, Nat.le_refl _⟩ (by decide),
    by decide +kernel, by decide +kernel, by decide +kernel, by decide +kernel⟩
  have : List.isSublist (resting split1 .ask) (resting split0 .ask) = true := by decide +kernel
  exact List.isSublist_iff_sublist.1 this

end Serum.Demo
