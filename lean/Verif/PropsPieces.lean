import Verif.PropsAhead
import Verif.PropsDepth
import Verif.PropsTrack

/-!
C80, any number of parts: an order sent in pieces (as orders or send-takes, by whomever, with other things happening in
between) trades what the whole trades; only the rounding of fees can differ, by less than a unit for each piece.
-/

namespace Serum.Props

/-- One piece: an order or a send-take on `side` with limit `price`, for `n` lots and in fee tier `tier`, that can sweep
(C76); `ts` is what it trades. -/
inductive Piece (P : Params) (tier : FeeTier) (side : Side) (price : Nat) (s s1 : State conc) (n : Nat) (ts : List Touch) :
    Prop where
  | order {env : Env} {accts : List AccMeta} {ix : NewOrderIx} {a : NewOrderAccts} {o o' : OpenOrders} {slot d : Nat}
      {f : Option Posting} {evs : List EventView} (hv : OrderValid ix) (hside : ix.side = side) (hprice : ix.limitPrice = price)
      (hsize : ix.maxCoinQty = n) (he : PlaceEffect P env s s1 accts ix a tier o o' slot d ts f evs)
      (hc : CanSweep s (wantOrder s.mkt ix a.oo.key tier) ix.limit ix.maxCoinQty (payable ix.side ix.maxPcQty))
  | take {accts : List AccMeta} {ix : SendTakeIx} {a : SendTakeAccts} {evs : List EventView} (hv : TakeValid ix)
      (hside : ix.side = side) (hprice : ix.limitPrice = price) (hsize : ix.maxCoinQty = n)
      (he : TakeEffect P s s1 accts ix a tier ts evs)
      (hc : CanSweep s (wantTake s.mkt ix tier) ix.limit ix.maxCoinQty (payable ix.side ix.maxPcQty))

/-- Pieces for `n` lots altogether, one after the other; `T` lists what each of them trades. In between anything may happen
that leaves the side of the book they face as it is. -/
inductive Pieces (P : Params) (tier : FeeTier) (side : Side) (price : Nat) :
    State conc → Nat → List (List Touch) → State conc → Prop where
  | done {s : State conc} : Pieces P tier side price s 0 [] s
  | wait {s s1 s2 : State conc} {n : Nat} {T : List (List Touch)} (hl : Later P s s1)
      (hb : bestFirst s1 side.other = bestFirst s side.other) (rest : Pieces P tier side price s1 n T s2) :
      Pieces P tier side price s n T s2
  | piece {s s1 s2 : State conc} {n k : Nat} {ts : List Touch} {T : List (List Touch)} (hs : Step P s s1)
      (hp : Piece P tier side price s s1 n ts) (rest : Pieces P tier side price s1 k T s2) :
      Pieces P tier side price s (n + k) (ts :: T) s2

/-- What sending an order in pieces does, compared with sending it whole: `ts` are the trades of the whole, `T` those of the
pieces, `other` and `other'` the other side of the book at the end. -/
structure SameInPieces (m : Market) (tier : FeeTier) (ts : List Touch) (T : List (List Touch)) (other other' : List Leaf) :
    Prop where
  /-- The same resting orders remain, each with the same lots. -/
  book : other' = other
  lots : total tradedLots T = tradedLots ts
  quote : total (tradedQuote m) T = tradedQuote m ts
  /-- The pieces never pay less in fees, and less than a unit more for each. -/
  fees : takerFees m tier ts ≤ total (takerFees m tier) T
  rounding : total (takerFees m tier) T ≤ takerFees m tier ts + (T.length - 1)

/-- The terms that matter for a sweep. -/
def pieceWant (tier : FeeTier) (side : Side) (price pcLot : Nat) : Want :=
  { side, price, owner := 0, stb := .abortTransaction, kind := .ioc, tier, pcLot }

theorem within_piece (s : State conc) {w : Want} {tier : FeeTier} {side : Side} {price pcLot : Nat} (h1 : w.side = side)
    (h2 : w.price = price) : Within s w = Within s (pieceWant tier side price pcLot) := by
  subst h1 h2
  rfl

/-- What a piece does to the facing side of the book. -/
theorem Piece.sweeps {P : Params} {tier : FeeTier} {side : Side} {price n : Nat} {s s1 : State conc} {ts : List Touch}
    (h : Reach P s) (hq : s.seq < W64) (hp : Piece P tier side price s s1 n ts) (k : Nat) :
    ts = sweep n (Within s (pieceWant tier side price k)) ∧
    takeFront (bestFirst s side.other) ts = some (bestFirst s1 side.other) ∧
    (side = .bid → tradedQuote s.mkt ts < W64) := by
  cases hp with
  | order hv hside hprice hsize he hc =>
    have t := (order_sweeps h hq hv he hc).trades
    have b := (place_by_the_book h hq hv he).after
    refine ⟨?_, ?_, fun hs => ?_⟩
    · rw [t, hsize]
      congr 1
      exact within_piece s hside hprice
    · rw [← hside]; exact b
    · have := (he.bid (by rw [hside, hs])).budget
      have := hv.2.2.1.2
      unfold W64
      omega
  | take hv hside hprice hsize he hc =>
    have t := (can_take_sweeps h hq hv he hc).trades
    have b := (take_by_the_book h hq hv he).after
    refine ⟨?_, ?_, fun hs => ?_⟩
    · rw [t, hsize]
      congr 1
      exact within_piece s hside hprice
    · rw [← hside]; exact b
    · have := (he.bid (by rw [hside, hs])).budget
      have := hv.2.2.1.2
      unfold W64
      omega

theorem sweep_values {P : Params} {s : State conc} (h : Reach P s) (hq : s.seq ≤ W64) {w : Want} {n : Nat}
    (hm : w.side = .bid → tradedQuote s.mkt (sweep n (Within s w)) < W64) :
    ∀ x ∈ sweep n (Within s w), x.lots * x.maker.price * s.mkt.pcLot < W64 := by
  intro x hx
  cases hs : w.side with
  | bid =>
    have g := hm hs
    have e := sumBy_le_mem (Touch.tradedPc s.mkt) hx
    have e3 : Touch.tradedPc s.mkt x = x.lots * x.maker.price * s.mkt.pcLot := by
      unfold Touch.tradedPc Touch.pc; rw [if_pos (sweep_filled hx)]
    rw [← e3]
    exact Nat.lt_of_le_of_lt e g
  | ask =>
    obtain ⟨hm, hle⟩ := mem_sweep hx
    obtain ⟨vs, hvs, hqi, hi⟩ := h.view hq
    have hm' := mem_bestFirst.1 (List.mem_filter.1 hm).1
    rw [hs] at hm'
    have := hi.shape.book.bidVal x.maker hm'
    exact Nat.lt_of_le_of_lt (Nat.mul_le_mul_right _ (Nat.mul_le_mul_right _ hle)) this

/-- What a sweep leaves within the limit and beyond. -/
theorem sweep_leaves {P : Params} {s s1 : State conc} (h : Reach P s) (hq : s.seq ≤ W64) {w : Want} {n : Nat}
    (ha : takeFront (bestFirst s w.side.other) (sweep n (Within s w)) = some (bestFirst s1 w.side.other)) :
    Within s1 w = dropLots n (Within s w) ∧
    (bestFirst s1 w.side.other).filter (fun l => !w.accepts l.price) =
      (bestFirst s w.side.other).filter (fun l => !w.accepts l.price) := by
  have b1 := swept_after h hq rfl ha
  refine ⟨?_, ?_⟩
  · show (bestFirst s1 w.side.other).filter _ = _
    rw [b1]
    exact dropLots_within n (fun l hl => (List.mem_filter.1 hl).2) _ (fun l hl => by
      have := (List.mem_filter.1 hl).2
      simpa using this)
  · rw [b1, List.filter_append, List.filter_eq_nil_iff.2, List.nil_append, List.filter_filter]
    · simp only [Bool.and_self]
    · intro l hl
      obtain ⟨x, hx, e, _⟩ := dropLots_price l hl
      have := (List.mem_filter.1 hx).2
      rw [e, this]; simp

theorem Pieces.later {P : Params} {tier : FeeTier} {side : Side} {price : Nat} {s s' : State conc} {n : Nat}
    {T : List (List Touch)} (hp : Pieces P tier side price s n T s') : Later P s s' := by
  induction hp with
  | done => exact .refl
  | wait hl _ _ ih => exact hl.trans ih
  | piece hs _ _ ih => exact Later.trans (.step .refl hs) ih

theorem tradedQuote_lot {m m' : Market} (h : m'.pcLot = m.pcLot) (ts : List Touch) : tradedQuote m' ts = tradedQuote m ts :=
  total_congr fun t _ => by unfold Touch.tradedPc Touch.pc; rw [h]

theorem takerFees_lot {m m' : Market} (h : m'.pcLot = m.pcLot) (tier : FeeTier) (ts : List Touch) :
    takerFees m' tier ts = takerFees m tier ts :=
  total_congr fun t _ => by unfold Touch.fee Touch.pc; rw [h]

theorem Pieces.none {P : Params} {tier : FeeTier} {side : Side} {price : Nat} {s s' : State conc} {n : Nat}
    (hp : Pieces P tier side price s n [] s') : n = 0 := by
  generalize hT : ([] : List (List Touch)) = T at hp
  induction hp with
  | done => rfl
  | wait _ _ _ ih => exact ih hT
  | piece => cases hT

/-- Pieces compared with the sweep of their total. -/
theorem pieces_sweep {P : Params} {tier : FeeTier} {side : Side} {price : Nat} {s s' : State conc} {n : Nat}
    {T : List (List Touch)} (hp : Pieces P tier side price s n T s') (k : Nat) : Reach P s → s'.seq < W64 →
    (side = .bid → tradedQuote s.mkt (sweep n (Within s (pieceWant tier side price k))) < W64) →
    Later P s s' ∧ SameInPieces s.mkt tier (sweep n (Within s (pieceWant tier side price k))) T
      (dropLots n (Within s (pieceWant tier side price k)) ++
        (bestFirst s side.other).filter (fun l => !(pieceWant tier side price k).accepts l.price))
      (bestFirst s' side.other) := by
  induction hp with
  | @done s =>
    intro h hq _
    refine ⟨.refl, ?_, ?_, ?_, ?_, ?_⟩
    · have e : ∀ L, dropLots 0 L = L := fun L => by cases L <;> simp [dropLots]
      rw [e]
      exact best_split (bestFirst_best h (Nat.le_of_lt hq) (pieceWant tier side price k))
    all_goals rw [sweep_zero]; simp [total, tradedLots, tradedQuote, takerFees]
  | @wait s s1 s2 n T hl hb rest ih =>
    intro h hq hm
    have hw : Within s1 (pieceWant tier side price k) = Within s (pieceWant tier side price k) := by
      show (bestFirst s1 side.other).filter _ = (bestFirst s side.other).filter _
      rw [hb]
    have hlot := (later_kind hl).1.pcLot
    obtain ⟨l2, i⟩ := ih (hl.reach h) hq (by rw [hw, tradedQuote_lot hlot]; exact hm)
    have hll : ∀ {b : State conc}, Later P s1 b → Later P s b := by
      intro b hb
      induction hb with
      | refl => exact hl
      | step _ hs ih => exact .step ih hs
    refine ⟨hll l2, ?_⟩
    rw [hw, hb] at i
    obtain ⟨i1, i2, i3, i4, i5⟩ := i
    rw [tradedQuote_lot hlot, total_congr fun t _ => tradedQuote_lot hlot t] at i3
    rw [takerFees_lot hlot, total_congr fun t _ => takerFees_lot hlot tier t] at i4 i5
    exact ⟨i1, i2, i3, i4, i5⟩
  | @piece s s1 s2 n m ts T hs hp rest ih =>
    intro h hq hm
    have h1 : Reach P s1 := .step h hs
    have hl1 : Later P s s1 := .step .refl hs
    have hlot := (later_kind hl1).1.pcLot
    have hq0 : s.seq ≤ s2.seq := by
      have a := (later_kind hl1).2
      have b : ∀ {a b : State conc} {n : Nat} {T : List (List Touch)}, Pieces P tier side price a n T b → a.seq ≤ b.seq := by
        intro a b n T g
        induction g with
        | done => exact Nat.le_refl _
        | wait hl _ _ ih => exact Nat.le_trans (later_kind hl).2 ih
        | piece hs _ _ ih => exact Nat.le_trans hs.seq ih
      exact Nat.le_trans a (b rest)
    have hqs : s.seq < W64 := Nat.lt_of_le_of_lt hq0 hq
    obtain ⟨t, f, _⟩ := hp.sweeps h hqs k
    have hpos : ∀ l ∈ Within s (pieceWant tier side price k), 0 < l.quantity := fun l hl =>
      ((bestFirst_ok h (Nat.le_of_lt hqs) _).2 l (List.mem_filter.1 hl).1).1
    have f' := f
    rw [t] at f'
    obtain ⟨hw, hr⟩ := sweep_leaves h (Nat.le_of_lt hqs) (w := pieceWant tier side price k) f'
    obtain ⟨r1, r2, r3, r4⟩ := sweep_split s.mkt tier n m hpos (sweep_values h (Nat.le_of_lt hqs) hm)
    obtain ⟨l2, i1, i2, i3, i4, i5⟩ := ih h1 hq (by
      intro hs
      have := hm hs
      rw [hw, tradedQuote_lot hlot]
      omega)
    rw [hw] at i1 i2 i3 i4 i5
    rw [tradedQuote_lot hlot, total_congr fun t _ => tradedQuote_lot hlot t] at i3
    rw [takerFees_lot hlot, total_congr fun t _ => takerFees_lot hlot tier t] at i4 i5
    rw [← t] at r1 r2 r3 r4
    have hll : ∀ {b : State conc}, Later P s1 b → Later P s b := by
      intro b hb
      induction hb with
      | refl => exact hl1
      | step _ hs ih => exact .step ih hs
    refine ⟨hll l2, ?_, ?_, ?_, ?_, ?_⟩
    · rw [i1, dropLots_add n m hpos]
      congr 1
    · rw [total_cons, i2]; omega
    · rw [total_cons, i3]; omega
    · rw [total_cons]; omega
    · rw [total_cons, List.length_cons]
      cases T with
      | nil =>
        obtain rfl := rest.none
        have z : total (takerFees s.mkt tier) ([] : List (List Touch)) = 0 := rfl
        rw [z, Nat.add_zero n, ← t]
        exact Nat.le_add_right ..
      | cons a T =>
        rw [List.length_cons] at i5 ⊢
        omega

/-- C80, any number of parts. From `s`, an order or a send-take is sent whole, leading to `s'`, or in pieces, leading to `s2`,
each of which is an order or a send-take by anybody in the same fee tier; in between anything may happen that leaves the
side they face as it is. Both ways leave that side the same, trade the same lots for the same value, and the fees of the
pieces are those of the whole, or more by less than a unit for each piece. -/
theorem split_any {P : Params} {tier : FeeTier} {side : Side} {price n : Nat} {s s' s2 : State conc} {ts : List Touch}
    {T : List (List Touch)} (h : Reach P s) (hq : s2.seq < W64) (whole : Piece P tier side price s s' n ts)
    (parts : Pieces P tier side price s n T s2) :
    SameInPieces s.mkt tier ts T (bestFirst s' side.other) (bestFirst s2 side.other) := by
  have hqs : s.seq < W64 := Nat.lt_of_le_of_lt (later_kind parts.later).2 hq
  obtain ⟨t, f, hm⟩ := whole.sweeps h hqs 0
  rw [t] at f hm
  obtain ⟨_, i⟩ := pieces_sweep parts 0 h hq hm
  have e : bestFirst s' side.other = dropLots n (Within s (pieceWant tier side price 0)) ++
      (bestFirst s side.other).filter (fun l => !(pieceWant tier side price 0).accepts l.price) :=
    swept_after h (Nat.le_of_lt hqs) (w := pieceWant tier side price 0) rfl f
  rw [← e, ← t] at i
  exact i

end Serum.Props

namespace Serum.Demo
open Serum Props

/-- In `s1` five lots are offered at 1000. 12 buys four of them at up to 1100 (`fourWhole`); or one by an order, then two by a
send-take, then one by an order, with the events of the first processed in between. -/
def pc1 : State conc := run s1 a2 (.newOrderV3 (order .bid 1100 1 50000 9))
def pc2 : State conc := run pc1 (crankList [41, 42]) (crank 4)
def pc3 : State conc := run pc2 takeAccts (.sendTake takeIx)
def pc4 : State conc := run pc3 a2 (.newOrderV3 (order .bid 1100 1 50000 9))

theorem order_piece {s : State conc} {n : Nat} (h : Reach P s) (hq : s.seq < W64)
    (hv : OrderValid (order .bid 1100 n 50000 9))
    (hf : fine s a2 (.newOrderV3 (order .bid 1100 n 50000 9)) = true)
    (hc : CanSweep s (wantOrder s.mkt (order .bid 1100 n 50000 9) 42 .base) 10 n 50000) :
    ∃ ts, Piece P .base .bid 1100 s (run s a2 (.newOrderV3 (order .bid 1100 n 50000 9))) n ts := by
  obtain ⟨a, tier, o, o1, slot, d, ts, f, evs, he⟩ := place_effect h hq hv (notVault _ (by decide)) (run_eq hf)
  have ea : a.oo.key = 42 := by
    have h : (parseNewOrder a2).map (·.oo.key) = .ok 42 := rfl
    rw [he.args.parse] at h
    exact Except.ok.inj h
  have et : tier = .base := by
    have hd : (parseNewOrder a2).map (·.discount) = .ok [] := rfl
    rw [he.args.parse] at hd
    have hd : a.discount = [] := Except.ok.inj hd
    obtain ⟨d1, g1, g2⟩ := he.args.tier
    rw [hd] at g1
    obtain rfl : none = d1 := Except.ok.inj g1
    exact Except.ok.inj (g2.symm.trans (rfl : loadFeeTier P s.toCore _ none = .ok .base))
  subst et
  exact ⟨ts, .order hv rfl rfl rfl he (by rw [ea]; exact hc)⟩

theorem take_piece {s : State conc} (h : Reach P s) (hq : s.seq < W64) (hf : fine s takeAccts (.sendTake takeIx) = true)
    (hc : CanSweep s (wantTake s.mkt takeIx .base) 10 2 30000) :
    ∃ ts, Piece P .base .bid 1100 s (run s takeAccts (.sendTake takeIx)) 2 ts := by
  obtain ⟨a, tier, ts, evs, he⟩ := take_effect h hq takeValid (notVault _ (by decide)) (run_eq hf)
  have et : tier = .base := by
    have hd : (parseSendTake takeAccts).map (·.discount) = .ok [] := rfl
    rw [he.args.parse] at hd
    have hd : a.discount = [] := Except.ok.inj hd
    obtain ⟨d1, g1, g2⟩ := he.args.tier
    rw [hd] at g1
    obtain rfl : none = d1 := Except.ok.inj g1
    exact Except.ok.inj (g2.symm.trans (rfl : loadFeeTier P s.toCore _ none = .ok .base))
  subst et
  exact ⟨ts, .take takeValid rfl rfl rfl he hc⟩

/-- Both ways exist; four lots are bought, one is left. -/
theorem pieces_demo :
    (∃ ts T, Piece P .base .bid 1100 s1 fourWhole 4 ts ∧ Pieces P .base .bid 1100 s1 4 T pc4 ∧ T.length = 3 ∧
      SameInPieces s1.mkt .base ts T (bestFirst fourWhole .ask) (bestFirst pc4 .ask)) ∧
    (bestFirst fourWhole .ask).map (fun l => (l.price, l.quantity)) = [(1000, 1)] ∧ pc4.seq < W64 := by
  have v1 : OrderValid (order .bid 1100 1 50000 9) := valid (by decide)
  have f1 : fine s1 a2 (.newOrderV3 (order .bid 1100 1 50000 9)) = true := by decide +kernel
  have f2 : fine pc1 (crankList [41, 42]) (crank 4) = true := by decide +kernel
  have f3 : fine pc2 takeAccts (.sendTake takeIx) = true := by decide +kernel
  have f4 : fine pc3 a2 (.newOrderV3 (order .bid 1100 1 50000 9)) = true := by decide +kernel
  have g1 : Reach P pc1 := next r1 v1 f1 (by decide)
  have g2 : Reach P pc2 := next g1 (by decide : U16 4) f2 (by decide)
  have g3 : Reach P pc3 := next g2 takeValid f3 (by decide)
  have stp : ∀ {s : State conc} {a : List AccMeta} {ix : Instruction}, IxValid ix → fine s a ix = true →
      (a.all fun a => a.key != 60 || !a.signer) = true → Step P s (run s a ix) := by
    intro s a ix hv hf hn
    refine .instr (env := env) (accts := a) (data := ix.pack) (notVault _ hn) ?_
    unfold processRaw
    rw [instruction_round_trip ix hv]
    exact run_eq hf
  obtain ⟨ts, w⟩ := order_piece (s := s1) (n := 4) r1 (by decide +kernel) (valid (by decide)) (by decide +kernel)
    ⟨by decide, by decide +kernel, by decide +kernel, by decide +kernel⟩
  obtain ⟨t1, w1⟩ := order_piece (s := s1) (n := 1) r1 (by decide +kernel) v1 f1
    ⟨by decide, by decide +kernel, by decide +kernel, by decide +kernel⟩
  obtain ⟨t3, w3⟩ := take_piece (s := pc2) g2 (by decide +kernel) f3
    ⟨by decide, by decide +kernel, by decide +kernel, by decide +kernel⟩
  obtain ⟨t4, w4⟩ := order_piece (s := pc3) (n := 1) g3 (by decide +kernel) v1 f4
    ⟨by decide, by decide +kernel, by decide +kernel, by decide +kernel⟩
  have p1 : Step P s1 pc1 := stp (ix := .newOrderV3 (order .bid 1100 1 50000 9)) v1 f1 (by decide)
  have p2 : Step P pc1 pc2 := stp (ix := crank 4) (by decide : U16 4) f2 (by decide)
  have p3 : Step P pc2 pc3 := stp (ix := .sendTake takeIx) takeValid f3 (by decide)
  have p4 : Step P pc3 pc4 := stp (ix := .newOrderV3 (order .bid 1100 1 50000 9)) v1 f4 (by decide)
  have parts : Pieces P .base .bid 1100 s1 (1 + (2 + (1 + 0))) [t1, t3, t4] pc4 :=
    .piece p1 w1 (.wait (.step .refl p2) (by decide +kernel) (.piece p3 w3 (.piece p4 w4 .done)))
  exact ⟨⟨ts, _, w, parts, rfl, split_any r1 (by decide +kernel) w parts⟩, by decide +kernel, by decide +kernel⟩

end Serum.Demo
