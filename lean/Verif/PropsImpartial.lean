import Verif.PropsWhatIf

/-!
C88: the engine is impartial. What an order trades, what it pays for it and what rests of it depends on its terms, its
fee tier and on how the other side of the book looks to it: prices, sizes, and which orders are its sender's own. Nothing
else matters: not who sends it or who the makers are, not the sender's or anyone's balances, not the events waiting,
not the orders on its own side, not the order's id. In particular an immediate-or-cancel order and a send-take with the
same terms trade the same, and it does not matter whether the crank runs before or after an order.
-/

namespace Serum.Props

/-! ### How a book looks -/

/-- How a resting order looks to the owner of an account: its price, its size, and whether it is their own. -/
def look (me : Nat) (l : Leaf) : Nat × Nat × Bool := (l.price, l.quantity, decide (l.owner = me))

/-- What can be noticed of a match: price, lots, and whether it was a trade or a self-trade avoided. -/
def seen (t : Touch) : Nat × Nat × Bool := (t.maker.price, t.lots, t.filled)

/-- The same terms, whoever sends them. -/
structure SameTerms (w w' : Want) : Prop where
  side : w'.side = w.side
  price : w'.price = w.price
  stb : w'.stb = w.stb
  kind : w'.kind = w.kind
  tier : w'.tier = w.tier
  pcLot : w'.pcLot = w.pcLot

theorem SameTerms.accepts {w w' : Want} (h : SameTerms w w') (p : Nat) : w'.accepts p = w.accepts p := by
  unfold Want.accepts
  rw [h.side, h.price]

theorem SameTerms.lots {w w' : Want} (h : SameTerms w w') {l l' : Leaf} (hl : look w'.owner l' = look w.owner l)
    (coin pc : Nat) : w'.lots l' coin pc = w.lots l coin pc := by
  simp only [look, Prod.mk.injEq] at hl
  unfold Want.lots
  rw [h.side, h.tier, h.pcLot, hl.1, hl.2.1]

theorem SameTerms.meet {w w' : Want} (h : SameTerms w w') {l l' : Leaf} (hl : look w'.owner l' = look w.owner l)
    (coin pc : Nat) : seen (w'.meet l' coin pc) = seen (w.meet l coin pc) := by
  have hlots := h.lots hl coin pc
  simp only [look, Prod.mk.injEq, decide_eq_decide] at hl
  obtain ⟨h1, h2, h3⟩ := hl
  unfold Want.meet
  rw [h.stb]
  by_cases hc : l.owner = w.owner
  · rw [if_pos hc, if_pos (h3.2 hc)]
    split <;> simp [seen, h1, h2, hlots]
  · rw [if_neg hc, if_neg (fun e => hc (h3.1 e))]
    simp [seen, h1, hlots]

theorem SameTerms.used {w w' : Want} (h : SameTerms w w') {t t' : Touch} (ht : seen t' = seen t) :
    w'.coinUsed t' = w.coinUsed t ∧ w'.pcUsed t' = w.pcUsed t := by
  simp only [seen, Prod.mk.injEq] at ht
  obtain ⟨h1, h2, h3⟩ := ht
  unfold Want.coinUsed Want.pcUsed
  rw [h.stb, h.tier, h.pcLot, h1, h2, h3]
  exact ⟨rfl, rfl⟩

theorem look_cut (me : Nat) (l : Leaf) (n : Nat) :
    look me { l with quantity := l.quantity - n } = ((look me l).1, (look me l).2.1 - n, (look me l).2.2) := rfl

theorem cutFirst_look {me me' : Nat} {l l' : Leaf} {L L' : List Leaf} (hl : look me' l' = look me l)
    (hL : L'.map (look me') = L.map (look me)) {n n' : Nat} (hn : n' = n) :
    (cutFirst l' n' L').map (look me') = (cutFirst l n L).map (look me) := by
  subst hn
  have hq : l'.quantity = l.quantity := by
    simp only [look, Prod.mk.injEq] at hl
    exact hl.2.1
  unfold cutFirst
  rw [hq]
  split
  · exact hL
  · rw [List.map_cons, List.map_cons, hL]
    have e := look_cut me l n'
    have e' := look_cut me' l' n'
    rw [hq] at e'
    rw [e, e', hl]

/-- Textbook matching sees of the book what it looks like and no more. -/
theorem takes_look {w w' : Want} (h : SameTerms w w') {k : Nat} : ∀ {L L' : List Leaf} {coin pc : Nat},
    L'.map (look w'.owner) = L.map (look w.owner) →
    (w'.takes k L' coin pc).map seen = (w.takes k L coin pc).map seen := by
  induction k with
  | zero => intro L L' coin pc _; simp [Want.takes]
  | succ k ih =>
    intro L L' coin pc hL
    match L, L', hL with
    | [], [], _ => simp [Want.takes]
    | [], x :: _, hL => simp at hL
    | x :: _, [], hL => simp at hL
    | l :: L, l' :: L', hL =>
      simp only [List.map_cons, List.cons.injEq] at hL
      obtain ⟨hl, hL⟩ := hL
      have hp : l'.price = l.price := by
        simp only [look, Prod.mk.injEq] at hl
        exact hl.1
      unfold Want.takes
      rw [h.kind, h.accepts, hp, h.lots hl]
      split
      · have hm := h.meet hl coin pc
        obtain ⟨u1, u2⟩ := h.used hm
        have hn : (w'.meet l' coin pc).lots = (w.meet l coin pc).lots := by
          simp only [seen, Prod.mk.injEq] at hm
          exact hm.2.1
        rw [List.map_cons, List.map_cons, hm, u1, u2, ih (cutFirst_look hl hL hn)]
      · rfl

/-- What is left of two books that look the same after matches that look the same. -/
theorem takeFront_look {me me' : Nat} {ts : List Touch} : ∀ {L L' R R' : List Leaf} {ts' : List Touch},
    L'.map (look me') = L.map (look me) → ts'.map seen = ts.map seen → takeFront L ts = some R →
    takeFront L' ts' = some R' → R'.map (look me') = R.map (look me) := by
  induction ts with
  | nil =>
    intro L L' R R' ts' hL ht h1 h2
    have : ts' = [] := by simpa using ht
    subst this
    cases L <;> cases L' <;> simp only [takeFront, Option.some.injEq] at h1 h2 <;> subst h1 h2 <;> exact hL
  | cons t ts ih =>
    intro L L' R R' ts' hL ht h1 h2
    match L, L', ts', hL, ht with
    | [], _, _, _, _ => simp [takeFront] at h1
    | l :: L, [], _, hL, _ => simp at hL
    | l :: L, l' :: L', [], _, ht => simp at ht
    | l :: L, l' :: L', t' :: ts', hL, ht =>
      simp only [List.map_cons, List.cons.injEq] at hL ht
      obtain ⟨hl, hL⟩ := hL
      obtain ⟨ht, hts⟩ := ht
      simp only [takeFront] at h1 h2
      split at h1
      · split at h2
        · have hn : t'.lots = t.lots := by
            simp only [seen, Prod.mk.injEq] at ht
            exact ht.2.1
          exact ih (cutFirst_look (l := l) (l' := l') hl hL hn) hts h1 h2
        · cases h2
      · cases h1

theorem total_look {α β : Type} {f g : α → Nat} {v : α → β} (hfg : ∀ x y, v y = v x → g y = f x) :
    ∀ {l k : List α}, k.map v = l.map v → total g k = total f l := by
  intro l
  induction l with
  | nil => intro k h; have : k = [] := by simpa using h
           subst this; rfl
  | cons x l ih =>
    intro k h
    match k, h with
    | [], h => simp at h
    | y :: k, h =>
      simp only [List.map_cons, List.cons.injEq] at h
      have := ih h.2
      simp only [total, List.map_cons, List.sum_cons] at this ⊢
      rw [this, hfg x y h.1]

theorem rests_look {w w' : Want} (h : SameTerms w w') {L L' : List Leaf}
    (hL : L'.map (look w'.owner) = L.map (look w.owner)) (coin pc : Nat) : w'.rests L' coin pc = w.rests L coin pc := by
  unfold Want.rests
  rw [h.kind, h.side, h.price, h.pcLot]
  have : L'.head?.any (fun l => w'.accepts l.price) = L.head?.any (fun l => w.accepts l.price) := by
    match L, L', hL with
    | [], [], _ => rfl
    | [], _ :: _, hL => simp at hL
    | _ :: _, [], hL => simp at hL
    | l :: _, l' :: _, hL =>
      simp only [List.map_cons, List.cons.injEq, look, Prod.mk.injEq] at hL
      simp only [List.head?_cons, Option.any_some, h.accepts, hL.1.1]
  rw [this]

/-! ### Two orders with the same terms -/

/-- Two orders did the same: the same matches at the same prices, for the same lots, money and fees; the same rests; and
what is left of the two books looks the same. -/
structure SameOutcome (m m' : Market) (tier tier' : FeeTier) (me me' : Nat) (ts ts' : List Touch) (posted posted' : Nat)
    (left left' : List Leaf) : Prop where
  matches_ : ts'.map seen = ts.map seen
  lots : tradedLots ts' = tradedLots ts
  quote : tradedQuote m' ts' = tradedQuote m ts
  fees : takerFees m' tier' ts' = takerFees m tier ts
  referrer : referrerPart m' tier' ts' = referrerPart m tier ts
  posted : posted' = posted
  left : left'.map (look me') = left.map (look me)

theorem same_outcome {s s1 t t1 : State conc} {w w' : Want} (hw : SameTerms w w') {limit coin pc posted posted' : Nat}
    {ts ts' : List Touch} (hm : w.pcLot = s.mkt.pcLot) (hm' : w'.pcLot = t.mkt.pcLot)
    (hb : ByTheBook s s1 w limit coin pc ts posted) (hb' : ByTheBook t t1 w' limit coin pc ts' posted')
    (hlook : (bestFirst t w.side.other).map (look w'.owner) = (bestFirst s w.side.other).map (look w.owner)) :
    SameOutcome s.mkt t.mkt w.tier w'.tier w.owner w'.owner ts ts' posted posted' (bestFirst s1 w.side.other)
      (bestFirst t1 w.side.other) := by
  have e1 := hb.trades
  have e2 := hb'.trades
  have f1 := hb.after
  have f2 := hb'.after
  have r1 := hb.posted
  have r2 := hb'.posted
  rw [hw.side] at e2 f2 r2
  have hts : ts'.map seen = ts.map seen := by
    rw [e1, e2]
    exact takes_look hw hlook
  have hleft := takeFront_look hlook hts f1 f2
  have hmm : t.mkt.pcLot = s.mkt.pcLot := by rw [← hm, ← hm', hw.pcLot]
  have key : ∀ x y : Touch, seen y = seen x → y.maker.price = x.maker.price ∧ y.lots = x.lots ∧ y.filled = x.filled := by
    intro x y h
    simpa only [seen, Prod.mk.injEq] using h
  have hpc : ∀ x y : Touch, seen y = seen x → y.pc t.mkt = x.pc s.mkt := by
    intro x y h
    obtain ⟨k1, k2, _⟩ := key x y h
    unfold Touch.pc
    rw [k1, k2, hmm]
  have hfee : ∀ x y : Touch, seen y = seen x → y.fee t.mkt w'.tier = x.fee s.mkt w.tier := by
    intro x y h
    unfold Touch.fee
    rw [(key x y h).2.2, hpc x y h, hw.tier]
  refine ⟨hts, total_look ?_ hts, total_look ?_ hts, total_look hfee hts, total_look ?_ hts, ?_, hleft⟩
  · intro x y h
    unfold Touch.traded
    rw [(key x y h).2.2, (key x y h).2.1]
  · intro x y h
    unfold Touch.tradedPc
    rw [(key x y h).2.2, hpc x y h]
  · intro x y h
    show Touch.fee _ _ _ / 5 = Touch.fee _ _ _ / 5
    rw [hfee x y h]
  · rw [r1, r2, total_look (fun x y h => (hw.used h).1) hts, total_look (fun x y h => (hw.used h).2) hts]
    exact rests_look hw hleft _ _

/-! ### C88 -/

/-- `ix'` asks for the same as `ix`; client id and deadline may differ. -/
structure SameOrder (ix ix' : NewOrderIx) : Prop where
  side : ix'.side = ix.side
  price : ix'.limitPrice = ix.limitPrice
  coin : ix'.maxCoinQty = ix.maxCoinQty
  pc : ix'.maxPcQty = ix.maxPcQty
  stb : ix'.stb = ix.stb
  kind : ix'.orderType = ix.orderType
  limit : ix'.limit = ix.limit

/-- C88. The same order sent in two states, even of two markets, by two senders in the same fee tier: if the two books look
the same to them on the side they face, then the outcome is the same. -/
theorem order_impartial {P P' : Params} {s s1 t t1 : State conc} (h : Reach P s) (hq : s.seq < W64) (h' : Reach P' t)
    (hq' : t.seq < W64) {env env' : Env} {accts accts' : List AccMeta} {ix ix' : NewOrderIx} (hv : OrderValid ix)
    (hv' : OrderValid ix') (hs : SameOrder ix ix') (hlot : t.mkt.pcLot = s.mkt.pcLot)
    {a a' : NewOrderAccts} {tier : FeeTier} {o o1 o' o1' : OpenOrders} {slot slot' d d' : Nat} {ts ts' : List Touch}
    {f f' : Option Posting} {evs evs' : List EventView}
    (he : PlaceEffect P env s s1 accts ix a tier o o1 slot d ts f evs)
    (he' : PlaceEffect P' env' t t1 accts' ix' a' tier o' o1' slot' d' ts' f' evs')
    (hlook : (bestFirst t ix.side.other).map (look a'.oo.key) = (bestFirst s ix.side.other).map (look a.oo.key)) :
    SameOutcome s.mkt t.mkt tier tier a.oo.key a'.oo.key ts ts' (postedLots f) (postedLots f')
      (bestFirst s1 ix.side.other) (bestFirst t1 ix.side.other) := by
  have hb := place_by_the_book h hq hv he
  have hb' := place_by_the_book h' hq' hv' he'
  rw [hs.limit, hs.coin, hs.pc, hs.side] at hb'
  exact same_outcome (w := wantOrder s.mkt ix a.oo.key tier) (w' := wantOrder t.mkt ix' a'.oo.key tier)
    ⟨hs.side, hs.price, hs.stb, hs.kind, rfl, hlot⟩ rfl rfl hb hb' hlook

/-- The same for send-takes, whose senders have no orders on the book. -/
structure SameTake (ix ix' : SendTakeIx) : Prop where
  side : ix'.side = ix.side
  price : ix'.limitPrice = ix.limitPrice
  coin : ix'.maxCoinQty = ix.maxCoinQty
  pc : ix'.maxPcQty = ix.maxPcQty
  limit : ix'.limit = ix.limit

theorem take_impartial {P P' : Params} {s s1 t t1 : State conc} (h : Reach P s) (hq : s.seq < W64) (h' : Reach P' t)
    (hq' : t.seq < W64) {accts accts' : List AccMeta} {ix ix' : SendTakeIx} (hv : TakeValid ix)
    (hv' : TakeValid ix') (hs : SameTake ix ix') (hlot : t.mkt.pcLot = s.mkt.pcLot)
    {a a' : SendTakeAccts} {tier : FeeTier} {ts ts' : List Touch} {evs evs' : List EventView}
    (he : TakeEffect P s s1 accts ix a tier ts evs) (he' : TakeEffect P' t t1 accts' ix' a' tier ts' evs')
    (hlook : (bestFirst t ix.side.other).map (fun l => (l.price, l.quantity)) =
      (bestFirst s ix.side.other).map (fun l => (l.price, l.quantity))) :
    SameOutcome s.mkt t.mkt tier tier 0 0 ts ts' 0 0 (bestFirst s1 ix.side.other) (bestFirst t1 ix.side.other) := by
  have hb := take_by_the_book h hq hv he
  have hb' := take_by_the_book h' hq' hv' he'
  rw [hs.limit, hs.coin, hs.pc, hs.side] at hb'
  have hno : ∀ {P : Params} {s : State conc}, Reach P s → s.seq < W64 → ∀ sd, (bestFirst s sd).map (look 0) =
      ((bestFirst s sd).map fun l => (l.price, l.quantity)).map fun p => (p.1, p.2, false) := by
    intro P s h hq sd
    obtain ⟨_, _, _, hi⟩ := h.view (Nat.le_of_lt hq)
    rw [List.map_map]
    apply List.map_congr_left
    intro l hl
    have := hi.shape.owner_ne (mem_bestFirst.1 hl)
    simp [look, this]
  exact same_outcome (w := wantTake s.mkt ix tier) (w' := wantTake t.mkt ix' tier)
    ⟨hs.side, hs.price, rfl, rfl, rfl, hlot⟩ rfl rfl hb hb' (by
      rw [show (wantTake t.mkt ix' tier).owner = 0 from rfl, show (wantTake s.mkt ix tier).owner = 0 from rfl,
        show (wantTake s.mkt ix tier).side = ix.side from rfl, hno h' hq', hno h hq, hlook])

/-! ### An immediate-or-cancel order and a send-take -/

/-- If no order in the list is the sender's, it does not matter what they want done about self-trades. -/
theorem takes_any_stb {w w' : Want} (h1 : w'.side = w.side) (h2 : w'.price = w.price) (h3 : w'.kind = w.kind)
    (h4 : w'.tier = w.tier) (h5 : w'.pcLot = w.pcLot) {k : Nat} : ∀ {L : List Leaf} {coin pc : Nat},
    (∀ l ∈ L, l.owner ≠ w.owner) → (∀ l ∈ L, l.owner ≠ w'.owner) → w'.takes k L coin pc = w.takes k L coin pc := by
  induction k with
  | zero => intro L coin pc _ _; simp [Want.takes]
  | succ k ih =>
    intro L coin pc ho ho'
    match L with
    | [] => simp [Want.takes]
    | l :: L =>
      have a1 : w'.accepts l.price = w.accepts l.price := by unfold Want.accepts; rw [h1, h2]
      have a2 : w'.lots l coin pc = w.lots l coin pc := by unfold Want.lots; rw [h1, h4, h5]
      have n1 : l.owner ≠ w.owner := ho l List.mem_cons_self
      have n2 : l.owner ≠ w'.owner := ho' l List.mem_cons_self
      have a3 : w'.meet l coin pc = w.meet l coin pc := by
        unfold Want.meet
        rw [if_neg n1, if_neg n2, a2]
      have ft : (w.meet l coin pc).filled = true := by
        unfold Want.meet
        rw [if_neg n1]
      have u1 : w'.coinUsed (w.meet l coin pc) = w.coinUsed (w.meet l coin pc) := by
        unfold Want.coinUsed
        simp [ft]
      have u2 : w'.pcUsed (w.meet l coin pc) = w.pcUsed (w.meet l coin pc) := by
        unfold Want.pcUsed
        rw [h4, h5]
        simp [ft]
      have sub : ∀ n, ∀ x ∈ cutFirst l n L, x.owner = l.owner ∨ x ∈ L := by
        intro n x hx
        unfold cutFirst at hx
        split at hx
        · exact .inr hx
        · rcases List.mem_cons.1 hx with rfl | hx
          · exact .inl rfl
          · exact .inr hx
      unfold Want.takes
      rw [a1, a2, a3, h3, u1, u2]
      split
      · rw [ih]
        · intro x hx
          rcases sub _ x hx with e | e
          · rw [e]; exact n1
          · exact ho x (List.mem_cons_of_mem _ e)
        · intro x hx
          rcases sub _ x hx with e | e
          · rw [e]; exact n2
          · exact ho' x (List.mem_cons_of_mem _ e)
      · rfl

/-- `ix` is the immediate-or-cancel order with the terms of the send-take `st`. -/
structure AsTake (st : SendTakeIx) (ix : NewOrderIx) : Prop where
  kind : ix.orderType = .ioc
  side : ix.side = st.side
  price : ix.limitPrice = st.limitPrice
  coin : ix.maxCoinQty = st.maxCoinQty
  pc : ix.maxPcQty = st.maxPcQty
  limit : ix.limit = st.limit

/-- C88. In one state, an immediate-or-cancel order and a send-take with the same terms in the same fee tier, none of the
orders facing them being the sender's: they match the same orders, for the same lots, and leave the same book. Nothing of
either rests. -/
theorem take_like_order {P : Params} {s s1 s2 : State conc} (h : Reach P s) (hq : s.seq < W64) {env : Env}
    {accts accts' : List AccMeta} {st : SendTakeIx} {ix : NewOrderIx} (hv : TakeValid st) (hv' : OrderValid ix)
    (hs : AsTake st ix) {a : SendTakeAccts} {a' : NewOrderAccts} {tier : FeeTier} {o o1 : OpenOrders} {slot d : Nat}
    {ts ts' : List Touch} {f : Option Posting} {evs evs' : List EventView}
    (he : TakeEffect P s s1 accts st a tier ts evs)
    (he' : PlaceEffect P env s s2 accts' ix a' tier o o1 slot d ts' f evs')
    (hown : ∀ l ∈ bestFirst s st.side.other, l.owner ≠ a'.oo.key) :
    ts' = ts ∧ postedLots f = 0 ∧ bestFirst s2 st.side.other = bestFirst s1 st.side.other := by
  have hb := take_by_the_book h hq hv he
  have hb' := place_by_the_book h hq hv' he'
  rw [hs.limit, hs.coin, hs.pc, hs.side] at hb'
  obtain ⟨_, _, _, hi⟩ := h.view (Nat.le_of_lt hq)
  have e1 := hb.trades
  have e2 := hb'.trades
  have f1 := hb.after
  have f2 := hb'.after
  have r2 := hb'.posted
  have es : (wantOrder s.mkt ix a'.oo.key tier).side = (wantTake s.mkt st tier).side := hs.side
  have ek : (wantOrder s.mkt ix a'.oo.key tier).kind = .ioc := hs.kind
  rw [es] at e2 f2
  have ht : ts' = ts := by
    rw [e1, e2]
    exact takes_any_stb (w := wantTake s.mkt st tier) (w' := wantOrder s.mkt ix a'.oo.key tier) hs.side hs.price ek rfl rfl
      (fun l hl => hi.shape.owner_ne (mem_bestFirst.1 hl)) hown
  subst ht
  refine ⟨rfl, ?_, ?_⟩
  · rw [r2]
    unfold Want.rests
    rw [if_pos ek]
  · rw [f1] at f2
    exact (Option.some.inj f2).symm

/-! ### The crank and the next order -/

theorem discountAcct_congr {c c' : Core} (ht : c'.toks = c.toks) (a : List AccMeta) :
    discountAcct c' a = discountAcct c a := by
  unfold discountAcct
  simp only [ht]

theorem loadFeeTier_congr {P : Params} {c c' : Core} (hm : c'.mkt = c.mkt) (k : Nat) (a : Option Tok) :
    loadFeeTier P c' k a = loadFeeTier P c k a := by
  unfold loadFeeTier
  rw [hm]

/-- What an order can tell apart of two states: the market record, the token accounts, and the side of the book it faces. -/
structure SameFront (s t : State conc) (sd : Side) : Prop where
  mkt : t.mkt = s.mkt
  toks : t.toks = s.toks
  book : bestFirst t sd = bestFirst s sd

/-- C88. An order that goes through in two reachable states with the same market record, token accounts and facing side of
the book does exactly the same in both: the same orders matched, for the same lots, the same rests, and the same is left
of the facing side. The own side, the accounts' balances and the waiting events do not matter. -/
theorem order_same_front {P : Params} {s s1 t t1 : State conc} (h : Reach P s) (hq : s.seq < W64) (h' : Reach P t)
    (hq' : t.seq < W64) {env env' : Env} {accts : List AccMeta} {ix : NewOrderIx} (hv : OrderValid ix)
    (hn : NotVault P s.mkt accts) (hf : SameFront s t ix.side.other)
    (h1 : newOrderV3 conc P env s accts ix = .ok s1) (h2 : newOrderV3 conc P env' t accts ix = .ok t1) :
    ∃ a tier o o1 o' o1' slot slot' d d' ts f f' evs evs',
      PlaceEffect P env s s1 accts ix a tier o o1 slot d ts f evs ∧
      PlaceEffect P env' t t1 accts ix a tier o' o1' slot' d' ts f' evs' ∧
      postedLots f' = postedLots f ∧ bestFirst t1 ix.side.other = bestFirst s1 ix.side.other := by
  obtain ⟨a, tier, o, o1, slot, d, ts, f, evs, he⟩ := place_effect h hq hv hn h1
  obtain ⟨a', tier', o', o1', slot', d', ts', f', evs', he'⟩ := place_effect h' hq' hv (by rw [hf.mkt]; exact hn) h2
  have e := he'.args.parse
  rw [he.args.parse] at e
  cases e
  obtain ⟨d1, g1, g2⟩ := he.args.tier
  obtain ⟨d2, g3, g4⟩ := he'.args.tier
  rw [discountAcct_congr hf.toks, g1] at g3
  cases g3
  rw [loadFeeTier_congr hf.mkt, g2] at g4
  cases g4
  have hb := place_by_the_book h hq hv he
  have hb' := place_by_the_book h' hq' hv he'
  rw [hf.mkt] at hb'
  have e1 := hb.trades
  have e2 := hb'.trades
  have f1 := hb.after
  have f2 := hb'.after
  have r1 := hb.posted
  have r2 := hb'.posted
  rw [show (wantOrder s.mkt ix a.oo.key tier).side = ix.side from rfl] at e1 e2 f1 f2 r1 r2
  rw [hf.book, ← e1] at e2
  subst e2
  rw [hf.book, f1] at f2
  have hl := Option.some.inj f2
  refine ⟨a, tier, o, o1, o', o1', slot, slot', d, d', ts', f, f', evs, evs', he, he', ?_, hl.symm⟩
  rw [r1, r2, hl]

/-- C88. The crank is neutral: what an order does when it goes through after events are delivered is what it does when it
goes through before. -/
theorem crank_neutral {P : Params} {s s1 t t1 : State conc} (h : Reach P s) (hq : s.seq < W64) (h' : Reach P t)
    {env env' env'' : Env} {accts crank : List AccMeta} {n : Nat} {ix : NewOrderIx} (hv : OrderValid ix)
    (hn : NotVault P s.mkt accts)
    (hc : consumeEvents conc P env'' s crank n = .ok t ∨ consumeEventsPermissioned conc P env'' s crank n = .ok t)
    (h1 : newOrderV3 conc P env s accts ix = .ok s1) (h2 : newOrderV3 conc P env' t accts ix = .ok t1) :
    ∃ a tier o o1 o' o1' slot slot' d d' ts f f' evs evs',
      PlaceEffect P env s s1 accts ix a tier o o1 slot d ts f evs ∧
      PlaceEffect P env' t t1 accts ix a tier o' o1' slot' d' ts f' evs' ∧
      postedLots f' = postedLots f ∧ bestFirst t1 ix.side.other = bestFirst s1 ix.side.other := by
  obtain ⟨k1, k2, _, k4, k5, k6⟩ : t.mkt = s.mkt ∧ t.seq = s.seq ∧ t.reqCount = s.reqCount ∧ t.toks = s.toks ∧
      t.bids = s.bids ∧ t.asks = s.asks := by
    rcases hc with hc | hc
    · exact consumeEvents_keeps hc
    · exact consumePermissioned_keeps hc
  refine order_same_front h hq h' (by rw [k2]; exact hq) hv hn ⟨k1, k4, ?_⟩ h1 h2
  cases ix.side <;> simp [Side.other, bestFirst, resting, k5, k6]

/-! ### Cases -/

namespace Demo

/-- The first trade with the roles exchanged: 42 offers the 5 lots, 41 buys. -/
def m1 : State conc := Serum.Demo.run Serum.Demo.s0 (Serum.Demo.orderAccts 42 22 12)
  (.newOrderV3 (Serum.Demo.order .ask 1000 5 1 70))
/-- The terms of `Demo.takeIx` as an immediate-or-cancel order. -/
def asOrder : NewOrderIx :=
  { Serum.Demo.order .bid 1000 2 30000 5 with
    orderType := .ioc, limitPrice := Serum.Demo.takeIx.limitPrice, maxCoinQty := Serum.Demo.takeIx.maxCoinQty,
    maxPcQty := Serum.Demo.takeIx.maxPcQty, limit := Serum.Demo.takeIx.limit }

end Demo

/-- The two books look the same to the two buyers though the makers differ, both orders go through, and 2 lots are left
less in both. -/
example : Reach Demo.P Demo.m1 ∧ SameOrder (Demo.order .bid 1100 2 30000 8) (Demo.order .bid 1100 2 30000 3) ∧
    (bestFirst Demo.m1 .ask).map (look 41) = (bestFirst Demo.s1 .ask).map (look 42) ∧
    (bestFirst Demo.s1 .ask).map (look 42) = [(1000, 5, false)] ∧
    (bestFirst Demo.s1 .ask).map (·.owner) = [41] ∧ (bestFirst Demo.m1 .ask).map (·.owner) = [42] ∧
    (newOrderV3 conc Demo.P Demo.env Demo.s1 (Demo.orderAccts 42 32 12) (Demo.order .bid 1100 2 30000 8)).isOk = true ∧
    (newOrderV3 conc Demo.P Demo.env Demo.m1 (Demo.orderAccts 41 31 11) (Demo.order .bid 1100 2 30000 3)).isOk = true :=
  ⟨Demo.next Demo.r0 (Demo.valid (by decide)) (by decide +kernel) (by decide), ⟨rfl, rfl, rfl, rfl, rfl, rfl, rfl⟩,
    by decide +kernel, by decide +kernel, by decide +kernel, by decide +kernel, by decide +kernel, by decide +kernel⟩

/-- `Demo.takeIx` and the same order by 42: both go through, none of the asks is 42's, and both take 2 of the 5 lots. -/
example : AsTake Demo.takeIx Demo.asOrder ∧ OrderValid Demo.asOrder ∧
    (sendTake conc Demo.P Demo.s1 Demo.takeAccts Demo.takeIx).isOk = true ∧
    (newOrderV3 conc Demo.P Demo.env Demo.s1 (Demo.orderAccts 42 32 12) Demo.asOrder).isOk = true ∧
    (∀ l ∈ bestFirst Demo.s1 .ask, l.owner ≠ 42) ∧
    ((wantTake Demo.s1.mkt Demo.takeIx .base).takes 5 (bestFirst Demo.s1 .ask) Demo.takeIx.maxCoinQty
      Demo.takeIx.maxPcQty).map (·.lots) = [2] :=
  ⟨⟨rfl, rfl, rfl, rfl, rfl, rfl⟩, by unfold OrderValid; decide +kernel, by decide +kernel, by decide +kernel, by decide +kernel,
    by decide +kernel⟩

/-- In `s2` three events wait. 42 can buy another lot before or after they are delivered. -/
example : (consumeEvents conc Demo.P Demo.env Demo.s2 (Demo.crankList [41, 42]) 4).isOk = true ∧ (pending Demo.s2).length = 3 ∧
    (pending (Demo.run Demo.s2 (Demo.crankList [41, 42]) (Demo.crank 4))).length = 0 ∧
    (newOrderV3 conc Demo.P Demo.env Demo.s2 (Demo.orderAccts 42 32 12) (Demo.order .bid 1100 1 30000 3)).isOk = true ∧
    (newOrderV3 conc Demo.P Demo.env (Demo.run Demo.s2 (Demo.crankList [41, 42]) (Demo.crank 4))
      (Demo.orderAccts 42 32 12) (Demo.order .bid 1100 1 30000 3)).isOk = true :=
  ⟨by decide +kernel, by decide +kernel, by decide +kernel, by decide +kernel, by decide +kernel⟩

end Serum.Props
