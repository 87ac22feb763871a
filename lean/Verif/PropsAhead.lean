import Verif.PropsImpartial
import Verif.PropsSame
import Verif.PropsLife
import Verif.PropsTrack

/-!
C106: what happens to a resting order depends only on the orders ahead of it and on what is sent against it. Two markets
whose books agree down to the order, however different behind it and elsewhere, treat it alike.
-/

namespace Serum.Props

/-- Is the id `k` the id `X` or ahead of it in the queue of its side? Ids of bids and asks are ordered by price, then
by time: the best bid has the highest id, the best ask the lowest. -/
def before (sd : Side) (X k : Nat) : Bool :=
  match sd with
  | .bid => decide (X ≤ k)
  | .ask => decide (k ≤ X)

/-- The orders of a side down to the place of `X`, best first. -/
def queueTo (s : State conc) (sd : Side) (X : Nat) : List Leaf :=
  (bestFirst s sd).filter fun l => before sd X l.key

/-- Two markets with the same address and lot sizes. -/
structure SameKind (s t : State conc) : Prop where
  address : t.mkt.ownAddress = s.mkt.ownAddress
  coinLot : t.mkt.coinLot = s.mkt.coinLot
  pcLot : t.mkt.pcLot = s.mkt.pcLot

/-- The id in an event. -/
def aboutId : EventView → Nat
  | .fill _ _ _ _ _ id _ _ _ _ => id
  | .out _ _ _ _ id _ _ _ => id

/-- Is an event a fill of a resting order, or a release, of side `sd` for an id that is `X` or ahead of it? -/
def tells (sd : Side) (X : Nat) (v : EventView) : Bool := decide (v.side = sd) && before sd X (aboutId v)

/-! ### Lists -/

theorem split_front {α : Type} {r : α → α → Prop} {p : α → Bool} (hp : ∀ a b, r a b → p b = true → p a = true) :
    ∀ {l : List α}, l.Pairwise r → l = l.filter p ++ l.filter (fun x => !p x) := by
  intro l
  induction l with
  | nil => intro _; rfl
  | cons a l ih =>
    intro h
    rw [List.pairwise_cons] at h
    cases ha : p a with
    | true =>
      rw [List.filter_cons_of_pos ha, List.filter_cons_of_neg (by simp [ha]), List.cons_append, ← ih h.2]
    | false =>
      have hn : ∀ b ∈ l, p b = false := fun b hb => by
        cases hb' : p b with
        | false => rfl
        | true => rw [hp a b (h.1 b hb) hb'] at ha; cases ha
      rw [List.filter_cons_of_neg (by simp [ha]), List.filter_cons_of_pos (by simp [ha]),
        List.filter_eq_nil_iff.2 (fun b hb => by simp [hn b hb]), List.nil_append,
        List.filter_eq_self.2 (fun b hb => by simp [hn b hb])]

theorem bestFirst_ids {P : Params} {s : State conc} (h : Reach P s) (hq : s.seq ≤ W64) (sd : Side) :
    (bestFirst s sd).Pairwise (fun a b => match sd with | .bid => b.key < a.key | .ask => a.key < b.key) := by
  have := resting_sorted h hq sd
  cases sd
  · exact List.pairwise_reverse.2 this
  · exact this

theorem bestFirst_split {P : Params} {s : State conc} (h : Reach P s) (hq : s.seq ≤ W64) (sd : Side) (X : Nat) :
    bestFirst s sd = queueTo s sd X ++ (bestFirst s sd).filter (fun l => !before sd X l.key) := by
  refine split_front ?_ (bestFirst_ids h hq sd)
  intro a b hab hb
  unfold before at hb ⊢
  cases sd <;> simp only [decide_eq_true_eq] at hb hab ⊢ <;> omega

theorem cutFirst_append (l : Leaf) (n : Nat) (F R : List Leaf) : cutFirst l n (F ++ R) = cutFirst l n F ++ R := by
  unfold cutFirst
  split <;> rfl

theorem cutFirst_keys {l x : Leaf} {n : Nat} {F : List Leaf} (h : x ∈ cutFirst l n F) : ∃ y ∈ l :: F, y.key = x.key := by
  unfold cutFirst at h
  split at h
  · exact ⟨x, List.mem_cons_of_mem _ h, rfl⟩
  · rcases List.mem_cons.1 h with rfl | h
    · exact ⟨l, List.mem_cons_self, rfl⟩
    · exact ⟨x, List.mem_cons_of_mem _ h, rfl⟩

/-- What an order does to the first part `F` of the orders it faces does not depend on the rest. -/
theorem takes_front (w : Want) (k : Nat) : ∀ (F : List Leaf) (coin pc : Nat),
    ∃ C F', (∀ t ∈ C, ∃ y ∈ F, y.key = t.maker.key) ∧ (∀ x ∈ F', ∃ y ∈ F, y.key = x.key) ∧
      ∀ R L, takeFront (F ++ R) (w.takes k (F ++ R) coin pc) = some L →
        ∃ x R', w.takes k (F ++ R) coin pc = C ++ x ∧ L = F' ++ R' ∧ (∀ t ∈ x, ∃ y ∈ R, y.key = t.maker.key) ∧
          ∀ z ∈ R', ∃ y ∈ R, y.key = z.key := by
  induction k with
  | zero =>
    intro F coin pc
    refine ⟨[], F, by simp, fun x hx => ⟨x, hx, rfl⟩, fun R L h => ?_⟩
    simp only [Want.takes] at h ⊢
    rw [show takeFront (F ++ R) [] = some (F ++ R) by cases F ++ R <;> rfl, Option.some.injEq] at h
    exact ⟨[], R, rfl, h.symm, by simp, fun z hz => ⟨z, hz, rfl⟩⟩
  | succ k ih =>
    intro F coin pc
    match F with
    | [] =>
      refine ⟨[], [], by simp, by simp, fun R L h => ⟨_, L, rfl, rfl, fun t ht => ?_, fun z hz => ?_⟩⟩
      · obtain ⟨y, h1, h2, _⟩ := takeFront_maker h ht
        exact ⟨y, h1, by rw [h2]⟩
      · obtain ⟨y, h1, h2, _⟩ := takeFront_mem h hz
        exact ⟨y, h1, by rw [h2]⟩
    | l :: F =>
      by_cases hc : w.kind ≠ .postOnly ∧ w.accepts l.price = true ∧ w.lots l coin pc ≠ 0
      · obtain ⟨C, F', c1, c2, c3⟩ := ih (cutFirst l (w.meet l coin pc).lots F)
          (coin - w.coinUsed (w.meet l coin pc)) (pc - w.pcUsed (w.meet l coin pc))
        have hm : (w.meet l coin pc).maker = l := by
          unfold Want.meet
          split
          · split <;> rfl
          · rfl
        refine ⟨w.meet l coin pc :: C, F', fun t ht => ?_, fun x hx => ?_, fun R L h => ?_⟩
        · rcases List.mem_cons.1 ht with rfl | ht
          · exact ⟨l, List.mem_cons_self, by rw [hm]⟩
          · obtain ⟨y, h1, h2⟩ := c1 t ht
            obtain ⟨z, h3, h4⟩ := cutFirst_keys h1
            exact ⟨z, h3, h4.trans h2⟩
        · obtain ⟨y, h1, h2⟩ := c2 x hx
          obtain ⟨z, h3, h4⟩ := cutFirst_keys h1
          exact ⟨z, h3, h4.trans h2⟩
        · have e : w.takes (k + 1) (l :: F ++ R) coin pc = w.meet l coin pc ::
              w.takes k (cutFirst l (w.meet l coin pc).lots F ++ R) (coin - w.coinUsed (w.meet l coin pc))
                (pc - w.pcUsed (w.meet l coin pc)) := by
            rw [List.cons_append, Want.takes, if_pos hc, cutFirst_append]
          rw [e, List.cons_append] at h
          rw [e]
          simp only [takeFront] at h
          split at h
          · rw [show (if (w.meet l coin pc).lots = l.quantity then F ++ R
              else { l with quantity := l.quantity - (w.meet l coin pc).lots } :: (F ++ R)) =
              cutFirst l (w.meet l coin pc).lots F ++ R from (cutFirst_append l _ F R)] at h
            obtain ⟨x, R', d1, d2, d3, d4⟩ := c3 R L h
            exact ⟨x, R', by rw [d1]; rfl, d2, d3, d4⟩
          · cases h
      · refine ⟨[], l :: F, by simp, fun x hx => ⟨x, hx, rfl⟩, fun R L h => ?_⟩
        have e : w.takes (k + 1) (l :: F ++ R) coin pc = [] := by
          rw [List.cons_append, Want.takes, if_neg hc]
        rw [e] at h ⊢
        simp only [List.cons_append, takeFront, Option.some.injEq] at h
        exact ⟨[], R, rfl, h.symm, by simp, fun z hz => ⟨z, hz, rfl⟩⟩

/-- Lots, accounts and places of the touches down to `X`. -/
def touchesTo (sd : Side) (X : Nat) (ts : List Touch) : List Touch := ts.filter fun t => before sd X t.maker.key

theorem by_the_book_front {P : Params} {s s' t t' : State conc} (h : Reach P s) (hq : s.seq ≤ W64) (h' : Reach P t)
    (hq' : t.seq ≤ W64) {w : Want} {limit coin pc n n' : Nat} {ts ts' : List Touch} {X : Nat}
    (b : ByTheBook s s' w limit coin pc ts n) (b' : ByTheBook t t' w limit coin pc ts' n')
    (e : queueTo t w.side.other X = queueTo s w.side.other X) :
    queueTo t' w.side.other X = queueTo s' w.side.other X ∧
      touchesTo w.side.other X ts' = touchesTo w.side.other X ts := by
  obtain ⟨C, F', c1, c2, c3⟩ := takes_front w limit (queueTo s w.side.other X) coin pc
  have hF : ∀ y ∈ queueTo s w.side.other X, before w.side.other X y.key = true := fun y hy => (List.mem_filter.1 hy).2
  have go : ∀ {u u' : State conc} {us : List Touch} {m : Nat}, Reach P u → u.seq ≤ W64 →
      ByTheBook u u' w limit coin pc us m → queueTo u w.side.other X = queueTo s w.side.other X →
      queueTo u' w.side.other X = F' ∧ touchesTo w.side.other X us = C := by
    intro u u' us m hu hv bb eq
    have hs := bestFirst_split hu hv w.side.other X
    rw [eq] at hs
    have ha := bb.after
    have ht := bb.trades
    rw [ht] at ha
    rw [hs] at ha ht
    obtain ⟨x, R', d1, d2, d3, d4⟩ := c3 _ _ ha
    have hR : ∀ y ∈ (bestFirst u w.side.other).filter (fun l => !before w.side.other X l.key),
        before w.side.other X y.key = false := fun y hy => by simpa using (List.mem_filter.1 hy).2
    constructor
    · unfold queueTo
      rw [d2, List.filter_append, List.filter_eq_self.2, List.filter_eq_nil_iff.2, List.append_nil]
      · intro z hz
        obtain ⟨y, h1, h2⟩ := d4 z hz
        rw [← h2, hR y h1]; simp
      · intro z hz
        obtain ⟨y, h1, h2⟩ := c2 z hz
        rw [← h2, hF y h1]
    · unfold touchesTo
      rw [ht, d1, List.filter_append, List.filter_eq_self.2, List.filter_eq_nil_iff.2, List.append_nil]
      · intro z hz
        obtain ⟨y, h1, h2⟩ := d3 z hz
        rw [← h2, hR y h1]; simp
      · intro z hz
        obtain ⟨y, h1, h2⟩ := c1 z hz
        rw [← h2, hF y h1]
  have g1 := go h hq b rfl
  have g2 := go h' hq' b' e
  exact ⟨by rw [g1.1, g2.1], by rw [g1.2, g2.2]⟩

/-! ### The same fee tier -/

theorem same_tier {P : Params} {c c' : Core} (ha : c'.mkt.ownAddress = c.mkt.ownAddress) {extra : List AccMeta} {k : Nat}
    (ht : ∀ a ∈ extra, c'.toks a.key = c.toks a.key) {tier tier' : FeeTier}
    (h : ∃ disc, discountAcct c extra = .ok disc ∧ loadFeeTier P c k disc = .ok tier)
    (h' : ∃ disc, discountAcct c' extra = .ok disc ∧ loadFeeTier P c' k disc = .ok tier') : tier' = tier := by
  obtain ⟨d, d1, d2⟩ := h
  obtain ⟨d', d3, d4⟩ := h'
  have e1 : discountAcct c' extra = discountAcct c extra := by
    match extra, ht with
    | [], _ => rfl
    | [a], ht =>
      have e : tokAcct c'.toks a.key = tokAcct c.toks a.key := by
        unfold tokAcct
        rw [ht a (by simp)]
      show (tokAcct c'.toks a.key >>= fun t => pure (some t)) = (tokAcct c.toks a.key >>= fun t => pure (some t))
      rw [e]
    | _ :: _ :: _, _ => rfl
  rw [e1, d1] at d3
  cases d3
  have e2 : loadFeeTier P c' k d = loadFeeTier P c k d := by
    unfold loadFeeTier
    rw [ha]
  rw [e2, d2] at d4
  cases d4
  rfl

/-! ### The same order in two markets -/

/-- Two runs of the same thing treated the orders down to `X` alike: the queue down to there is left the same, and the
same fills and the same releases are queued for it, in the same order. -/
structure TreatedAlike (s s' t t' : State conc) (sd : Side) (X : Nat) : Prop where
  queue : queueTo t' sd X = queueTo s' sd X
  told : ∃ evs evs', pending s' = pending s ++ evs ∧ pending t' = pending t ++ evs' ∧
    (evs'.filter EventView.isMakerFill).filter (tells sd X) = (evs.filter EventView.isMakerFill).filter (tells sd X) ∧
    (evs'.filter EventView.isRelease).filter (tells sd X) = (evs.filter EventView.isRelease).filter (tells sd X)

theorem makers_front {o : OrderParams} {m : Market} {ts : List Touch} {f : Option Posting} {evs : List EventView}
    (h : EvReport o m ts f evs) (X : Nat) :
    (evs.filter EventView.isMakerFill).filter (tells o.side.other X) =
      ((touchesTo o.side.other X ts).filter (·.filled)).map (Touch.makerFill o.side m) := by
  rw [h.makers, List.filter_map, touchesTo, List.filter_filter, List.filter_filter]
  congr 1
  apply List.filter_congr
  intro t _
  cases ho : o.side <;> simp [tells, Touch.makerFill, EventView.side, aboutId, Side.other, Bool.and_comm]

theorem flatMap_front {sd : Side} {X : Nat} {g : Touch → List EventView}
    (hg : ∀ t, ∀ v ∈ g t, tells sd X v = before sd X t.maker.key) (ts : List Touch) :
    (ts.flatMap g).filter (tells sd X) = (touchesTo sd X ts).flatMap g := by
  induction ts with
  | nil => rfl
  | cons t ts ih =>
    rw [List.flatMap_cons, List.filter_append, ih]
    unfold touchesTo
    cases hb : before sd X t.maker.key with
    | true =>
      rw [List.filter_cons_of_pos (by exact hb), List.flatMap_cons, List.filter_eq_self.2]
      intro v hv; rw [hg t v hv, hb]
    | false =>
      rw [List.filter_cons_of_neg (by simp [hb]), List.filter_eq_nil_iff.2, List.nil_append]
      intro v hv; rw [hg t v hv, hb]; simp

theorem releases_front {o : OrderParams} {m : Market} {ts : List Touch} {f : Option Posting} {evs : List EventView}
    (h : EvReport o m ts f evs) (X : Nat) :
    (evs.filter EventView.isRelease).filter (tells o.side.other X) =
      (touchesTo o.side.other X ts).flatMap (Touch.release o.side m) := by
  rw [h.releases, List.filter_append, flatMap_front]
  · rw [List.filter_eq_nil_iff.2, List.append_nil]
    intro v hv
    unfold evictRelease at hv
    split at hv
    · rw [List.mem_singleton] at hv
      subst hv
      cases o.side <;> simp [tells, EventView.side, Side.other]
    · cases hv
  · intro t v hv
    unfold Touch.release at hv
    split at hv
    · split at hv
      · rw [List.mem_singleton] at hv
        subst hv
        simp [tells, EventView.side, aboutId]
      · cases hv
    · rw [List.mem_singleton] at hv
      subst hv
      simp [tells, EventView.side, aboutId]

theorem makerFill_kind {m m' : Market} (h1 : m'.coinLot = m.coinLot) (h2 : m'.pcLot = m.pcLot) (sd : Side) (t : Touch) :
    Touch.makerFill sd m' t = Touch.makerFill sd m t := by
  unfold Touch.makerFill Touch.pc
  rw [h1, h2]

theorem release_kind {m m' : Market} (h1 : m'.coinLot = m.coinLot) (h2 : m'.pcLot = m.pcLot) (sd : Side) (t : Touch) :
    Touch.release sd m' t = Touch.release sd m t := by
  unfold Touch.release lockedValue
  rw [h1, h2]

theorem alike_of_matched {s s' t t' : State conc} (hk : SameKind s t) {o o' : OrderParams} (ho : o'.side = o.side)
    {limit limit' X : Nat} {ts ts' : List Touch} {f f' : Option Posting} {evs evs' : List EventView}
    (m : Matched s s' o limit ts f evs) (m' : Matched t t' o' limit' ts' f' evs')
    (h : queueTo t' o.side.other X = queueTo s' o.side.other X ∧
      touchesTo o.side.other X ts' = touchesTo o.side.other X ts) : TreatedAlike s s' t t' o.side.other X := by
  refine ⟨h.1, evs, evs', m.queue, m'.queue, ?_, ?_⟩
  · have e := makers_front m'.events X
    rw [ho] at e
    rw [e, makers_front m.events X, h.2]
    exact List.map_congr_left fun t _ => makerFill_kind hk.coinLot hk.pcLot _ _
  · have e := releases_front m'.events X
    rw [ho] at e
    rw [e, releases_front m.events X, h.2]
    have : Touch.release o.side t.mkt = Touch.release o.side s.mkt := by
      funext u; exact release_kind hk.coinLot hk.pcLot _ _
    rw [this]

/-- C106, orders. The same order, sent to two markets whose books agree on the facing side down to `X`, treats the
orders down to `X` alike. -/
theorem order_treats_alike {P : Params} {s s' t t' : State conc} (h : Reach P s) (hq : s.seq < W64) (h' : Reach P t)
    (hq' : t.seq < W64) (hk : SameKind s t) {env env' : Env} {accts : List AccMeta} {ix : NewOrderIx} (hv : OrderValid ix)
    (hn : NotVault P s.mkt accts) (hn' : NotVault P t.mkt accts)
    (hd : ∀ a ∈ accts.drop 12, t.toks a.key = s.toks a.key)
    (hx : newOrderV3 conc P env s accts ix = .ok s') (hx' : newOrderV3 conc P env' t accts ix = .ok t') {X : Nat}
    (he : queueTo t ix.side.other X = queueTo s ix.side.other X) : TreatedAlike s s' t t' ix.side.other X := by
  obtain ⟨a, tier, o, o1, slot, d, ts, f, evs, e, b⟩ := order_by_the_book h hq hv hn hx
  obtain ⟨a', tier', o', o1', slot', d', ts', f', evs', e', b'⟩ := order_by_the_book h' hq' hv hn' hx'
  have ep := e'.args.parse
  rw [e.args.parse] at ep
  cases ep
  have et := e'.args.tier
  rw [(parse_order_extra e.args.parse).1] at et
  have et0 := e.args.tier
  rw [(parse_order_extra e.args.parse).1] at et0
  have := same_tier hk.address hd et0 et
  subst this
  have ew : wantOrder t.mkt ix a.oo.key tier' = wantOrder s.mkt ix a.oo.key tier' := by
    unfold wantOrder; rw [hk.pcLot]
  rw [ew] at b'
  exact alike_of_matched (o := newOrderReq ix (genOrderId s.seq ix.limitPrice ix.side) a.oo.key slot tier')
    (o' := newOrderReq ix (genOrderId t.seq ix.limitPrice ix.side) a.oo.key slot' tier') hk rfl e.matched e'.matched
    (by_the_book_front h (Nat.le_of_lt hq) h' (Nat.le_of_lt hq') b b' he)

/-- C106, send-takes. -/
theorem take_treats_alike {P : Params} {s s' t t' : State conc} (h : Reach P s) (hq : s.seq < W64) (h' : Reach P t)
    (hq' : t.seq < W64) (hk : SameKind s t) {accts : List AccMeta} {ix : SendTakeIx} (hv : TakeValid ix)
    (hn : NotVault P s.mkt accts) (hn' : NotVault P t.mkt accts)
    (hd : ∀ a ∈ accts.drop 12, t.toks a.key = s.toks a.key)
    (hx : sendTake conc P s accts ix = .ok s') (hx' : sendTake conc P t accts ix = .ok t') {X : Nat}
    (he : queueTo t ix.side.other X = queueTo s ix.side.other X) : TreatedAlike s s' t t' ix.side.other X := by
  obtain ⟨a, tier, ts, evs, e, b⟩ := send_take_by_the_book h hq hv hn hx
  obtain ⟨a', tier', ts', evs', e', b'⟩ := send_take_by_the_book h' hq' hv hn' hx'
  have ep := e'.args.parse
  rw [e.args.parse] at ep
  cases ep
  have et := e'.args.tier
  rw [(parse_take_extra e.args.parse).1] at et
  have et0 := e.args.tier
  rw [(parse_take_extra e.args.parse).1] at et0
  have := same_tier hk.address hd et0 et
  subst this
  have ew : wantTake t.mkt ix tier' = wantTake s.mkt ix tier' := by
    unfold wantTake; rw [hk.pcLot]
  rw [ew] at b'
  exact alike_of_matched (o := sendTakeReq ix (genOrderId s.seq ix.limitPrice ix.side) tier')
    (o' := sendTakeReq ix (genOrderId t.seq ix.limitPrice ix.side) tier') hk rfl e.matched e'.matched
    (by_the_book_front h (Nat.le_of_lt hq) h' (Nat.le_of_lt hq') b b' he)

/-! ### What leaves the queue down to `X` alone -/

theorem filter_insKey {p : Leaf → Bool} {l : Leaf} (hp : p l = false) : ∀ {L : List Leaf}, (∀ x ∈ L, x.key ≠ l.key) →
    (insKey l L).filter p = L.filter p := by
  intro L
  induction L with
  | nil => intro _; simp [insKey, hp]
  | cons x L ih =>
    intro h
    unfold insKey
    split
    · rw [List.filter_cons_of_neg (by simp [hp])]
    · rw [if_neg (fun e => h x List.mem_cons_self e.symm)]
      have := ih (fun y hy => h y (List.mem_cons_of_mem _ hy))
      rw [List.filter_cons, List.filter_cons, this]

theorem queueTo_eq {s s' : State conc} {sd : Side} {X : Nat}
    (h : (resting s' sd).filter (fun l => before sd X l.key) = (resting s sd).filter (fun l => before sd X l.key)) :
    queueTo s' sd X = queueTo s sd X := by
  unfold queueTo
  cases sd
  · unfold bestFirst
    rw [List.filter_reverse, List.filter_reverse, h]
  · exact h

theorem mem_queueTo {s : State conc} {sd : Side} {X : Nat} {l : Leaf} :
    l ∈ queueTo s sd X ↔ l ∈ resting s sd ∧ before sd X l.key = true := by
  unfold queueTo
  rw [List.mem_filter, bestFirst_mem]

/-- An id given out later at no better a price is behind. -/
theorem later_behind {n m p q : Nat} {sd : Side} (h : n < m) (hm : m < W64) (hp : withinLimit sd p q) :
    before sd (genOrderId n p sd) (genOrderId m q sd) = false := by
  rw [genOrderId_eq (Nat.lt_trans h hm), genOrderId_eq hm]
  unfold before withinLimit at *
  cases sd <;> simp only [decide_eq_false_iff_not, Nat.not_le] at * <;> unfold W64 at * <;> omega

/-- An order placed on the same side at no better a price leaves the queue down to `X` as it is, if it does not push one of
these orders off a full book. -/
theorem order_behind {P : Params} {s s' : State conc} (h : Reach P s) (hq : s.seq < W64) {env : Env}
    {accts : List AccMeta} {ix : NewOrderIx} (hv : OrderValid ix) (hn : NotVault P s.mkt accts)
    (hx : newOrderV3 conc P env s accts ix = .ok s') {n p : Nat} (hnl : n < s.seq)
    (hp : withinLimit ix.side p ix.limitPrice)
    (stay : ∀ l ∈ queueTo s ix.side (genOrderId n p ix.side), l ∈ resting s' ix.side) :
    queueTo s' ix.side (genOrderId n p ix.side) = queueTo s ix.side (genOrderId n p ix.side) := by
  obtain ⟨a, tier, o, o1, slot, d, ts, f, evs, e⟩ := place_effect h hq hv hn hx
  apply queueTo_eq
  have own := e.matched.own
  cases f with
  | none => rw [show resting s' ix.side = resting s ix.side from own]
  | some f =>
    obtain ⟨cap, hb⟩ := own
    have hfresh := resting_fresh h hq ix.side ix.limitPrice
    have hbh := later_behind (sd := ix.side) hnl hq hp
    rcases hb.book with ⟨_, _, e1⟩ | ⟨l, R, _, _, e1, e2⟩
    · rw [show resting s' ix.side = _ from e1]
      exact filter_insKey hbh hfresh
    · have hl : l ∉ R ∧ l ∈ resting s ix.side ∧ ∀ x ∈ R, x ∈ resting s ix.side := by
        have hnd := resting_nodup h (Nat.le_of_lt hq) ix.side
        have e2' : match ix.side with
          | .bid => resting s ix.side = l :: R
          | .ask => resting s ix.side = R ++ [l] := e2
        cases hs : ix.side with
        | bid =>
          simp only [hs] at e2' hnd
          rw [e2'] at hnd ⊢
          rw [List.nodup_cons] at hnd
          exact ⟨hnd.1, List.mem_cons_self, fun x hx => List.mem_cons_of_mem _ hx⟩
        | ask =>
          simp only [hs] at e2' hnd
          rw [e2'] at hnd ⊢
          rw [List.nodup_append] at hnd
          exact ⟨fun hm => hnd.2.2 l hm l (by simp) rfl, by simp, fun x hx => by simp [hx]⟩
      have hne : before ix.side (genOrderId n p ix.side) l.key = false := by
        cases hbl : before ix.side (genOrderId n p ix.side) l.key with
        | false => rfl
        | true =>
          have hm := stay l (mem_queueTo.2 ⟨hl.2.1, hbl⟩)
          rw [show resting s' ix.side = _ from e1] at hm
          rcases insKey_mem hm with rfl | hm
          · exact absurd rfl (hfresh _ hl.2.1)
          · exact absurd hm hl.1
      rw [show resting s' ix.side = _ from e1, filter_insKey hbh (fun x hx => hfresh x (hl.2.2 x hx))]
      have e2' : match ix.side with
          | .bid => resting s ix.side = l :: R
          | .ask => resting s ix.side = R ++ [l] := e2
      cases hs : ix.side with
      | bid =>
        simp only [hs] at e2' hne ⊢
        rw [e2', List.filter_cons_of_neg (by simp [hne])]
      | ask =>
        simp only [hs] at e2' hne ⊢
        rw [e2', List.filter_append, List.filter_cons_of_neg (by simp [hne])]
        simp

theorem withdrawn_stays {s s' : State conc} {a : Nat} {ls : List (Side × Leaf)} (w : Withdrawn s s' a ls) {sd : Side} {X : Nat}
    (stay : ∀ l ∈ queueTo s sd X, l ∈ resting s' sd) : queueTo s' sd X = queueTo s sd X := by
  apply queueTo_eq
  rw [w.books, without, List.filter_filter]
  apply List.filter_congr
  intro x hx
  cases hb : before sd X x.key with
  | false => simp
  | true =>
    have := stay x (mem_queueTo.2 ⟨hx, hb⟩)
    rw [w.books, without, List.mem_filter] at this
    simpa using this.2

/-- An instruction that is neither an order nor a send-take leaves the queue down to `X` as it is, unless it takes an order
out of it. -/
theorem rest_behind {P : Params} {env : Env} {accts : List AccMeta} {s s' : State conc} (h : Reach P s)
    (hq : s.seq ≤ W64) (ha : Act P env accts s s') (hd : ¬ Deals P env accts s s') {sd : Side} {X : Nat}
    (stay : ∀ l ∈ queueTo s sd X, l ∈ resting s' sd) : queueTo s' sd X = queueTo s sd X := by
  have quiet : (∀ sd, resting s' sd = resting s sd) → queueTo s' sd X = queueTo s sd X := fun e => queueTo_eq (by rw [e])
  cases ha with
  | idle e => rw [e]
  | place hl hv hx => exact absurd (.inl ⟨_, _, hl, hv, hx⟩) hd
  | take hl hv hx => exact absurd (.inr ⟨_, _, hl, hv, hx⟩) hd
  | cancel hl hx =>
    obtain ⟨_, _, _, _, _, _, _, _, _, w⟩ := cancel_withdrawn h hq (.inl ⟨_, _, hx⟩)
    exact withdrawn_stays w stay
  | cancelBy hl hx =>
    obtain ⟨_, _, _, _, _, _, _, _, _, w⟩ := cancel_withdrawn h hq (.inr (.inl ⟨_, hx⟩))
    exact withdrawn_stays w stay
  | batch hl hx =>
    obtain ⟨_, _, _, _, _, _, _, _, _, w⟩ := cancel_withdrawn h hq (.inr (.inr ⟨_, hx⟩))
    exact withdrawn_stays w stay
  | prune hl hx =>
    obtain ⟨_, _, _, _, _, _, _, _, _, _, _, _, _, _, _, w, _⟩ := prune_effect h hq hx
    exact withdrawn_stays w stay
  | crank hl hx =>
    obtain ⟨_, _, _, _, _, _, _, _, _, hbi, hak, _⟩ := crank_delivers h hq hx
    refine quiet fun sd => ?_
    cases sd
    · unfold resting; rw [hbi]
    · unfold resting; rw [hak]
  | settle hl hx =>
    obtain ⟨_, _, _, _, _, _, _, _, _, _, _, _, _, _, _, st⟩ := settle_effect h hq hx
    refine quiet fun sd => ?_
    cases sd
    · unfold resting; rw [st.rest.1]
    · unfold resting; rw [st.rest.2.1]
  | disable hl hx =>
    obtain ⟨_, _, _, _, _, _, e⟩ := disable_inv hx
    subst e
    exact quiet fun sd => by cases sd <;> rfl
  | sweep hl hx =>
    obtain ⟨_, _, _, _, _, _, _, _, _, _, _, e⟩ := sweep_effect h hq hx
    subst e
    exact quiet fun sd => by cases sd <;> rfl
  | close hl hx =>
    obtain ⟨_, _, _, _, _, _, _, _, _, _, _, _, _, e⟩ := (close_is_safe h hq).1 _ _ _ hx
    subst e
    exact quiet fun sd => by cases sd <;> rfl
  | init hl hx =>
    obtain ⟨_, _, _, _, _, _, _, _, hcase⟩ := init_inv hx
    rcases hcase with ⟨e, _⟩ | ⟨e, _, _⟩
    · subst e
      exact quiet fun sd => rfl
    · subst e
      exact quiet fun sd => by cases sd <;> rfl

/-! ### Two histories -/

/-- Two histories side by side, from `s` and `t` to `s'` and `t'`. What they have in common is what is sent against the
orders down to `X` on side `sd`, and cancellations there; anything else may happen in one and not in the other, as long
as it leaves that queue as it is. The discount account shown with an order holds the same in both. -/
inductive Twins (P : Params) (sd : Side) (X : Nat) (s t : State conc) : State conc → State conc → Prop where
  | nil : Twins P sd X s t s t
  | apart {s1 t1 s2 t2 : State conc} (before : Twins P sd X s t s1 t1) (hs : Later P s1 s2) (ht : Later P t1 t2)
      (es : queueTo s2 sd X = queueTo s1 sd X) (et : queueTo t2 sd X = queueTo t1 sd X) : Twins P sd X s t s2 t2
  | order {s1 t1 s2 t2 : State conc} {env env' : Env} {accts : List AccMeta} {ix : NewOrderIx}
      (before : Twins P sd X s t s1 t1) (hs : Step P s1 s2) (ht : Step P t1 t2) (hv : OrderValid ix)
      (hn : NotVault P s1.mkt accts) (hn' : NotVault P t1.mkt accts)
      (hd : ∀ a ∈ accts.drop 12, t1.toks a.key = s1.toks a.key) (side : ix.side.other = sd)
      (hx : newOrderV3 conc P env s1 accts ix = .ok s2) (hx' : newOrderV3 conc P env' t1 accts ix = .ok t2) :
      Twins P sd X s t s2 t2
  | take {s1 t1 s2 t2 : State conc} {accts : List AccMeta} {ix : SendTakeIx}
      (before : Twins P sd X s t s1 t1) (hs : Step P s1 s2) (ht : Step P t1 t2) (hv : TakeValid ix)
      (hn : NotVault P s1.mkt accts) (hn' : NotVault P t1.mkt accts)
      (hd : ∀ a ∈ accts.drop 12, t1.toks a.key = s1.toks a.key) (side : ix.side.other = sd)
      (hx : sendTake conc P s1 accts ix = .ok s2) (hx' : sendTake conc P t1 accts ix = .ok t2) : Twins P sd X s t s2 t2
  | cancel {s1 t1 s2 t2 : State conc} {env env' : Env} {accts accts' : List AccMeta} {sd' : Side} {id : Nat}
      (before : Twins P sd X s t s1 t1) (hs : Step P s1 s2) (ht : Step P t1 t2)
      (hx : cancelV2 conc env s1 accts sd' id = .ok s2) (hx' : cancelV2 conc env' t1 accts' sd' id = .ok t2) :
      Twins P sd X s t s2 t2

theorem later_kind {P : Params} {s s' : State conc} (hl : Later P s s') : SameKind s s' ∧ s.seq ≤ s'.seq := by
  induction hl with
  | refl => exact ⟨⟨rfl, rfl, rfl⟩, Nat.le_refl _⟩
  | step _ hs ih =>
    refine ⟨?_, Nat.le_trans ih.2 hs.seq⟩
    cases hs with
    | instr _ h =>
      have := (processRaw_keeps h).eq
      exact ⟨by rw [this]; exact ih.1.address, by rw [this]; exact ih.1.coinLot, by rw [this]; exact ih.1.pcLot⟩
    | purge _ _ => exact ⟨ih.1.address, ih.1.coinLot, ih.1.pcLot⟩
    | token _ _ => exact ⟨ih.1.address, ih.1.coinLot, ih.1.pcLot⟩

theorem Twins.later {P : Params} {sd : Side} {X : Nat} {s t s' t' : State conc} (h : Twins P sd X s t s' t') :
    Later P s s' ∧ Later P t t' := by
  induction h with
  | nil => exact ⟨.refl, .refl⟩
  | apart _ hs ht _ _ ih => exact ⟨ih.1.trans hs, ih.2.trans ht⟩
  | order _ hs ht _ _ _ _ _ _ _ ih => exact ⟨ih.1.step hs, ih.2.step ht⟩
  | take _ hs ht _ _ _ _ _ _ _ ih => exact ⟨ih.1.step hs, ih.2.step ht⟩
  | cancel _ hs ht _ _ ih => exact ⟨ih.1.step hs, ih.2.step ht⟩

theorem sorted_inj {L : List Leaf} (h : L.Pairwise (fun a b => a.key < b.key)) {x y : Leaf} (hx : x ∈ L) (hy : y ∈ L)
    (e : x.key = y.key) : x = y := by
  induction L with
  | nil => cases hx
  | cons z L ih =>
    rw [List.pairwise_cons] at h
    rcases List.mem_cons.1 hx with rfl | hx' <;> rcases List.mem_cons.1 hy with rfl | hy'
    · rfl
    · have := h.1 y hy'; omega
    · have := h.1 x hx'; omega
    · exact ih h.2 hx' hy'

theorem cancel_queueTo {P : Params} {s s' : State conc} (h : Reach P s) (hq : s.seq ≤ W64) {env : Env}
    {accts : List AccMeta} {sd' sd : Side} {id X : Nat} (hx : cancelV2 conc env s accts sd' id = .ok s') :
    queueTo s' sd X = (queueTo s sd X).filter fun l => !(decide (sd' = sd) && decide (l.key = id)) := by
  obtain ⟨_, _, _, _, _, _, _, l, _, rfl, _, _, _, hid, w⟩ := cancel_effect h hq hx
  have key : ∀ x ∈ resting s sd, (![(sd', l)].contains (sd, x)) = !(decide (sd' = sd) && decide (x.key = id)) := by
    intro x hx
    congr 1
    rw [Bool.eq_iff_iff]
    simp only [List.contains_cons, List.contains_nil, Bool.or_false, beq_iff_eq, Prod.mk.injEq, Bool.and_eq_true,
      decide_eq_true_eq]
    constructor
    · rintro ⟨rfl, rfl⟩; exact ⟨rfl, hid⟩
    · rintro ⟨rfl, e⟩
      refine ⟨rfl, ?_⟩
      have hl := (w.theirs sd' l (by simp)).1
      have hs := resting_sorted h hq sd'
      exact sorted_inj hs hx hl (e.trans hid.symm)
  have e : (resting s' sd) = (resting s sd).filter fun l => !(decide (sd' = sd) && decide (l.key = id)) := by
    rw [w.books, without]
    exact List.filter_congr key
  unfold queueTo
  rw [List.filter_filter]
  cases sd
  · unfold bestFirst
    rw [e, ← List.filter_reverse, List.filter_filter]
    exact List.filter_congr fun x _ => Bool.and_comm _ _
  · unfold bestFirst
    rw [e, List.filter_filter]
    exact List.filter_congr fun x _ => Bool.and_comm _ _

/-- C106. Two markets of the same kind whose books agree on a side down to `X`, in two histories that have in common only
what is sent against that side and what is cancelled of that queue, still agree there at the end: every order ahead of
`X`, and `X` itself, is still there in both with the same open lots, or gone in both. What happens behind it or elsewhere
does not matter to an order. -/
theorem only_ahead_matters {P : Params} {s t s' t' : State conc} (h : Reach P s) (h' : Reach P t) (hk : SameKind s t)
    {sd : Side} {X : Nat} (he : queueTo t sd X = queueTo s sd X) (hh : Twins P sd X s t s' t') (hq : s'.seq ≤ W64)
    (hq' : t'.seq ≤ W64) : queueTo t' sd X = queueTo s' sd X := by
  have kind : ∀ {s1 t1}, Later P s s1 → Later P t t1 → SameKind s1 t1 := fun a b => by
    have a := (later_kind a).1
    have b := (later_kind b).1
    exact ⟨by rw [a.address, b.address, hk.address], by rw [a.coinLot, b.coinLot, hk.coinLot],
      by rw [a.pcLot, b.pcLot, hk.pcLot]⟩
  induction hh with
  | nil => exact he
  | apart b hs ht es et ih =>
    rw [es, et]
    exact ih (Nat.le_trans (later_kind hs).2 hq) (Nat.le_trans (later_kind ht).2 hq')
  | order b hs ht hv hn hn' hd side hx hx' ih =>
    obtain ⟨l1, l2⟩ := b.later
    have e1 := (newOrderV3_keeps hx).2.1
    have e2 := (newOrderV3_keeps hx').2.1
    subst side
    exact (order_treats_alike (l1.reach h) (by omega) (l2.reach h') (by omega) (kind l1 l2) hv hn hn' hd hx hx'
      (ih (by omega) (by omega))).queue
  | take b hs ht hv hn hn' hd side hx hx' ih =>
    obtain ⟨l1, l2⟩ := b.later
    have e1 := (sendTake_keeps hx).2.1
    have e2 := (sendTake_keeps hx').2.1
    subst side
    exact (take_treats_alike (l1.reach h) (by omega) (l2.reach h') (by omega) (kind l1 l2) hv hn hn' hd hx hx'
      (ih (by omega) (by omega))).queue
  | cancel b hs ht hx hx' ih =>
    obtain ⟨l1, l2⟩ := b.later
    have e1 := hs.seq
    have e2 := ht.seq
    rw [cancel_queueTo (l1.reach h) (by omega) hx, cancel_queueTo (l2.reach h') (by omega) hx',
      ih (by omega) (by omega)]

end Serum.Props

namespace Serum.Demo

open Serum.Props

/-- A second market like `s1` in which 11 also offers 4 lots at 1050, behind the 5 lots at 1000. -/
def behind1 : State conc := run s1 a1 (.newOrderV3 (order .ask 1050 4 1 9))

/-- 12 bids 1100 for 7 lots. -/
def sevenIx : NewOrderIx := order .bid 1100 7 90000 8
def seven : State conc := run s1 a2 (.newOrderV3 sevenIx)
def sevenBehind : State conc := run behind1 a2 (.newOrderV3 sevenIx)

/-- The id of the ask at 1000. -/
def frontId : Nat := genOrderId 0 1000 .ask

/-- All conditions are met with different books: in one market the bid takes the first ask and rests, in the other it also
takes part of the second; the first ask is treated alike. -/
theorem ahead_demo : TreatedAlike s1 seven behind1 sevenBehind .ask frontId ∧
    (queueTo s1 .ask frontId).length = 1 ∧ (queueTo seven .ask frontId).length = 0 ∧
    (resting seven .ask).length = 0 ∧ (resting sevenBehind .ask).length = 1 ∧
    (resting seven .bid).length = 1 ∧ (resting sevenBehind .bid).length = 0 := by
  have hr : Reach P behind1 := next r1 (valid (by decide)) (by decide +kernel) (by decide)
  have h1 : process conc P env s1 a2 (.newOrderV3 sevenIx) = .ok seven := run_eq (by decide +kernel)
  have h2 : process conc P env behind1 a2 (.newOrderV3 sevenIx) = .ok sevenBehind := run_eq (by decide +kernel)
  refine ⟨?_, by decide +kernel, by decide +kernel, by decide +kernel, by decide +kernel, by decide +kernel,
    by decide +kernel⟩
  exact order_treats_alike (ix := sevenIx) (accts := a2) r1 (by decide +kernel) hr (by decide +kernel)
    ⟨by decide +kernel, by decide +kernel, by decide +kernel⟩ (by unfold OrderValid; decide)
    (notVault _ (by decide)) (notVault _ (by decide)) (fun a ha => by cases ha) h1 h2 (by decide +kernel)

theorem oneStep {s : State conc} {a : List AccMeta} {ix : Instruction} (hv : IxValid ix)
    (hf : fine s a ix = true) (hn : (a.all fun a => a.key != 60 || !a.signer) = true) : Step P s (run s a ix) := by
  refine .instr (env := env) (accts := a) (data := ix.pack) (notVault _ hn) ?_
  unfold processRaw
  rw [instruction_round_trip ix hv]
  exact run_eq hf

/-- Two histories from the same state `s1`: in one of them an ask is placed behind, then the same bid comes in both. -/
theorem twins_demo : Twins P .ask frontId s1 s1 seven sevenBehind := by
  have h1 : process conc P env s1 a2 (.newOrderV3 sevenIx) = .ok seven := run_eq (by decide +kernel)
  have h2 : process conc P env behind1 a2 (.newOrderV3 sevenIx) = .ok sevenBehind := run_eq (by decide +kernel)
  have h3 : process conc P env s1 a1 (.newOrderV3 (order .ask 1050 4 1 9)) = .ok behind1 := run_eq (by decide +kernel)
  have s3 : Step P s1 behind1 := oneStep (ix := .newOrderV3 (order .ask 1050 4 1 9)) (valid (by decide)) (by decide +kernel)
    (by decide)
  refine .order (s1 := s1) (t1 := behind1) (env := env) (env' := env) (accts := a2) (ix := sevenIx)
    (.apart .nil .refl (.step .refl s3) rfl ?_)
    (oneStep (ix := .newOrderV3 sevenIx) (valid (by decide)) (by decide +kernel) (by decide))
    (oneStep (ix := .newOrderV3 sevenIx) (valid (by decide)) (by decide +kernel) (by decide)) (valid (by decide))
    (notVault _ (by decide)) (notVault _ (by decide)) (fun a ha => by cases ha) rfl h1 h2
  exact order_behind (ix := order .ask 1050 4 1 9) (accts := a1) r1 (by decide +kernel) (valid (by decide))
    (notVault _ (by decide)) h3 (n := 0) (p := 1000) (by decide +kernel) (show 1000 ≤ 1050 by decide)
    (by decide +kernel)

end Serum.Demo
