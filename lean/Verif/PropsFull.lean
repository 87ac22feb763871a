import Verif.PropsScript
import Verif.PropsWithdraw
import Verif.PropsLog

/-
C119: what can be done while the event queue is full. Nothing is traded and nothing leaves the book; only asks that rest
whole can be added. A withdrawal needs one place for each order it withdraws.
-/

namespace Serum.Props

/-! ### Specification -/

/-- The event queue has no place left. -/
def Full (s : State conc) : Prop := s.q.buf.length ≤ (pending s).length

/-- Nothing was written to the queue and every resting order rests as it was; the books may have gained. -/
structure Stands (s s' : State conc) : Prop where
  events : pending s' = pending s
  size : s'.q.buf.length = s.q.buf.length
  kept : ∀ sd l, l ∈ resting s sd → l ∈ resting s' sd
  added : ∀ l, l ∈ resting s' .bid → l ∈ resting s .bid

/-- The instructions that deliver events. -/
def Delivers : Instruction → Prop
  | .consumeEvents _ | .consumeEventsPermissioned _ => True
  | _ => False

/-! ### Proofs -/

theorem Stands.refl (s : State conc) : Stands s s := ⟨rfl, rfl, fun _ _ h => h, fun _ h => h⟩

theorem Stands.trans {a b c : State conc} (h : Stands a b) (k : Stands b c) : Stands a c :=
  ⟨k.events.trans h.events, k.size.trans h.size, fun sd l hl => k.kept sd l (h.kept sd l hl),
    fun l hl => h.added l (k.added l hl)⟩

theorem Stands.full {s s' : State conc} (h : Stands s s') (hf : Full s) : Full s' := by
  unfold Full
  rw [h.events, h.size]
  exact hf

theorem Stands.same {s s' : State conc} (hq : s'.q = s.q) (hb : ∀ sd, resting s' sd = resting s sd) : Stands s s' :=
  ⟨by unfold pending; rw [hq], by rw [hq], fun sd l hl => by rw [hb]; exact hl, fun l hl => by rw [← hb]; exact hl⟩

/-- An instruction never leaves more events than there are places. -/
theorem room_kept {P : Params} {s s' : State conc} (h : Reach P s) (hq : s.seq ≤ W64) (h' : Reach P s')
    (hq' : s'.seq ≤ W64) {env : Env} {accts : List AccMeta} {ix : Instruction} (hv : IxValid ix)
    (hx : process conc P env s accts ix = .ok s') :
    s'.q.buf.length = s.q.buf.length ∧ (pending s').length ≤ s.q.buf.length := by
  have hc := queue_capacity h hq (env := env) (accts := accts) (data := ix.pack) (by
    unfold processRaw
    rw [instruction_round_trip ix hv]
    exact hx)
  refine ⟨hc, ?_⟩
  rw [← hc, ← count_pending h' hq']
  exact (h'.good hq').rs.q.1.count

theorem silent {s s' : State conc} {E : List EventView} (hf : Full s) (he : pending s' = pending s ++ E)
    (hr : (pending s').length ≤ s.q.buf.length) : E = [] := by
  unfold Full at hf
  rw [he, List.length_append] at hr
  exact List.length_eq_zero_iff.1 (by omega)

theorem touchCount_pos (a : Nat) (t : Touch) : 0 < touchCount a t := by
  unfold touchCount
  split <;> omega

theorem no_touches {a : Nat} {ts : List Touch} (h : total (touchCount a) ts = 0) : ts = [] := by
  cases ts with
  | nil => rfl
  | cons t ts =>
    have := touchCount_pos a t
    rw [total_cons] at h
    omega

/-- C119, orders. On a full queue no bid goes through, and no ask but one that meets nobody and rests whole, displacing
nobody. -/
theorem full_order {P : Params} {s s' : State conc} (h : Reach P s) (hq : s.seq < W64) (hf : Full s) {env : Env}
    {accts : List AccMeta} {ix : NewOrderIx} (hv : OrderValid ix) (hn : NotVault P s.mkt accts)
    (hx : newOrderV3 conc P env s accts ix = .ok s') :
    ix.side = .ask ∧ resting s' .bid = resting s .bid ∧ (∀ b ∈ resting s .bid, b.price < ix.limitPrice) ∧ ∃ l,
      l.quantity = ix.maxCoinQty ∧ l.price = ix.limitPrice ∧ l.key = genOrderId s.seq ix.limitPrice .ask ∧
      (∀ x, x ∈ resting s' .ask ↔ x = l ∨ x ∈ resting s .ask) ∧ Stands s s' := by
  obtain ⟨a, tier, o, o', slot, d, ts, f, evs, he⟩ := place_effect h hq hv hn hx
  have h' := place_reach h hn hv hx
  obtain ⟨hsz, hr⟩ := room_kept h (Nat.le_of_lt hq) h' (by rw [he.seq]; omega) (ix := .newOrderV3 ix) hv hx
  have hm := he.matched
  have hE := silent hf hm.queue hr
  have hw := hm.writes
  rw [hm.queue, hE, List.append_nil] at hw
  have ht : ts = [] := no_touches (a := a.oo.key) (by
    have : total (touchCount a.oo.key) ts ≤ 0 := by
      show total (touchCount (newOrderReq ix (genOrderId s.seq ix.limitPrice ix.side) a.oo.key slot tier).owner) ts ≤ 0
      omega
    omega)
  subst ht
  obtain ⟨vs, _, _, hi⟩ := h.view (Nat.le_of_lt hq)
  have hlim : ix.limitPrice < W64 := hv.1.2
  cases f with
  | none =>
    have : selfCount (newOrderReq ix (genOrderId s.seq ix.limitPrice ix.side) a.oo.key slot tier).side a.oo.key
        (ix.maxCoinQty - 0) ((newOrderReq ix (genOrderId s.seq ix.limitPrice ix.side) a.oo.key slot tier).pcLocked - 0) [] none
        = 1 := by
      unfold selfCount
      rw [if_neg he.nonzero, if_neg (by rintro ⟨h1, _⟩; cases h1)]
    exfalso
    have hw' : (pending s).length = (pending s).length + (0 + 1) := by rw [← this]; exact hw
    omega
  | some g =>
    have hs0 : selfCount ix.side a.oo.key (ix.maxCoinQty - 0)
        ((newOrderReq ix (genOrderId s.seq ix.limitPrice ix.side) a.oo.key slot tier).pcLocked - 0) [] (some g) = 0 := by
      have hw' : (pending s).length = (pending s).length + (0 + selfCount ix.side a.oo.key (ix.maxCoinQty - 0)
        ((newOrderReq ix (genOrderId s.seq ix.limitPrice ix.side) a.oo.key slot tier).pcLocked - 0) [] (some g)) := hw
      omega
    unfold selfCount at hs0
    cases hside : ix.side with
    | bid => rw [hside] at hs0; simp only at hs0; omega
    | ask =>
      rw [hside] at hs0
      simp only at hs0
      have hev : g.evicted = none := by
        cases hg : g.evicted with
        | none => rfl
        | some x => rw [hg] at hs0; simp at hs0
      obtain ⟨cap, ho⟩ := hm.own
      have hopp : resting s' .bid = resting s .bid := by
        have := hm.opp
        rw [show (newOrderReq ix (genOrderId s.seq ix.limitPrice ix.side) a.oo.key slot tier).side.other = .bid from by
          show ix.side.other = .bid; rw [hside]; rfl] at this
        have e : bestFirst s .bid = bestFirst s' .bid := by
          have h1 : takeFront (bestFirst s .bid) [] = some (bestFirst s .bid) := by unfold takeFront; rfl
          rw [h1] at this
          exact Option.some.inj this
        exact (List.reverse_inj.1 e).symm
      have hpr : extractPrice (genOrderId s.seq ix.limitPrice ix.side) = ix.limitPrice := extractPrice_genOrderId hq hlim
      have hown : resting s' .ask = insKey ((newOrderReq ix (genOrderId s.seq ix.limitPrice ix.side) a.oo.key slot tier).leaf
          g.lots) (resting s .ask) := by
        rcases ho.book with ⟨_, _, e⟩ | ⟨l, R, _, e, _⟩
        · rw [show (newOrderReq ix (genOrderId s.seq ix.limitPrice ix.side) a.oo.key slot tier).side = .ask from hside] at e
          exact e
        · rw [hev] at e; cases e
      have hlots : g.lots = ix.maxCoinQty := by
        have h1 : g.lots = _ := hm.remains
        have h2 := ho.pos
        unfold Want.rests at h1
        split at h1
        · omega
        · split at h1
          · omega
          · rw [show (Want.of (newOrderReq ix (genOrderId s.seq ix.limitPrice ix.side) a.oo.key slot tier) s.mkt).side = .ask from
              hside] at h1
            exact h1
      have hfr := hi.shape.fresh (sd := .ask) (p := ix.limitPrice) hq
      have hmem : ∀ x, x ∈ resting s' .ask ↔ x = (newOrderReq ix (genOrderId s.seq ix.limitPrice ix.side) a.oo.key slot
          tier).leaf g.lots ∨ x ∈ resting s .ask := by
        intro x
        rw [hown]
        refine mem_insKey (side_sorted hi.shape.book .ask) ?_
        show genOrderId s.seq ix.limitPrice ix.side ∉ _
        rw [hside]
        exact hfr
      have hkey : ((newOrderReq ix (genOrderId s.seq ix.limitPrice ix.side) a.oo.key slot tier).leaf g.lots).key =
          genOrderId s.seq ix.limitPrice .ask := congrArg (genOrderId s.seq ix.limitPrice) hside
      have hnone : pending s' = pending s := by rw [hm.queue, hE, List.append_nil]
      have hclear : ∀ b ∈ resting s .bid, b.price < ix.limitPrice := by
        intro b hb
        have hno := ho.noCross
        rw [show (newOrderReq ix (genOrderId s.seq ix.limitPrice ix.side) a.oo.key slot tier).side.other = .bid from by
          show ix.side.other = .bid; rw [hside]; rfl] at hno
        have hsrt := (bestFirst_ok h (Nat.le_of_lt hq) .bid).1
        have hb' : b ∈ bestFirst s .bid := List.mem_reverse.2 hb
        have hbe : bestFirst s' .bid = bestFirst s .bid := by unfold bestFirst; rw [hopp]
        rw [hbe] at hno
        cases hrev : bestFirst s .bid with
        | nil => rw [hrev] at hb'; cases hb'
        | cons y ys =>
          have h1 := hno y (by rw [hrev]; rfl)
          unfold priceOk at h1
          rw [show (newOrderReq ix (genOrderId s.seq ix.limitPrice ix.side) a.oo.key slot tier).side = .ask from hside] at h1
          have h2 : y.price < ix.limitPrice := by
            have : ¬ extractPrice (genOrderId s.seq ix.limitPrice ix.side) ≤ y.price := h1
            rw [hpr] at this
            omega
          rw [hrev] at hb' hsrt
          rcases List.mem_cons.1 hb' with e | e
          · rw [e]; exact h2
          · exact Nat.lt_of_le_of_lt ((List.pairwise_cons.1 hsrt).1 b e) h2
      refine ⟨rfl, hopp, hclear, (newOrderReq ix (genOrderId s.seq ix.limitPrice ix.side) a.oo.key slot tier).leaf g.lots,
        hlots, hpr, hkey, hmem, ⟨hnone, hsz, ?_, fun l hl => by rw [← hopp]; exact hl⟩⟩
      · intro sd l hl
        cases sd with
        | bid => rw [hopp]; exact hl
        | ask => exact (hmem l).2 (.inr hl)

/-- C119, send-takes. On a full queue a send-take that goes through trades nothing. -/
theorem full_take {P : Params} {s s' : State conc} (h : Reach P s) (hq : s.seq < W64) (hf : Full s) {env : Env}
    {accts : List AccMeta} {ix : SendTakeIx} (hv : TakeValid ix) (hn : NotVault P s.mkt accts)
    (hx : process conc P env s accts (.sendTake ix) = .ok s') :
    (∀ sd, resting s' sd = resting s sd) ∧ s'.oos = s.oos ∧ Stands s s' := by
  have hx' : sendTake conc P s accts ix = .ok s' := hx
  obtain ⟨a, tier, ts, evs, he, _, hw, hc⟩ := take_writes h hq hv hn hx'
  have h' : Reach P s' := h.act (env := env) (accts := accts) (ix := .sendTake ix) hv hn hx
  obtain ⟨hsz, hr⟩ := room_kept h (Nat.le_of_lt hq) h' (by rw [he.seq]; omega) (ix := .sendTake ix) hv hx
  have hE := silent hf hw hr
  have ht : ts = [] := by
    cases ts with
    | nil => rfl
    | cons t ts => simp at hE
  subst ht
  have hev : pending s' = pending s := by rw [hw, hE, List.append_nil]
  have hb : ∀ sd, resting s' sd = resting s sd := by
    have h1 : bestFirst s' ix.side.other = bestFirst s ix.side.other := by
      have := he.matched.opp
      have e : takeFront (bestFirst s ix.side.other) [] = some (bestFirst s' ix.side.other) := this
      unfold takeFront at e
      exact (Option.some.inj e).symm
    have h2 : resting s' ix.side = resting s ix.side := he.matched.own
    intro sd
    cases hsd : ix.side with
    | bid =>
      rw [hsd] at h1 h2
      cases sd with
      | bid => exact h2
      | ask => exact h1
    | ask =>
      rw [hsd] at h1 h2
      cases sd with
      | bid => exact List.reverse_inj.1 h1
      | ask => exact h2
  exact ⟨hb, he.accounts, ⟨hev, hsz, fun sd l hl => by rw [hb]; exact hl, fun l hl => by rw [← hb]; exact hl⟩⟩

/-- C119, withdrawals. On a full queue a cancel or prune that goes through has withdrawn nothing. -/
theorem full_withdraw {P : Params} {s s' : State conc} (h : Reach P s) (hq : s.seq ≤ W64) (hf : Full s) (h' : Reach P s')
    {env : Env} {accts : List AccMeta} {ix : Instruction} (hw : Withdraws ix) (hv : IxValid ix)
    (hx : process conc P env s accts ix = .ok s') : Cleared s s' [] ∧ Stands s s' := by
  obtain ⟨ls, hc⟩ := withdraws_cleared h hq hw hx
  obtain ⟨hsz, hr⟩ := room_kept h hq h' (by rw [hc.seq]; exact hq) hv hx
  have he := silent hf hc.events hr
  have : ls = [] := List.map_eq_nil_iff.1 he
  subst this
  refine ⟨hc, ?_⟩
  have hb : ∀ sd, resting s' sd = resting s sd := fun sd => by
    rw [hc.books]
    unfold without
    simp
  exact ⟨by rw [hc.events, he, List.append_nil], hsz, fun sd l hl => by rw [hb]; exact hl,
    fun l hl => by rw [← hb]; exact hl⟩

theorem newOrders_stand {P : Params} {env : Env} {accts : List AccMeta} {ixs : List NewOrderIx} :
    ∀ {s s' : State conc}, Reach P s → s'.seq ≤ W64 → Full s → NotVault P s.mkt accts → (∀ ix ∈ ixs, OrderValid ix) →
    newOrders conc P env s accts ixs = .ok s' → Stands s s' := by
  induction ixs with
  | nil => intro s s' _ _ _ _ _ hx; cases hx; exact .refl _
  | cons ix ixs ih =>
    intro s s' h hq hf hn hv hx
    unfold newOrders at hx
    obtain ⟨s1, h1, hx⟩ := bind_ok hx
    have hi := hv ix (by simp)
    have k1 := newOrderV3_keeps h1
    have k2 := newOrders_keeps hx
    have hlt : s.seq < W64 := by have := k1.2.1; have := k2.2.1; omega
    obtain ⟨_, _, _, _, _, _, _, _, st⟩ := full_order h hlt hf hi hn h1
    exact st.trans (ih (place_reach h hn hi h1) hq (st.full hf) (hn.keeps k1.1) (fun j hj => hv j (by simp [hj])) hx)

/-- C119. While the event queue is full, whatever goes through except a delivery of events writes no event, leaves every
resting order in place, and adds no bid. -/
theorem full_freezes {P : Params} {s s' : State conc} (h : Reach P s) (hf : Full s) {env : Env} {accts : List AccMeta}
    {data : List UInt8} {ix : Instruction} (hd : Instruction.unpack data = some ix) (hnd : ¬ Delivers ix)
    (hn : NotVault P s.mkt accts) (hx : processRaw conc P env s accts data = .ok s') (hq' : s'.seq ≤ W64) : Stands s s' := by
  obtain ⟨_, _, _, hv, _⟩ := decoding_is_strict data _ hd
  have h' : Reach P s' := h.step (.instr hn hx)
  unfold processRaw at hx
  rw [hd] at hx
  have hx : process conc P env s accts ix = .ok s' := hx
  have hs : s.seq ≤ W64 := Nat.le_trans (process_acts h hn hv hx).seq hq'
  have repl : ∀ ixs : List NewOrderIx, ixs.length ≤ 8 → (∀ ix ∈ ixs, OrderValid ix) →
      replaceOrders conc P env s accts ixs = .ok s' → Stands s s' := by
    intro ixs hl hv h2
    obtain ⟨ca, s1, _, hsub, h1, hr1, hn1, h3⟩ := replace_parts h hn hl hv h2
    have hq1 : s1.seq ≤ W64 := by have := (newOrders_keeps h3).2.1; omega
    have st : Stands s s1 := by
      rw [← batch_pad (8 - (ixs.map (·.clientId)).length)] at h1
      refine (full_withdraw h hs hf hr1 (env := env) (accts := ca) (ix := .cancelOrdersByClientIds
        (ixs.map (·.clientId) ++ List.replicate (8 - (ixs.map (·.clientId)).length) 0)) trivial ⟨by simp; omega, ?_⟩ h1).2
      intro c hc
      rcases List.mem_append.1 hc with hc | hc
      · obtain ⟨j, hj, rfl⟩ := List.mem_map.1 hc
        exact (hv j hj).2.2.2.1
      · rw [(List.mem_replicate.1 hc).2]; decide
    exact st.trans (newOrders_stand hr1 hq' (st.full hf) hn1 hv h3)
  have wd : Withdraws ix → Stands s s' := fun hw => (full_withdraw h hs hf h' hw hv hx).2
  cases ix with
  | initializeMarket => cases hx
  | newOrder => cases hx
  | matchOrders => cases hx; exact .refl _
  | consumeEvents => exact (hnd trivial).elim
  | cancelOrder => cases hx
  | settleFunds =>
    obtain ⟨m, oo, owner, cv, pv, cw, pw, vsA, tp, refer, o, rfl, _, hsg, how, st⟩ := settle_effect h hs hx
    refine .same st.rest.2.2.1 fun sd => ?_
    cases sd
    · unfold resting; rw [st.rest.1]
    · unfold resting; rw [st.rest.2.1]
  | cancelOrderByClientId => cases hx
  | disableMarket =>
    obtain ⟨_, _, _, _, _, _, e⟩ := disable_inv hx
    subst e
    exact .same rfl fun sd => by cases sd <;> rfl
  | sweepFees =>
    obtain ⟨m, pv, auth, w, vsA, tp, l, rfl, h1, h2, h3, e⟩ := sweep_effect h hs hx
    subst e
    exact .same rfl fun sd => by cases sd <;> rfl
  | newOrderV2 => cases hx
  | newOrderV3 ix =>
    have hlt : s.seq < W64 := by have := (newOrderV3_keeps (show newOrderV3 conc P env s accts ix = .ok s' from hx)).2.1; omega
    obtain ⟨_, _, _, _, _, _, _, _, st⟩ := full_order h hlt hf hv hn hx
    exact st
  | cancelOrderV2 => exact wd trivial
  | cancelOrderByClientIdV2 => exact wd trivial
  | sendTake ix =>
    have hlt : s.seq < W64 := by have := (sendTake_keeps (show sendTake conc P s accts ix = .ok s' from hx)).2.1; omega
    exact (full_take h hlt hf hv hn hx).2.2
  | closeOpenOrders =>
    obtain ⟨oo, owner, dest, m, p, rfl, hsg, hp, _, how, _, _, _, e⟩ := (close_is_safe h hs).1 _ _ _ hx
    subst e
    exact .same rfl fun sd => by cases sd <;> rfl
  | initOpenOrders =>
    obtain ⟨oo, owner, m, rent, rest, rfl, hsg, _, hcase⟩ := init_inv hx
    rcases hcase with ⟨e, _⟩ | ⟨e, hnone, _⟩
    · subst e
      exact .refl _
    · subst e
      exact .same rfl fun sd => by cases sd <;> rfl
  | prune => exact wd trivial
  | consumeEventsPermissioned => exact (hnd trivial).elim
  | cancelOrdersByClientIds => exact wd trivial
  | replaceOrderByClientId ix => exact repl [ix] (by simp) (by intro j hj; rw [List.mem_singleton.1 hj]; exact hv) hx
  | replaceOrdersByClientIds ixs => exact repl ixs hv.1 hv.2 hx

/-- C119. A withdrawal that goes through on one market goes through on another that looks the same, but for the length of
the event queue, exactly if there is a place for each order withdrawn; if not, it is refused as `EventQueueFull`. -/
theorem withdrawal_room {P : Params} {s t t' : State conc} (hs : Reach P s) (ht : Reach P t) (hq : s.seq ≤ W64)
    (hqt : t.seq ≤ W64) (h : Looks (fun _ _ => True) s t) {env : Env} {accts : List AccMeta} {data : List UInt8}
    {ix : Instruction} (hd : Instruction.unpack data = some ix) (hw : Withdraws ix) (hn : NotVault P t.mkt accts)
    (hx : processRaw conc P env t accts data = .ok t') :
    ∃ ls, Cleared t t' ls ∧
      ((pending s).length + ls.length ≤ s.q.buf.length → ∃ s', processRaw conc P env s accts data = .ok s') ∧
      (s.q.buf.length < (pending s).length + ls.length → processRaw conc P env s accts data = .error .eventQueueFull) := by
  have hx' : process conc P env t accts ix = .ok t' := by
    unfold processRaw at hx
    rw [hd] at hx
    exact hx
  obtain ⟨ls, hc⟩ := withdraws_cleared ht hqt hw hx'
  have ht' : Reach P t' := ht.step (.instr hn hx)
  have hcs : consumes data = false := by
    unfold consumes
    rw [hd]
    cases ix <;> first | rfl | exact hw.elim
  obtain ⟨_, h2, h3⟩ := needs_its_events hs ht hq h hcs hx
  have hpe : (pending s).length = (pending t).length := by rw [h.events]
  rw [count_pending ht' (by rw [hc.seq]; exact hqt), hc.events, List.length_append, List.length_map, ← hpe] at h2 h3
  refine ⟨ls, hc, fun hl => ?_, h3⟩
  obtain ⟨s', hs', _⟩ := h2 hl
  exact ⟨s', hs'⟩

theorem cancelOrderV2_full {vs : Nat} {c : Core} {a : Nat} {ob : Ob lst} {oo : OpenOrders} {sd : Side}
    {evs : List EventView} (hm : ob.mkt = c.mkt)
    (hi : Inv vs c.mkt c.seq c.oos c.toks ob.bids.items ob.asks.items evs) (ho : ooAt c.oos a = some oo)
    {lf : Leaf} (hl : lf ∈ sideOf sd ob.bids.items ob.asks.items) (hown : lf.owner = a)
    (hroom : ob.q.cap ≤ ob.q.items.length)
    (f1 : oo.coinFree + bookLock .ask c.mkt (only a) ob.asks.items + evSum (EventView.lock .ask) (only a) evs < W64)
    (f2 : oo.pcFree + bookLock .bid c.mkt (only a) ob.bids.items + evSum (EventView.lock .bid) (only a) evs < W64) :
    cancelOrderV2 lst ob sd a oo lf.key = .error .eventQueueFull := by
  obtain ⟨n, o', hu⟩ := unlockLeaf_ok hi ho hl hown f1 f2
  obtain ⟨_, s1, s2⟩ := slot_parts (hi.leaf_id ho hl hown)
  have hf : ((ob.side lst sd).items).find? (fun x => x.key == lf.key) = some lf := by
    have := find_key (side_sorted hi.shape.book sd) hl
    cases sd <;> exact this
  have hpush : ∀ (b : Ob lst) v, b.q = ob.q → pushEv lst b v = .error .eventQueueFull := by
    intro b v hb
    unfold pushEv
    rw [show lst.push b.q (Event.new v) = none from if_neg (by rw [hb]; omega)]
  have hm' : ∀ b, (Ob.setSide lst ob sd b).mkt = c.mkt := by intro b; cases sd <;> exact hm
  have hq' : ∀ b, (Ob.setSide lst ob sd b).q = ob.q := by intro b; cases sd <;> rfl
  unfold cancelOrderV2
  rw [show lst.remove (ob.side lst sd) lf.key =
    .ok (⟨(ob.side lst sd).items.filter (fun x => x.key != lf.key), (ob.side lst sd).cap⟩, some lf) from by
      show Except.ok _ = _; rw [hf]]
  simp only [bind, Except.bind]
  unfold cancelLeaf
  rw [if_neg (by simpa using hown)]
  simp only [s1, s2, unwrap, checkAssert, beq_self_eq_true, if_true, bind, Except.bind, hm', hu]
  rw [hpush _ _ (hq' _)]

/-- C119, the owner's cancel. The cancel that C32 promises to work when there is room is, on a full queue, refused as
`EventQueueFull`. -/
theorem cancel_full {P : Params} {s : State conc} (h : Reach P s) (hq : s.seq ≤ W64) (env : Env) {sd : Side}
    {l : Leaf} {o : OpenOrders} (hl : l ∈ resting s sd) (ho : ooAt s.oos l.owner = some o)
    (hf : Full s) (hfit : HoldsFit s l.owner o) :
    cancelV2 conc env s (cancelAccts s l.owner o.owner) sd l.key = .error .eventQueueFull := by
  obtain ⟨vs, hv, hqi, hi⟩ := h.view hq
  have hg := h.good hq
  have hne : s.mkt.bids ≠ s.mkt.asks := by
    intro e
    rw [distinct_books h e sd] at hl
    cases hl
  have hcl : o.closed = false := by
    cases hc : o.closed with
    | false => rfl
    | true => exact absurd rfl ((close_is_safe h hq).2 l.owner o ho (.inl hc) |>.2.2.1 sd l hl)
  have hl' : l ∈ sideOf sd s.bids.contents s.asks.contents := by cases sd <;> exact hl
  have hL := absState_q hg hqi
  have hfit' := hfit
  unfold HoldsFit baseHeld quoteHeld at hfit'
  have hr := cancelOrderV2_full (c := s.toCore) (vs := vs) (ob := (absState s).ob lst s.mkt) (evs := pending s)
    rfl hi ho hl' rfl
    (by show s.q.buf.length ≤ (absState s).q.items.length; rw [hL]; simpa [Full] using hf)
    (by rw [askLock_only, evSum_only _ _ lock_ask]; exact hfit'.1)
    (by rw [bidLock_only, evSum_only _ _ lock_bid]; exact hfit'.2)
  refine Sim.error_back (Refines.sim_cancelV2 hg.rs env _ sd l.key) ?_
  unfold cancelV2
  rw [show parseCancel (cancelAccts s l.owner o.owner) = .ok ⟨⟨s.mkt.ownAddress, false⟩, ⟨s.mkt.bids, false⟩,
    ⟨s.mkt.asks, false⟩, ⟨l.owner, false⟩, ⟨o.owner, true⟩, ⟨s.mkt.eventQ, false⟩⟩ from rfl]
  have := cancelArgs_ok (env := env) h.flags hne ho hcl
  rw [show (absState s).toCore = s.toCore from rfl]
  simp only [bind, Except.bind, this]
  rw [hr]

/-- C119, any number of instructions: until somebody delivers events, a full queue stays full with the same events, every
order resting then rests still, and no bid is added. -/
theorem full_until_delivery {P : Params} : ∀ {cs : List Call} {s t : State conc}, Reach P s → t.seq ≤ W64 → Full s →
    (∀ c ∈ cs, ¬ Delivers c.ix ∧ IxValid c.ix ∧ NotVault P s.mkt c.accts) → perform P s cs = .ok t → Stands s t ∧ Full t
  | [], s, t, _, _, hf, _, hx => by cases Except.ok.inj hx; exact ⟨.refl s, hf⟩
  | c :: cs, s, t, h, hq, hf, hc, hx => by
    unfold perform at hx
    split at hx
    · rename_i s1 e
      obtain ⟨h1, h2, h3⟩ := hc c (by simp)
      have st : Stands s s1 := full_freezes h hf (data := c.ix.pack) (instruction_round_trip _ h2) h1 h3 (by
        unfold processRaw
        rw [instruction_round_trip _ h2]
        exact e) (Nat.le_trans (perform_seq hx) hq)
      have hk := (process_acts h h3 h2 e)
      have hkeep : Keeps s s1 := (processRaw_keeps (P := P) (env := c.env) (accts := c.accts) (data := c.ix.pack) (by
        unfold processRaw
        rw [instruction_round_trip _ h2]
        exact e))
      obtain ⟨g, k⟩ := full_until_delivery (h.act h2 h3 e) hq (st.full hf)
        (fun d hd => ⟨(hc d (by simp [hd])).1, (hc d (by simp [hd])).2.1, (hc d (by simp [hd])).2.2.keeps hkeep⟩) hx
      exact ⟨st.trans g, k⟩
    · cases hx

end Serum.Props

namespace Serum.Demo
open Props

/-- Two more bids fill the queue of six. -/
def i4f : Instruction := .newOrderV3 (order .bid 800 1 20000 20)
def i5f : Instruction := .newOrderV3 (order .bid 700 1 20000 21)
def fullS : State conc := run (run s3 a2 i4f) a2 i5f
theorem rFull : Reach P fullS :=
  next (next r3 (valid (by decide)) (by decide +kernel) (by decide)) (valid (by decide)) (by decide +kernel) (by decide)
/-- An ask above the market, which rests. -/
def i6f : Instruction := .newOrderV3 (order .ask 2000 1 1 22)

-- the queue is full; there are three bids and an ask
example : Full fullS ∧ (pending fullS).length = 6 ∧ fullS.q.buf.length = 6 ∧ (resting fullS .bid).length = 3 ∧
    (resting fullS .ask).length = 1 ∧ fullS.seq < W64 := by
  refine ⟨?_, by decide +kernel, by decide +kernel, by decide +kernel, by decide +kernel, by decide +kernel⟩
  unfold Full
  decide +kernel

-- an ask that rests goes through, and every order stands
example : process conc P env fullS a1 i6f = .ok (run fullS a1 i6f) ∧ (resting (run fullS a1 i6f) .ask).length = 2 ∧
    Stands fullS (run fullS a1 i6f) := by
  have hf : Full fullS := by unfold Full; decide +kernel
  have hx : process conc P env fullS a1 i6f = .ok (run fullS a1 i6f) := run_eq (by decide +kernel)
  refine ⟨hx, by decide +kernel, ?_⟩
  obtain ⟨_, _, _, _, _, _, _, _, st⟩ := full_order rFull (by decide +kernel) hf (valid (by decide)) (notVault _ (by decide)) hx
  exact st

-- the owner's cancel of the bid at 900 is refused, and so are a bid that would only rest and a send-take
example : cancelV2 conc env fullS (Demo.cancelAccts 42 12) .bid bidId = .error .eventQueueFull ∧
    fine fullS a2 (.newOrderV3 (order .bid 600 1 20000 23)) = false ∧
    fine fullS takeAccts (.sendTake takeIx) = false := by
  refine ⟨?_, by decide +kernel, by decide +kernel⟩
  have : (match cancelV2 conc env fullS (Demo.cancelAccts 42 12) .bid bidId with
    | .error .eventQueueFull => true
    | _ => false) = true := by decide +kernel
  split at this <;> first | assumption | cases this

-- the hypotheses of `cancel_full`
example : ((resting fullS .bid).map fun l => (l.owner, l.key == bidId)) = [(42, false), (42, false), (42, true)] ∧
    (ooAt fullS.oos 42).map (fun o => decide (HoldsFit fullS 42 o)) = some true := ⟨by decide +kernel, by decide +kernel⟩

end Serum.Demo
