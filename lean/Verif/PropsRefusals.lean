import Verif.PropsRefused
import Verif.PropsTags
import Verif.Acts
import Verif.Demo

/-
C83, concluded: cancelling, replacing, cranking, settling, opening and closing accounts, pruning and the
market's own instructions; and all instructions together.
-/

namespace Serum
namespace Props

theorem open_market {R : Err → Prop} {c : Core} (hf : goodFlags c.mkt.flags = true) (ha : R .assertion) (m : AccMeta) :
    Raises R (loadMarket c m true) := by
  unfold loadMarket
  refine .bind (.check ha) fun _ _ => ?_
  intro e he
  rw [goodFlags_load hf] at he
  cases he

theorem events_raise {R : Err → Prop} {c : Core} {a : AccMeta} (h : a.key ≠ c.mkt.eventQ → R .wrongEventQueueAccount) :
    Raises R (loadEventQ c a) := key_raises h

theorem loaded_orders {env : Env} {c : Core} {a : Nat} {owner auth : Option Nat} {o : OpenOrders}
    (h : loadOrders c env a owner false auth = .ok o) : ooAt c.oos a = some o := by
  rcases loadOrders_inv h with ⟨h1, _⟩ | ⟨_, _, hx, _⟩
  · exact h1
  · cases hx

/-! ### Cancelling -/

theorem rust_raises {R : Err → Prop} {b : Bool} (h : R .panic) : Raises R (rustAssert b) := by
  intro e he
  unfold rustAssert at he
  split at he
  · cases he
  · cases he; exact h

theorem unlock_raises {R : Err → Prop} (hu : ∀ e, Unnamed e → R e) (m : Market) (l : Leaf) (sd : Side) (oo : OpenOrders) :
    Raises R (unlockLeaf m l sd oo) := by
  have hp := hu _ (.inr rfl)
  unfold unlockLeaf
  cases sd with
  | bid =>
    refine .bind ?_ fun _ _ => .bind ?_ fun _ _ => .pure
    · intro e he
      rcases dull_nz he with h | h
      · exact hu _ (.inr h)
      · exact hu _ (.inl h)
    · unfold OpenOrders.unlockPc
      exact .bind (.unwrap hp) fun _ _ => .bind (rust_raises hp) fun _ _ => .pure
  | ask =>
    refine .bind ?_ fun _ _ => .pure
    unfold OpenOrders.unlockCoin
    exact .bind (.unwrap hp) fun _ _ => .bind (rust_raises hp) fun _ _ => .pure

theorem push_raises {R : Err → Prop} {ob : Ob lst} {v : EventView}
    (h : ob.q.cap ≤ ob.q.items.length → R .eventQueueFull) : Raises R (pushEv lst ob v) := by
  intro e he
  have := uses_pushEv (R := fun _ => False) (ob := ob) (v := v)
  rw [he] at this
  rcases this with hf | ⟨rfl, hlt⟩
  · exact hf.elim
  · unfold Ob.fullness at hlt
    exact h (by simp only at hlt; omega)

theorem cancelLeaf_raises {R : Err → Prop} (hu : ∀ e, Unnamed e → R e) {ob : Ob lst} {l : Leaf} {sd : Side}
    {oo : OpenOrders} {a id : Nat} (hn : l.owner ≠ a → R .orderNotYours)
    (hf : ob.q.cap ≤ ob.q.items.length → R .eventQueueFull) : Raises R (cancelLeaf lst ob l sd oo a id) := by
  unfold cancelLeaf
  split
  · rename_i h
    exact .error (hn h)
  · refine .bind (.unwrap (hu _ (.inr rfl))) fun _ _ => ?_
    refine .bind (.check (hu _ (.inl rfl))) fun _ _ => ?_
    refine .bind (.check (hu _ (.inl rfl))) fun _ _ => ?_
    refine .bind (unlock_raises hu _ _ _ _) ?_
    rintro ⟨n, oo1⟩ _
    exact .bind (push_raises hf) fun _ _ => .pure

theorem cancelOrder_raises {R : Err → Prop} (hu : ∀ e, Unnamed e → R e) {ob : Ob lst} {sd : Side}
    {oo : OpenOrders} {a id : Nat}
    (hm : (∀ l ∈ sideOf sd ob.bids.items ob.asks.items, l.key ≠ id) → R .orderNotFound)
    (hn : ∀ l ∈ sideOf sd ob.bids.items ob.asks.items, l.key = id → l.owner ≠ a → R .orderNotYours)
    (hf : ob.q.cap ≤ ob.q.items.length → R .eventQueueFull) : Raises R (cancelOrderV2 lst ob sd a oo id) := by
  intro e he
  by_cases hx : e = .orderNotFound
  · subst hx
    exact hm (cancelOrderV2_missing he)
  · refine (?_ : Raises (fun e => e ≠ .orderNotFound → R e) (cancelOrderV2 lst ob sd a oo id)) e he hx
    unfold cancelOrderV2
    refine .bind (fun e he => by cases he) ?_
    rintro ⟨b, l⟩ hr
    simp only [Except.ok.injEq, Prod.mk.injEq] at hr
    obtain ⟨rfl, hl⟩ := hr
    cases l with
    | none => exact .error fun h => absurd rfl h
    | some l =>
      have hkey : l.key = id := by simpa using List.find?_some hl
      have hmem : l ∈ sideOf sd ob.bids.items ob.asks.items := by
        have := List.mem_of_find?_eq_some hl
        cases sd <;> exact this
      show Raises (fun e => e ≠ .orderNotFound → R e) (cancelLeaf lst _ l sd oo a id)
      refine cancelLeaf_raises (R := fun e => e ≠ .orderNotFound → R e) (fun e h _ => hu e h) (fun h _ => hn l hmem hkey h) (fun h _ => hf ?_)
      cases sd <;> exact h

/-- Why the cancellation of an order is refused. -/
inductive CancelRefused (env : Env) (s : State conc) (accts : List AccMeta) (sd : Side) (id : Nat) : Err → Prop
  | unnamed {e : Err} (h : Unnamed e) : CancelRefused env s accts sd id e
  | account {e : Err} (h : AccountRefused env s (given accts 3) (given accts 4) false none e) :
      CancelRefused env s accts sd id e
  | events (h : given accts 5 ≠ s.mkt.eventQ) : CancelRefused env s accts sd id .wrongEventQueueAccount
  | missing (h : ∀ l ∈ resting s sd, l.key ≠ id) : CancelRefused env s accts sd id .orderNotFound
  | notYours {l : Leaf} (hl : l ∈ resting s sd) (hk : l.key = id) (h : l.owner ≠ given accts 3) :
      CancelRefused env s accts sd id .orderNotYours
  | full (h : s.q.buf.length ≤ (pending s).length) : CancelRefused env s accts sd id .eventQueueFull

/-- Why the cancellation of an order by its client id is refused. -/
inductive CancelByRefused (env : Env) (s : State conc) (accts : List AccMeta) (cid : Nat) : Err → Prop
  | unnamed {e : Err} (h : Unnamed e) : CancelByRefused env s accts cid e
  | account {e : Err} (h : AccountRefused env s (given accts 3) (given accts 4) false none e) :
      CancelByRefused env s accts cid e
  | events (h : given accts 5 ≠ s.mkt.eventQ) : CancelByRefused env s accts cid .wrongEventQueueAccount
  | unknown {o : OpenOrders} (ho : ooAt s.oos (given accts 3) = some o)
      (h : ∀ j, o.slot j ≠ none → recordedId o j ≠ some cid) : CancelByRefused env s accts cid .clientIdNotFound
  | missing {o : OpenOrders} {j id : Nat} {sd : Side} (ho : ooAt s.oos (given accts 3) = some o)
      (hj : o.slot j = some (sd, id)) (hr : recordedId o j = some cid) (h : ∀ l ∈ resting s sd, l.key ≠ id) :
      CancelByRefused env s accts cid .orderNotFound
  | full (h : s.q.buf.length ≤ (pending s).length) : CancelByRefused env s accts cid .eventQueueFull

/-- Why a batch cancellation is refused. -/
inductive BatchRefused (env : Env) (s : State conc) (accts : List AccMeta) (cids : List Nat) : Err → Prop
  | unnamed {e : Err} (h : Unnamed e) : BatchRefused env s accts cids e
  | account {e : Err} (h : AccountRefused env s (given accts 3) (given accts 4) false none e) :
      BatchRefused env s accts cids e
  | events (h : given accts 5 ≠ s.mkt.eventQ) : BatchRefused env s accts cids .wrongEventQueueAccount
  | full (h : s.q.buf.length < (pending s).length + ((resting s .bid).filter (named (given accts 3) cids)).length +
      ((resting s .ask).filter (named (given accts 3) cids)).length) : BatchRefused env s accts cids .eventQueueFull

theorem parse_cancel_given {accts : List AccMeta} {a : CancelAccts} (h : parseCancel accts = .ok a) :
    given accts 3 = a.oo.key ∧ given accts 4 = a.signer.key ∧ given accts 5 = a.eventQ.key := by
  unfold parseCancel at h
  split at h
  · cases h
    exact ⟨rfl, rfl, rfl⟩
  · cases h

theorem parse_cancel_raises {R : Err → Prop} (ha : R .assertion) (accts : List AccMeta) :
    Raises R (parseCancel accts) := by
  intro e he
  unfold parseCancel at he
  split at he
  · cases he
  · cases he; exact ha

theorem cancel_args_raise {R : Err → Prop} (ha : R .assertion) {env : Env} {s : State conc} {a : CancelAccts}
    (hacc : ∀ e, AccountRefused env s a.oo.key a.signer.key false none e → R e)
    (hev : a.eventQ.key ≠ s.mkt.eventQ → R .wrongEventQueueAccount) : Raises R (cancelArgs env s.toCore a) := by
  unfold cancelArgs
  refine .bind (.orAssert ha) fun _ _ => ?_
  refine .bind (.check ha) fun _ _ => ?_
  refine .bind (fun e he => hacc e (loadOrders_raises e he)) fun _ _ => ?_
  refine .bind (.orAssert ha) fun _ _ => ?_
  refine .bind (.orAssert ha) fun _ _ => ?_
  exact .bind (events_raise hev) fun _ _ => .pure

theorem abs_sides (s : State conc) (sd : Side) :
    sideOf sd ((absState s).ob lst s.mkt).bids.items ((absState s).ob lst s.mkt).asks.items = resting s sd := by
  cases sd <;> rfl

/-- C83, cancelling by order id. -/
theorem cancel_refused {P : Params} {s : State conc} (h : Reach P s) (hq : s.seq ≤ W64) {env : Env}
    {accts : List AccMeta} {sd : Side} {id : Nat} {e : Err} (hx : cancelV2 conc env s accts sd id = .error e) :
    CancelRefused env s accts sd id e := by
  have hg := h.good hq
  obtain ⟨vs, hvs, hqi, hi⟩ := h.view hq
  have hL := absState_q hg hqi
  have hx := Sim.error_right (Refines.sim_cancelV2 hg.rs env accts sd id) hx
  have hu : ∀ e, Unnamed e → CancelRefused env s accts sd id e := fun e h => .unnamed h
  refine Raises.use ?_ hx
  unfold cancelV2
  refine .bind (parse_cancel_raises (hu _ (.inl rfl)) _) fun a hp => ?_
  obtain ⟨g3, g4, g5⟩ := parse_cancel_given hp
  refine .bind (cancel_args_raise (s := s) (hu _ (.inl rfl))
    (fun e h => .account (by rw [g3, g4]; exact h)) (fun h => .events (by rw [g5]; exact h))) fun oo _ => ?_
  refine .bind (cancelOrder_raises hu ?_ ?_ ?_) fun _ _ => .pure
  · intro h
    rw [show (absState s).mkt = s.mkt from rfl, abs_sides] at h
    exact .missing h
  · intro l hl hk hn
    rw [show (absState s).mkt = s.mkt from rfl, abs_sides] at hl
    exact .notYours hl hk (by rw [g3]; exact hn)
  · intro h
    refine .full ?_
    have h : s.q.buf.length ≤ (absState s).q.items.length := h
    rw [hL, List.length_map] at h
    exact h

theorem unknown_raises {R : Err → Prop} {o : OpenOrders} {cid : Nat} (hc : cid ≠ 0)
    (h : (∀ j, o.slot j ≠ none → recordedId o j ≠ some cid) → R .clientIdNotFound) :
    Raises R (findClientId o cid) := by
  intro e he
  unfold findClientId at he
  split at he
  · cases he
  · rename_i hn
    cases he
    refine h fun j hj hr => ?_
    rw [List.find?_eq_none] at hn
    cases hs : o.slot j with
    | none => exact hj hs
    | some x =>
      have := hn (cid, x.2, x.1) (mem_withIds.2 ⟨j, hs, hr, hc⟩)
      simp at this

/-- C83, cancelling by client id. -/
theorem cancel_by_refused {P : Params} {s : State conc} (h : Reach P s) (hq : s.seq ≤ W64) {env : Env}
    {accts : List AccMeta} {cid : Nat} {e : Err} (hx : cancelByClientIdV2 conc env s accts cid = .error e) :
    CancelByRefused env s accts cid e := by
  have hg := h.good hq
  obtain ⟨vs, hvs, hqi, hi⟩ := h.view hq
  have hL := absState_q hg hqi
  have hx := Sim.error_right (Refines.sim_cancelByClientIdV2 hg.rs env accts cid) hx
  have hu : ∀ e, Unnamed e → CancelByRefused env s accts cid e := fun e h => .unnamed h
  refine Raises.use ?_ hx
  unfold cancelByClientIdV2
  refine .bind (parse_cancel_raises (hu _ (.inl rfl)) _) fun a hp => ?_
  obtain ⟨g3, g4, g5⟩ := parse_cancel_given hp
  refine .bind (.check (hu _ (.inl rfl))) fun _ hz => ?_
  have hz : cid ≠ 0 := by simpa using checkAssert_ok.1 hz
  refine .bind (cancel_args_raise (s := s) (hu _ (.inl rfl))
    (fun e h => .account (by rw [g3, g4]; exact h)) (fun h => .events (by rw [g5]; exact h))) fun oo hoo => ?_
  have ho := (cancelArgs_inv hoo).2.1
  replace ho : ooAt s.oos (given accts 3) = some oo := by rw [g3]; exact ho
  refine .bind (unknown_raises hz fun h => .unknown ho h) ?_
  rintro ⟨id, sd⟩ hid
  obtain ⟨j, hj, hr⟩ := findClientId_slot hid
  refine .bind (cancelOrder_raises hu ?_ ?_ ?_) fun _ _ => .pure
  · intro h
    rw [show (absState s).mkt = s.mkt from rfl, abs_sides] at h
    exact .missing ho hj hr h
  · intro l hl hk hn
    subst hk
    have h2 := hi.shape.leaf_slot (sd := sd) (l := l) (by cases sd <;> exact hl)
    have h3 : slotsOf s.oos (given accts 3) j = some (sd, l.key) := by
      unfold slotsOf; rw [ho]; exact hj
    exact absurd ((hi.shape.uniq _ _ _ _ _ _ _ h2 h3 rfl).1.trans g3) hn
  · intro h
    refine .full ?_
    have h : s.q.buf.length ≤ (absState s).q.items.length := h
    rw [hL, List.length_map] at h
    exact h

theorem cancelMany_raises {R : Err → Prop} (hu : ∀ e, Unnamed e → R e) {vs : Nat} {c : Core} {a : Nat}
    {L : List (Nat × Side)} :
    ∀ {ob : Ob lst} {oo : OpenOrders} {evs : List EventView},
    ob.mkt = c.mkt → ob.q.items = evs.map Event.new →
    Inv vs c.mkt c.seq (setOo c.oos a oo) c.toks ob.bids.items ob.asks.items evs →
    (∀ x ∈ L, ∃ i, oo.slot i = some (x.2, x.1)) →
    (ob.q.cap < ob.q.items.length + L.countP (onBook ob.bids.items ob.asks.items) → R .eventQueueFull) →
    Raises R (cancelMany lst a ob oo L) := by
  induction L with
  | nil => intro ob oo evs _ _ _ _ _; exact .ok
  | cons x xs ih =>
    intro ob oo evs hm hq hi hs hf
    obtain ⟨id, sd⟩ := x
    unfold cancelMany
    cases hon : onBook ob.bids.items ob.asks.items (id, sd) with
    | false =>
      rw [cancelOrderV2_skip hon]
      refine ih hm hq hi (fun x hx => hs x (by simp [hx])) fun h => hf ?_
      rw [List.countP_cons_of_neg (by simp [hon])]
      exact h
    | true =>
      rw [List.countP_cons_of_pos hon] at hf
      have hoo : ooAt (setOo c.oos a oo) a = some oo := ooAt_setOo_same _ _ _
      have hone : Raises R (cancelOrderV2 lst ob sd a oo id) := by
        refine cancelOrder_raises hu ?_ ?_ fun h => hf (by omega)
        · intro h
          obtain ⟨lf, hl, hk⟩ := List.any_eq_true.1 hon
          exact absurd (by simpa using hk) (h lf hl)
        · intro l hl hk hn
          subst hk
          obtain ⟨i, h1⟩ := hs (l.key, sd) (by simp)
          have h2 := hi.shape.leaf_slot hl
          have h3 : slotsOf (setOo c.oos a oo) a i = some (sd, l.key) := by
            unfold slotsOf; rw [hoo]; exact h1
          exact absurd (hi.shape.uniq _ _ _ _ _ _ _ h2 h3 rfl).1 hn
      cases hc : cancelOrderV2 lst ob sd a oo id with
      | error e =>
        have hne : e ≠ .orderNotFound := by
          rintro rfl
          obtain ⟨lf, hl, hk⟩ := List.any_eq_true.1 hon
          exact absurd (by simpa using hk) (cancelOrderV2_missing hc lf hl)
        intro e' he'
        have : e' = e := by
          cases e <;> first | exact absurd rfl hne | (cases he'; rfl)
        rw [this]
        exact hone e hc
      | ok r =>
        obtain ⟨ob1, oo1⟩ := r
        obtain ⟨l2, evs1, hkey, m1, q1, i1, w1⟩ := cancelOrderV2_effect hc hm hq hi
        have hev := w1.events
        have hacc := w1.account
        have hlen : ob1.q.items.length = ob.q.items.length + 1 := by rw [q1, hq, hev]; simp
        refine ih m1 q1 i1 ?_ fun h => hf ?_
        · intro x hx
          obtain ⟨i, g⟩ := hs x (by simp [hx])
          refine ⟨i, ?_⟩
          rw [hacc]
          exact g
        · rw [hlen, cancelOrderV2_cap hc] at h
          have : xs.countP (onBook ob1.bids.items ob1.asks.items) ≤ xs.countP (onBook ob.bids.items ob.asks.items) := by
            apply List.countP_mono_left
            intro x _ hx
            unfold onBook at hx ⊢
            rw [List.any_eq_true] at hx ⊢
            obtain ⟨y, hy, e⟩ := hx
            rw [w1.bids, w1.asks, sideOf_without] at hy
            exact ⟨y, (mem_without.1 hy).1, e⟩
          omega

/-- The orders of a batch that are on the book. -/
theorem batch_count {P : Params} {s : State conc} (h : Reach P s) (hq : s.seq ≤ W64) {a : Nat}
    {o : OpenOrders} (ho : ooAt s.oos a = some o) (cids : List Nat) :
    (selectByClientIds o (cids.filter (· != 0))).countP (onBook s.bids.contents s.asks.contents) ≤
      ((resting s .bid).filter (named a cids)).length + ((resting s .ask).filter (named a cids)).length := by
  obtain ⟨vs, hv, hqi, hi⟩ := h.view hq
  rw [List.countP_eq_length_filter]
  refine Nat.le_trans (nodup_length (k := ((resting s .bid).filter (named a cids)).map (fun l => (l.key, Side.bid)) ++
    ((resting s .ask).filter (named a cids)).map (fun l => (l.key, Side.ask)))
    (List.Pairwise.filter _ (select_nodup hi ho _)) ?_) (by simp)
  rintro ⟨id, sd⟩ hx
  obtain ⟨h1, h2⟩ := List.mem_filter.1 hx
  obtain ⟨lf, hl, hk⟩ := List.any_eq_true.1 h2
  have hk : lf.key = id := by simpa using hk
  subst hk
  obtain ⟨e1, c, e2, e3, e4⟩ := (select_resting hi ho hl).1 h1
  have hl' : lf ∈ resting s sd := by cases sd <;> exact hl
  have hnm : named a cids lf = true := by
    obtain ⟨o1, k1, k2⟩ := (client_ids_agree h hq).1 sd lf hl'
    rw [e1, ho] at k1
    cases k1
    rw [e2] at k2
    cases k2
    unfold named
    simp [e1, e3, (List.mem_filter.1 e4).1]
  rw [List.mem_append]
  cases sd with
  | bid => exact .inl (List.mem_map.2 ⟨lf, List.mem_filter.2 ⟨hl', hnm⟩, rfl⟩)
  | ask => exact .inr (List.mem_map.2 ⟨lf, List.mem_filter.2 ⟨hl', hnm⟩, rfl⟩)

/-- C83, cancelling a batch. -/
theorem batch_refused {P : Params} {s : State conc} (h : Reach P s) (hq : s.seq ≤ W64) {env : Env}
    {accts : List AccMeta} {cids : List Nat} {e : Err} (hx : cancelByClientIds conc env s accts cids = .error e) :
    BatchRefused env s accts cids e := by
  have hg := h.good hq
  obtain ⟨vs, hvs, hqi, hi⟩ := h.view hq
  have hL := absState_q hg hqi
  have hx := Sim.error_right (Refines.sim_cancelByClientIds hg.rs env accts cids) hx
  have hu : ∀ e, Unnamed e → BatchRefused env s accts cids e := fun e h => .unnamed h
  refine Raises.use ?_ hx
  unfold cancelByClientIds
  refine .bind (parse_cancel_raises (hu _ (.inl rfl)) _) fun a hp => ?_
  obtain ⟨g3, g4, g5⟩ := parse_cancel_given hp
  refine .bind (cancel_args_raise (s := s) (hu _ (.inl rfl))
    (fun e h => .account (by rw [g3, g4]; exact h)) (fun h => .events (by rw [g5]; exact h))) fun oo hoo => ?_
  have ho : ooAt s.oos a.oo.key = some oo := (cancelArgs_inv hoo).2.1
  refine .bind ?_ fun _ _ => .pure
  refine cancelMany_raises (c := s.toCore) (vs := vs) (evs := pending s) hu rfl hL
    (by rw [show setOo s.toCore.oos a.oo.key oo = s.oos from setOo_same ho]; exact hi) ?_ ?_
  · rintro ⟨id, sd⟩ hx
    obtain ⟨i, c, g, _⟩ := mem_select.1 hx
    exact ⟨i, g⟩
  · intro hr
    refine .full ?_
    have hr : s.q.buf.length < (absState s).q.items.length +
      (selectByClientIds oo (cids.filter (· != 0))).countP (onBook s.bids.contents s.asks.contents) := hr
    rw [hL, List.length_map] at hr
    have := batch_count h hq ho cids
    rw [g3]
    omega

/-! ### Replacing -/

/-- Why a replacement is refused: its cancellations are, or one of its orders is, in the state that the
cancellations and the orders before it lead to. -/
inductive ReplaceRefused (P : Params) (env : Env) (s : State conc) (accts : List AccMeta) (ixs : List NewOrderIx) : Err → Prop
  | unnamed {e : Err} (h : Unnamed e) : ReplaceRefused P env s accts ixs e
  | cancel {a b c d f g : AccMeta} {e : Err} (h0 : accts[0]? = some a) (h4 : accts[4]? = some b) (h5 : accts[5]? = some c)
      (h1 : accts[1]? = some d) (h7 : accts[7]? = some f) (h3 : accts[3]? = some g)
      (h : BatchRefused env s [a, b, c, d, f, g] (ixs.map (·.clientId)) e) : ReplaceRefused P env s accts ixs e
  | order {before after : List NewOrderIx} {ix : NewOrderIx} {ca : List AccMeta} {s0 s1 : State conc} {e : Err}
      (hix : ixs = before ++ ix :: after) (h0 : cancelByClientIds conc env s ca (ixs.map (·.clientId)) = .ok s0)
      (h1 : newOrders conc P env s0 accts before = .ok s1) (h : OrderRefused P env s1 accts ix e) :
      ReplaceRefused P env s accts ixs e

theorem newOrders_refused {P : Params} {env : Env} {accts : List AccMeta} {ixs : List NewOrderIx} :
    ∀ {s : State conc} {e : Err}, Reach P s → s.seq + ixs.length ≤ W64 → NotVault P s.mkt accts →
    (∀ ix ∈ ixs, OrderValid ix) → newOrders conc P env s accts ixs = .error e →
    ∃ before ix after s1, ixs = before ++ ix :: after ∧ newOrders conc P env s accts before = .ok s1 ∧
      OrderRefused P env s1 accts ix e := by
  induction ixs with
  | nil => intro s e _ _ _ _ h; cases h
  | cons ix ixs ih =>
    intro s e hr hq hn hv h
    unfold newOrders at h
    simp only [List.length_cons] at hq
    cases h1 : newOrderV3 conc P env s accts ix with
    | error e' =>
      rw [h1] at h
      cases h
      exact ⟨[], ix, ixs, s, rfl, rfl, order_refused hr (by omega) (hv ix (by simp)) h1⟩
    | ok s1 =>
      rw [h1] at h
      have hk := newOrderV3_keeps h1
      have hseq := hk.2.1
      obtain ⟨b, x, c, s2, g1, g2, g3⟩ := ih (place_reach hr hn (hv ix (by simp)) h1) (by omega)
        (hn.keeps hk.1) (fun j hj => hv j (by simp [hj])) h
      refine ⟨ix :: b, x, c, s2, by rw [g1]; rfl, ?_, g3⟩
      unfold newOrders
      rw [h1]
      exact g2

/-- C83, replacing. -/
theorem replace_refused {P : Params} {s : State conc} (h : Reach P s) {env : Env} {accts : List AccMeta}
    {ixs : List NewOrderIx} {e : Err} (hq : s.seq + ixs.length ≤ W64) (hl : ixs.length ≤ 8)
    (hv : ∀ ix ∈ ixs, OrderValid ix) (hn : NotVault P s.mkt accts)
    (hx : replaceOrders conc P env s accts ixs = .error e) : ReplaceRefused P env s accts ixs e := by
  refine Raises.use (?_ : Raises (ReplaceRefused P env s accts ixs) _) hx
  unfold replaceOrders
  refine .bind ?_ fun ca hca => ?_
  · intro e he
    unfold replaceCancelAccts at he
    split at he
    · cases he
    · cases he; exact .unnamed (.inr rfl)
  rw [List.take_of_length_le (by simpa using hl)]
  refine .bind ?_ fun s0 h0 => ?_
  · intro e he
    have hb := batch_refused h (by omega) he
    unfold replaceCancelAccts at hca
    split at hca
    · rename_i a0 a4 a5 a1 a7 a3
      cases hca
      exact .cancel a0 a4 a5 a1 a7 a3 hb
    · cases hca
  · intro e he
    have hs := replaceCancel_subset hca
    have hk := cancelByClientIds_keeps h0
    have hr : Reach P s0 := by
      refine batch_reach h (hn.subset hs) (by simpa using hl) ?_ h0
      intro c hc
      obtain ⟨ix, hix, rfl⟩ := List.mem_map.1 hc
      exact (hv ix hix).2.2.2.1
    obtain ⟨b, x, c, s1, g1, g2, g3⟩ := newOrders_refused hr (by rw [hk.2.1]; exact hq) (hn.keeps hk.1) hv he
    exact .order g1 h0 g2 g3

/-! ### Cranking -/

/-- Why the crank is refused; `i` is the place of the event queue, counted from the end. -/
inductive CrankRefused (s : State conc) (accts : List AccMeta) (i : Nat) : Err → Prop
  | unnamed {e : Err} (h : Unnamed e) : CrankRefused s accts i e
  | events (h : given accts (accts.length - i) ≠ s.mkt.eventQ) : CrankRefused s accts i .wrongEventQueueAccount

theorem apply_raises {R : Err → Prop} (ha : R .assertion) (oo : OpenOrders) (v : EventView) :
    Raises R (applyEvent oo v) := by
  have rem : ∀ (o : OpenOrders) (i : Nat), Raises R (o.removeOrder i) := by
    intro o i
    unfold OpenOrders.removeOrder
    exact .bind (.check ha) fun _ _ => .bind (.check ha) fun _ _ => .pure
  intro e he
  cases v with
  | fill sd mk =>
    cases mk with
    | false => cases he
    | true => cases sd <;> cases he
  | out sd rel u still id ow slot cid =>
    unfold applyEvent at he
    simp only at he
    have hsplit : ∀ (b : Bool) (o' : OpenOrders), (if (!b) = true then .error .assertion
        else if still = 0 then o'.removeOrder slot else .ok o' : Except Err OpenOrders) = .error e → R e := by
      intro b o' hb
      split at hb
      · cases hb; exact ha
      · split at hb
        · exact rem _ _ e hb
        · cases hb
    exact hsplit _ _ he

theorem one_raises {R : Err → Prop} (hu : ∀ e, Unnamed e → R e) {P : Params} {env : Env} {s : State lst}
    {keys : List Nat} (hi : SInv P s) : Raises R (consumeOne lst P env s keys) := by
  have ha := hu _ (.inl rfl)
  have hp := hu _ (.inr rfl)
  obtain ⟨vs, evs, hv, hq, hi⟩ := hi
  unfold consumeOne
  rw [show lst.peek s.q = s.q.items.head? from rfl, hq]
  cases evs with
  | nil => exact .ok
  | cons v rest =>
    simp only [List.map_cons, List.head?_cons, Event.asView_new]
    refine .bind .ok fun v' hv' => ?_
    cases hv'
    refine .bind ?_ fun r hr => ?_
    · have e1 : (Event.new v).owner = v.owner := by cases v <;> rfl
      obtain ⟨sd, id, hs, ht⟩ := hi.shape.slots.head
      unfold eventOwner
      rw [e1]
      split
      · refine .bind ?_ fun _ _ => .bind (.check ha) fun _ _ => .bind (.check ha) fun _ _ =>
          .bind (.unwrap hp) fun _ _ => .bind (.check ha) fun _ _ => .pure
        intro e he
        cases ho : ooAt s.oos v.owner with
        | none => unfold slotsOf at hs; rw [ho] at hs; cases hs
        | some o =>
          have hcl : o.closed = false := by
            cases hc : o.closed with
            | false => rfl
            | true =>
              have hz := (hi.closed_zero ho hc).2.2 v.slot
              rw [hz] at hs; cases hs
          unfold loadOrders at he
          rw [ho] at he
          simp [hcl] at he
      · exact .ok
    · cases r with
      | none => exact .pure
      | some oo => exact .bind (apply_raises ha _ _) fun _ _ => .bind (.unwrap hp) fun _ _ => .pure

theorem loop_raises {R : Err → Prop} (hu : ∀ e, Unnamed e → R e) {P : Params} {env : Env} {keys : List Nat} (n : Nat) :
    ∀ {s : State lst}, SInv P s → Raises R (consumeLoop lst P env keys n s) := by
  induction n with
  | zero => intro s _; exact .ok
  | succ n ih =>
    intro s hi
    unfold consumeLoop
    refine .bind (one_raises hu hi) fun r hr => ?_
    cases r with
    | none => exact .pure
    | some s1 => exact ih (consumeOne_inv hr hi)

theorem given_drop {accts : List AccMeta} {k : Nat} {m eq : AccMeta} {r : List AccMeta}
    (h : accts.drop k = m :: eq :: r) : given accts (k + 1) = eq.key := by
  unfold given
  rw [← List.getElem?_drop, h]
  rfl

/-- C83, cranking. -/
theorem consume_refused {P : Params} {s : State conc} (h : Reach P s) (hq : s.seq ≤ W64) {env : Env}
    {accts : List AccMeta} {n : Nat} {e : Err} (hx : consumeEvents conc P env s accts n = .error e) :
    CrankRefused s accts 3 e := by
  have hg := h.good hq
  have hx := Sim.error_right (Refines.sim_consumeEvents hg.rs P env accts n) hx
  have hu : ∀ e, Unnamed e → CrankRefused s accts 3 e := fun e h => .unnamed h
  have ha := hu _ (.inl rfl)
  refine Raises.use ?_ hx
  unfold consumeEvents
  refine .bind (.check ha) fun _ hlen => ?_
  have hlen : 5 ≤ accts.length := by simpa using checkAssert_ok.1 hlen
  split
  · rename_i m eq r hd
    refine .bind (open_market h.flags ha m) fun _ _ => ?_
    refine .bind (.check ha) fun _ _ => ?_
    refine .bind (events_raise fun hne => .events ?_) fun _ _ => loop_raises hu n hg.inv
    have := given_drop hd
    rw [show accts.length - 4 + 1 = accts.length - 3 by omega] at this
    rw [this]; exact hne
  · exact .error (hu _ (.inr rfl))

/-- C83, cranking a market with a crank authority. -/
theorem consume_permissioned_refused {P : Params} {s : State conc} (h : Reach P s) (hq : s.seq ≤ W64) {env : Env}
    {accts : List AccMeta} {n : Nat} {e : Err} (hx : consumeEventsPermissioned conc P env s accts n = .error e) :
    CrankRefused s accts 2 e := by
  have hg := h.good hq
  have hx := Sim.error_right (Refines.sim_consumeEventsPermissioned hg.rs P env accts n) hx
  have hu : ∀ e, Unnamed e → CrankRefused s accts 2 e := fun e h => .unnamed h
  have ha := hu _ (.inl rfl)
  refine Raises.use ?_ hx
  unfold consumeEventsPermissioned
  refine .bind (.check ha) fun _ hlen => ?_
  have hlen : 4 ≤ accts.length := by simpa using checkAssert_ok.1 hlen
  split
  · rename_i m eq auth r hd
    refine .bind (open_market h.flags ha m) fun _ _ => ?_
    refine .bind (.check ha) fun _ _ => ?_
    refine .bind (.check ha) fun _ _ => ?_
    refine .bind (events_raise fun hne => .events ?_) fun _ _ => loop_raises hu n hg.inv
    have := given_drop hd
    rw [show accts.length - 3 + 1 = accts.length - 2 by omega] at this
    rw [this]; exact hne
  · exact .error (hu _ (.inr rfl))

/-! ### Settling -/

/-- Why a settlement is refused: the account is, or the token program refuses one of the payments. -/
inductive SettleRefused (P : Params) (env : Env) (s : State conc) (accts : List AccMeta) : Err → Prop
  | unnamed {e : Err} (h : Unnamed e) : SettleRefused P env s accts e
  | account {e : Err} (h : AccountRefused env s (given accts 1) (given accts 2) false none e) :
      SettleRefused P env s accts e
  | coin {o : OpenOrders} {vs : Nat} (hv : P.vaultSigner s.mkt.ownAddress s.mkt.vaultSignerNonce = some vs)
      (ho : ooAt s.oos (given accts 1) = some o)
      (h : Barred s.toks s.mkt.coinVault (given accts 5) vs o.coinFree) : SettleRefused P env s accts .transferFailed
  | pc {o : OpenOrders} {vs : Nat} {l : Ledger} (hv : P.vaultSigner s.mkt.ownAddress s.mkt.vaultSignerNonce = some vs)
      (ho : ooAt s.oos (given accts 1) = some o)
      (hl : splTransfer s.toks s.mkt.coinVault (given accts 5) vs o.coinFree = .ok l)
      (h : Barred l s.mkt.pcVault (given accts 6) vs o.pcFree) : SettleRefused P env s accts .transferFailed
  | referrer {o : OpenOrders} {vs : Nat} {l l' : Ledger} {r : AccMeta}
      (hv : P.vaultSigner s.mkt.ownAddress s.mkt.vaultSignerNonce = some vs)
      (ho : ooAt s.oos (given accts 1) = some o) (hr : accts[9]? = some r) (hz : 0 < o.rebates)
      (hl : splTransfer s.toks s.mkt.coinVault (given accts 5) vs o.coinFree = .ok l)
      (hl' : splTransfer l s.mkt.pcVault (given accts 6) vs o.pcFree = .ok l')
      (h : Barred l' s.mkt.pcVault r.key vs o.rebates) : SettleRefused P env s accts .transferFailed

theorem parse_settle_given {accts : List AccMeta} {a : SettleAccts} (h : parseSettle accts = .ok a) :
    given accts 1 = a.oo.key ∧ given accts 2 = a.owner.key ∧ given accts 5 = a.coinWallet.key ∧
    given accts 6 = a.pcWallet.key ∧ accts[9]? = a.referrer := by
  unfold parseSettle at h
  split at h
  · cases h; exact ⟨rfl, rfl, rfl, rfl, rfl⟩
  · cases h; exact ⟨rfl, rfl, rfl, rfl, rfl⟩
  · cases h

theorem parse_settle_raises {R : Err → Prop} (ha : R .assertion) (accts : List AccMeta) :
    Raises R (parseSettle accts) := by
  intro e he
  unfold parseSettle at he
  split at he
  · cases he
  · cases he
  · cases he; exact ha

theorem settle_exec_raises {P : Params} {env : Env} {s : State conc} (h : Reach P s) (hq : s.seq ≤ W64)
    {accts : List AccMeta} {a : SettleAccts} {oo : OpenOrders} (hp : parseSettle accts = .ok a)
    (ho : ooAt s.oos a.oo.key = some oo) :
    Raises (SettleRefused P env s accts) (settleExec lst P (absState s) a oo) := by
  obtain ⟨g1, g2, g5, g6, g9⟩ := parse_settle_given hp
  have hpn : SettleRefused P env s accts .panic := .unnamed (.inr rfl)
  obtain ⟨vs, hv, hqi, hi⟩ := h.view hq
  have hd := hi.deposits_lt
  have hm := hi.money
  have c1 := hm.coin
  have c2 := hm.pc
  have c3 := hm.rebates
  have u1 := accSum_ge (g := (·.coinFree)) ho
  have u2 := accSum_ge (g := (·.pcFree)) ho
  have u3 := accSum_ge (g := (·.rebates)) ho
  have e1 : wsub s.mkt.coinDeposits oo.coinFree = s.mkt.coinDeposits - oo.coinFree := wsub_eq (by omega) (by omega)
  have e2 : wsub s.mkt.pcDeposits oo.pcFree = s.mkt.pcDeposits - oo.pcFree := wsub_eq (by omega) (by omega)
  have ho' : ooAt s.oos (given accts 1) = some oo := by rw [g1]; exact ho
  have s1 := hi.funds.solvent s.mkt.coinVault
  unfold owed at s1
  rw [if_pos rfl] at s1
  unfold settleExec
  refine .bind (.unwrap hpn) fun ct _ => ?_
  refine .bind (.unwrap hpn) fun pt _ => ?_
  refine .bind (payout_raises (vs := vs) (by exact hv) hi.funds.coin (by show oo.coinFree ≤ bal s.toks s.mkt.coinVault; omega)
    fun hb => .coin hv ho' (by rw [g5]; exact hb)) fun l1 h1 => ?_
  have t1 : splTransfer s.toks s.mkt.coinVault a.coinWallet.key vs oo.coinFree = .ok l1 :=
    sendFromVault_ok (vs := vs) (by exact hv) h1
  have f1 : Funds vs { s.mkt with coinDeposits := wsub s.mkt.coinDeposits oo.coinFree } l1 := by
    refine hi.funds.send t1 rfl rfl ?_
    intro b
    simp only [owed, e1]
    split <;> split <;> omega
  have s2 := f1.solvent s.mkt.pcVault
  unfold owed at s2
  simp only [if_pos] at s2
  refine .bind (payout_raises (vs := vs) (by exact hv) f1.pc (by show oo.pcFree ≤ bal l1 s.mkt.pcVault; omega)
    fun hb => .pc hv ho' (by rw [g5]; exact t1) (by rw [g6]; exact hb)) fun l2 h2 => ?_
  have t2 : splTransfer l1 s.mkt.pcVault a.pcWallet.key vs oo.pcFree = .ok l2 :=
    sendFromVault_ok (vs := vs) (by exact hv) h2
  have f2 : Funds vs { s.mkt with
      coinDeposits := wsub s.mkt.coinDeposits oo.coinFree
      pcDeposits := wsub s.mkt.pcDeposits oo.pcFree } l2 := by
    refine f1.send t2 rfl rfl ?_
    intro b
    simp only [owed, e2]
    split <;> split <;> omega
  have s3 := f2.solvent s.mkt.pcVault
  unfold owed at s3
  simp only [if_pos] at s3
  refine .bind ?_ fun _ _ => .pure
  unfold settleRebates
  split
  · rename_i r hr
    split
    · rename_i hz
      refine .bind (payout_raises (vs := vs) (by exact hv) f2.pc (by show oo.rebates ≤ bal l2 s.mkt.pcVault; omega)
        fun hb => .referrer hv ho' (by rw [g9, hr]) hz (by rw [g5]; exact t1) (by rw [g6]; exact t2) hb) fun _ _ => .pure
    · exact .ok
  · exact .ok

/-- C83, settling. -/
theorem settle_refused {P : Params} {s : State conc} (h : Reach P s) (hq : s.seq ≤ W64) {env : Env}
    {accts : List AccMeta} {e : Err} (hx : settleFunds conc P env s accts = .error e) :
    SettleRefused P env s accts e := by
  have hg := h.good hq
  obtain ⟨vs, hvs, _⟩ := h.view hq
  have hx := Sim.error_right (Refines.sim_settleFunds hg.rs P env accts) hx
  have ha : SettleRefused P env s accts .assertion := .unnamed (.inl rfl)
  refine Raises.use ?_ hx
  unfold settleFunds
  refine .bind (parse_settle_raises ha _) fun a hp => ?_
  obtain ⟨g1, g2, g5, g6, g9⟩ := parse_settle_given hp
  refine .bind ?_ fun oo hoo => settle_exec_raises h hq hp ?_
  · unfold settleArgs
    refine .bind (.check ha) fun _ _ => ?_
    refine .bind (open_market h.flags ha _) fun _ _ => ?_
    refine .bind (.orAssert ha) fun _ _ => ?_
    refine .bind (.orAssert ha) fun _ _ => ?_
    refine .bind (.orAssert ha) fun _ _ => ?_
    refine .bind (.orAssert ha) fun _ _ => ?_
    refine .bind (.orAssert ha) fun _ _ => ?_
    refine .bind ?_ fun _ _ => ?_
    · unfold checkReferrer
      split
      · exact .ok
      · exact .orAssert ha
    refine .bind (vaultSigner_raises ha hvs) fun _ _ => ?_
    intro e he
    exact .account (by rw [g1, g2]; exact loadOrders_raises (s := s) e he)
  · unfold settleArgs at hoo
    iterate 9 obtain ⟨_, _, hoo⟩ := bind_ok hoo
    exact loaded_orders hoo

/-! ### Opening and closing accounts -/

/-- Why an account is not closed. -/
inductive CloseRefused (env : Env) (s : State conc) (accts : List AccMeta) : Err → Prop
  | unnamed {e : Err} (h : Unnamed e) : CloseRefused env s accts e
  | account {e : Err} (h : AccountRefused env s (given accts 0) (given accts 1) false none e) :
      CloseRefused env s accts e
  | busy {o : OpenOrders} (ho : ooAt s.oos (given accts 0) = some o)
      (h : (∃ j, o.slot j ≠ none) ∨ o.coinTotal ≠ 0 ∨ o.pcTotal ≠ 0) : CloseRefused env s accts .tooManyOpenOrders

/-- C83, closing an account. -/
theorem close_refused {P : Params} {s : State conc} (h : Reach P s) (hq : s.seq ≤ W64) {env : Env}
    {accts : List AccMeta} {e : Err} (hx : closeOpenOrders conc env s accts = .error e) :
    CloseRefused env s accts e := by
  obtain ⟨vs, hvs, _, hi⟩ := h.view hq
  have ha : CloseRefused env s accts .assertion := .unnamed (.inl rfl)
  refine Raises.use ?_ hx
  unfold closeOpenOrders
  split
  · rename_i oo owner dest m
    refine .bind (.check ha) fun _ _ => ?_
    refine .bind (open_market h.flags ha _) fun _ _ => ?_
    refine .bind (fun e he => .account (loadOrders_raises (s := s) e he)) fun o ho => ?_
    refine .bind ?_ fun _ _ => .pure
    have ho := loaded_orders ho
    intro e he
    unfold checkClosable at he
    split at he
    · rename_i hb
      cases he
      refine .busy (o := o) ho ?_
      rcases hb with hb | hb
      · refine .inl (Classical.byContradiction fun hall => hb ?_)
        rw [freeBits_allOnes_iff]
        intro j hj
        cases hs : o.slotSide j with
        | none => rfl
        | some sd =>
          exfalso
          refine hall ⟨j, ?_⟩
          have hk := hi.shape.accts _ _ ho
          unfold OpenOrders.slot
          rw [if_pos hj, hs, List.getElem?_eq_getElem (by rw [hk.orders]; exact hj)]
          simp
      · exact .inr hb
    · cases he
  · exact .error ha

/-- Why an account is not opened. The fifth account, if there is one, signs as the market's authority. -/
inductive OpenRefused (env : Env) (s : State conc) (accts : List AccMeta) : Err → Prop
  | unnamed {e : Err} (h : Unnamed e) : OpenRefused env s accts e
  | disabled (h : s.mkt.isDisabled = true) : OpenRefused env s accts .invalidMarketFlags
  | account {e : Err} (h : AccountRefused env s (given accts 0) (given accts 1) true ((accts[4]?).map (·.key)) e) :
      OpenRefused env s accts e

/-- C83, opening an account. -/
theorem open_refused {P : Params} {s : State conc} (h : Reach P s) {env : Env}
    {accts : List AccMeta} {e : Err} (hx : initOpenOrders conc env s accts = .error e) :
    OpenRefused env s accts e := by
  have ha : OpenRefused env s accts .assertion := .unnamed (.inl rfl)
  refine Raises.use ?_ hx
  unfold initOpenOrders
  split
  · rename_i oo owner m r rest
    split
    · rename_i hlen
      refine .bind ?_ fun auth hauth => ?_
      · unfold optSigner
        split
        · exact .ok
        · exact .bind (.check ha) fun _ _ => .pure
      refine .bind (.check ha) fun _ _ => ?_
      refine .bind (flags_raise h.flags (fun e h => .unnamed h) .disabled _) fun _ _ => ?_
      refine .bind (fun e he => .account ?_) fun _ _ => .pure
      have : auth = ((oo :: owner :: m :: r :: rest)[4]?).map (·.key) := by
        unfold optSigner at hauth
        split at hauth
        · cases hauth; rfl
        · obtain ⟨_, _, hauth⟩ := bind_ok hauth
          cases hauth; rfl
      rw [← this]
      exact loadOrders_raises (s := s) e he
    · exact .error ha
  · exact .error ha

/-! ### Pruning -/

/-- Why a prune is refused. -/
inductive PruneRefused (env : Env) (s : State conc) (accts : List AccMeta) : Err → Prop
  | unnamed {e : Err} (h : Unnamed e) : PruneRefused env s accts e
  | disabled (h : s.mkt.isDisabled = true) : PruneRefused env s accts .invalidMarketFlags
  | account {e : Err} (h : AccountRefused env s (given accts 4) (given accts 5) false none e) :
      PruneRefused env s accts e
  | events (h : given accts 6 ≠ s.mkt.eventQ) : PruneRefused env s accts .wrongEventQueueAccount
  | full (h : s.q.buf.length < (pending s).length + ((resting s .bid).filter (fun l => l.owner == given accts 4)).length +
      ((resting s .ask).filter (fun l => l.owner == given accts 4)).length) : PruneRefused env s accts .eventQueueFull

theorem leaves_raise {R : Err → Prop} (hu : ∀ e, Unnamed e → R e) {a : Nat} {sd : Side} {ls : List Leaf} :
    ∀ {ob : Ob lst} {oo : OpenOrders}, (∀ l ∈ ls, l.owner = a) →
      (ob.q.cap < ob.q.items.length + ls.length → R .eventQueueFull) → Raises R (cancelLeaves lst sd a ob oo ls) := by
  induction ls with
  | nil => intro ob oo _ _; exact .ok
  | cons l ls ih =>
    intro ob oo hown hf
    simp only [List.length_cons] at hf
    unfold cancelLeaves
    refine .bind (.unwrap (hu _ (.inr rfl))) fun id _ => ?_
    refine .bind (cancelLeaf_raises hu (fun h => absurd (hown l (by simp)) h) fun h => hf (by omega)) ?_
    rintro ⟨ob1, oo1⟩ h1
    obtain ⟨_, _, _, n, _, rfl⟩ := cancelLeaf_inv h1
    refine ih (fun x hx => hown x (by simp [hx])) fun h => hf ?_
    have h : ob.q.cap < (ob.q.items ++ [Event.new _]).length + ls.length := h
    rw [List.length_append] at h
    simp only [List.length_cons, List.length_nil] at h
    omega

theorem leaves_length {a : Nat} {sd : Side} {ls : List Leaf} :
    ∀ {ob ob' : Ob lst} {oo oo' : OpenOrders}, cancelLeaves lst sd a ob oo ls = .ok (ob', oo') →
      ob'.q.cap = ob.q.cap ∧ ob'.q.items.length = ob.q.items.length + ls.length := by
  induction ls with
  | nil => intro ob ob' oo oo' h; cases h; exact ⟨rfl, rfl⟩
  | cons l ls ih =>
    intro ob ob' oo oo' h
    unfold cancelLeaves at h
    obtain ⟨id, _, h⟩ := bind_ok h
    obtain ⟨⟨ob1, oo1⟩, h1, h⟩ := bind_ok h
    obtain ⟨_, _, _, n, _, rfl⟩ := cancelLeaf_inv h1
    obtain ⟨i1, i2⟩ := ih h
    refine ⟨i1, ?_⟩
    rw [i2]
    show (ob.q.items ++ [Event.new _]).length + _ = _
    simp
    omega

theorem theirs_count {a : Nat} {ls L : List Leaf} (hm : ∀ l ∈ ls, l ∈ L ∧ l.owner = a)
    (hn : (ls.map (·.key)).Nodup) : ls.length ≤ (L.filter fun l => l.owner == a).length := by
  have h1 : ls.length = (ls.map (·.key)).length := by simp
  have h2 : (L.filter fun l => l.owner == a).length = ((L.filter fun l => l.owner == a).map (·.key)).length := by simp
  rw [h1, h2]
  refine nodup_length hn ?_
  intro k hk
  obtain ⟨l, hl, rfl⟩ := List.mem_map.1 hk
  obtain ⟨m1, m2⟩ := hm l hl
  exact List.mem_map.2 ⟨l, List.mem_filter.2 ⟨m1, by simpa using m2⟩, rfl⟩

theorem keys_raise {R : Err → Prop} (ks : List Nat) : ∀ b : LBook, Raises R (removeKeys lst b ks) := by
  induction ks with
  | nil => intro b; exact .ok
  | cons k ks ih =>
    intro b
    unfold removeKeys
    refine .bind (fun e he => by cases he) ?_
    rintro ⟨b1, l⟩ _
    exact .bind (ih b1) fun _ _ => .pure

/-- C83, pruning. -/
theorem prune_refused {P : Params} {s : State conc} (h : Reach P s) (hq : s.seq ≤ W64) {env : Env}
    {accts : List AccMeta} {limit : Nat} {e : Err} (hx : prune conc env s accts limit = .error e) :
    PruneRefused env s accts e := by
  have hg := h.good hq
  obtain ⟨vs, hvs, hqi, hi⟩ := h.view hq
  have hL := absState_q hg hqi
  have hx := Sim.error_right (Refines.sim_prune hg.rs env accts limit) hx
  have hu : ∀ e, Unnamed e → PruneRefused env s accts e := fun e h => .unnamed h
  have ha := hu _ (.inl rfl)
  refine Raises.use ?_ hx
  unfold prune
  split
  · rename_i m b k auth oo owner eq _
    refine .bind (.check ha) fun _ _ => ?_
    refine .bind (flags_raise h.flags hu .disabled _) fun _ _ => ?_
    refine .bind (.check ha) fun _ _ => ?_
    refine .bind (fun e he => .account (loadOrders_raises (s := s) e he)) fun o _ => ?_
    refine .bind (.orAssert ha) fun _ _ => ?_
    refine .bind (.orAssert ha) fun _ _ => ?_
    refine .bind (events_raise fun h => .events h) fun _ _ => ?_
    refine .bind ?_ ?_
    · unfold removeAll
      exact .bind (keys_raise _ _) fun _ _ => .bind (keys_raise _ _) fun _ _ => .pure
    rintro ⟨ob, bl, al⟩ hr
    unfold removeAll at hr
    simp only at hr
    obtain ⟨⟨b', bl'⟩, hb, hr⟩ := bind_ok hr
    obtain ⟨⟨a', al'⟩, hal, hr⟩ := bind_ok hr
    cases hr
    obtain ⟨r1, r2, r3⟩ := removeKeys_lst hb
    obtain ⟨q1, q2, q3⟩ := removeKeys_lst hal
    have hmine : ∀ {L : LBook} {n : Nat} {l : Leaf}, L.items.Pairwise (fun a b => a.key < b.key) →
        l ∈ L.items → l.key ∈ (lst.findBy L n (fun l => l.owner == oo.key)).1 → l.owner = oo.key := by
      intro L n l hs hl hk
      obtain ⟨x, hx, e, hp⟩ := findBy_mem hk
      rw [key_unique hs hl hx e.symm]
      simpa using hp
    have ob1 : ∀ l ∈ bl', l.owner = oo.key := fun l hl => hmine hi.shape.book.bidSort (r2 l hl).1 (r2 l hl).2
    have oa1 : ∀ l ∈ al', l.owner = oo.key := fun l hl => hmine hi.shape.book.askSort (q2 l hl).1 (q2 l hl).2
    have n1 := theirs_count (a := oo.key) (L := resting s .bid) (fun l hl => ⟨(r2 l hl).1, ob1 l hl⟩) r3
    have n2 := theirs_count (a := oo.key) (L := resting s .ask) (fun l hl => ⟨(q2 l hl).1, oa1 l hl⟩) q3
    have hlen : (absState s).q.items.length = (pending s).length := by rw [hL, List.length_map]
    refine .bind (leaves_raise hu ob1 fun hf => .full ?_) ?_
    · have hf : s.q.buf.length < (absState s).q.items.length + bl'.length := hf
      show _ < _ + (List.filter (fun l : Leaf => l.owner == oo.key) _).length + (List.filter (fun l : Leaf => l.owner == oo.key) _).length
      omega
    rintro ⟨ob', o'⟩ h1
    obtain ⟨c1, c2⟩ := leaves_length h1
    refine .bind (leaves_raise hu oa1 fun hf => .full ?_) fun _ _ => .pure
    rw [c1, c2] at hf
    have hf : s.q.buf.length < (absState s).q.items.length + bl'.length + al'.length := hf
    show _ < _ + (List.filter (fun l : Leaf => l.owner == oo.key) _).length + (List.filter (fun l : Leaf => l.owner == oo.key) _).length
    omega
  · exact .error ha

/-! ### The market's own instructions -/

/-- Why a market is not disabled. -/
inductive DisableRefused (s : State conc) : Err → Prop
  | unnamed {e : Err} (h : Unnamed e) : DisableRefused s e
  | disabled (h : s.mkt.isDisabled = true) : DisableRefused s .invalidMarketFlags

/-- C83, disabling. -/
theorem disable_refused {P : Params} {s : State conc} (h : Reach P s) {accts : List AccMeta} {e : Err}
    (hx : disableMarket conc P s accts = .error e) : DisableRefused s e := by
  have ha : DisableRefused s .assertion := .unnamed (.inl rfl)
  refine Raises.use ?_ hx
  unfold disableMarket
  split
  · refine .bind (flags_raise h.flags (fun e h => .unnamed h) .disabled _) fun _ _ => ?_
    exact .bind (.check ha) fun _ _ => .bind (.check ha) fun _ _ => .pure
  · exact .error ha

/-- Why fees are not swept. -/
inductive SweepRefused (P : Params) (s : State conc) (accts : List AccMeta) : Err → Prop
  | unnamed {e : Err} (h : Unnamed e) : SweepRefused P s accts e
  | disabled (h : s.mkt.isDisabled = true) : SweepRefused P s accts .invalidMarketFlags
  | pcVault (h : given accts 1 ≠ s.mkt.pcVault) : SweepRefused P s accts .wrongPcVault
  | pcMint {t : Tok} (ht : s.toks (given accts 3) = some t) (h : t.mint ≠ s.mkt.pcMint) :
      SweepRefused P s accts .wrongPcMint
  | payout {vs : Nat} (hv : P.vaultSigner s.mkt.ownAddress s.mkt.vaultSignerNonce = some vs)
      (h : Barred s.toks s.mkt.pcVault (given accts 3) vs s.mkt.pcFees) : SweepRefused P s accts .transferFailed

/-- C83, sweeping. -/
theorem sweep_refused {P : Params} {s : State conc} (h : Reach P s) (hq : s.seq ≤ W64) {accts : List AccMeta} {e : Err}
    (hx : sweepFees conc P s accts = .error e) : SweepRefused P s accts e := by
  obtain ⟨vs, hvs, _, hi⟩ := h.view hq
  have ha : SweepRefused P s accts .assertion := .unnamed (.inl rfl)
  refine Raises.use ?_ hx
  unfold sweepFees
  split
  · rename_i m pv auth w v t
    refine .bind (flags_raise h.flags (fun e h => .unnamed h) .disabled _) fun _ _ => ?_
    refine .bind (pcVault_raises ha fun h => .pcVault h) fun _ _ => ?_
    refine .bind (pcWallet_raises ha fun t ht h => .pcMint ht h) fun _ _ => ?_
    refine .bind (vaultSigner_raises ha hvs) fun _ _ => ?_
    refine .bind (.check ha) fun _ _ => ?_
    refine .bind (.check ha) fun _ _ => ?_
    refine .bind (.check ha) fun _ _ => ?_
    have s1 := hi.funds.solvent s.mkt.pcVault
    unfold owed at s1
    rw [if_pos (rfl : s.mkt.pcVault = s.mkt.pcVault)] at s1
    exact .bind (payout_raises hvs hi.funds.pc (by omega) fun hb => .payout hvs hb) fun _ _ => .pure
  · exact .error ha

/-! ### All instructions -/

/-- Why an instruction is refused. -/
def Refused (P : Params) (env : Env) (s : State conc) (accts : List AccMeta) : Instruction → Err → Prop
  | .newOrderV3 ix, e => OrderRefused P env s accts ix e
  | .sendTake ix, e => TakeRefused P s accts ix e
  | .cancelOrderV2 sd id, e => CancelRefused env s accts sd id e
  | .cancelOrderByClientIdV2 cid, e => CancelByRefused env s accts cid e
  | .cancelOrdersByClientIds cids, e => BatchRefused env s accts cids e
  | .replaceOrderByClientId ix, e => ReplaceRefused P env s accts [ix] e
  | .replaceOrdersByClientIds ixs, e => ReplaceRefused P env s accts ixs e
  | .consumeEvents _, e => CrankRefused s accts 3 e
  | .consumeEventsPermissioned _, e => CrankRefused s accts 2 e
  | .settleFunds, e => SettleRefused P env s accts e
  | .closeOpenOrders, e => CloseRefused env s accts e
  | .initOpenOrders, e => OpenRefused env s accts e
  | .prune _, e => PruneRefused env s accts e
  | .disableMarket, e => DisableRefused s e
  | .sweepFees, e => SweepRefused P s accts e
  | .matchOrders _, _ => False
  | .initializeMarket _, e | .newOrder _, e | .cancelOrder .., e | .cancelOrderByClientId _, e
  | .newOrderV2 .., e => Unnamed e

/-- C83. Whatever is sent to a market, in any reachable state: if it fails, either it does not decode, and the
reason is that of undecodable input, or the reason it gives is in the table of its instruction, and what the table
says about it is the case. -/
theorem reasons_true {P : Params} {s : State conc} (h : Reach P s) (hq : s.seq + 8 ≤ W64) {env : Env}
    {accts : List AccMeta} {data : List UInt8} {e : Err} (hn : NotVault P s.mkt accts)
    (hx : processRaw conc P env s accts data = .error e) :
    (Instruction.unpack data = none ∧ e = .programError) ∨
    ∃ ix, Instruction.unpack data = some ix ∧ Refused P env s accts ix e := by
  unfold processRaw at hx
  split at hx
  · rename_i ix hix
    refine .inr ⟨ix, hix, ?_⟩
    have hv : IxValid ix := (decoding_is_strict _ _ hix).choose_spec.2.2.1
    cases ix with
    | initializeMarket => cases hx; exact .inl rfl
    | newOrder => cases hx; exact .inr rfl
    | matchOrders => cases hx
    | consumeEvents => exact consume_refused h (by omega) hx
    | cancelOrder => cases hx; exact .inr rfl
    | settleFunds => exact settle_refused h (by omega) hx
    | cancelOrderByClientId => cases hx; exact .inr rfl
    | disableMarket => exact disable_refused h hx
    | sweepFees => exact sweep_refused h (by omega) hx
    | newOrderV2 => cases hx; exact .inr rfl
    | newOrderV3 => exact order_refused h (by omega) hv hx
    | cancelOrderV2 => exact cancel_refused h (by omega) hx
    | cancelOrderByClientIdV2 => exact cancel_by_refused h (by omega) hx
    | sendTake => exact take_refused h (by omega) hv hn hx
    | closeOpenOrders => exact close_refused h (by omega) hx
    | initOpenOrders => exact open_refused h hx
    | prune => exact prune_refused h (by omega) hx
    | consumeEventsPermissioned => exact consume_permissioned_refused h (by omega) hx
    | cancelOrdersByClientIds => exact batch_refused h (by omega) hx
    | replaceOrderByClientId ix =>
      exact replace_refused h (by simp; omega) (by simp) (by intro j hj; rw [List.mem_singleton.1 hj]; exact hv) hn hx
    | replaceOrdersByClientIds ixs =>
      have := hv.1
      exact replace_refused h (by omega) hv.1 hv.2 hn hx
  · rename_i hix
    cases hx
    exact .inl ⟨hix, rfl⟩

/-! ### Examples -/

section
open Demo

/-- The instruction fails for that reason. -/
def failsAs (s : State conc) (a : List AccMeta) (ix : Instruction) (e : Err) : Bool :=
  match process conc Demo.P Demo.env s a ix with
  | .ok _ => false
  | .error e' => e' == e

theorem refused_of {s : State conc} {a : List AccMeta} {ix : Instruction} {e : Err} (h : Reach Demo.P s)
    (hq : s.seq + 8 ≤ W64) (hv : IxValid ix) (hn : (a.all fun a => a.key != 60 || !a.signer) = true)
    (hf : failsAs s a ix e = true) : Refused Demo.P Demo.env s a ix e := by
  unfold failsAs at hf
  split at hf
  · cases hf
  · rename_i e' he
    have e0 : e' = e := by simpa using hf
    subst e0
    rcases reasons_true (data := ix.pack) h hq (notVault _ hn) (by
      unfold processRaw; rw [instruction_round_trip ix hv]; exact he) with ⟨h1, _⟩ | ⟨ix', h1, h2⟩
    · rw [instruction_round_trip ix hv] at h1; cases h1
    · rw [instruction_round_trip ix hv] at h1; cases h1; exact h2

/-- 12 cannot pay for a large bid. -/
example : Refused Demo.P Demo.env s3 a2 (.newOrderV3 (order .bid 900 3 (2 ^ 63) 9)) .insufficientFunds :=
  refused_of r3 (by decide +kernel) (valid (by decide)) (by decide) (by decide +kernel)

/-- 12's bid meets 12's own ask. -/
example : Refused Demo.P Demo.env p6 (orderAccts 42 32 12)
    (.newOrderV3 { order .bid 1600 9 200000 9 with stb := .abortTransaction }) .wouldSelfTrade :=
  refused_of k6 (by decide +kernel)
    (by have := valid (sd := .bid) (p := 1600) (c := 9) (q := 200000) (k := 9) (by decide); exact this)
    (by decide) (by decide +kernel)

/-- The order is 12's, not 11's. -/
example : Refused Demo.P Demo.env s4 (Demo.cancelAccts 41 11) i5 .orderNotYours :=
  refused_of r4 (by decide +kernel) (by decide : U128 bidId) (by decide) (by decide +kernel)

/-- It is gone after its owner cancelled it. -/
example : Refused Demo.P Demo.env s5 (Demo.cancelAccts 42 12) i5 .orderNotFound :=
  refused_of r5 (by decide +kernel) (by decide : U128 bidId) (by decide) (by decide +kernel)

/-- Nobody recorded that client id. -/
example : Refused Demo.P Demo.env s4 (Demo.cancelAccts 42 12) (.cancelOrderByClientIdV2 77) .clientIdNotFound :=
  refused_of r4 (by decide +kernel) (by decide : U64 77) (by decide) (by decide +kernel)

/-- The account still has an order. -/
example : Refused Demo.P Demo.env s4 (closeAccts 42 12 12) .closeOpenOrders .tooManyOpenOrders :=
  refused_of r4 (by decide +kernel) trivial (by decide) (by decide +kernel)

/-- The market is disabled. -/
example : Refused Demo.P Demo.env s10 a1 i1 .invalidMarketFlags :=
  refused_of r10 (by decide +kernel) (valid (by decide)) (by decide) (by decide +kernel)

/-- Nothing is for sale at that price. -/
example : Refused Demo.P Demo.env s1 takeAccts (.sendTake { takeIx with limitPrice := 999 }) .minAmountNotMet :=
  refused_of r1 (by decide +kernel) (by simp only [IxValid, takeIx]; decide) (by decide) (by decide +kernel)

/-- The second new order of a replacement is for an account with the first one's orders. -/
example : Refused Demo.P Demo.env p6 (orderAccts 42 32 12)
    (.replaceOrdersByClientIds [order .bid 850 1 20000 8, order .bid 860 1 (2 ^ 63) 9]) .insufficientFunds := by
  refine refused_of k6 (by decide +kernel) ⟨by decide, fun i hi => ?_⟩ (by decide) (by decide +kernel)
  simp only [List.mem_cons, List.not_mem_nil, or_false] at hi
  rcases hi with rfl | rfl
  · exact valid (by decide)
  · exact valid (by decide)

/-- Only the account's owner settles it. -/
example : Refused Demo.P Demo.env s6 (Demo.settleAccts 42 11 22 32 []) .settleFunds .wrongOrdersAccount :=
  refused_of r6 (by decide +kernel) trivial (by decide) (by decide +kernel)

/-- The crank is given the wrong queue. -/
example : Refused Demo.P Demo.env s3 [acc 41, acc 42, acc 50, acc 53, acc 0, acc 0] (crank 4) .wrongEventQueueAccount :=
  refused_of r3 (by decide +kernel) (by decide : U16 4) (by decide) (by decide +kernel)

end

end Props
end Serum
