import Verif.PropsTextbook
import Verif.PropsRoom

/-!
C118: the events of an order, one by one, and how many they are.
-/

namespace Serum.Props

/-- Events of a touch, counted: a trade has one for the maker, one more if it leaves, and one for a taker with an
account; an order of the same account has one for each of the two. -/
def touchCount (account : Nat) (t : Touch) : Nat :=
  if t.filled then 1 + (if t.maker.quantity = t.lots then 1 else 0) + (if account = 0 then 0 else 1) else 2

/-- Is the last one met an order of the same account? -/
def endsOwn : List Touch → Bool
  | [] => false
  | [t] => !t.filled
  | _ :: ts => endsOwn ts

/-- Events of an order itself, counted: resting, a buyer's change and an evicted order; not resting, one that it is
over, except for a send-take, and unless that was said when it met its own account's order. -/
def selfCount (side : Side) (account coin pc : Nat) (ts : List Touch) : Option Posting → Nat
  | some f => (match side with | .bid => 1 | .ask => 0) + (if f.evicted.isSome then 1 else 0)
  | none => if account = 0 then 0 else if endsOwn ts = true ∧ spent side coin pc then 0 else 1

theorem release_length (side : Side) (m : Market) (t : Touch) : (t.release side m).length =
    if t.filled then (if t.maker.quantity = t.lots then 1 else 0) else 1 := by
  unfold Touch.release
  split
  · split <;> rfl
  · rfl

theorem evict_length (side : Side) (m : Market) (f : Posting) : (evictRelease side m (some f)).length =
    if f.evicted.isSome then 1 else 0 := by
  obtain ⟨n, l⟩ := f
  cases l <;> rfl

theorem tail_length (o : OrderParams) (m : Market) (f : Option Posting) (coin pc : Nat) :
    (o.tail m f coin pc).length = selfCount o.side o.owner coin pc [] f := by
  unfold OrderParams.tail selfCount
  cases f with
  | none =>
    by_cases h0 : o.owner = 0
    · simp [h0]
    · simp only [h0, if_false, endsOwn]
      cases o.side <;> simp
  | some g =>
    simp only [List.length_append, evict_length]
    cases o.side <;> rfl

theorem events_length (o : OrderParams) (m : Market) (t : Touch) (coin pc coin' pc' : Nat) :
    (t.events o m coin pc coin' pc').length = touchCount o.owner t +
      if t.filled = true ∧ o.owner ≠ 0 ∧ spent o.side coin' pc' then 1 else 0 := by
  unfold Touch.events touchCount
  cases hf : t.filled with
  | false => simp [release_length, hf]
  | true =>
    by_cases h0 : o.owner = 0
    · simp [release_length, hf, h0]; omega
    · by_cases h1 : spent o.side coin' pc'
      · simp [release_length, hf, h0, h1]; omega
      · simp [release_length, hf, h0, h1]; omega

/-- How many events the script has, for the touches of the textbook. -/
theorem script_length {o : OrderParams} {m : Market} {f : Option Posting} :
    ∀ (k : Nat) (L : List Leaf) (coin pc : Nat) (ts : List Touch), ts = (Want.of o m).takes k L coin pc →
      (f ≠ none → ¬ spent o.side (coin - total (Want.of o m).coinUsed ts) (pc - total (Want.of o m).pcUsed ts)) →
      (o.script m f ts coin pc).length = total (touchCount o.owner) ts +
        selfCount o.side o.owner (coin - total (Want.of o m).coinUsed ts) (pc - total (Want.of o m).pcUsed ts) ts f := by
  intro k
  induction k with
  | zero =>
    intro L coin pc ts hts _
    subst hts
    simp only [Want.takes, OrderParams.script, tail_length]
    simp [total]
  | succ k ih =>
    intro L coin pc ts hts hf
    cases L with
    | nil =>
      subst hts
      simp only [Want.takes, OrderParams.script, tail_length]
      simp [total]
    | cons l L =>
      unfold Want.takes at hts
      split at hts
      · generalize (Want.of o m).meet l coin pc = t at hts
        obtain ⟨us, hus⟩ : ∃ us, us = (Want.of o m).takes k (cutFirst l t.lots L) (coin - (Want.of o m).coinUsed t)
          (pc - (Want.of o m).pcUsed t) := ⟨_, rfl⟩
        rw [← hus] at hts
        subst hts
        have ec : coin - total (Want.of o m).coinUsed (t :: us) =
            coin - (Want.of o m).coinUsed t - total (Want.of o m).coinUsed us := by rw [total_cons]; omega
        have ep : pc - total (Want.of o m).pcUsed (t :: us) =
            pc - (Want.of o m).pcUsed t - total (Want.of o m).pcUsed us := by rw [total_cons]; omega
        rw [ec, ep] at hf ⊢
        rw [total_cons]
        simp only [OrderParams.script, List.length_append, events_length]
        by_cases hs : spent o.side (coin - (Want.of o m).coinUsed t) (pc - (Want.of o m).pcUsed t)
        · have : us = [] := by rw [hus]; exact (Want.of o m).takes_done _ _ _ _ hs
          subst this
          simp only [hs, and_true]
          have hn : f = none := by
            cases f with
            | none => rfl
            | some g => exact absurd (by simpa [total] using hs) (hf (by simp))
          subst hn
          have z1 : total (Want.of o m).coinUsed ([] : List Touch) = 0 := rfl
          have z2 : total (Want.of o m).pcUsed ([] : List Touch) = 0 := rfl
          have z3 : total (touchCount o.owner) ([] : List Touch) = 0 := rfl
          rw [z1, z2, z3]
          simp only [selfCount, endsOwn, Nat.sub_zero, hs, and_true]
          by_cases h0 : o.owner = 0
          · simp [h0]
          · cases t.filled <;> simp [h0]
        · rw [if_neg hs]
          have := ih _ _ _ us hus hf
          rw [this]
          have e : selfCount o.side o.owner (coin - (Want.of o m).coinUsed t - total (Want.of o m).coinUsed us)
              (pc - (Want.of o m).pcUsed t - total (Want.of o m).pcUsed us) (t :: us) f =
            selfCount o.side o.owner (coin - (Want.of o m).coinUsed t - total (Want.of o m).coinUsed us)
              (pc - (Want.of o m).pcUsed t - total (Want.of o m).pcUsed us) us f := by
            cases f with
            | some g => rfl
            | none =>
              cases us with
              | nil =>
                have z1 : total (Want.of o m).coinUsed ([] : List Touch) = 0 := rfl
                have z2 : total (Want.of o m).pcUsed ([] : List Touch) = 0 := rfl
                simp only [selfCount, z1, z2, Nat.sub_zero, hs, and_false]
              | cons u us => rfl
          rw [e, if_neg (fun h => hs h.2.2)]
          omega
      · subst hts
        simp only [OrderParams.script, tail_length]
        simp [total]

/-- The script of a send-take. -/
theorem script_take {o : OrderParams} {m : Market} (h0 : o.owner = 0) :
    ∀ (k : Nat) (L : List Leaf) (coin pc : Nat) (ts : List Touch), ts = (Want.of o m).takes k L coin pc →
      (∀ t ∈ ts, t.filled = true) →
      o.script m none ts coin pc = ts.flatMap (fun t => t.makerFill o.side m :: t.release o.side m) := by
  have hnil : ∀ coin pc, o.tail m none coin pc = [] := fun coin pc => by simp [OrderParams.tail, h0]
  intro k
  induction k with
  | zero => intro L coin pc ts hts _; subst hts; simp [Want.takes, OrderParams.script, hnil]
  | succ k ih =>
    intro L coin pc ts hts hf
    cases L with
    | nil => subst hts; simp [Want.takes, OrderParams.script, hnil]
    | cons l L =>
      unfold Want.takes at hts
      split at hts
      · generalize (Want.of o m).meet l coin pc = t at hts
        obtain ⟨us, hus⟩ : ∃ us, us = (Want.of o m).takes k (cutFirst l t.lots L) (coin - (Want.of o m).coinUsed t)
          (pc - (Want.of o m).pcUsed t) := ⟨_, rfl⟩
        rw [← hus] at hts
        subst hts
        have e : t.events o m coin pc (coin - (Want.of o m).coinUsed t) (pc - (Want.of o m).pcUsed t) =
            t.makerFill o.side m :: t.release o.side m := by
          simp [Touch.events, hf t (by simp), h0]
        simp only [OrderParams.script, e, List.flatMap_cons]
        by_cases hs : spent o.side (coin - (Want.of o m).coinUsed t) (pc - (Want.of o m).pcUsed t)
        · have : us = [] := by rw [hus]; exact (Want.of o m).takes_done _ _ _ _ hs
          rw [if_pos hs, this]; rfl
        · rw [if_neg hs, ih _ _ _ us hus fun x hx => hf x (by simp [hx])]
      · subst hts; simp [OrderParams.script, hnil]

/-- A remainder that rests is not nothing. -/
theorem Matched.unspent {s s' : State conc} {o : OrderParams} {limit : Nat} {ts : List Touch} {f : Option Posting}
    {evs : List EventView} (hm : Matched s s' o limit ts f evs) (hf : f ≠ none) :
    ¬ spent o.side (o.maxCoinQty - total (Want.of o s.mkt).coinUsed ts) (o.pcLocked - total (Want.of o s.mkt).pcUsed ts) := by
  intro h
  have h1 := hm.remains
  rw [Want.rests_done (Want.of o s.mkt) _ _ _ h] at h1
  have h2 := hm.own
  cases f with
  | none => exact hf rfl
  | some g =>
    obtain ⟨_, h2⟩ := h2
    have := h2.pos
    have : g.lots = 0 := h1
    omega

/-- The number of events of a run. -/
theorem Matched.writes {s s' : State conc} {o : OrderParams} {limit : Nat} {ts : List Touch} {f : Option Posting}
    {evs : List EventView} (hm : Matched s s' o limit ts f evs) :
    (pending s').length = (pending s).length + (total (touchCount o.owner) ts +
      selfCount o.side o.owner (o.maxCoinQty - total (Want.of o s.mkt).coinUsed ts)
        (o.pcLocked - total (Want.of o s.mkt).pcUsed ts) ts f) := by
  rw [hm.queue, List.length_append, hm.script, script_length limit _ _ _ ts hm.takes hm.unspent]

/-- Events of an order for `coin` lots with `pc` quote units, counted. -/
def orderCount (w : Want) (coin pc : Nat) (ts : List Touch) (f : Option Posting) : Nat :=
  total (touchCount w.owner) ts +
    selfCount w.side w.owner (coin - total w.coinUsed ts) (pc - total w.pcUsed ts) ts f

/-- C118, new orders. Every successful `NewOrderV3` makes the textbook's touches and appends to the event queue exactly
its script, event by event and field by field, and nothing else; and these are so many events. -/
theorem order_writes {P : Params} {s s' : State conc} (h : Reach P s) (hq : s.seq < W64) {env : Env}
    {accts : List AccMeta} {ix : NewOrderIx} (hv : OrderValid ix) (hn : NotVault P s.mkt accts)
    (hx : newOrderV3 conc P env s accts ix = .ok s') :
    ∃ a tier o o' slot d ts f evs, PlaceEffect P env s s' accts ix a tier o o' slot d ts f evs ∧
      ByTheBook s s' (wantOrder s.mkt ix a.oo.key tier) ix.limit ix.maxCoinQty (payable ix.side ix.maxPcQty) ts
        (postedLots f) ∧
      pending s' = pending s ++ (newOrderReq ix (genOrderId s.seq ix.limitPrice ix.side) a.oo.key slot tier).script s.mkt f
        ts ix.maxCoinQty (payable ix.side ix.maxPcQty) ∧
      (pending s').length = (pending s).length +
        orderCount (wantOrder s.mkt ix a.oo.key tier) ix.maxCoinQty (payable ix.side ix.maxPcQty) ts f := by
  obtain ⟨a, tier, o, o', slot, d, ts, f, evs, he⟩ := place_effect h hq hv hn hx
  refine ⟨a, tier, o, o', slot, d, ts, f, evs, he, place_by_the_book h hq hv he, ?_, ?_⟩
  · rw [he.matched.queue, he.matched.script]
    rfl
  · have := he.matched.writes
    rw [want_order hv hq] at this
    exact this

/-- C118, send-takes: of every trade the maker's fill and, if nothing is left of it, the maker's departure; nothing
else. -/
theorem take_writes {P : Params} {s s' : State conc} (h : Reach P s) (hq : s.seq < W64)
    {accts : List AccMeta} {ix : SendTakeIx} (hv : TakeValid ix) (hn : NotVault P s.mkt accts)
    (hx : sendTake conc P s accts ix = .ok s') :
    ∃ a tier ts evs, TakeEffect P s s' accts ix a tier ts evs ∧
      ByTheBook s s' (wantTake s.mkt ix tier) ix.limit ix.maxCoinQty (payable ix.side ix.maxPcQty) ts 0 ∧
      pending s' = pending s ++ ts.flatMap (fun t => t.makerFill ix.side s.mkt :: t.release ix.side s.mkt) ∧
      (pending s').length = (pending s).length +
        total (fun t => 1 + if t.maker.quantity = t.lots then 1 else 0) ts := by
  obtain ⟨a, tier, ts, evs, he⟩ := take_effect h hq hv hn hx
  have hf : ∀ t ∈ ts, t.filled = true := by
    intro t ht
    cases hc : t.filled with
    | true => rfl
    | false => rcases (he.matched.touches t ht).self hc with h1 | ⟨h1, _⟩ <;> cases h1
  have e : pending s' = pending s ++ ts.flatMap (fun t => t.makerFill ix.side s.mkt :: t.release ix.side s.mkt) := by
    rw [he.matched.queue, he.matched.script, script_take rfl ix.limit _ _ _ ts he.matched.takes hf]
    rfl
  refine ⟨a, tier, ts, evs, he, take_by_the_book h hq hv he, e, ?_⟩
  rw [e, List.length_append, List.length_flatMap]
  unfold total
  congr 2
  refine List.map_congr_left fun t ht => ?_
  rw [List.length_cons, release_length, if_pos (hf t ht), Nat.add_comm]

theorem count_pending {P : Params} {s : State conc} (h : Reach P s) (hq : s.seq ≤ W64) : s.q.count = (pending s).length := by
  obtain ⟨_, _, hqi, _⟩ := h.view hq
  have hg := h.good hq
  have hL := absState_q hg hqi
  rw [← List.length_map (as := pending s) (f := Event.new), ← hL]
  exact (Queue.length_toList hg.rs.q.1).symm

/-- C118 and C117. A new order that goes through on one market goes through on another that looks the same, but for the
length of the event queue, exactly if its events fit in that. -/
theorem order_room {P : Params} {s t t' : State conc} (hs : Reach P s) (ht : Reach P t) (hq : s.seq ≤ W64) (hqt : t.seq < W64)
    (h : Looks (fun _ _ => True) s t) {env : Env} {accts : List AccMeta} {data : List UInt8} {ix : NewOrderIx}
    (hd : Instruction.unpack data = some (.newOrderV3 ix)) (hn : NotVault P t.mkt accts)
    (hx : processRaw conc P env t accts data = .ok t') :
    ∃ a tier o o' slot d ts f evs, PlaceEffect P env t t' accts ix a tier o o' slot d ts f evs ∧
      ((∃ s', processRaw conc P env s accts data = .ok s') ↔ (pending s).length +
        orderCount (wantOrder t.mkt ix a.oo.key tier) ix.maxCoinQty (payable ix.side ix.maxPcQty) ts f ≤ s.q.buf.length) := by
  have hx' : newOrderV3 conc P env t accts ix = .ok t' := by
    unfold processRaw at hx
    rw [hd] at hx
    exact hx
  obtain ⟨_, _, _, hv, _⟩ := decoding_is_strict data _ hd
  obtain ⟨a, tier, o, o', slot, d, ts, f, evs, he, _, _, hlen⟩ := order_writes ht hqt hv hn hx'
  refine ⟨a, tier, o, o', slot, d, ts, f, evs, he, ?_⟩
  have ht' : Reach P t' := ht.step (.instr hn hx)
  have hc : consumes data = false := by unfold consumes; rw [hd]
  obtain ⟨_, h2, h3⟩ := needs_its_events hs ht hq h hc hx
  rw [count_pending ht' (by rw [he.seq]; omega), hlen, h.events] at h2 h3
  constructor
  · rintro ⟨s', hs'⟩
    refine Nat.not_lt.1 fun hl => ?_
    rw [h3 hl] at hs'
    cases hs'
  · intro hl
    obtain ⟨s', hs', _⟩ := h2 hl
    exact ⟨s', hs'⟩

end Serum.Props

namespace Serum.Demo
open Props

-- a bid for two lots at 1100 meets an ask for five at 1000: the maker's fill, the taker's, and the taker's end with its change
example : Reach P s1 ∧ s1.seq < W64 ∧ OrderValid (order .bid 1100 2 30000 8) ∧ NotVault P s1.mkt a2 ∧
    newOrderV3 conc P env s1 a2 (order .bid 1100 2 30000 8) = .ok s2 ∧
    (pending s1).length = 0 ∧ (pending s2).length = 3 ∧
    (pending s2).map (fun v => (v.isMakerFill, v.isTakerFill, v.isReport)) =
      [(true, false, false), (false, true, false), (false, false, true)] :=
  ⟨r1, by decide +kernel, valid (by decide), notVault _ (by decide), run_eq (ix := i2) (by decide +kernel), by decide +kernel,
    by decide +kernel, by decide +kernel⟩

-- a send-take of two of the five lots writes the maker's fill and no more
example : Reach P s1 ∧ s1.seq < W64 ∧ IxValid (.sendTake takeIx) ∧ NotVault P s1.mkt takeAccts ∧
    sendTake conc P s1 takeAccts takeIx = .ok sT ∧ (pending sT).map (·.isMakerFill) = [true] :=
  ⟨r1, by decide +kernel, takeValid, notVault _ (by decide), eT, by decide +kernel⟩

-- on a queue of six with four pending, the same bid does not fit
example : Reach P s3 ∧ Reach P roomy3 ∧ s3.seq ≤ W64 ∧ roomy3.seq < W64 ∧ Looks (fun _ _ => True) s3 roomy3 ∧
    Instruction.unpack (Instruction.newOrderV3 (order .bid 1100 1 30000 40)).pack =
      some (.newOrderV3 (order .bid 1100 1 30000 40)) ∧ NotVault P roomy3.mkt a2 ∧
    (processRaw conc P env roomy3 a2 (Instruction.newOrderV3 (order .bid 1100 1 30000 40)).pack).toOption.isSome = true ∧
    (pending s3).length + orderCount (wantOrder roomy3.mkt (order .bid 1100 1 30000 40) 42 .base) 1 30000
      ((wantOrder roomy3.mkt (order .bid 1100 1 30000 40) 42 .base).takes 65535 (bestFirst roomy3 .ask) 1 30000) none = 7 ∧
    s3.q.buf.length = 6 :=
  ⟨r3, roomyReach, by decide +kernel, by decide +kernel, roomyLooks, by decide +kernel, notVault _ (by decide),
    by decide +kernel, by decide +kernel, by decide +kernel⟩

end Serum.Demo
