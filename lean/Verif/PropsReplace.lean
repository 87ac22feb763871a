import Verif.PropsPlace
import Verif.PropsRefusals
import Verif.PropsExit
import Verif.PropsLife
import Verif.Acts
import Verif.Demo

/-!
C90: replacing an order, and cancelling it by its client id.
-/

namespace Serum.Props

/-! ### Specification -/

/-- `i` is the lowest slot in use whose recorded client id is `cid`. -/
def FirstUnder (o : OpenOrders) (cid i : Nat) : Prop :=
  o.slot i ≠ none ∧ recordedId o i = some cid ∧ ∀ j < i, o.slot j ≠ none → recordedId o j ≠ some cid

/-- No slot in use has the recorded client id `cid`. -/
def NoneUnder (o : OpenOrders) (cid : Nat) : Prop := ∀ j, o.slot j ≠ none → recordedId o j ≠ some cid

/-- The resting orders of account `a` that carry one of the (non-zero) client ids. -/
def namedOrders (s : State conc) (a : Nat) (cids : List Nat) : List (Side × Leaf) :=
  ((resting s .bid).filter (named a cids)).map (fun l => (Side.bid, l)) ++
    ((resting s .ask).filter (named a cids)).map (fun l => (Side.ask, l))

/-! ### Cancelling by client id -/

theorem find_slots {f : Nat → Option (Nat × Nat × Side)} {cid : Nat} {L : List Nat} (hL : L.Pairwise (· < ·)) {i : Nat}
    (hi : i ∈ L) {e : Nat × Nat × Side} (he : f i = some e) (hc : e.1 = cid)
    (hlow : ∀ j ∈ L, j < i → ∀ e', f j = some e' → e'.1 ≠ cid) :
    (L.filterMap f).find? (fun e => cid == e.1) = some e := by
  induction L with
  | nil => cases hi
  | cons x L ih =>
    rw [List.pairwise_cons] at hL
    rcases List.mem_cons.1 hi with rfl | hm
    · rw [List.filterMap_cons, he]
      simp [hc]
    · have hx := hlow x (by simp) (hL.1 i hm)
      have ih' := ih hL.2 hm (fun j hj => hlow j (by simp [hj]))
      rw [List.filterMap_cons]
      cases hf : f x with
      | none => exact ih'
      | some e' =>
        have := hx e' hf
        simp only
        rw [List.find?_cons, ih']
        have : (cid == e'.1) = false := by
          rw [beq_eq_false_iff_ne]; exact fun h => this h.symm
        rw [this]

theorem filledSlots_sorted (o : OpenOrders) : o.filledSlots.Pairwise (· < ·) := by
  rw [filledSlots_eq]
  exact (List.pairwise_lt_range).filter _

theorem find_first {o : OpenOrders} {cid i : Nat} (hc : cid ≠ 0) (h : FirstUnder o cid i) {sd : Side} {id : Nat}
    (hs : o.slot i = some (sd, id)) : findClientId o cid = .ok (id, sd) := by
  have key : o.ordersWithClientIds.find? (fun e => cid == e.1) = some (cid, id, sd) := by
    unfold OpenOrders.ordersWithClientIds
    have hs' := hs
    unfold OpenOrders.slot at hs'
    split at hs'
    · rename_i hlt
      split at hs'
      · rename_i sd' id' h1 h2
        simp only [Option.some.injEq, Prod.mk.injEq] at hs'
        obtain ⟨rfl, rfl⟩ := hs'
        refine find_slots (filledSlots_sorted o) (i := i) ?_ ?_ rfl ?_
        · rw [mem_filledSlots]
          exact ⟨hlt, by rw [h1]; simp⟩
        · rw [show o.clientIds[i]? = some cid from h.2.1, h2, h1]
          simp [hc]
        · intro j hj hji e' he'
          rw [mem_filledSlots] at hj
          split at he'
          · rename_i c id2 sd2 k1 k2 k3
            split at he'
            · cases he'
            · cases he'
              intro e
              refine h.2.2 j hji ?_ (k1.trans (by rw [← e]))
              unfold OpenOrders.slot
              rw [if_pos hj.1, k3, k2]
              simp
          · cases he'
      · cases hs'
    · cases hs'
  unfold findClientId
  rw [key]

theorem find_none {o : OpenOrders} {cid : Nat} (h : NoneUnder o cid) : findClientId o cid = .error .clientIdNotFound := by
  unfold findClientId
  split
  · rename_i e he
    obtain ⟨c, id, sd⟩ := e
    have h1 : cid = c := by simpa using List.find?_some he
    obtain ⟨i, h2, h3, _⟩ := mem_withIds.1 (List.mem_of_find?_eq_some he)
    subst h1
    exact absurd h3 (h i (by rw [h2]; simp))
  · rfl

/-- A cancel by client id is the cancel of the order found, or the failure to find one. -/
theorem client_cancel_eq {env : Env} {s : State conc} (hf : goodFlags s.mkt.flags = true)
    (hb : s.mkt.bids ≠ s.mkt.asks) {a cid : Nat} {o : OpenOrders} (ho : ooAt s.oos a = some o) (hc : o.closed = false)
    (h0 : cid ≠ 0) : cancelByClientIdV2 conc env s (cancelAccts s a o.owner) cid =
      (findClientId o cid).bind fun x => cancelV2 conc env s (cancelAccts s a o.owner) x.2 x.1 := by
  unfold cancelByClientIdV2 cancelV2
  rw [show parseCancel (cancelAccts s a o.owner) = .ok ⟨⟨s.mkt.ownAddress, false⟩, ⟨s.mkt.bids, false⟩,
    ⟨s.mkt.asks, false⟩, ⟨a, false⟩, ⟨o.owner, true⟩, ⟨s.mkt.eventQ, false⟩⟩ from rfl]
  have := cancelArgs_ok (env := env) hf hb ho hc
  have h1 : checkAssert (cid != 0) = .ok () := by simp [checkAssert, h0]
  simp only [bind, Except.bind, this, h1]

theorem cancel_missing {P : Params} {s : State conc} (h : Reach P s) (hq : s.seq ≤ W64) (env : Env)
    (hb : s.mkt.bids ≠ s.mkt.asks) {a : Nat} {o : OpenOrders} (ho : ooAt s.oos a = some o) (hc : o.closed = false)
    {sd : Side} {id : Nat} (hm : ∀ l ∈ resting s sd, l.key ≠ id) :
    cancelV2 conc env s (cancelAccts s a o.owner) sd id = .error .orderNotFound := by
  have hg := h.good hq
  have hlst : cancelV2 lst env (absState s) (cancelAccts s a o.owner) sd id = .error .orderNotFound := by
    unfold cancelV2
    rw [show parseCancel (cancelAccts s a o.owner) = .ok ⟨⟨s.mkt.ownAddress, false⟩, ⟨s.mkt.bids, false⟩,
      ⟨s.mkt.asks, false⟩, ⟨a, false⟩, ⟨o.owner, true⟩, ⟨s.mkt.eventQ, false⟩⟩ from rfl]
    have := cancelArgs_ok (env := env) h.flags hb ho hc
    rw [show (absState s).toCore = s.toCore from rfl]
    simp only [bind, Except.bind, this]
    rw [cancelOrderV2_skip]
    unfold onBook
    rw [List.any_eq_false]
    intro l hl
    simpa using hm l (by cases sd <;> exact hl)
  have hs := Refines.sim_cancelV2 hg.rs env (cancelAccts s a o.owner) sd id
  rw [hlst] at hs
  cases hx : cancelV2 conc env s (cancelAccts s a o.owner) sd id with
  | ok t => rw [hx] at hs; exact hs.elim
  | error e => rw [hx] at hs; exact congrArg Except.error hs

theorem first_under {o : OpenOrders} {cid i : Nat} (h1 : o.slot i ≠ none) (h2 : recordedId o i = some cid) :
    ∃ j ≤ i, FirstUnder o cid j := by
  induction i using Nat.strongRecOn with
  | _ i ih =>
    by_cases hlow : ∃ j < i, o.slot j ≠ none ∧ recordedId o j = some cid
    · obtain ⟨j, hj, h3, h4⟩ := hlow
      obtain ⟨k, hk, hf⟩ := ih j hj h3 h4
      exact ⟨k, by omega, hf⟩
    · exact ⟨i, Nat.le_refl _, h1, h2, fun j hj h3 h4 => hlow ⟨j, hj, h3, h4⟩⟩

/-- C90. What the owner's cancel by client id does, in every reachable state. It looks at one order only, that of the
lowest slot in use with the id: if that order rests it is withdrawn, if not the cancel is refused, whether or not
another order with the same id rests. -/
theorem client_cancel_outcome {P : Params} {s : State conc} (h : Reach P s) (hq : s.seq ≤ W64) (env : Env)
    (hb : s.mkt.bids ≠ s.mkt.asks) {a cid : Nat} {o : OpenOrders} (ho : ooAt s.oos a = some o) (hc : o.closed = false)
    (h0 : cid ≠ 0) (hroom : (pending s).length < s.q.buf.length) (hfit : HoldsFit s a o) :
    (NoneUnder o cid ∧ cancelByClientIdV2 conc env s (cancelAccts s a o.owner) cid = .error .clientIdNotFound) ∨
    ∃ i sd id, FirstUnder o cid i ∧ o.slot i = some (sd, id) ∧
      ((∃ l s', l ∈ resting s sd ∧ l.key = id ∧ l.owner = a ∧ l.clientId = cid ∧
          cancelByClientIdV2 conc env s (cancelAccts s a o.owner) cid = .ok s' ∧ Withdrawn s s' a [(sd, l)]) ∨
        ((∀ l ∈ resting s sd, l.key ≠ id) ∧
          cancelByClientIdV2 conc env s (cancelAccts s a o.owner) cid = .error .orderNotFound)) := by
  by_cases hn : NoneUnder o cid
  · refine .inl ⟨hn, ?_⟩
    rw [client_cancel_eq h.flags hb ho hc h0, find_none hn]
    rfl
  · have hex : ∃ i, o.slot i ≠ none ∧ recordedId o i = some cid := by
      refine Classical.byContradiction fun hc => hn ?_
      intro j h1 h2
      exact hc ⟨j, h1, h2⟩
    obtain ⟨i0, hi0⟩ := hex
    obtain ⟨i, _, hi⟩ := first_under hi0.1 hi0.2
    cases hsl : o.slot i with
    | none => exact absurd hsl hi.1
    | some x =>
      obtain ⟨sd, id⟩ := x
      refine .inr ⟨i, sd, id, hi, hsl, ?_⟩
      have heq := client_cancel_eq (env := env) h.flags hb ho hc h0
      rw [find_first h0 hi hsl] at heq
      simp only [Except.bind] at heq
      by_cases hm : ∃ l ∈ resting s sd, l.key = id
      · obtain ⟨l, hl, hk⟩ := hm
        left
        obtain ⟨vs, hv, hqi, hinv⟩ := h.view hq
        have h1 := hinv.shape.leaf_slot (sd := sd) (l := l) (by cases sd <;> exact hl)
        have h2 : slotsOf s.oos a i = some (sd, l.key) := by unfold slotsOf; rw [ho, hk]; exact hsl
        obtain ⟨e1, e2⟩ := hinv.shape.uniq _ _ _ _ _ _ _ h1 h2 rfl
        subst e1
        obtain ⟨s', hs', hw⟩ := cancel_works h hq env hl ho hroom hfit
        refine ⟨l, s', hl, hk, rfl, ?_, ?_, hw⟩
        · obtain ⟨o1, k1, k2⟩ := (client_ids_agree h hq).1 sd l hl
          rw [ho] at k1
          cases k1
          rw [e2, hi.2.1] at k2
          exact (Option.some.inj k2).symm
        · rw [heq, ← hk]; exact hs'
      · right
        have hm' : ∀ l ∈ resting s sd, l.key ≠ id := fun l hl e => hm ⟨l, hl, e⟩
        refine ⟨hm', ?_⟩
        rw [heq]
        exact cancel_missing h hq env hb ho hc hm'

/-! ### Replacing an order -/

theorem cancelOrderV2_books {ob ob' : Ob lst} {oo oo' : OpenOrders} {sd : Side} {a id : Nat}
    (h : cancelOrderV2 lst ob sd a oo id = .ok (ob', oo')) : ob'.bids.cap = ob.bids.cap ∧ ob'.asks.cap = ob.asks.cap := by
  unfold cancelOrderV2 at h
  obtain ⟨⟨b, l⟩, hr, h⟩ := bind_ok h
  injection hr with hr
  injection hr with hb hl
  subst hb
  cases l with
  | none => cases h
  | some lf =>
    obtain ⟨_, _, _, n, _, rfl⟩ := cancelLeaf_inv h
    cases sd <;> exact ⟨rfl, rfl⟩

theorem cancelMany_books {a : Nat} {L : List (Nat × Side)} : ∀ {ob ob' : Ob lst} {oo oo' : OpenOrders},
    cancelMany lst a ob oo L = .ok (ob', oo') → ob'.bids.cap = ob.bids.cap ∧ ob'.asks.cap = ob.asks.cap := by
  induction L with
  | nil => intro ob ob' oo oo' h; cases h; exact ⟨rfl, rfl⟩
  | cons x L ih =>
    intro ob ob' oo oo' h
    obtain ⟨id, sd⟩ := x
    unfold cancelMany at h
    split at h
    · rename_i ob1 oo1 h1
      have e1 := ih h
      have e2 := cancelOrderV2_books h1
      exact ⟨e1.1.trans e2.1, e1.2.trans e2.2⟩
    · exact ih h
    · cases h

/-- A batch cancel does not change the size of the books. -/
theorem batch_books {P : Params} {s s' : State conc} (h : Reach P s) (hq : s.seq ≤ W64) {env : Env}
    {accts : List AccMeta} {cids : List Nat} (hc : cancelByClientIds conc env s accts cids = .ok s') :
    s'.bids.cap = s.bids.cap ∧ s'.asks.cap = s.asks.cap := by
  have hg := h.good hq
  obtain ⟨t, ht, hrs⟩ := Sim.ok_right (Refines.sim_cancelByClientIds hg.rs env accts cids) hc
  have e := RS_abs hrs
  subst e
  unfold cancelByClientIds at ht
  obtain ⟨a, _, ht⟩ := bind_ok ht
  obtain ⟨oo, _, ht⟩ := bind_ok ht
  obtain ⟨⟨ob, oo'⟩, hm, ht⟩ := bind_ok ht
  have := cancelMany_books hm
  have e : absState s' = (absState s).back lst ob a.oo.key oo' := (Except.ok.inj ht).symm
  have e1 : (absState s').bids = ob.bids := by rw [e]; rfl
  have e2 : (absState s').asks = ob.asks := by rw [e]; rfl
  refine ⟨?_, ?_⟩
  · show (absState s').bids.cap = _
    rw [e1]; exact this.1
  · show (absState s').asks.cap = _
    rw [e2]; exact this.2

theorem nodes_ne {b c : Slab} (h : b.cap = c.cap) (hc : c.nodes ≠ []) : b.nodes ≠ [] := by
  intro e
  have h1 : 0 < c.nodes.length := List.length_pos_iff.2 hc
  have h2 : min b.nodes.length u32Max = min c.nodes.length u32Max := h
  rw [e] at h2
  have : 0 < u32Max := by decide
  simp only [List.length_nil] at h2
  omega

/-- Withdrawing orders leaves what the account holds unchanged. -/
theorem Withdrawn.held {P : Params} {s s' : State conc} (h : Reach P s) (hq : s.seq ≤ W64) {a : Nat}
    {ls : List (Side × Leaf)} (hw : Withdrawn s s' a ls) (o : OpenOrders) :
    baseHeld s' a (released s.mkt ls o) = baseHeld s a o ∧ quoteHeld s' a (released s.mkt ls o) = quoteHeld s a o := by
  have none : ∀ f : EventView → Nat, (∀ x, f (outEvent s.mkt x) = 0) →
      total f ((ls.map (outEvent s.mkt)).filter fun v => v.owner == a) = 0 := by
    intro f hf
    show sumBy f _ = 0
    rw [sumBy_filter, sumBy_map, sumBy_congr' (g := fun _ => 0)]
    · clear hw hf
      induction ls with
      | nil => rfl
      | cons x ls ih => simpa [sumBy] using ih
    · intro x _
      rw [hf]; simp
  have side : ∀ (sd : Side) (f : Leaf → Nat), total f ((resting s sd).filter fun l => l.owner == a) =
      total f ((resting s' sd).filter fun l => l.owner == a) +
        total (fun x : Side × Leaf => if x.1 = sd then f x.2 else 0) ls := by
    intro sd f
    have := total_without (resting_nodup h hq sd) hw.nodup (fun l hl => (hw.theirs sd l hl).1)
      (fun l => if l.owner == a then f l else 0)
    show sumBy f _ = sumBy f _ + sumBy _ ls
    rw [sumBy_filter, sumBy_filter, this, hw.books]
    congr 1
    refine sumBy_congr' fun x hx => ?_
    obtain ⟨d, l⟩ := x
    have := (hw.theirs d l hx).2
    simp [this]
  have wb : (fun x : Side × Leaf => if x.1 = Side.ask then askValue s.mkt x.2 else 0) = baseWorth s.mkt := by
    funext x; revert x; rintro ⟨d, l⟩; cases d <;> simp [baseWorth]
  have wq : (fun x : Side × Leaf => if x.1 = Side.bid then bidValue s.mkt x.2 else 0) = quoteWorth s.mkt := by
    funext x; revert x; rintro ⟨d, l⟩; cases d <;> simp [quoteWorth]
  unfold baseHeld quoteHeld
  rw [hw.events, List.filter_append, total_append, total_append,
    none baseLocked (by rintro ⟨d, l⟩; cases d <;> rfl), none quoteLocked (by rintro ⟨d, l⟩; cases d <;> rfl), hw.mkt]
  have s1 := side .ask (askValue s.mkt)
  have s2 := side .bid (bidValue s.mkt)
  rw [wb] at s1
  rw [wq] at s2
  simp only [resting] at s1 s2
  simp only [released]
  omega

/-- The resting orders a replacement meets at a fee tier once the orders under its client id are withdrawn. -/
def replaceMet (s : State conc) (ix : NewOrderIx) (oo : Nat) (tier : FeeTier) : List Touch :=
  (wantOrder s.mkt ix oo tier).takes ix.limit
    ((bestFirst s ix.side.other).filter (fun l => !named oo [ix.clientId] l)) ix.maxCoinQty (payable ix.side ix.maxPcQty)

/-- What a trader needs in order to replace the orders they have under a client id by one order. The funds of the
orders to be withdrawn count towards the new one, but their slots do not. -/
structure CanReplace (P : Params) (env : Env) (s : State conc) (accts : List AccMeta) (ix : NewOrderIx)
    (oo payer owner rent : Nat) (disc : List Nat) (o : OpenOrders) (due : Nat) : Prop where
  keys : accts.map (·.key) = [s.mkt.ownAddress, oo, s.mkt.reqQ, s.mkt.eventQ, s.mkt.bids, s.mkt.asks, payer, owner,
    s.mkt.coinVault, s.mkt.pcVault, P.splToken, rent] ++ disc
  signed : (accts[7]?).any (·.signer) = true
  enabled : s.mkt.isDisabled = false
  books : s.mkt.bids ≠ s.mkt.asks
  account : ooAt s.oos oo = some o ∧ o.closed = false ∧ o.owner = owner
  deposit : due = stillDue s (released s.mkt (namedOrders s oo [ix.clientId]) o) ix
  discount : disc = [] ∨ ∃ d t, disc = [d] ∧ s.toks d = some t ∧ t.frozen = false ∧ t.owner = owner
  deadline : ix.maxTs = i64Max ∨ env.now ≤ ix.maxTs
  slot : ∃ j < 128, o.slot j = none
  wallet : ∃ t, s.toks payer = some t ∧ t.frozen = false ∧ t.mint = payMint s.mkt ix.side ∧ t.owner = owner ∧
    t.delegate ≠ some owner ∧ due ≤ t.amount
  thawed : ∀ v ∈ [s.mkt.coinVault, s.mkt.pcVault], ∀ t, s.toks v = some t → t.frozen = false
  vault : ∃ t, s.toks (payVault s.mkt ix.side) = some t ∧ t.mint = payMint s.mkt ix.side ∧ t.amount + due < 2 ^ 64
  space : match ix.side with
    | .bid => s.bids.nodes ≠ []
    | .ask => s.asks.nodes ≠ []
  selfTrade : ix.stb = .abortTransaction → ∀ tier, ∀ t ∈ replaceMet s ix oo tier, t.maker.owner ≠ oo
  room : ∀ tier, (pending s).length + (namedOrders s oo [ix.clientId]).length + 3 * (replaceMet s ix oo tier).length + 2 ≤
    s.q.buf.length
  fits : match ix.side with
    | .bid => quoteHeld s oo o + due < 2 ^ 64 ∧ baseHeld s oo o + s.mkt.coinDeposits < 2 ^ 64
    | .ask => baseHeld s oo o + due < 2 ^ 64 ∧ quoteHeld s oo o + s.mkt.pcDeposits < 2 ^ 64 ∧
        ix.maxCoinQty * s.mkt.coinLot < 2 ^ 64

theorem mem_namedOrders {s : State conc} {a : Nat} {cids : List Nat} {sd : Side} {l : Leaf} :
    (sd, l) ∈ namedOrders s a cids ↔ l ∈ resting s sd ∧ l.owner = a ∧ l.clientId ≠ 0 ∧ l.clientId ∈ cids := by
  unfold namedOrders named
  simp only [List.mem_append, List.mem_map, List.mem_filter, Prod.mk.injEq]
  cases sd
  · constructor
    · rintro (⟨x, hx, -, rfl⟩ | ⟨x, -, e, -⟩)
      · simpa [and_assoc] using hx
      · cases e
    · intro hx
      exact .inl ⟨l, by simpa [and_assoc] using hx, rfl, rfl⟩
  · constructor
    · rintro (⟨x, -, e, -⟩ | ⟨x, hx, -, rfl⟩)
      · cases e
      · simpa [and_assoc] using hx
    · intro hx
      exact .inr ⟨l, by simpa [and_assoc] using hx, rfl, rfl⟩

theorem namedOrders_nodup {P : Params} {s : State conc} (h : Reach P s) (hq : s.seq ≤ W64) (a : Nat) (cids : List Nat) :
    (namedOrders s a cids).Nodup := by
  unfold namedOrders
  refine List.nodup_append.2 ⟨?_, ?_, ?_⟩
  · exact List.pairwise_map.2 (((resting_nodup h hq .bid).filter _).imp fun hab e => hab (Prod.mk.inj e).2)
  · exact List.pairwise_map.2 (((resting_nodup h hq .ask).filter _).imp fun hab e => hab (Prod.mk.inj e).2)
  · intro x hx y hy e
    obtain ⟨_, _, rfl⟩ := List.mem_map.1 hx
    obtain ⟨_, _, rfl⟩ := List.mem_map.1 hy
    cases e

theorem released_perm {m : Market} {ls ks : List (Side × Leaf)} (h : ls.Perm ks) (o : OpenOrders) :
    released m ls o = released m ks o := by
  unfold released
  rw [show total (baseWorth m) ls = total (baseWorth m) ks from sumBy_perm _ h,
    show total (quoteWorth m) ls = total (quoteWorth m) ks from sumBy_perm _ h]

theorem released_slot (m : Market) (ls : List (Side × Leaf)) (o : OpenOrders) (j : Nat) :
    (released m ls o).slot j = o.slot j := rfl

/-- C90. In every reachable state of an enabled market, whoever has what `CanReplace` lists can replace by client id:
the instruction, as sent, succeeds; it withdraws exactly the resting orders the account has under the id, and then
places the new order, for which the signer deposits only what the account's free funds, those just released included,
do not cover. -/
theorem replace_works {P : Params} {s : State conc} (h : Reach P s) (hq : s.seq < W64) {env : Env}
    {accts : List AccMeta} {ix : NewOrderIx} {oo payer owner rent due : Nat} {disc : List Nat} {o : OpenOrders}
    (hv : OrderValid ix) (hn : NotVault P s.mkt accts)
    (hc : CanReplace P env s accts ix oo payer owner rent disc o due) :
    ∃ s1 s' ls, processRaw conc P env s accts (Instruction.replaceOrderByClientId ix).pack = .ok s' ∧
      ls.Perm (namedOrders s oo [ix.clientId]) ∧ Withdrawn s s1 oo ls ∧
      ∃ a tier o' slot ts f evs, a.oo.key = oo ∧
        PlaceEffect P env s1 s' accts ix a tier (released s.mkt ls o) o' slot due ts f evs := by
  obtain ⟨ho, hcl, how⟩ := hc.account
  have hfit : HoldsFit s oo o := by
    have := hc.fits
    cases hs : ix.side <;> rw [hs] at this <;> simp only at this <;> unfold HoldsFit <;> omega
  have hlen : (namedOrders s oo [ix.clientId]).length = ((resting s .bid).filter (named oo [ix.clientId])).length +
      ((resting s .ask).filter (named oo [ix.clientId])).length := by
    unfold namedOrders; simp
  have hroom := hc.room .base
  obtain ⟨s1, hb⟩ := batch_works h (Nat.le_of_lt hq) env ho hcl hc.books [ix.clientId] (by omega) hfit
  -- the accounts of the cancellation
  have hk := hc.keys
  have hsg := hc.signed
  simp only [List.cons_append, List.nil_append] at hk
  obtain ⟨m0, l0, el, k0, hk⟩ := List.map_eq_cons_iff.1 hk
  obtain ⟨m1, l1, rfl, k1, hk⟩ := List.map_eq_cons_iff.1 hk
  obtain ⟨m2, l2, rfl, k2, hk⟩ := List.map_eq_cons_iff.1 hk
  obtain ⟨m3, l3, rfl, k3, hk⟩ := List.map_eq_cons_iff.1 hk
  obtain ⟨m4, l4, rfl, k4, hk⟩ := List.map_eq_cons_iff.1 hk
  obtain ⟨m5, l5, rfl, k5, hk⟩ := List.map_eq_cons_iff.1 hk
  obtain ⟨m6, l6, rfl, k6, hk⟩ := List.map_eq_cons_iff.1 hk
  obtain ⟨m7, l7, rfl, k7, hk⟩ := List.map_eq_cons_iff.1 hk
  have hca : replaceCancelAccts accts = .ok [m0, m4, m5, m1, m7, m3] := by rw [el]; rfl
  have hsub : [m0, m4, m5, m1, m7, m3] ⊆ accts := replaceCancel_subset hca
  have hs7 : m7.signer = true := by
    rw [el] at hsg
    simpa using hsg
  have hb' : cancelByClientIds conc env s [m0, m4, m5, m1, m7, m3] [ix.clientId] = .ok s1 := by
    rw [← hb]
    have e : ∀ x : AccMeta, x = ⟨x.key, x.signer⟩ := fun x => rfl
    unfold cancelByClientIds
    rw [show parseCancel [m0, m4, m5, m1, m7, m3] = .ok ⟨m0, m4, m5, m1, m7, m3⟩ from rfl]
    rw [show parseCancel (cancelAccts s oo o.owner) = .ok ⟨⟨s.mkt.ownAddress, false⟩, ⟨s.mkt.bids, false⟩,
      ⟨s.mkt.asks, false⟩, ⟨oo, false⟩, ⟨o.owner, true⟩, ⟨s.mkt.eventQ, false⟩⟩ from rfl]
    have ea : cancelArgs env s.toCore ⟨m0, m4, m5, m1, m7, m3⟩ = cancelArgs env s.toCore
        ⟨⟨s.mkt.ownAddress, false⟩, ⟨s.mkt.bids, false⟩, ⟨s.mkt.asks, false⟩, ⟨oo, false⟩, ⟨o.owner, true⟩,
          ⟨s.mkt.eventQ, false⟩⟩ := by
      unfold cancelArgs loadMarket loadBids loadAsks loadEventQ signed
      simp only [k0, k1, k3, k4, k5, k7, hs7, how]
    simp only [bind, Except.bind, ea, k1]
  have hu : ∀ c ∈ [ix.clientId], U64 c := by
    intro c hcm
    rw [List.mem_singleton.1 hcm]
    exact hv.2.2.2.1
  have hr1 : Reach P s1 := batch_reach h (hn.subset hsub) (by simp) hu hb'
  have hn1 : NotVault P s1.mkt accts := hn.keeps (cancelByClientIds_keeps hb').1
  obtain ⟨_, _, _, a2, sg2, _, _, o2, ls, e, _, g2, _, hw, g5⟩ := batch_cancels_named h (Nat.le_of_lt hq) hb'
  simp only [List.cons.injEq] at e
  obtain ⟨_, _, _, rfl, _⟩ := e
  rw [k1] at g2 hw g5
  rw [ho] at g2
  cases g2
  have hperm : ls.Perm (namedOrders s oo [ix.clientId]) := by
    refine (List.perm_ext_iff_of_nodup hw.nodup (namedOrders_nodup h (Nat.le_of_lt hq) _ _)).2 ?_
    rintro ⟨sd, x⟩
    rw [g5, mem_namedOrders]
  obtain ⟨_, w1, w2⟩ := hw.account
  rw [ho] at w1
  cases w1
  have hheld := hw.held h (Nat.le_of_lt hq) o
  have hcaps := batch_books h (Nat.le_of_lt hq) hb'
  have hcap : s1.q.buf.length = s.q.buf.length := by
    have hiv : IxValid (.cancelOrdersByClientIds ([ix.clientId] ++ List.replicate 7 0)) := by
      refine ⟨rfl, fun c hcm => ?_⟩
      rcases List.mem_append.1 hcm with hcm | hcm
      · exact hu c hcm
      · rw [(List.mem_replicate.1 hcm).2]; decide
    refine queue_capacity (env := env) (accts := [m0, m4, m5, m1, m7, m3]) h (Nat.le_of_lt hq)
      (data := (Instruction.cancelOrdersByClientIds ([ix.clientId] ++ List.replicate 7 0)).pack) ?_
    unfold processRaw
    rw [instruction_round_trip _ hiv]
    show cancelByClientIds conc env s _ _ = _
    rw [← batch_pad 7] at hb'
    exact hb'
  have hdue : stillDue s1 (released s.mkt ls o) ix = due := by
    rw [hc.deposit, released_perm hperm]
    unfold stillDue
    rw [hw.mkt]
  have hkept : ∀ sd, resting s1 sd = (resting s sd).filter (fun l => !named oo [ix.clientId] l) := by
    intro sd
    rw [hw.books]
    refine List.filter_congr fun x hx => ?_
    have : (sd, x) ∈ ls ↔ named oo [ix.clientId] x = true := by
      rw [g5]
      unfold named
      simp [hx, and_assoc]
    by_cases hm : (sd, x) ∈ ls
    · rw [this.1 hm]; simp [hm]
    · have : named oo [ix.clientId] x = false := by
        cases hb : named oo [ix.clientId] x with
        | false => rfl
        | true => exact absurd (this.2 hb) hm
      rw [this]; simp [hm]
  have hmet : ∀ tier, orderMet s1 ix oo tier = replaceMet s ix oo tier := by
    intro tier
    unfold orderMet replaceMet
    have : bestFirst s1 ix.side.other = (bestFirst s ix.side.other).filter (fun l => !named oo [ix.clientId] l) := by
      cases ix.side <;> simp only [bestFirst, Side.other, hkept, List.filter_reverse]
    rw [this, hw.mkt]
  have hcan : CanPlace P env s1 accts ix oo payer owner rent disc (released s.mkt ls o) := by
    refine ⟨?_, hc.signed, ?_, ?_, .inl ⟨w2, hcl, how⟩, ?_, hc.deadline, hc.slot, ?_, ?_, ?_, ?_, ?_, ?_, ?_⟩
    · rw [hw.mkt]; exact hc.keys
    · rw [hw.mkt]; exact hc.enabled
    · rw [hw.mkt]; exact hc.books
    · rw [hw.toks]; exact hc.discount
    · rw [hw.toks, hw.mkt, hdue]; exact hc.wallet
    · rw [hw.toks, hw.mkt]; exact hc.thawed
    · rw [hw.toks, hw.mkt, hdue]; exact hc.vault
    · have := hc.space
      cases hs : ix.side <;> rw [hs] at this <;> simp only at this ⊢
      · exact nodes_ne hcaps.1 this
      · exact nodes_ne hcaps.2 this
    · intro hst tier t ht
      rw [hmet] at ht
      exact hc.selfTrade hst tier t ht
    · intro tier
      have := hc.room tier
      rw [hmet, hw.events, List.length_append, List.length_map, hperm.length_eq, hcap]
      omega
    · rw [hheld.1, hheld.2, hw.mkt, hdue]; exact hc.fits
  obtain ⟨s', hp, a, tier, o', slot, ts, f, evs, ha, hE⟩ := place_works hr1 (by rw [hw.seq]; exact hq) hv hn1 hcan
  rw [hdue] at hE
  refine ⟨s1, s', ls, ?_, hperm, hw, a, tier, o', slot, ts, f, evs, ha, hE⟩
  unfold processRaw at hp ⊢
  rw [instruction_round_trip _ (by exact hv)] at hp
  rw [instruction_round_trip _ (by exact hv)]
  have hp' : newOrderV3 conc P env s1 accts ix = .ok s' := hp
  show replaceOrders conc P env s accts [ix] = .ok s'
  unfold replaceOrders
  rw [hca]
  simp only [bind, Except.bind]
  rw [show ([ix].map (·.clientId)).take 8 = [ix.clientId] from rfl, hb']
  unfold newOrders
  simp only [bind, Except.bind]
  rw [hp']
  rfl

/-! ### What a replacement hides -/

/-- Every order resting after an order was processed is that order, or was resting before. -/
theorem Matched.origin {s s' : State conc} {o : OrderParams} {limit : Nat} {ts : List Touch} {f : Option Posting}
    {evs : List EventView} (h : Matched s s' o limit ts f evs) {sd : Side} {x : Leaf} (hx : x ∈ resting s' sd) :
    (sd = o.side ∧ x.key = o.orderId) ∨ ∃ y ∈ resting s sd, x = { y with quantity := x.quantity } := by
  by_cases hs : sd = o.side
  · subst hs
    have hown := h.own
    cases f with
    | none =>
      rw [show resting s' o.side = resting s o.side from hown] at hx
      exact .inr ⟨x, hx, rfl⟩
    | some f =>
      obtain ⟨cap, hp⟩ := hown
      rcases hp.book with ⟨_, _, e⟩ | ⟨l, R, _, _, e, hR⟩
      · rw [e] at hx
        rcases insKey_mem hx with rfl | hm
        · exact .inl ⟨rfl, rfl⟩
        · exact .inr ⟨x, hm, rfl⟩
      · rw [e] at hx
        rcases insKey_mem hx with rfl | hm
        · exact .inl ⟨rfl, rfl⟩
        · refine .inr ⟨x, ?_, rfl⟩
          cases hos : o.side <;> rw [hos] at hR <;> simp only at hR <;> rw [hR] <;> simp [hm]
  · have hs : sd = o.side.other := by cases sd <;> cases hos : o.side <;> simp_all [Side.other]
    subst hs
    have hx' : x ∈ bestFirst s' o.side.other := by
      cases hb : o.side.other <;> rw [hb] at hx <;> simpa [bestFirst] using hx
    obtain ⟨y, hy, e, _⟩ := takeFront_mem h.opp hx'
    refine .inr ⟨y, ?_, e⟩
    cases hb : o.side.other <;> rw [hb] at hy <;> simpa [bestFirst] using hy

/-- C90. After a successful replacement under a client id, as long as the account's events are not delivered: if the
new order got a higher slot than some order that rested under the id before, the owner's next cancel by that client
id is refused with `OrderNotFound`, whether or not the new order rests. -/
theorem replace_hides {P : Params} {s s' : State conc} (h : Reach P s) (hq : s.seq < W64) {env env' : Env}
    {accts : List AccMeta} {ix : NewOrderIx} (hv : OrderValid ix) (hn : NotVault P s.mkt accts)
    (hx : process conc P env s accts (.replaceOrderByClientId ix) = .ok s')
    {a : AccMeta} (ha : accts[1]? = some a) {o' : OpenOrders} (ho' : ooAt s'.oos a.key = some o')
    {sd : Side} {l : Leaf} (hl : l ∈ resting s sd) (hown : l.owner = a.key) (hid : l.clientId = ix.clientId)
    (h0 : ix.clientId ≠ 0) {k : Nat} (hk : o'.slot k = some (ix.side, genOrderId s.seq ix.limitPrice ix.side))
    (hlt : l.ownerSlot < k) :
    cancelByClientIdV2 conc env' s' (cancelAccts s' a.key o'.owner) ix.clientId = .error .orderNotFound := by
  have hx : replaceOrders conc P env s accts [ix] = .ok s' := hx
  have hv1 : ∀ j ∈ [ix], OrderValid j := by intro j hj; rw [List.mem_singleton.1 hj]; exact hv
  have hq' := Nat.le_of_lt hq
  obtain ⟨ca, s1, h1, _, h2, hr1, hn1, h3⟩ := replace_parts h hn (by simp) hv1 hx
  obtain ⟨m, b, c, oo, signer, eq, rest, o, ls, e, g1, g2, g3, hw, g5⟩ := batch_cancels_named h hq' h2
  have hoo : oo = a := by
    unfold replaceCancelAccts at h1
    split at h1
    · rename_i e0 e4 e5 e1 e7 e3
      cases h1
      simp only [List.cons.injEq] at e
      obtain ⟨_, _, _, rfl, _⟩ := e
      rw [ha] at e1
      exact (Option.some.inj e1).symm
    · cases h1
  subst hoo
  unfold newOrders at h3
  obtain ⟨s2, h3, h4⟩ := bind_ok h3
  cases h4
  have hq1 : s1.seq < W64 := by rw [hw.seq]; exact hq
  obtain ⟨a2, tier, o2, o3, slot, d, ts, f, evs, hE⟩ := place_effect hr1 hq1 hv hn1 h3
  have ea : a2.oo = oo := by
    have hp := hE.args.parse
    unfold parseNewOrder at hp
    split at hp
    · split at hp
      · cases hp
        simpa using ha
      · cases hp
    · cases hp
  have hr' := place_reach hr1 hn1 hv h3
  have hqq : s'.seq ≤ W64 := by rw [hE.seq]; exact hq1
  have eo : o3 = o' := by
    have := hE.account
    rw [ea, ho'] at this
    exact (Option.some.inj this).symm
  subst eo
  obtain ⟨_, w1, w2⟩ := hw.account
  rw [g2] at w1
  cases w1
  have e2 : o2 = released s.mkt ls o := by
    have hld := hE.args.load
    rw [ea] at hld
    unfold loadOrders at hld
    rw [w2] at hld
    simp only at hld
    split at hld
    · cases hld
    · split at hld
      · cases hld
      · exact (Except.ok.inj hld).symm
  subst e2
  have hslots := hE.slots
  -- the new order's slot
  have hks : slot = k := by
    have hs := hslots slot
    rw [if_pos rfl] at hs
    obtain ⟨vs, hvs, hqi, hi⟩ := hr'.view hqq
    have p1 : slotsOf s'.oos oo.key slot = some (ix.side, genOrderId s1.seq ix.limitPrice ix.side) := by
      unfold slotsOf; rw [ho']; exact hs
    have p2 : slotsOf s'.oos oo.key k = some (ix.side, genOrderId s1.seq ix.limitPrice ix.side) := by
      unfold slotsOf; rw [ho', hw.seq]; exact hk
    exact (hi.shape.uniq _ _ _ _ _ _ _ p1 p2 rfl).2
  subst hks
  have hne : s'.mkt.bids ≠ s'.mkt.asks := by
    have := (newOrderV3_keeps h3).1.eq
    have hb := hE.args.books
    rw [this]
    exact hb
  have hcl : o3.closed = false := by
    cases hc : o3.closed with
    | false => rfl
    | true =>
      refine absurd ?_ ((close_is_safe hr' hqq).2 oo.key o3 ho' (.inl hc) |>.2.2.2 (outEvent s.mkt (sd, l)) ?_)
      · cases sd <;> exact hown
      · rw [hE.matched.queue, hw.events]
        have : (sd, l) ∈ ls := (g5 _ _).2 ⟨hl, hown, by rw [hid]; exact h0, by simp [hid]⟩
        simp only [List.mem_append, List.mem_map]
        exact .inl (.inr ⟨_, this, rfl⟩)
  -- the stale slot
  have hslot : o3.slot l.ownerSlot = some (sd, l.key) := by
    obtain ⟨vs, hvs, hqi, hi⟩ := h.view hq'
    have := hi.shape.leaf_slot (sd := sd) (l := l) (by cases sd <;> exact hl)
    unfold slotsOf at this
    rw [hown, g2] at this
    rw [hslots, if_neg (by omega)]
    exact this
  have hrec : recordedId o3 l.ownerSlot = some ix.clientId := by
    obtain ⟨o1, k1, k2⟩ := (client_ids_agree h hq').1 sd l hl
    rw [hown, g2] at k1
    cases k1
    unfold recordedId at k2 ⊢
    rw [hE.cids, List.getElem?_set_ne (by omega), ← hid]
    exact k2
  obtain ⟨i, hile, hfu⟩ := first_under (by rw [hslot]; simp) hrec
  cases hsl : o3.slot i with
  | none => exact absurd hsl hfu.1
  | some y =>
    obtain ⟨sd2, id2⟩ := y
    rw [client_cancel_eq hr'.flags hne ho' hcl h0, find_first h0 hfu hsl]
    refine cancel_missing hr' hqq env' hne ho' hcl fun x hx2 hkey => ?_
    obtain ⟨vs, hvs, hqi, hi⟩ := hr'.view hqq
    have p1 : slotsOf s'.oos oo.key i = some (sd2, id2) := by unfold slotsOf; rw [ho']; exact hsl
    have p2 := hi.shape.leaf_slot (sd := sd2) (l := x) (by cases sd2 <;> exact hx2)
    have hkey : x.key = id2 := hkey
    rw [hkey] at p2
    obtain ⟨u1, u2⟩ := hi.shape.uniq _ _ _ _ _ _ _ p2 p1 rfl
    rcases hE.matched.origin hx2 with ⟨q1, q2⟩ | ⟨y, hy, e⟩
    · have q1 : sd2 = ix.side := q1
      have p3 : slotsOf s'.oos oo.key slot = some (sd2, id2) := by
        unfold slotsOf; rw [ho', ← hkey, q2, q1]
        show o3.slot slot = _
        rw [hslots, if_pos rfl]
        rfl
      have := (hi.shape.uniq _ _ _ _ _ _ _ p1 p3 rfl).2
      omega
    · obtain ⟨o1, k1, k2⟩ := (client_ids_agree hr' hqq).1 sd2 x hx2
      rw [u1, ho'] at k1
      cases k1
      rw [u2, hfu.2.1] at k2
      have hxc : x.clientId = ix.clientId := (Option.some.inj k2).symm
      have e1 : y.owner = x.owner := by rw [e]
      have e3 : y.clientId = x.clientId := by rw [e]
      rw [hw.books, mem_without] at hy
      exact hy.2 ((g5 _ _).2 ⟨hy.1, e1.trans u1, by rw [e3, hxc]; exact h0, by rw [e3, hxc]; simp⟩)

/-! ### An example -/

namespace Demo
open Serum.Demo (p6 orderAccts)

/-- Trader 12's account 42 has the bids of ids 8 and 9 in slots 0 and 1 and the ask of id 10 in slot 2. It replaces
the bid of id 9, worth 16000, by a bid at 850. -/
def replIx : NewOrderIx := { Serum.Demo.order .bid 850 1 50000 9 with limit := 2 }
def p7r : State conc := Serum.Demo.run p6 (orderAccts 42 32 12) (.replaceOrderByClientId replIx)
theorem f7r : process conc Serum.Demo.P Serum.Demo.env p6 (orderAccts 42 32 12) (.replaceOrderByClientId replIx) = .ok p7r :=
  Serum.Demo.run_eq (by decide +kernel)
/-- The account before. -/
def o6 : OpenOrders := (ooAt p6.oos 42).getD (OpenOrders.init 0)

/-- 10000 are due: 50000 less the 24000 that were free and the 16000 released. -/
theorem can7r : CanReplace Serum.Demo.P Serum.Demo.env p6 (orderAccts 42 32 12) replIx 42 32 12 0 [] o6 10000 where
  keys := by decide +kernel
  signed := rfl
  enabled := by decide +kernel
  books := by decide +kernel
  account := by decide +kernel
  deposit := by decide +kernel
  discount := .inl rfl
  deadline := .inl rfl
  slot := ⟨3, by decide, by decide +kernel⟩
  wallet := ⟨Serum.Demo.tok 81 12 9933000, by decide +kernel⟩
  thawed := by
    intro v hv t ht
    simp only [List.mem_cons, List.not_mem_nil, or_false] at hv
    rcases hv with rfl | rfl
    · have e : p6.toks p6.mkt.coinVault = some (Serum.Demo.tok 80 60 900) := by decide +kernel
      rw [e] at ht; cases ht; rfl
    · have e : p6.toks p6.mkt.pcVault = some (Serum.Demo.tok 81 60 67000) := by decide +kernel
      rw [e] at ht; cases ht; rfl
  vault := ⟨Serum.Demo.tok 81 60 67000, by decide +kernel⟩
  space := (by decide +kernel : p6.bids.nodes ≠ [])
  selfTrade := by intro h; cases h
  room := fun tier => by cases tier <;> decide +kernel
  fits := (by decide +kernel : quoteHeld p6 42 o6 + 10000 < 2 ^ 64 ∧ baseHeld p6 42 o6 + p6.mkt.coinDeposits < 2 ^ 64)

example : OrderValid replIx ∧ Reach Serum.Demo.P p6 ∧ NotVault Serum.Demo.P p6.mkt (orderAccts 42 32 12) := by
  refine ⟨by unfold OrderValid; decide +kernel, Serum.Demo.k6, ?_⟩
  unfold NotVault; decide +kernel

-- the new bid rests under id 9 in slot 3, the withdrawn one still occupies slot 1
example : (resting p6 .bid).map (fun l => (l.owner, l.price, l.clientId, l.ownerSlot)) = [(42, 800, 9, 1), (42, 900, 8, 0)] ∧
    (resting p7r .bid).map (fun l => (l.owner, l.price, l.clientId, l.ownerSlot)) = [(42, 850, 9, 3), (42, 900, 8, 0)] ∧
    (ooAt p7r.oos 42).map (fun o => o.slot 3) =
      some (some (.bid, genOrderId p6.seq replIx.limitPrice replIx.side)) ∧
    (ooAt p7r.oos 42).map (fun o => (o.slot 1).isSome && recordedId o 1 == some 9) = some true := by decide +kernel

-- the cancel by the id is refused, the batch cancel of the same id reaches the new bid
example : (match cancelByClientIdV2 conc Serum.Demo.env p7r (Serum.Demo.cancelAccts 42 12) 9 with
      | .error .orderNotFound => true
      | _ => false) = true ∧
    (cancelByClientIds conc Serum.Demo.env p7r (Serum.Demo.cancelAccts 42 12) [9]).toOption.map
      (fun s => (resting s .bid).map (fun l => (l.owner, l.clientId))) = some [(42, 8)] := by decide +kernel

-- in `p6` the three outcomes of a cancel by client id: id 8 is withdrawn, id 77 is unknown
example : FirstUnder o6 8 0 ∧ o6.slot 0 ≠ none ∧ (pending p6).length < p6.q.buf.length ∧ HoldsFit p6 42 o6 ∧
    o6.closed = false := by
  refine ⟨⟨by decide +kernel, by decide +kernel, fun j hj => by omega⟩, by decide +kernel, by decide +kernel, ?_, by decide +kernel⟩
  unfold HoldsFit; decide +kernel

end Demo

end Serum.Props
