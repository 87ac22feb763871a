import Verif.PropsMembers
import Verif.PropsTags
import Verif.PropsWind

/-!
C87: whoever is entitled to an instruction can carry it out. Together with C28, C37 and C39, which say what a
success requires, this gives exact conditions: disabling, opening and closing succeed if and only if those
conditions hold, and pruning succeeds whenever the event queue has room for the account's orders.
-/

namespace Serum.Props

/-! ### Disabling -/

theorem enabled_load {s : State conc} {m : AccMeta} (hf : goodFlags s.mkt.flags = true) :
    loadMarket s.toCore m false = .ok () ↔ m.key = s.mkt.ownAddress ∧ ¬ Disabled s.mkt := by
  constructor
  · intro h
    refine ⟨?_, fun hb => no_load hb h⟩
    unfold loadMarket at h
    obtain ⟨_, h1, _⟩ := bind_ok h
    simpa using checkAssert_ok.1 h1
  · rintro ⟨h1, h2⟩
    unfold loadMarket
    rw [show checkAssert (m.key == s.toCore.mkt.ownAddress) = .ok () from checkAssert_ok.2 (by simpa using h1)]
    refine goodFlags_enabled hf ?_
    unfold Market.isDisabled
    rw [show (128 : Nat) = 2 ^ 7 from rfl, hasFlag_bit]
    simpa [Disabled] using h2

theorem any_load {s : State conc} {m : AccMeta} (hf : goodFlags s.mkt.flags = true) :
    loadMarket s.toCore m true = .ok () ↔ m.key = s.mkt.ownAddress := by
  constructor
  · intro h
    unfold loadMarket at h
    obtain ⟨_, h1, _⟩ := bind_ok h
    simpa using checkAssert_ok.1 h1
  · intro h1
    unfold loadMarket
    rw [show checkAssert (m.key == s.toCore.mkt.ownAddress) = .ok () from checkAssert_ok.2 (by simpa using h1)]
    exact goodFlags_load hf

theorem loadOrders_open {c : Core} {env : Env} {a w : Nat} {o : OpenOrders} {rent : Bool} {auth : Option Nat}
    (ho : ooAt c.oos a = some o) (hc : o.closed = false) (hw : o.owner = w) :
    loadOrders c env a (some w) rent auth = .ok o := by
  unfold loadOrders
  rw [ho]
  simp [hc, hw]

/-- C87. Disabling succeeds exactly when the market is enabled and the disable authority signs, and then it sets
the disabled bit and changes nothing else. -/
theorem disable_iff {P : Params} {s s' : State conc} (h : Reach P s) (accts : List AccMeta) :
    disableMarket conc P s accts = .ok s' ↔
      ∃ m auth, accts = [m, auth] ∧ m.key = s.mkt.ownAddress ∧ ¬ Disabled s.mkt ∧ auth.signer = true ∧
        auth.key = P.disableAuth ∧ s' = { s with mkt := { s.mkt with flags := s.mkt.flags ||| 128 } } := by
  constructor
  · intro hd
    obtain ⟨m, auth, h1, h2, h3, h4, h5⟩ := disable_inv hd
    obtain ⟨k1, k2⟩ := (enabled_load h.flags).1 h4
    exact ⟨m, auth, h1, k1, k2, h2, h3, h5⟩
  · rintro ⟨m, auth, rfl, h1, h2, h3, h4, rfl⟩
    unfold disableMarket
    simp only [(enabled_load h.flags).2 ⟨h1, h2⟩, checkAssert, h3, h4, beq_self_eq_true, if_true, bind, Except.bind]
    rfl

/-! ### Closing -/

/-- C87. Closing succeeds, also on a disabled market, exactly when the account is open, its owner signs, it has no
open orders and it holds no funds. -/
theorem close_iff {P : Params} {s s' : State conc} (h : Reach P s) (hq : s.seq ≤ W64) (env : Env)
    (accts : List AccMeta) :
    closeOpenOrders conc env s accts = .ok s' ↔
      ∃ oo owner dest m o, accts = [oo, owner, dest, m] ∧ m.key = s.mkt.ownAddress ∧ owner.signer = true ∧
        ooAt s.oos oo.key = some o ∧ o.closed = false ∧ o.owner = owner.key ∧
        (∀ i, slots o i = none) ∧ o.coinTotal = 0 ∧ o.pcTotal = 0 ∧
        s' = { s with oos := setOo s.oos oo.key { o with closed := true } } := by
  constructor
  · intro hc
    obtain ⟨oo, owner, dest, m, o, rfl, h1, h2, h3, h4, h5, h6, h7, h8⟩ := (close_is_safe h hq).1 env accts s' hc
    refine ⟨oo, owner, dest, m, o, rfl, ?_, h1, h2, h3, h4, h5, h6, h7, h8⟩
    unfold closeOpenOrders at hc
    obtain ⟨_, _, hc⟩ := bind_ok hc
    obtain ⟨_, hm, hc⟩ := bind_ok hc
    exact (any_load h.flags).1 hm
  · rintro ⟨oo, owner, dest, m, o, rfl, h0, h1, h2, h3, h4, h5, h6, h7, rfl⟩
    have := close_works h env dest.key h2 h3 h5 h6 h7
    have hk : checkClosable o = .ok () := by
      unfold closeAccts closeOpenOrders at this
      obtain ⟨_, _, this⟩ := bind_ok this
      obtain ⟨_, _, this⟩ := bind_ok this
      obtain ⟨o', hl, this⟩ := bind_ok this
      obtain ⟨_, hk, _⟩ := bind_ok this
      rw [loadOrders_open h2 h3 rfl] at hl
      cases hl
      exact hk
    unfold closeOpenOrders
    simp only [(any_load h.flags).2 h0, show signed owner = .ok () from checkAssert_ok.2 h1, bind, Except.bind,
      loadOrders_open (c := s.toCore) h2 h3 h4, hk]
    rfl

/-! ### Opening -/

/-- The signatures of a request to open an account: none on an ordinary market, the open-orders authority's on a
permissioned one. -/
def Vouched (m : Market) (rest : List AccMeta) : Prop :=
  if m.flags.testBit 9 then ∃ a, rest = [a] ∧ a.signer = true ∧ a.key = m.ooAuthority else rest = []

theorem ooAuth_eq (m : Market) : m.ooAuth = if m.flags.testBit 9 then some m.ooAuthority else none := by
  unfold Market.ooAuth Market.permissioned
  rw [show (512 : Nat) = 2 ^ 9 from rfl, hasFlag_bit]

/-- C87. A request to open an account succeeds exactly when its owner signs, the market is enabled, at most one
further account is given and that one signs, and either the account is open already and the owner's (nothing
changes), or its memory is zeroed and rent exempt and the request is vouched for: then it is now the owner's
account, with no orders and no funds. -/
theorem open_iff {P : Params} {s s' : State conc} (h : Reach P s) (env : Env) (accts : List AccMeta) :
    initOpenOrders conc env s accts = .ok s' ↔
      ∃ oo owner m rent rest, accts = oo :: owner :: m :: rent :: rest ∧ rest.length ≤ 1 ∧
        (∀ a ∈ rest, a.signer = true) ∧ owner.signer = true ∧ m.key = s.mkt.ownAddress ∧ ¬ Disabled s.mkt ∧
        ((∃ o, ooAt s.oos oo.key = some o ∧ o.closed = false ∧ o.owner = owner.key ∧ s' = s) ∨
          (ooAt s.oos oo.key = none ∧ oo.key ≠ 0 ∧ env.acct oo.key = .zeroed true ∧ Vouched s.mkt rest ∧
            s' = { s with oos := setOo s.oos oo.key (OpenOrders.init owner.key) })) := by
  constructor
  · intro hx
    unfold initOpenOrders at hx
    split at hx
    · rename_i oo owner m rent rest
      split at hx
      · rename_i hlen
        obtain ⟨au, h1, hx⟩ := bind_ok hx
        obtain ⟨_, h2, hx⟩ := bind_ok hx
        obtain ⟨_, h3, hx⟩ := bind_ok hx
        obtain ⟨o, h4, hx⟩ := bind_ok hx
        cases hx
        obtain ⟨k1, k2⟩ := (enabled_load h.flags).1 h3
        have hrest : (rest = [] ∧ au = none) ∨ ∃ a, rest = [a] ∧ a.signer = true ∧ au = some a.key := by
          match rest, hlen, h1 with
          | [], _, h1 => cases h1; exact .inl ⟨rfl, rfl⟩
          | [a], _, h1 =>
            unfold optSigner at h1
            obtain ⟨_, h5, h1⟩ := bind_ok h1
            cases h1
            exact .inr ⟨a, rfl, checkAssert_ok.1 h5, rfl⟩
        refine ⟨oo, owner, m, rent, rest, rfl, hlen, ?_, checkAssert_ok.1 h2, k1, k2, ?_⟩
        · rcases hrest with ⟨rfl, _⟩ | ⟨a, rfl, g, _⟩
          · simp
          · simpa using g
        · rcases loadOrders_inv h4 with ⟨g1, g2, g3⟩ | ⟨g1, g0, _, g4, g5, w, g6, g7⟩
          · left
            simp only [reduceCtorEq, Option.some.injEq, false_or] at g3
            exact ⟨o, g1, g2, g3.symm, by rw [setOo_same g1]⟩
          · right
            cases g6
            refine ⟨g1, g0, g5, ?_, by rw [g7]⟩
            rw [show s.toCore.mkt = s.mkt from rfl, ooAuth_eq] at g4
            unfold Vouched
            split
            · rename_i hb
              rw [if_pos hb] at g4
              rcases hrest with ⟨_, rfl⟩ | ⟨a, rfl, g, rfl⟩
              · cases g4
              · injection g4 with g4
                exact ⟨a, rfl, g, g4⟩
            · rename_i hb
              rw [if_neg hb] at g4
              rcases hrest with ⟨rfl, _⟩ | ⟨a, _, _, rfl⟩
              · rfl
              · cases g4
      · cases hx
    · cases hx
  · rintro ⟨oo, owner, m, rent, rest, rfl, h1, h2, h3, h4, h5, h6⟩
    have hau : optSigner rest = .ok (rest.head?.map (·.key)) := by
      match rest, h2 with
      | [], _ => rfl
      | a :: _, h2 =>
        unfold optSigner
        simp only [show signed a = .ok () from checkAssert_ok.2 (h2 a (by simp)), bind, Except.bind]
        rfl
    unfold initOpenOrders
    simp only [if_pos h1, hau, show signed owner = .ok () from checkAssert_ok.2 h3,
      (enabled_load h.flags).2 ⟨h4, h5⟩, bind, Except.bind]
    rcases h6 with ⟨o, g1, g2, g3, rfl⟩ | ⟨g1, g2, g3, g4, rfl⟩
    · rw [loadOrders_open g1 g2 g3]
      simp only [pure, Except.pure, setOo_same g1]
    · have : loadOrders s.toCore env oo.key (some owner.key) true (rest.head?.map (·.key)) =
          .ok (OpenOrders.init owner.key) := by
        unfold loadOrders
        rw [show ooAt s.toCore.oos oo.key = none from g1]
        simp only [if_neg g2, g3]
        unfold initOrders
        have e : rest.head?.map (·.key) = s.mkt.ooAuth := by
          rw [ooAuth_eq]
          unfold Vouched at g4
          split at g4
          · rename_i hb
            obtain ⟨a, rfl, _, ha⟩ := g4
            simp [hb, ha]
          · rename_i hb
            subst g4
            simp [hb]
        rw [if_neg (by simpa using e)]
        rfl
      rw [this]
      rfl

/-! ### Pruning -/

/-- Withdrawing an order leaves what the account holds unchanged. -/
theorem Withdrew.held {m a B A evs oo B' A' evs' oo'} {sd : Side} {l : Leaf} (hb : BookOk m B A)
    (w : Withdrew m a B A evs oo B' A' evs' oo' [(sd, l)]) :
    oo'.coinFree + bookLock .ask m (only a) A' + evSum (EventView.lock .ask) (only a) evs' =
        oo.coinFree + bookLock .ask m (only a) A + evSum (EventView.lock .ask) (only a) evs ∧
      oo'.pcFree + bookLock .bid m (only a) B' + evSum (EventView.lock .bid) (only a) evs' =
        oo.pcFree + bookLock .bid m (only a) B + evSum (EventView.lock .bid) (only a) evs := by
  obtain ⟨hl, hown⟩ := w.theirs sd l (by simp)
  have hp := dropKey_perm (side_sorted hb sd) hl
  have hbook := dropKey_without (side_sorted hb sd) hl sd
  rw [w.events, w.account, evSum_append, evSum_append, w.bids, w.asks]
  cases sd with
  | ask =>
    have e1 := bookLock_perm (sd := .ask) (m := m) (P := only a) hp
    rw [bookLock_cons, hbook] at e1
    have e2 : leafLock .ask m (only a) l = askValue m l := by simp [leafLock, only, hown, lockedValue, askValue]
    have e3 : ∀ sd, evSum (EventView.lock sd) (only a) ([((Side.ask : Side), l)].map (outEvent m)) = 0 := by
      intro sd; cases sd <;> simp [outEvent, evSum, EventView.lock]
    have e4 : total (baseWorth m) [((Side.ask : Side), l)] = askValue m l := by simp [total, baseWorth]
    have e5 : total (quoteWorth m) [((Side.ask : Side), l)] = 0 := by simp [total, quoteWorth]
    rw [e3, e3, without_other (sd' := .ask) (sd := .bid) (by simp)]
    simp only [released, e4, e5, sideOf] at e1 ⊢
    omega
  | bid =>
    have e1 := bookLock_perm (sd := .bid) (m := m) (P := only a) hp
    rw [bookLock_cons, hbook] at e1
    have e2 : leafLock .bid m (only a) l = bidValue m l := by simp [leafLock, only, hown, lockedValue, bidValue]
    have e3 : ∀ sd, evSum (EventView.lock sd) (only a) ([((Side.bid : Side), l)].map (outEvent m)) = 0 := by
      intro sd; cases sd <;> simp [outEvent, evSum, EventView.lock]
    have e4 : total (baseWorth m) [((Side.bid : Side), l)] = 0 := by simp [total, baseWorth]
    have e5 : total (quoteWorth m) [((Side.bid : Side), l)] = bidValue m l := by simp [total, quoteWorth]
    rw [e3, e3, without_other (sd' := .bid) (sd := .ask) (by simp)]
    simp only [released, e4, e5, sideOf] at e1 ⊢
    omega

theorem cancelLeaves_ok {vs : Nat} {c : Core} {a : Nat} {sd : Side} {ls : List Leaf} :
    ∀ {ob : Ob lst} {oo : OpenOrders} {B A : List Leaf} {evs : List EventView},
      ob.mkt = c.mkt → ob.q.items = evs.map Event.new →
      Inv vs c.mkt c.seq (setOo c.oos a oo) c.toks B A evs →
      (∀ l ∈ ls, l ∈ sideOf sd B A ∧ l.owner = a) → (ls.map (·.key)).Nodup →
      ob.q.items.length + ls.length ≤ ob.q.cap →
      oo.coinFree + bookLock .ask c.mkt (only a) A + evSum (EventView.lock .ask) (only a) evs < W64 →
      oo.pcFree + bookLock .bid c.mkt (only a) B + evSum (EventView.lock .bid) (only a) evs < W64 →
      ∃ ob' oo' B' A' evs', cancelLeaves lst sd a ob oo ls = .ok (ob', oo') ∧
        ob'.mkt = c.mkt ∧ ob'.q.items = evs'.map Event.new ∧ ob'.q.cap = ob.q.cap ∧
        ob'.q.items.length = ob.q.items.length + ls.length ∧
        Inv vs c.mkt c.seq (setOo c.oos a oo') c.toks B' A' evs' ∧
        (∀ sd', sd' ≠ sd → sideOf sd' B' A' = sideOf sd' B A) ∧
        oo'.coinFree + bookLock .ask c.mkt (only a) A' + evSum (EventView.lock .ask) (only a) evs' < W64 ∧
        oo'.pcFree + bookLock .bid c.mkt (only a) B' + evSum (EventView.lock .bid) (only a) evs' < W64 := by
  induction ls with
  | nil =>
    intro ob oo B A evs hm hq hi _ _ _ f1 f2
    exact ⟨ob, oo, B, A, evs, rfl, hm, hq, rfl, rfl, hi, fun _ _ => rfl, f1, f2⟩
  | cons lf ls ih =>
    intro ob oo B A evs hm hq hi hmem hnd hroom f1 f2
    obtain ⟨hl, hown⟩ := hmem lf (by simp)
    have hat := ooAt_setOo_same c.oos a oo
    obtain ⟨n, o1, hu⟩ := unlockLeaf_ok hi hat hl hown f1 f2
    obtain ⟨_, s1, s2⟩ := slot_parts (hi.leaf_id hat hl hown)
    have hw := Withdrew.one hi hat hl hown hu
    have hc := hi.cancel hat hl hown (cid := lf.clientId) hu
    rw [setOo_setOo] at hc
    simp only [List.map_cons, List.nodup_cons, List.length_cons] at hnd hroom
    obtain ⟨g1, g2⟩ := hw.held hi.shape.book
    have hstep : cancelLeaf lst ob lf sd oo a lf.key =
        .ok (ob.push [.out sd false n 0 lf.key a lf.ownerSlot lf.clientId], o1) := by
      unfold cancelLeaf
      rw [if_neg (by simpa using hown)]
      simp only [s1, s2, unwrap, checkAssert, beq_self_eq_true, if_true, bind, Except.bind, hm, hu]
      unfold pushEv
      rw [show lst.push ob.q _ = some ⟨ob.q.items ++ [Event.new (.out sd false n 0 lf.key a lf.ownerSlot lf.clientId)],
        ob.q.cap⟩ from if_pos (by omega)]
      rfl
    have hmem2 : ∀ l ∈ ls, l ∈ sideOf sd (dropBids sd lf.key B) (dropAsks sd lf.key A) ∧ l.owner = a := by
      intro x hx
      obtain ⟨hx1, hx2⟩ := hmem x (by simp [hx])
      have hne : x.key ≠ lf.key := fun e => hnd.1 (by rw [← e]; exact List.mem_map_of_mem (f := (·.key)) hx)
      refine ⟨?_, hx2⟩
      cases sd
      · exact List.mem_filter.2 ⟨hx1, by simpa using hne⟩
      · exact List.mem_filter.2 ⟨hx1, by simpa using hne⟩
    obtain ⟨ob', oo', B', A', evs', k1, k2, k3, k4, k5, k6, k7, k8, k9⟩ := ih
      (ob := ob.push [.out sd false n 0 lf.key a lf.ownerSlot lf.clientId]) (oo := o1)
      (evs := evs ++ [.out sd false n 0 lf.key a lf.ownerSlot lf.clientId])
      hm (by simp [Ob.push, hq]) hc hmem2 hnd.2
      (by simp only [Ob.push, List.length_append, List.length_map, List.length_cons, List.length_nil]; omega)
      (by rw [g1]; exact f1) (by rw [g2]; exact f2)
    refine ⟨ob', oo', B', A', evs', ?_, k2, k3, k4, ?_, k6, ?_, k8, k9⟩
    · unfold cancelLeaves
      simp only [s2, unwrap, bind, Except.bind, hstep]
      exact k1
    · rw [k5]
      simp only [Ob.push, List.length_append, List.length_map, List.length_cons, List.length_nil]
      omega
    · intro sd' hne
      rw [k7 sd' hne]
      cases sd <;> cases sd' <;> first | rfl | exact absurd rfl hne

theorem removeKeys_go {ks : List Nat} : ∀ (b : LBook), ∃ r, removeKeys lst b ks = .ok r := by
  induction ks with
  | nil => intro b; exact ⟨_, rfl⟩
  | cons k ks ih =>
    intro b
    obtain ⟨r, hr⟩ := ih ⟨b.items.filter (fun x => x.key != k), b.cap⟩
    unfold removeKeys
    simp only [bind, Except.bind]
    rw [hr]
    exact ⟨_, rfl⟩

/-- Accounts of a prune. -/
def pruneAccts (s : State conc) (a owner : Nat) : List AccMeta :=
  [⟨s.mkt.ownAddress, false⟩, ⟨s.mkt.bids, false⟩, ⟨s.mkt.asks, false⟩, ⟨s.mkt.pruneAuthority, true⟩, ⟨a, false⟩,
    ⟨owner, false⟩, ⟨s.mkt.eventQ, false⟩]

/-- C87. The prune authority of an enabled permissioned market can always prune an open account, if the event queue
has room for the account's resting orders and what the account holds fits in 64 bits. -/
theorem prune_works {P : Params} {s : State conc} (h : Reach P s) (hq : s.seq ≤ W64) (env : Env) {a : Nat}
    {o : OpenOrders} (ho : ooAt s.oos a = some o) (hcl : o.closed = false) (hen : ¬ Disabled s.mkt)
    (hp : s.mkt.flags.testBit 9 = true) (hne : s.mkt.bids ≠ s.mkt.asks) (limit : Nat)
    (hroom : (pending s).length + (ordersOf s .bid a).length + (ordersOf s .ask a).length ≤ s.q.buf.length)
    (hfit : HoldsFit s a o) :
    ∃ s', prune conc env s (pruneAccts s a o.owner) limit = .ok s' := by
  obtain ⟨vs, hv, hqi, hi⟩ := h.view hq
  have hg := h.good hq
  have hL := absState_q hg hqi
  have hst : setOo s.oos a o = s.oos := setOo_same ho
  have hfit' := hfit
  unfold HoldsFit baseHeld quoteHeld at hfit'
  suffices hlst : ∃ t, prune lst env (absState s) (pruneAccts s a o.owner) limit = .ok t by
    obtain ⟨t, ht⟩ := hlst
    obtain ⟨s', h3, _⟩ := Sim.ok_left (Refines.sim_prune hg.rs env _ limit) ht
    exact ⟨s', h3⟩
  obtain ⟨⟨b', bl⟩, hb⟩ := removeKeys_go (ks := (lst.findBy ((absState s).ob lst s.mkt).bids
    (lst.findBy ((absState s).ob lst s.mkt).asks limit (fun l => l.owner == a)).2 (fun l => l.owner == a)).1)
    ((absState s).ob lst s.mkt).bids
  obtain ⟨⟨a', al⟩, ha⟩ := removeKeys_go (ks :=
    (lst.findBy ((absState s).ob lst s.mkt).asks limit (fun l => l.owner == a)).1) ((absState s).ob lst s.mkt).asks
  obtain ⟨r1, r2, r3⟩ := removeKeys_lst hb
  obtain ⟨q1, q2, q3⟩ := removeKeys_lst ha
  have hrem : removeAll lst ((absState s).ob lst s.mkt) a limit =
      .ok ({ (absState s).ob lst s.mkt with bids := b', asks := a' }, bl, al) := by
    unfold removeAll
    simp only [bind, Except.bind, hb, ha]
    rfl
  have own : ∀ (sd : Side) (ks : List Nat) (l : Leaf), l ∈ resting s sd → l.key ∈ ks →
      (∀ k ∈ ks, ∃ x ∈ resting s sd, x.key = k ∧ (x.owner == a) = true) → l.owner = a := by
    intro sd ks l hl hk hks
    obtain ⟨x, hx, e1, e2⟩ := hks _ hk
    have hs : (resting s sd).Pairwise (fun a b => a.key < b.key) := by
      have := side_sorted hi.shape.book sd
      cases sd <;> exact this
    rw [← key_unique hs hx hl e1]
    simpa using e2
  have hbl : ∀ l ∈ bl, l ∈ s.bids.contents ∧ l.owner = a := fun l hl =>
    ⟨(r2 l hl).1, own .bid _ l (r2 l hl).1 (r2 l hl).2 fun k hk => findBy_mem hk⟩
  have hal : ∀ l ∈ al, l ∈ s.asks.contents ∧ l.owner = a := fun l hl =>
    ⟨(q2 l hl).1, own .ask _ l (q2 l hl).1 (q2 l hl).2 fun k hk => findBy_mem hk⟩
  have nd : ∀ {ls : List Leaf}, (ls.map (·.key)).Nodup → ls.Nodup := fun hn => by
    have := List.pairwise_map.1 hn
    exact this.imp (fun hne e => hne (by rw [e]))
  have c1 : bl.length ≤ (ordersOf s .bid a).length := nodup_length (nd r3) fun l hl =>
    List.mem_filter.2 ⟨(hbl l hl).1, by simpa using (hbl l hl).2⟩
  have c2 : al.length ≤ (ordersOf s .ask a).length := nodup_length (nd q3) fun l hl =>
    List.mem_filter.2 ⟨(hal l hl).1, by simpa using (hal l hl).2⟩
  have hlen : (absState s).q.items.length = (pending s).length := by rw [hL, List.length_map]
  obtain ⟨ob1, o1, B1, A1, evs1, k1, k2, k3, k4, k5, k6, k7, k8, k9⟩ := cancelLeaves_ok (c := s.toCore) (vs := vs)
    (a := a) (sd := .bid) (ls := bl) (ob := { (absState s).ob lst s.mkt with bids := b', asks := a' }) (oo := o)
    (B := s.bids.contents) (A := s.asks.contents) (evs := pending s) rfl hL
    (by rw [show setOo s.toCore.oos a o = s.oos from hst]; exact hi) hbl r3
    (by
      show (absState s).q.items.length + _ ≤ s.q.buf.length
      omega)
    (by rw [askLock_only, evSum_only _ _ lock_ask]; exact hfit'.1)
    (by rw [bidLock_only, evSum_only _ _ lock_bid]; exact hfit'.2)
  have k7' : A1 = s.asks.contents := k7 .ask (by decide)
  have k5' : ob1.q.items.length = (absState s).q.items.length + bl.length := k5
  have k4' : ob1.q.cap = s.q.buf.length := k4
  obtain ⟨ob2, o2, B2, A2, evs2, m1, m2, m3, m4, m5, m6, m7, m8, m9⟩ := cancelLeaves_ok (c := s.toCore) (vs := vs)
    (a := a) (sd := .ask) (ls := al) (ob := ob1) (oo := o1) (B := B1) (A := A1) (evs := evs1) k2 k3 k6
    (fun l hl => by rw [show sideOf .ask B1 A1 = A1 from rfl, k7']; exact hal l hl) q3 (by omega) k8 k9
  refine ⟨(absState s).back lst ob2 a o2, ?_⟩
  have e1 : loadMarket s.toCore ⟨s.mkt.ownAddress, false⟩ false = .ok () := (enabled_load h.flags).2 ⟨rfl, hen⟩
  have e2 : s.mkt.pruneAuth = some s.mkt.pruneAuthority := by
    unfold Market.pruneAuth Market.permissioned
    rw [show (512 : Nat) = 2 ^ 9 from rfl, hasFlag_bit, if_pos hp]
  have e3 : loadOrders s.toCore env a (some o.owner) false none = .ok o := loadOrders_open ho hcl rfl
  have e4 : orAssert (loadBids s.toCore ⟨s.mkt.bids, false⟩) = .ok () := by
    unfold orAssert loadBids checkAssert
    simp [hne]
  have e5 : orAssert (loadAsks s.toCore ⟨s.mkt.asks, false⟩) = .ok () := by
    unfold orAssert loadAsks
    simp
  have e6 : loadEventQ s.toCore ⟨s.mkt.eventQ, false⟩ = .ok () := by
    unfold loadEventQ
    simp
  unfold prune pruneAccts
  rw [show (absState s).toCore = s.toCore from rfl]
  simp only [signed, checkAssert, if_true, bind, Except.bind, e1, e2, e3, e4, e5, e6, beq_self_eq_true, hrem, k1, m1]
  rfl

/-- C87. What such a prune does: it withdraws orders of the account only, and all of them if the limit covers both
books. -/
theorem prune_works_effect {P : Params} {s : State conc} (h : Reach P s) (hq : s.seq ≤ W64) (env : Env) {a : Nat}
    {o : OpenOrders} (ho : ooAt s.oos a = some o) (hcl : o.closed = false) (hen : ¬ Disabled s.mkt)
    (hp : s.mkt.flags.testBit 9 = true) (hne : s.mkt.bids ≠ s.mkt.asks) (limit : Nat)
    (hroom : (pending s).length + (ordersOf s .bid a).length + (ordersOf s .ask a).length ≤ s.q.buf.length)
    (hfit : HoldsFit s a o) (hlim : 2 * ((resting s .bid).length + (resting s .ask).length) ≤ limit) :
    ∃ s' ls, prune conc env s (pruneAccts s a o.owner) limit = .ok s' ∧ Withdrawn s s' a ls ∧
      (∀ sd x, (sd, x) ∈ ls ↔ x ∈ resting s sd ∧ x.owner = a) ∧ ∀ sd, ordersOf s' sd a = [] := by
  obtain ⟨s', hs⟩ := prune_works h hq env ho hcl hen hp hne limit hroom hfit
  obtain ⟨m, b, k, auth, oo, owner, eq, o', ls, e, _, _, _, _, _, hw, hall⟩ := prune_effect h hq hs
  unfold pruneAccts at e
  simp only [List.cons.injEq, and_true] at e
  obtain ⟨rfl, rfl, rfl, rfl, rfl, rfl, rfl⟩ := e
  refine ⟨s', ls, hs, hw, hall hlim, ?_⟩
  intro sd
  unfold ordersOf
  rw [hw.books sd, List.filter_eq_nil_iff]
  intro x hx
  obtain ⟨h1, h2⟩ := mem_without.1 hx
  have := fun e => h2 ((hall hlim sd x).2 ⟨h1, e⟩)
  simpa using this

/-! ### What a prune overlooks -/

theorem critBit_test (n k : Nat) (hn : n < 128) : critBit (127 - n) k = k.testBit n := by
  rw [critBit_eq (by omega)]
  congr 1
  omega

/-- The tree of `k` orders has exactly `2 k - 1` nodes. -/
theorem visits_exact {n : Nat} : ∀ {L : List Leaf}, n ≤ 128 → L.Nodup → L ≠ [] →
    (∀ x ∈ L, ∀ y ∈ L, (∀ i < n, x.key.testBit i = y.key.testBit i) → x = y) →
    (visits n L).length = 2 * L.length - 1 := by
  induction n with
  | zero =>
    intro L _ hnd hne hx
    have : L.length = 1 := by
      match L, hnd, hne, hx with
      | [a], _, _, _ => rfl
      | a :: b :: t, hnd, _, hx =>
        have e := hx a (by simp) b (by simp) (fun i hi => absurd hi (by omega))
        subst e
        simp at hnd
    simp [visits, this]
  | succ n ih =>
    intro L hn hnd hne hx
    have hlen : (L.filter (fun l => !critBit (127 - n) l.key)).length +
        (L.filter (fun l => critBit (127 - n) l.key)).length = L.length := by
      have := List.length_eq_countP_add_countP (l := L) (fun l => critBit (127 - n) l.key)
      rw [List.countP_eq_length_filter, List.countP_eq_length_filter] at this
      simp only [decide_not, Bool.decide_eq_true] at this
      omega
    have hpos := List.length_pos_iff.2 hne
    have hsub : ∀ (b : Bool) (M : List Leaf), (∀ x ∈ M, x ∈ L ∧ critBit (127 - n) x.key = b) →
        ∀ x ∈ M, ∀ y ∈ M, (∀ i < n, x.key.testBit i = y.key.testBit i) → x = y := by
      intro b M hM x hx' y hy' hbits
      refine hx x (hM x hx').1 y (hM y hy').1 ?_
      intro i hi
      rcases Nat.lt_succ_iff_lt_or_eq.1 hi with hi | rfl
      · exact hbits i hi
      · have e1 := (hM x hx').2
        have e2 := (hM y hy').2
        rw [critBit_test _ _ (by omega)] at e1 e2
        rw [e1, e2]
    have hA := hsub false (L.filter (fun l => !critBit (127 - n) l.key)) (fun x hx => by
      obtain ⟨h1, h2⟩ := List.mem_filter.1 hx
      exact ⟨h1, by simpa using h2⟩)
    have hB := hsub true (L.filter (fun l => critBit (127 - n) l.key)) (fun x hx => by
      obtain ⟨h1, h2⟩ := List.mem_filter.1 hx
      exact ⟨h1, by simpa using h2⟩)
    have nA : (L.filter (fun l => !critBit (127 - n) l.key)).Nodup := List.Pairwise.filter _ hnd
    have nB : (L.filter (fun l => critBit (127 - n) l.key)).Nodup := List.Pairwise.filter _ hnd
    unfold visits
    simp only
    split
    · rename_i h0
      rw [h0, List.length_nil] at hlen
      rw [ih (by omega) nB (fun e => by rw [e, List.length_nil] at hlen; omega) hB]
      omega
    · rename_i h0
      split
      · rename_i h1
        rw [h1, List.length_nil] at hlen
        rw [ih (by omega) nA h0 hA]
        omega
      · rename_i h1
        have p0 := List.length_pos_iff.2 h0
        have p1 := List.length_pos_iff.2 h1
        simp only [List.length_cons, List.length_append]
        rw [ih (by omega) nA h0 hA, ih (by omega) nB h1 hB]
        omega

/-- C87, the limit. It counts the nodes of the two trees, asks first, and every call starts again at the root: if the
account has no resting asks and the asks of others have at least `limit` nodes, a prune finds none of the
account's bids. -/
theorem prune_blind {P : Params} {s s' : State conc} (h : Reach P s) (hq : s.seq ≤ W64) {env : Env} {limit : Nat}
    {m b k auth oo owner eq : AccMeta}
    (hc : prune conc env s [m, b, k, auth, oo, owner, eq] limit = .ok s') (hno : ordersOf s .ask oo.key = [])
    (hlim : limit < 2 * (resting s .ask).length) : Withdrawn s s' oo.key [] := by
  obtain ⟨vs, hv, hqi, hi⟩ := h.view hq
  have hg := h.good hq
  have hvis : (visits 128 s.asks.contents).length = 2 * s.asks.contents.length - 1 := by
    refine visits_exact (Nat.le_refl _) ?_ ?_ ?_
    · exact hi.shape.book.askSort.imp (fun hlt e => by rw [e] at hlt; omega)
    · intro e
      rw [show resting s .ask = s.asks.contents from rfl, e] at hlim
      simp at hlim
    · intro x hx y hy hbits
      refine key_unique hi.shape.book.askSort hx hy (Nat.eq_of_testBit_eq fun i => ?_)
      by_cases hi' : i < 128
      · exact hbits i hi'
      · have p : 2 ^ 128 ≤ 2 ^ i := Nat.pow_le_pow_right (by omega) (by omega)
        rw [Nat.testBit_lt_two_pow (Nat.lt_of_lt_of_le (hg.rs.asks.1.key_lt x hx) p),
          Nat.testBit_lt_two_pow (Nat.lt_of_lt_of_le (hg.rs.asks.1.key_lt y hy) p)]
  have hzero : limit - (visits 128 s.asks.contents).length = 0 := by
    rw [hvis]
    have : limit < 2 * s.asks.contents.length := hlim
    omega
  obtain ⟨t, ht, hrs⟩ := Sim.ok_right (Refines.sim_prune hg.rs env _ limit) hc
  unfold prune at ht
  simp only at ht
  obtain ⟨_, _, ht⟩ := bind_ok ht
  obtain ⟨_, _, ht⟩ := bind_ok ht
  obtain ⟨_, _, ht⟩ := bind_ok ht
  obtain ⟨o2, hl, ht⟩ := bind_ok ht
  obtain ⟨_, _, ht⟩ := bind_ok ht
  obtain ⟨_, _, ht⟩ := bind_ok ht
  obtain ⟨_, _, ht⟩ := bind_ok ht
  obtain ⟨⟨ob, bl, al⟩, hr, ht⟩ := bind_ok ht
  unfold removeAll at hr
  simp only at hr
  obtain ⟨⟨b', bl'⟩, hb, hr⟩ := bind_ok hr
  obtain ⟨⟨a', al'⟩, ha, hr⟩ := bind_ok hr
  cases hr
  have hkb : (lst.findBy ((absState s).ob lst s.mkt).bids (lst.findBy ((absState s).ob lst s.mkt).asks limit
      (fun l => l.owner == oo.key)).2 (fun l => l.owner == oo.key)).1 = [] := by
    show ((((visits 128 s.bids.contents).take (limit - (visits 128 s.asks.contents).length)).filterMap id).filter
      (fun l => l.owner == oo.key)).map (·.key) = []
    rw [hzero]
    simp
  have hka : (lst.findBy ((absState s).ob lst s.mkt).asks limit (fun l => l.owner == oo.key)).1 = [] := by
    rw [List.eq_nil_iff_forall_not_mem]
    intro x hx
    obtain ⟨y, hy, _, hp⟩ := findBy_mem hx
    have : y ∈ ordersOf s .ask oo.key := List.mem_filter.2 ⟨hy, hp⟩
    rw [hno] at this
    cases this
  have hb : removeKeys lst ((absState s).ob lst s.mkt).bids (lst.findBy ((absState s).ob lst s.mkt).bids
      (lst.findBy ((absState s).ob lst s.mkt).asks limit (fun l => l.owner == oo.key)).2
      (fun l => l.owner == oo.key)).1 = .ok (b', bl') := hb
  have ha : removeKeys lst ((absState s).ob lst s.mkt).asks
      (lst.findBy ((absState s).ob lst s.mkt).asks limit (fun l => l.owner == oo.key)).1 = .ok (a', al') := ha
  rw [hkb] at hb
  rw [hka] at ha
  cases hb
  cases ha
  simp only [cancelLeaves, bind, Except.bind, pure, Except.pure, Except.ok.injEq] at ht
  exact Withdrawn.of (evs' := pending s) hrs ht.symm rfl (absState_q hg hqi)
    ((loadOrders_inv hl).elim (fun g => g.1) (fun g => absurd g.2.2.1 (by simp))) (Withdrew.refl _ _ _ _ _ _)

/-! ### Instances -/

-- the permissioned market of the demonstration: disabled by its authority, not by another signer
example : (disableMarket conc Serum.Demo.P Serum.Demo.p6 [⟨50, false⟩, ⟨Serum.Demo.P.disableAuth, true⟩]).toOption.isSome = true ∧
    (disableMarket conc Serum.Demo.P Serum.Demo.p6 [⟨50, false⟩, ⟨12, true⟩]).toOption.isSome = false := by
  decide +kernel

-- account 42 has two bids and an ask: the hypotheses of `prune_works_effect` hold
example : Reach Serum.Demo.P Serum.Demo.p6 ∧ ¬ Disabled Serum.Demo.p6.mkt ∧ Serum.Demo.p6.mkt.flags.testBit 9 = true ∧
    Serum.Demo.p6.mkt.bids ≠ Serum.Demo.p6.mkt.asks ∧
    (pending Serum.Demo.p6).length + (ordersOf Serum.Demo.p6 .bid 42).length +
      (ordersOf Serum.Demo.p6 .ask 42).length ≤ Serum.Demo.p6.q.buf.length ∧
    (ordersOf Serum.Demo.p6 .bid 42).length = 2 ∧ (ordersOf Serum.Demo.p6 .ask 42).length = 1 ∧
    (ooAt Serum.Demo.p6.oos 42).map (fun o => decide (HoldsFit Serum.Demo.p6 42 o ∧ o.closed = false)) = some true :=
  ⟨Serum.Demo.k6, by unfold Disabled; decide +kernel, by decide +kernel, by decide +kernel, by decide +kernel,
    by decide +kernel, by decide +kernel, by decide +kernel⟩

-- before its ask, account 42 has two bids only, behind one ask of account 41: a limit of one node finds neither,
-- however often the prune is repeated, though a limit of three nodes finds one
example : Reach Serum.Demo.P Serum.Demo.p5 ∧ ordersOf Serum.Demo.p5 .ask 42 = [] ∧
    (resting Serum.Demo.p5 .ask).length = 1 ∧ (ordersOf Serum.Demo.p5 .bid 42).length = 2 ∧
    (prune conc Serum.Demo.env Serum.Demo.p5 (Serum.Demo.pruneAccts 42 12) 1).toOption.map (resting · .bid) =
      some (resting Serum.Demo.p5 .bid) ∧
    ((prune conc Serum.Demo.env Serum.Demo.p5 (Serum.Demo.pruneAccts 42 12) 3).toOption.map
      fun s => (resting s .bid).length) = some 1 :=
  ⟨Serum.Demo.k5, by decide +kernel, by decide +kernel, by decide +kernel, by decide +kernel, by decide +kernel⟩

-- an account is opened with the authority's signature and not without; it can be closed while it is empty and not
-- once it has an order
example : Vouched Serum.Demo.pm [⟨61, true⟩] ∧
    initOpenOrders conc Serum.Demo.env Serum.Demo.p0 (Serum.Demo.openAccts 41 11) = .ok Serum.Demo.p1 ∧
    (initOpenOrders conc Serum.Demo.env Serum.Demo.p0 ((Serum.Demo.openAccts 41 11).take 4)).toOption.isSome = false ∧
    (closeOpenOrders conc Serum.Demo.env Serum.Demo.p2 (closeAccts Serum.Demo.p2 41 11 99)).toOption.isSome = true ∧
    (closeOpenOrders conc Serum.Demo.env Serum.Demo.p3 (closeAccts Serum.Demo.p3 41 11 99)).toOption.isSome = false :=
  ⟨⟨_, rfl, rfl, rfl⟩,
    Serum.Demo.run_eq (s := Serum.Demo.p0) (a := Serum.Demo.openAccts 41 11) (ix := .initOpenOrders) (by decide +kernel),
    by decide +kernel, by decide +kernel, by decide +kernel⟩

end Serum.Props
