import Verif.PropsClaims

/-!
C59: the owner of an account can always leave with everything that belongs to them.
-/

namespace Serum.Props

/-! ### The capacity of the event queue -/

/-- List-level books and queues with a fixed capacity of the queue. -/
def lstCap (N : Nat) : Refines lst lst where
  RB b c := b = c
  RQ q r := q = r ∧ q.cap = N
  best side h := by subst h; exact Sim.refl
  setBest side q h := by subst h; exact Sim.refl
  remove k h := by subst h; exact ⟨rfl, rfl⟩
  insert l _ h := by
    subst h
    exact Sim.refl.mono fun x y e => by subst e; exact ⟨rfl, rfl⟩
  evict side h := by
    subst h
    exact Sim.refl.mono fun x y e => by subst e; exact ⟨rfl, rfl⟩
  findBy n p h := by subst h; rfl
  push {q r} e h := by
    obtain ⟨rfl, h⟩ := h
    simp only
    split
    · exact ⟨rfl, h⟩
    · trivial
  peek h := by obtain ⟨rfl, _⟩ := h; rfl
  pop {q r} _ h := by
    obtain ⟨rfl, h⟩ := h
    simp only
    split
    · trivial
    · exact ⟨rfl, h⟩

/-- No instruction changes the capacity of the event queue. -/
theorem queue_capacity {P : Params} {s s' : State conc} (h : Reach P s) (hq : s.seq ≤ W64) {env : Env}
    {accts : List AccMeta} {data : List UInt8} (hx : processRaw conc P env s accts data = .ok s') :
    s'.q.buf.length = s.q.buf.length := by
  have hg := h.good hq
  obtain ⟨t, ht, hr⟩ := Sim.ok_right (Refines.sim_processRaw hg.rs P env accts data) hx
  have hs : (lstCap s.q.buf.length).RS (absState s) (absState s) := ⟨rfl, rfl, rfl, rfl, rfl⟩
  obtain ⟨t', _, hr'⟩ := Sim.ok_right (Refines.sim_processRaw hs P env accts data) ht
  have e := RS_abs hr
  subst e
  exact hr'.q.2

/-! ### Specification -/

/-- The instructions needed to leave a market: none of them places an order. -/
def leaves : Instruction → Bool
  | .consumeEvents _ | .consumeEventsPermissioned _ | .cancelOrderV2 _ _ | .settleFunds | .closeOpenOrders => true
  | _ => false

/-- `i` instructions sent one after the other, each with at most ten accounts out of `K`, signed by nobody but `who`.
None of them creates an account. -/
inductive Sends (P : Params) (env : Env) (who K : Nat → Prop) : Nat → State conc → State conc → Prop where
  | done (s) : Sends P env who K 0 s s
  | send {i : Nat} {s s1 s2 : State conc} {accts : List AccMeta} {ix : Instruction} (hv : IxValid ix)
      (hx : leaves ix = true) (hs : ∀ m ∈ accts, m.signer = true → who m.key) (hk : ∀ m ∈ accts, K m.key)
      (hl : accts.length ≤ 10) (h : processRaw conc P env s accts ix.pack = .ok s1)
      (hc : ∀ b, ooAt s.oos b = none → ooAt s1.oos b = none) (ht : Sends P env who K i s1 s2) :
      Sends P env who K (i + 1) s s2

theorem Sends.trans {P : Params} {env : Env} {who K : Nat → Prop} {i j : Nat} {s s1 s2 : State conc}
    (h : Sends P env who K i s s1) (g : Sends P env who K j s1 s2) : Sends P env who K (i + j) s s2 := by
  induction h with
  | done => rw [Nat.zero_add]; exact g
  | @send i _ _ _ _ _ hv hx hs hk hl h hc _ ih =>
    rw [show i + 1 + j = (i + j) + 1 by omega]
    exact .send hv hx hs hk hl h hc (ih g)

/-- The states on the way are reachable, if the vault signer does not sign. -/
theorem Sends.reach {P : Params} {env : Env} {who K : Nat → Prop} {s s' : State conc} (h : Sends P env who K 1 s s')
    (hr : Reach P s) (hns : ∀ k, who k → P.vaultSigner s.mkt.ownAddress s.mkt.vaultSignerNonce ≠ some k) : Reach P s' := by
  cases h with
  | send hv hx hs hk hl h hc ht =>
    cases ht
    exact hr.step (.instr (fun m hm hsg => hns _ (hs m hm hsg)) h)

/-- The addresses the instructions name, besides open-orders accounts and wallets. -/
structure Names (P : Params) (m : Market) (who K : Nat → Prop) : Prop where
  zero : K 0
  market : K m.ownAddress
  eventQ : K m.eventQ
  bids : K m.bids
  asks : K m.asks
  coinVault : K m.coinVault
  pcVault : K m.pcVault
  token : K P.splToken
  signers : ∀ k, who k → K k

/-- Account `a` has left: it is closed, has neither orders nor events, and all that belonged to it in `s` was paid out,
the rebates to the referrer if one is named, else they are fees. What belongs to others is unchanged. -/
structure Left (s s' : State conc) (a coinDst pcDst : Nat) (refer : Option Nat) : Prop where
  closed : ∃ o', ooAt s'.oos a = some o' ∧ o'.closed = true
  orders : ∀ sd, ordersOf s' sd a = []
  events : eventsOf a (pending s') = []
  paid : ∃ l1 l2, Paid s.toks l1 s.mkt.coinVault coinDst (baseClaim s a) ∧ Paid l1 l2 s.mkt.pcVault pcDst (quoteClaim s a) ∧
    match (if 0 < rebateClaim s a then refer else none) with
    | some r => Paid l2 s'.toks s.mkt.pcVault r (rebateClaim s a)
    | none => s'.toks = l2
  others : ∀ b o, b ≠ a → ooAt s.oos b = some o → ∃ o', ooAt s'.oos b = some o' ∧ o'.owner = o.owner ∧ o'.closed = o.closed ∧
    OnlyFilled s s' b []
  /-- The queue is empty. -/
  queue : pending s' = []
  enough : baseClaim s a ≤ s.mkt.coinDeposits ∧ quoteClaim s a ≤ s.mkt.pcDeposits ∧ rebateClaim s a ≤ s.mkt.referrerRebates
  mkt : s'.mkt = { s.mkt with
    coinDeposits := s.mkt.coinDeposits - baseClaim s a
    pcDeposits := s.mkt.pcDeposits - quoteClaim s a
    pcFees := s.mkt.pcFees + if refer = none then rebateClaim s a else 0
    referrerRebates := s.mkt.referrerRebates - rebateClaim s a }

/-! ### Single instructions -/

/-- The account itself and those with queued events fit in 64 bits. -/
def AllFit (s : State conc) (a : Nat) : Prop :=
  ∀ b o, ooAt s.oos b = some o → (b = a ∨ ∃ v ∈ pending s, v.owner = b) → Fits s b o

/-- What does not change while leaving. -/
structure Near (P : Params) (s t : State conc) : Prop where
  reach : Reach P t
  seq : t.seq = s.seq
  mkt : t.mkt = s.mkt
  toks : t.toks = s.toks
  cap : t.q.buf.length = s.q.buf.length
  accts : ∀ b o, ooAt s.oos b = some o → ∃ o', ooAt t.oos b = some o' ∧ o'.owner = o.owner ∧ o'.closed = o.closed ∧
    OnlyFilled s t b []

theorem Near.trans {P : Params} {s t u : State conc} (h : Near P s t) (g : Near P t u) : Near P s u := by
  refine ⟨g.reach, g.seq.trans h.seq, g.mkt.trans h.mkt, g.toks.trans h.toks, g.cap.trans h.cap, fun b o ho => ?_⟩
  obtain ⟨o1, h1, h2, h3, h4⟩ := h.accts b o ho
  obtain ⟨o2, g1, g2, g3, g4⟩ := g.accts b o1 h1
  exact ⟨o2, g1, g2.trans h2, g3.trans h3, h4.trans g4⟩

theorem raw_of {P : Params} {env : Env} {s s' : State conc} {accts : List AccMeta} {ix : Instruction} (hv : IxValid ix)
    (h : process conc P env s accts ix = .ok s') : processRaw conc P env s accts ix.pack = .ok s' := by
  unfold processRaw
  rw [instruction_round_trip ix hv]
  exact h

/-- The first event of the queue is delivered. -/
theorem crank_one {P : Params} {env : Env} {s : State conc} {a : Nat} {who K : Nat → Prop} (h : Reach P s) (hq : s.seq ≤ W64)
    (hK : Names P s.mkt who K)
    (hw : ∀ k, s.mkt.crankAuth = some k → who k)
    (hns : ∀ k, who k → P.vaultSigner s.mkt.ownAddress s.mkt.vaultSignerNonce ≠ some k)
    {v : EventView} {rest : List EventView} (hp : pending s = v :: rest) (hv : K v.owner) (hf : AllFit s a) :
    ∃ s', Sends P env who K 1 s s' ∧ Near P s s' ∧ pending s' = rest ∧ (∀ sd, resting s' sd = resting s sd) ∧ AllFit s' a := by
  have hn : ∀ v' ∈ (pending s).take 1, v'.owner ∈ [v.owner] := by
    intro w hw'; rw [hp] at hw'; simp at hw'; simp [hw']
  have hfit : ∀ v' ∈ (pending s).take 1, ∀ o, ooAt s.oos v'.owner = some o → Fits s v'.owner o :=
    fun w hw' o ho => hf _ o ho (.inr ⟨w, List.mem_of_mem_take hw', rfl⟩)
  obtain ⟨s', accts, ix, hv, hx, hsg, hkeys, hlen, hpr, hcr, hpend⟩ : ∃ s' accts ix, IxValid ix ∧ leaves ix = true ∧
      (∀ m ∈ accts, m.signer = true → who m.key) ∧ (∀ m ∈ accts, K m.key) ∧ accts.length ≤ 10 ∧ process conc P env s accts ix = .ok s' ∧
      (consumeEvents conc P env s accts 1 = .ok s' ∨ consumeEventsPermissioned conc P env s accts 1 = .ok s') ∧
      pending s' = (pending s).drop 1 := by
    cases hc : s.mkt.crankAuth with
    | none =>
      obtain ⟨s', h1, h2⟩ := crank_progress h hq hc env [v.owner] (by simp) (by simp) 1 hn hfit
      refine ⟨s', _, .consumeEvents 1, by show (1 : Nat) < _; decide, rfl, ?_, ?_, by simp [crankAccts], h1, .inl h1, h2⟩
      · intro m hm hs
        simp only [crankAccts, List.map_cons, List.map_nil, List.cons_append, List.nil_append, List.mem_cons, List.not_mem_nil,
          or_false] at hm
        rcases hm with rfl | rfl | rfl | rfl | rfl <;> simp at hs
      · intro m hm
        simp only [crankAccts, List.map_cons, List.map_nil, List.cons_append, List.nil_append, List.mem_cons, List.not_mem_nil,
          or_false] at hm
        rcases hm with rfl | rfl | rfl | rfl | rfl <;> first | exact hv | exact hK.market | exact hK.eventQ | exact hK.zero
    | some k =>
      obtain ⟨s', h1, h2⟩ := permissioned_crank_progress h hq hc env [v.owner] (by simp) (by simp) 1 hn hfit
      refine ⟨s', _, .consumeEventsPermissioned 1, by show (1 : Nat) < _; decide, rfl, ?_, ?_, by simp [permissionedCrankAccts], h1,
        .inr h1, h2⟩
      · intro m hm hs
        simp only [permissionedCrankAccts, List.map_cons, List.map_nil, List.cons_append, List.nil_append, List.mem_cons,
          List.not_mem_nil, or_false] at hm
        rcases hm with rfl | rfl | rfl | rfl <;> first | exact hw _ hc | simp at hs
      · intro m hm
        simp only [permissionedCrankAccts, List.map_cons, List.map_nil, List.cons_append, List.nil_append, List.mem_cons,
          List.not_mem_nil, or_false] at hm
        rcases hm with rfl | rfl | rfl | rfl <;>
          first | exact hv | exact hK.market | exact hK.eventQ | exact hK.signers _ (hw _ hc)
  have hraw := raw_of hv hpr
  have hreach : Reach P s' := h.step (.instr (fun m hm hs => hns _ (hsg m hm hs)) hraw)
  have hcap := queue_capacity h hq hraw
  obtain ⟨k, k1, k2, k3, _, k5, k6, k7, k8, k9, k10, k11⟩ := crank_delivers h hq hcr
  rw [hp] at hpend
  have hrest : ∀ sd, resting s' sd = resting s sd := by
    intro sd; cases sd <;> simp only [resting] <;> simp only [k9, k10]
  have hk : k = 1 := by
    have e : (pending s).length - k = rest.length := by
      rw [← List.length_drop, ← k3, hpend]; rfl
    rw [hp] at e
    simp only [List.length_cons] at e
    omega
  subst hk
  refine ⟨s', .send hv hx hsg hkeys hlen hraw k5 (.done _), ⟨hreach, k11, k7, k8, hcap, fun b o ho => ?_⟩, hpend, hrest, fun b o ho hor => ?_⟩
  · obtain ⟨o', c1, c2, _, _, _, c6⟩ := crank_filled h hq hcr ho
    obtain ⟨o'', d1, d2⟩ := k6 b o ho
    rw [c1] at d1; cases d1
    exact ⟨o', c1, c2, d2.closed, c6⟩
  · cases hb : ooAt s.oos b with
    | none => rw [k5 b hb] at ho; cases ho
    | some p =>
      obtain ⟨p', d1, d2⟩ := k6 b p hb
      rw [ho] at d1; cases d1
      have hfb := hf b p hb (by
        rcases hor with e | ⟨w, hw1, hw2⟩
        · exact .inl e
        · rw [hpend] at hw1
          exact .inr ⟨w, by rw [hp]; exact List.mem_cons_of_mem _ hw1, hw2⟩)
      have hev : ∀ g : EventView → Nat, total g ((pending s).filter fun w => w.owner == b) =
          total g (eventsOf b ((pending s).take 1)) + total g ((pending s').filter fun w => w.owner == b) := by
        intro g
        rw [← total_append, k3]
        unfold eventsOf
        rw [← List.filter_append, List.take_append_drop]
      have e1 := hev baseDue
      have e2 := hev quoteDue
      have e3 := hev baseLocked
      have e4 := hev quoteLocked
      have f1 := d2.coinFree
      have f2 := d2.pcFree
      unfold Fits baseHeld quoteHeld at hfb ⊢
      rw [k7, k9, k10]
      omega

/-- All events are delivered. -/
theorem crank_all {P : Params} {env : Env} {a : Nat} {who K : Nat → Prop} : ∀ {s : State conc}, Reach P s → s.seq ≤ W64 →
    Names P s.mkt who K → (∀ v ∈ pending s, K v.owner) →
    (∀ k, s.mkt.crankAuth = some k → who k) →
    (∀ k, who k → P.vaultSigner s.mkt.ownAddress s.mkt.vaultSignerNonce ≠ some k) → AllFit s a →
    ∃ s', Sends P env who K (pending s).length s s' ∧ Near P s s' ∧ pending s' = [] ∧ (∀ sd, resting s' sd = resting s sd) ∧
      AllFit s' a := by
  intro s
  generalize hn : (pending s).length = n
  induction n generalizing s with
  | zero =>
    intro h hq hK hv hw hns hf
    refine ⟨s, .done _, ⟨h, rfl, rfl, rfl, rfl, fun b o ho => ⟨o, ho, rfl, rfl, .same (fun _ => rfl) rfl rfl ⟨rfl, rfl⟩⟩⟩,
      List.length_eq_zero_iff.1 hn, fun _ => rfl, hf⟩
  | succ n ih =>
    intro h hq hK hv hw hns hf
    obtain ⟨v, rest, hp⟩ := List.exists_cons_of_length_eq_add_one hn
    obtain ⟨s1, a1, a2, a3, a4, a5⟩ := crank_one (env := env) h hq hK hw hns hp (hv v (by rw [hp]; simp)) hf
    obtain ⟨s2, b1, b2, b3, b4, b5⟩ := ih (s := s1) (by rw [a3]; rw [hp] at hn; simpa using hn) a2.reach (by rw [a2.seq]; exact hq)
      (by rw [a2.mkt]; exact hK) (fun w hw => hv w (by rw [a3] at hw; rw [hp]; exact List.mem_cons_of_mem _ hw))
      (by rw [a2.mkt]; exact hw) (by rw [a2.mkt]; exact hns) a5
    exact ⟨s2, (Nat.add_comm 1 n ▸ a1.trans b1 : Sends P env who K (n + 1) s s2), a2.trans b2, b3, fun sd => (b4 sd).trans (a4 sd), b5⟩

/-- One of the account's orders is cancelled while the queue is empty. -/
theorem cancel_one {P : Params} {env : Env} {s : State conc} {a : Nat} {o : OpenOrders} {who K : Nat → Prop} (h : Reach P s)
    (hq : s.seq ≤ W64) (hK : Names P s.mkt who K) (hKa : K a) (ho : ooAt s.oos a = some o) (hw : who o.owner)
    (hns : ∀ k, who k → P.vaultSigner s.mkt.ownAddress s.mkt.vaultSignerNonce ≠ some k) (hcap : 0 < s.q.buf.length)
    (hp : pending s = []) (hf : AllFit s a) {sd : Side} {l : Leaf} (hl : l ∈ ordersOf s sd a) :
    ∃ s', Sends P env who K 1 s s' ∧ Near P s s' ∧ Withdrawn s s' a [(sd, l)] ∧ AllFit s' a := by
  have hlo : l.owner = a := by have := (List.mem_filter.1 hl).2; simpa using this
  have hlr : l ∈ resting s sd := (List.mem_filter.1 hl).1
  subst hlo
  have hfa := hf _ o ho (.inl rfl)
  have hhold : HoldsFit s l.owner o := by unfold Fits at hfa; unfold HoldsFit; omega
  obtain ⟨s', h1, hwd⟩ := cancel_works h hq env hlr ho (by rw [hp]; exact hcap) hhold
  have hkey : l.key < 2 ^ 128 := by
    have hg := h.good hq
    cases sd with
    | bid => exact hg.rs.bids.1.key_lt l hlr
    | ask => exact hg.rs.asks.1.key_lt l hlr
  have hsg : ∀ m ∈ cancelAccts s l.owner o.owner, m.signer = true → who m.key := by
    intro m hm hs
    simp only [cancelAccts, List.mem_cons, List.not_mem_nil, or_false] at hm
    rcases hm with rfl | rfl | rfl | rfl | rfl | rfl <;> first | exact hw | simp at hs
  have hkeys : ∀ m ∈ cancelAccts s l.owner o.owner, K m.key := by
    intro m hm
    simp only [cancelAccts, List.mem_cons, List.not_mem_nil, or_false] at hm
    rcases hm with rfl | rfl | rfl | rfl | rfl | rfl
    · exact hK.market
    · exact hK.bids
    · exact hK.asks
    · exact hKa
    · exact hK.signers _ hw
    · exact hK.eventQ
  have hval : IxValid (.cancelOrderV2 sd l.key) := by show l.key < 256 ^ 16; simpa using hkey
  have hraw : processRaw conc P env s (cancelAccts s l.owner o.owner) (Instruction.cancelOrderV2 sd l.key).pack = .ok s' :=
    raw_of (ix := .cancelOrderV2 sd l.key) hval h1
  have hreach : Reach P s' := h.step (.instr (fun m hm hs => hns _ (hsg m hm hs)) hraw)
  have hcap' := queue_capacity h hq hraw
  obtain ⟨o1, w1, w2⟩ := hwd.account
  rw [ho] at w1; cases w1
  refine ⟨s', .send (ix := .cancelOrderV2 sd l.key) hval rfl hsg hkeys (by simp [cancelAccts]) hraw
    (fun b hb => by rw [hwd.others b (fun e => by rw [e, ho] at hb; cases hb)]; exact hb) (.done _),
    ⟨hreach, hwd.seq, hwd.mkt, hwd.toks, hcap', fun b p hb => ?_⟩, hwd, fun b p hb hor => ?_⟩
  · by_cases e : b = l.owner
    · subst e
      rw [ho] at hb; cases hb
      exact ⟨_, w2, rfl, rfl, hwd.filled h hq _⟩
    · exact ⟨p, by rw [hwd.others b e]; exact hb, rfl, rfl, hwd.filled h hq _⟩
  · have e : b = l.owner := by
      rcases hor with e | ⟨w, hw1, hw2⟩
      · exact e
      · rw [hwd.events, hp] at hw1
        simp only [List.map_cons, List.map_nil, List.nil_append, List.mem_cons, List.not_mem_nil, or_false] at hw1
        rw [← hw2, hw1]
        cases sd <;> rfl
    subst e
    rw [w2] at hb; cases hb
    have c1 := (hwd.filled h hq l.owner).base
    have c2 := (hwd.filled h hq l.owner).quote
    have z : total (Trade.baseGiven s.mkt) [] = 0 ∧ total (Trade.baseGot s.mkt) [] = 0 ∧ total (Trade.quoteGiven s.mkt) [] = 0 ∧
        total (Trade.quoteGot s.mkt) [] = 0 := ⟨rfl, rfl, rfl, rfl⟩
    have d : ∀ g : EventView → Nat, g (outEvent s.mkt (sd, l)) = 0 →
        total g ((pending s').filter fun v => v.owner == l.owner) = 0 := by
      intro g hg
      rw [hwd.events, hp]
      simp only [List.map_cons, List.map_nil, List.nil_append, List.filter_cons, List.filter_nil]
      split <;> simp [total, hg]
    have d1 := d baseLocked (by cases sd <;> rfl)
    have d2 := d quoteLocked (by cases sd <;> rfl)
    unfold baseClaim ordersOf eventsOf freeOf at c1
    unfold quoteClaim ordersOf eventsOf freeOf at c2
    rw [w2, ho] at c1 c2
    simp only [resting] at c1 c2
    unfold Fits baseHeld quoteHeld at hfa ⊢
    rw [d1, d2]
    omega

theorem ordersOf_without {s s' : State conc} {a : Nat} {sd : Side} {l : Leaf} (hw : Withdrawn s s' a [(sd, l)]) (sd' : Side) :
    ordersOf s' sd' a = without [(sd, l)] sd' (ordersOf s sd' a) := by
  unfold ordersOf
  rw [hw.books]
  unfold without
  rw [List.filter_filter, List.filter_filter]
  exact List.filter_congr fun x _ => Bool.and_comm _ _

theorem ordersOf_fewer {s s' : State conc} {a : Nat} {sd : Side} {l : Leaf} (hw : Withdrawn s s' a [(sd, l)]) :
    (ordersOf s' .bid a).length + (ordersOf s' .ask a).length < (ordersOf s .bid a).length + (ordersOf s .ask a).length := by
  have hle : ∀ sd', (ordersOf s' sd' a).length ≤ (ordersOf s sd' a).length := by
    intro sd'
    rw [ordersOf_without hw]
    exact List.length_filter_le _ _
  have hlt : (ordersOf s' sd a).length < (ordersOf s sd a).length := by
    rw [ordersOf_without hw]
    obtain ⟨h1, h2⟩ := hw.theirs sd l (by simp)
    refine List.length_filter_lt_length_iff_exists.2 ⟨l, List.mem_filter.2 ⟨h1, by simp [h2]⟩, by simp⟩
  have h1 := hle .bid
  have h2 := hle .ask
  cases sd <;> omega

/-- All orders of the account are cancelled and its events delivered. -/
theorem cancel_all {P : Params} {env : Env} {a : Nat} {o : OpenOrders} {who K : Nat → Prop} {s : State conc} (h : Reach P s)
    (hq : s.seq ≤ W64) (hK : Names P s.mkt who K) (hKa : K a) (ho : ooAt s.oos a = some o) (hw : who o.owner) (hw' : ∀ k, s.mkt.crankAuth = some k → who k)
    (hns : ∀ k, who k → P.vaultSigner s.mkt.ownAddress s.mkt.vaultSignerNonce ≠ some k) (hcap : 0 < s.q.buf.length)
    (hp : pending s = []) (hf : AllFit s a) :
    ∃ i s', i ≤ 2 * ((ordersOf s .bid a).length + (ordersOf s .ask a).length) ∧ Sends P env who K i s s' ∧ Near P s s' ∧
      pending s' = [] ∧ (∀ sd, ordersOf s' sd a = []) ∧ AllFit s' a := by
  generalize hn : (ordersOf s .bid a).length + (ordersOf s .ask a).length = n
  induction n using Nat.strongRecOn generalizing s o with
  | _ n ih =>
    by_cases hz : ∀ sd, ordersOf s sd a = []
    · exact ⟨0, s, Nat.zero_le _, .done _,
        ⟨h, rfl, rfl, rfl, rfl, fun b o ho => ⟨o, ho, rfl, rfl, .same (fun _ => rfl) rfl rfl ⟨rfl, rfl⟩⟩⟩, hp, hz, hf⟩
    · obtain ⟨sd, l, hl⟩ : ∃ sd l, l ∈ ordersOf s sd a := by
        simp only [Classical.not_forall] at hz
        obtain ⟨sd, hz⟩ := hz
        exact ⟨sd, List.exists_mem_of_ne_nil _ hz⟩
      obtain ⟨s1, a1, a2, a3, a4⟩ := cancel_one (env := env) h hq hK hKa ho hw hns hcap hp hf hl
      have hp1 : pending s1 = outEvent s.mkt (sd, l) :: [] := by rw [a3.events, hp]; rfl
      have hlo : (outEvent s.mkt (sd, l)).owner = a := by
        have := (List.mem_filter.1 hl).2
        have : l.owner = a := by simpa using this
        cases sd <;> exact this
      obtain ⟨s2, b1, b2, b3, b4, b5⟩ := crank_one (env := env) (who := who) a2.reach (by rw [a2.seq]; exact hq)
        (by rw [a2.mkt]; exact hK) (by rw [a2.mkt]; exact hw') (by rw [a2.mkt]; exact hns) hp1 (by rw [hlo]; exact hKa) a4
      have ab := a2.trans b2
      obtain ⟨o2, c1, c2, c3, c4⟩ := ab.accts a o ho
      have hfew := ordersOf_fewer a3
      have hord : ∀ sd, ordersOf s2 sd a = ordersOf s1 sd a := fun sd => by unfold ordersOf; rw [b4]
      obtain ⟨i, s3, d0, d1, d2, d3, d4, d5⟩ := ih ((ordersOf s2 .bid a).length + (ordersOf s2 .ask a).length)
        (by rw [hord, hord]; omega) ab.reach (by rw [ab.seq]; exact hq) (by rw [ab.mkt]; exact hK) c1 (by rw [c2]; exact hw) (by rw [ab.mkt]; exact hw')
        (by rw [ab.mkt]; exact hns) (by rw [ab.cap]; exact hcap) b3 b5 rfl
      exact ⟨1 + 1 + i, s3, by rw [hord, hord] at d0; omega, (a1.trans b1).trans d1, ab.trans d2, d3, d4, d5⟩

/-- An account without orders, events and balances can be closed. -/
theorem close_one {P : Params} {env : Env} {s : State conc} {a dest : Nat} {o : OpenOrders} {who K : Nat → Prop} (h : Reach P s)
    (hq : s.seq ≤ W64) (hK : Names P s.mkt who K) (hKa : K a) (hKd : K dest) (ho : ooAt s.oos a = some o) (hcl : o.closed = false) (hw : who o.owner) (hp : pending s = [])
    (hz : ∀ sd, ordersOf s sd a = []) (hc : o.coinFree = 0) (hpc : o.pcFree = 0) :
    Sends P env who K 1 s { s with oos := setOo s.oos a { o with closed := true } } := by
  obtain ⟨t1, t2, _, _⟩ := totals_are_backed h hq ho
  have z1 : total (askValue s.mkt) (s.asks.contents.filter fun l => l.owner == a) = 0 := by
    have := hz .ask
    unfold ordersOf resting at this
    rw [this]; rfl
  have z2 : total (bidValue s.mkt) (s.bids.contents.filter fun l => l.owner == a) = 0 := by
    have := hz .bid
    unfold ordersOf resting at this
    rw [this]; rfl
  unfold baseHeld at t1
  unfold quoteHeld at t2
  rw [z1, hp, hc] at t1
  rw [z2, hp, hpc] at t2
  have t1 : o.coinTotal = 0 := t1
  have t2 : o.pcTotal = 0 := t2
  obtain ⟨l1, _, _, _⟩ := slots_are_live_orders h hq
  have hbits : o.freeBits = BitVec.allOnes 128 := by
    refine (freeBits_allOnes_iff o).2 fun j hj => ?_
    cases hsl : o.slotSide j with
    | none => rfl
    | some sd =>
      have hs : slots o j = some (sd, o.orders.getD j 0, o.clientIds.getD j 0) := by
        unfold slots; rw [if_pos hj, hsl]; rfl
      rcases l1 a o j sd _ _ ho hs with hb | hb
      · obtain ⟨l, e, _⟩ := hb.resting
        have : l ∈ restingAt s sd a j := by rw [e]; simp
        unfold restingAt at this
        obtain ⟨m1, m2⟩ := List.mem_filter.1 this
        simp only [Bool.and_eq_true, beq_iff_eq] at m2
        have hx : l ∈ ordersOf s sd a := List.mem_filter.2 ⟨m1, by simp [m2.1]⟩
        rw [hz] at hx; cases hx
      · obtain ⟨es, v, e, _⟩ := hb.events
        unfold pendingAt at e
        rw [hp] at e
        simp at e
  have hx : closeOpenOrders conc env s [⟨a, false⟩, ⟨o.owner, true⟩, ⟨dest, false⟩, ⟨s.mkt.ownAddress, false⟩] =
      .ok { s with oos := setOo s.oos a { o with closed := true } } := by
    have e2 : loadOrders s.toCore env a (some o.owner) false none = .ok o := by
      unfold loadOrders
      rw [ho]
      simp [hcl]
    unfold closeOpenOrders
    simp only [signed, loadMarket, beq_self_eq_true, checkAssert, if_true, bind, Except.bind, goodFlags_load h.flags, e2,
      checkClosable, hbits, t1, t2, ne_eq, not_true_eq_false, or_self, if_false]
    rfl
  have hpr : process conc P env s [⟨a, false⟩, ⟨o.owner, true⟩, ⟨dest, false⟩, ⟨s.mkt.ownAddress, false⟩] .closeOpenOrders =
      .ok { s with oos := setOo s.oos a { o with closed := true } } := hx
  have hraw := raw_of (ix := .closeOpenOrders) trivial hpr
  refine .send (ix := .closeOpenOrders) trivial rfl ?_ ?_ (by simp) hraw ?_ (.done _)
  · intro m hm hs
    simp only [List.mem_cons, List.not_mem_nil, or_false] at hm
    rcases hm with rfl | rfl | rfl | rfl <;> first | exact hw | simp at hs
  · intro m hm
    simp only [List.mem_cons, List.not_mem_nil, or_false] at hm
    rcases hm with rfl | rfl | rfl | rfl <;> first | exact hKa | exact hK.signers _ hw | exact hKd | exact hK.market
  · intro b hb
    simp only
    rw [ooAt_setOo, if_neg (fun e => by rw [e, ho] at hb; cases hb)]
    exact hb

/-! ### C59 -/

/-- An account leaves; the state reached is a reachable one. -/
theorem can_leave_near {P : Params} {s : State conc} (h : Reach P s) (hq : s.seq ≤ W64) (env : Env) {a : Nat} {o : OpenOrders}
    (ho : ooAt s.oos a = some o) (hcl : o.closed = false) (hf : AllFit s a) (hcap : 0 < s.q.buf.length)
    {coinDst pcDst vs : Nat} {refer : Option Nat} {who : Nat → Prop} (hw : who o.owner)
    (hw' : ∀ k, s.mkt.crankAuth = some k → who k)
    (hvs : P.vaultSigner s.mkt.ownAddress s.mkt.vaultSignerNonce = some vs) (hns : ¬ who vs)
    (hcv : Usable s.toks s.mkt.coinVault s.mkt.coinMint) (hpv : Usable s.toks s.mkt.pcVault s.mkt.pcMint)
    (hcw : Ready s.toks coinDst s.mkt.coinMint (baseClaim s a + (quoteClaim s a + rebateClaim s a)))
    (hpw : Ready s.toks pcDst s.mkt.pcMint (baseClaim s a + (quoteClaim s a + rebateClaim s a)))
    (hrf : ∀ r, refer = some r → Ready s.toks r s.mkt.pcMint (baseClaim s a + (quoteClaim s a + rebateClaim s a)))
    {K : Nat → Prop} (hK : Names P s.mkt who K) (hKv : ∀ v ∈ pending s, K v.owner)
    (hKa : ∀ x, x = a ∨ x = vs ∨ x = coinDst ∨ x = pcDst ∨ some x = refer → K x) :
    ∃ i s', i ≤ (pending s).length + 2 * ((ordersOf s .bid a).length + (ordersOf s .ask a).length) + 2 ∧
      Sends P env who K i s s' ∧ Left s s' a coinDst pcDst refer ∧ Reach P s' ∧ s'.seq = s.seq ∧ s'.q.buf.length = s.q.buf.length := by
  have hns' : ∀ k, who k → P.vaultSigner s.mkt.ownAddress s.mkt.vaultSignerNonce ≠ some k := by
    intro k hk e
    rw [hvs] at e; cases e
    exact hns hk
  obtain ⟨s1, a1, a2, a3, a4, a5⟩ := crank_all (env := env) h hq hK hKv hw' hns' hf
  obtain ⟨o1, c1, c2, c3, c4⟩ := a2.accts a o ho
  obtain ⟨i, s2, b0, b1, b2, b3, b4, b5⟩ := cancel_all (env := env) (who := who) a2.reach (by rw [a2.seq]; exact hq)
    (by rw [a2.mkt]; exact hK) (hKa a (.inl rfl)) c1 (by rw [c2]; exact hw)
    (by rw [a2.mkt]; exact hw') (by rw [a2.mkt]; exact hns') (by rw [a2.cap]; exact hcap) a3 a5
  have ab := a2.trans b2
  obtain ⟨o2, d1, d2, d3, d4⟩ := ab.accts a o ho
  have hf2 := b5 a o2 d1 (.inl rfl)
  have z : ∀ g : EventView → Nat, total g (eventsOf a (pending s2)) = 0 := fun g => by rw [b3]; rfl
  have e1 : o2.coinFree = baseClaim s a := by
    have := d4.base
    have e : baseClaim s2 a = o2.coinFree := by
      unfold baseClaim freeOf
      rw [b4, z, d1]; rfl
    rw [e] at this
    exact this
  have e2 : o2.pcFree = quoteClaim s a := by
    have := d4.quote
    have e : quoteClaim s2 a = o2.pcFree := by
      unfold quoteClaim freeOf
      rw [b4, z, d1]; rfl
    rw [e] at this
    exact this
  have e3 : o2.rebates = rebateClaim s a := by
    have := d4.rebate
    have e : rebateClaim s2 a = o2.rebates := by
      unfold rebateClaim rebatesOf
      rw [z, d1]; rfl
    rw [e] at this
    exact this
  rw [← e1, ← e2, ← e3] at hcw hpw hrf
  have hq2 : s2.seq ≤ W64 := by rw [ab.seq]; exact hq
  obtain ⟨s3, g1, g2⟩ := settle_works ab.reach hq2 env d1 (by rw [d3]; exact hcl) (by unfold Fits at hf2; unfold HoldsFit; omega)
    (coinDst := coinDst) (pcDst := pcDst) (refer := refer) (by rw [ab.mkt]; exact hvs) (by rw [ab.mkt, ab.toks]; exact hcv)
    (by rw [ab.mkt, ab.toks]; exact hpv) (by rw [ab.mkt, ab.toks]; exact hcw) (by rw [ab.mkt, ab.toks]; exact hpw)
    (by rw [ab.mkt, ab.toks]; exact hrf)
  have hsg : ∀ m ∈ settleAccts P s2 a o2.owner coinDst pcDst vs refer, m.signer = true → who m.key := by
    intro m hm hs
    unfold settleAccts at hm
    cases refer <;> simp only [List.append_nil, List.cons_append, List.nil_append, List.mem_cons, List.not_mem_nil, or_false] at hm
    · rcases hm with rfl | rfl | rfl | rfl | rfl | rfl | rfl | rfl | rfl <;> first | (rw [d2]; exact hw) | simp at hs
    · rcases hm with rfl | rfl | rfl | rfl | rfl | rfl | rfl | rfl | rfl | rfl <;> first | (rw [d2]; exact hw) | simp at hs
  have hkeys : ∀ m ∈ settleAccts P s2 a o2.owner coinDst pcDst vs refer, K m.key := by
    intro m hm
    unfold settleAccts at hm
    rw [ab.mkt] at hm
    have ho2 : K o2.owner := by rw [d2]; exact hK.signers _ hw
    have x1 := hKa a (.inl rfl)
    have x2 := hKa vs (.inr (.inl rfl))
    have x3 := hKa coinDst (.inr (.inr (.inl rfl)))
    have x4 := hKa pcDst (.inr (.inr (.inr (.inl rfl))))
    cases refer <;> simp only [List.append_nil, List.cons_append, List.nil_append, List.mem_cons, List.not_mem_nil, or_false] at hm
    · rcases hm with rfl | rfl | rfl | rfl | rfl | rfl | rfl | rfl | rfl <;>
        first | exact hK.market | exact x1 | exact ho2 | exact hK.coinVault | exact hK.pcVault | exact x3 | exact x4 | exact x2 | exact hK.token
    · rcases hm with rfl | rfl | rfl | rfl | rfl | rfl | rfl | rfl | rfl | rfl <;>
        first | exact hK.market | exact x1 | exact ho2 | exact hK.coinVault | exact hK.pcVault | exact x3 | exact x4 | exact x2 |
          exact hK.token | exact hKa _ (.inr (.inr (.inr (.inr rfl))))
  have hraw := raw_of (ix := .settleFunds) trivial (s := s2) (P := P) (env := env) g1
  have h3 : Reach P s3 := ab.reach.step (.instr (fun m hm hs => by rw [ab.mkt]; exact hns' _ (hsg m hm hs)) hraw)
  have hrest : ∀ sd, resting s3 sd = resting s2 sd := by
    obtain ⟨r1, r2, _⟩ := g2.rest
    intro sd; cases sd <;> simp only [resting] <;> simp only [r1, r2]
  have hpend : pending s3 = [] := by rw [← b3]; unfold pending; rw [g2.rest.2.2.1]
  have hord : ∀ sd, ordersOf s3 sd a = [] := fun sd => by rw [← b4 sd]; unfold ordersOf; rw [hrest]
  have hsend : Sends P env who K 1 s2 s3 := .send (ix := .settleFunds) trivial rfl hsg hkeys
    (by unfold settleAccts; cases refer <;> simp) hraw
    (fun b hb => by rw [g2.others b (fun e => by rw [e, d1] at hb; cases hb)]; exact hb) (.done _)
  have hK2 : Names P s2.mkt who K := by rw [ab.mkt]; exact hK
  have hK3 : Names P s3.mkt who K := by
    rw [g2.mkt]
    exact { hK2 with }
  have hord1 : ∀ sd, ordersOf s1 sd a = ordersOf s sd a := fun sd => by unfold ordersOf; rw [a4]
  have hclose := close_one (env := env) (who := who) (dest := 0) h3 (by rw [g2.rest.2.2.2.1]; exact hq2)
    hK3 (hKa a (.inl rfl)) hK.zero g2.after (by simp only; rw [d3]; exact hcl)
    (by simp only; rw [d2]; exact hw) hpend hord rfl rfl
  have hsends := ((a1.trans b1).trans hsend).trans hclose
  have h4 := hclose.reach h3 (by
    intro k hk
    rw [g2.mkt]
    show P.vaultSigner s2.mkt.ownAddress s2.mkt.vaultSignerNonce ≠ some k
    rw [ab.mkt]
    exact hns' k hk)
  refine ⟨_, _, ?_, hsends, ⟨?_, hord, ?_, ?_, ?_, hpend, ?_, ?_⟩, h4, ?_, ?_⟩
  · rw [hord1, hord1] at b0; omega
  · refine ⟨{ o2 with coinFree := 0, pcFree := 0, coinTotal := o2.coinTotal - o2.coinFree, pcTotal := o2.pcTotal - o2.pcFree, rebates := 0, closed := true }, ?_, rfl⟩
    simp only
    rw [ooAt_setOo, if_pos rfl]
  · show eventsOf a (pending s3) = []
    rw [hpend]; rfl
  · have := g2.paid
    rw [e1, e2, e3, ab.toks, ab.mkt] at this
    exact this
  · intro b p hb hp
    obtain ⟨p2, k1, k2, k3, k4⟩ := ab.accts b p hp
    refine ⟨p2, ?_, k2, k3, ?_⟩
    · simp only
      rw [ooAt_setOo, if_neg hb, g2.others b hb]
      exact k1
    · refine k4.trans (us := []) ?_
      refine .same hrest (by rw [b3]; exact hpend) ?_ ?_
      · simp only
        rw [ooAt_setOo, if_neg hb, g2.others b hb]
      · simp only
        rw [g2.mkt]
        exact ⟨rfl, rfl⟩
  · have h5 := g2.enough.2.2
    rw [e1, e2, e3, ab.mkt] at h5
    exact h5
  · show s3.mkt = _
    rw [g2.mkt, e1, e2, e3, ab.mkt]
    have e4 : (if (if 0 < rebateClaim s a then refer else none) = none then rebateClaim s a else 0) =
        if refer = none then rebateClaim s a else 0 := by
      by_cases hr : 0 < rebateClaim s a
      · rw [if_pos hr]
      · rw [if_neg hr]
        split <;> split <;> omega
    rw [e4]
  · show s3.seq = _
    rw [g2.rest.2.2.2.1]; exact ab.seq
  · show s3.q.buf.length = _
    rw [g2.rest.2.2.1]; exact ab.cap

/-- C59. From every reachable state, also of a disabled market, and whatever anybody did before: the owner of an open
account (with the crank authority's signature if the market has one) can send instructions of at most ten accounts, at most
one per queued event, two per order and two more, after which the account is closed and everything that belonged to it, behind orders and in queued events too, is in the
wallets named; what belongs to others is unchanged. It takes: holdings that fit in 64 bits, an event queue with room
for one event when empty, and token accounts the token program accepts. -/
theorem can_leave {P : Params} {s : State conc} (h : Reach P s) (hq : s.seq ≤ W64) (env : Env) {a : Nat} {o : OpenOrders}
    (ho : ooAt s.oos a = some o) (hcl : o.closed = false) (hf : AllFit s a) (hcap : 0 < s.q.buf.length)
    {coinDst pcDst vs : Nat} {refer : Option Nat} {who : Nat → Prop} (hw : who o.owner)
    (hw' : ∀ k, s.mkt.crankAuth = some k → who k)
    (hvs : P.vaultSigner s.mkt.ownAddress s.mkt.vaultSignerNonce = some vs) (hns : ¬ who vs)
    (hcv : Usable s.toks s.mkt.coinVault s.mkt.coinMint) (hpv : Usable s.toks s.mkt.pcVault s.mkt.pcMint)
    (hcw : Ready s.toks coinDst s.mkt.coinMint (baseClaim s a + (quoteClaim s a + rebateClaim s a)))
    (hpw : Ready s.toks pcDst s.mkt.pcMint (baseClaim s a + (quoteClaim s a + rebateClaim s a)))
    (hrf : ∀ r, refer = some r → Ready s.toks r s.mkt.pcMint (baseClaim s a + (quoteClaim s a + rebateClaim s a)))
    {K : Nat → Prop} (hK : Names P s.mkt who K) (hKv : ∀ v ∈ pending s, K v.owner)
    (hKa : ∀ x, x = a ∨ x = vs ∨ x = coinDst ∨ x = pcDst ∨ some x = refer → K x) :
    ∃ i s', i ≤ (pending s).length + 2 * ((ordersOf s .bid a).length + (ordersOf s .ask a).length) + 2 ∧
      Sends P env who K i s s' ∧ Left s s' a coinDst pcDst refer := by
  obtain ⟨i, s', h1, h2, h3, _⟩ := can_leave_near h hq env ho hcl hf hcap hw hw' hvs hns hcv hpv hcw hpw hrf hK hKv hKa
  exact ⟨i, s', h1, h2, h3⟩

theorem ready_of {l : Ledger} {a mint n : Nat}
    (h : (l a).any (fun t => t.mint == mint && !t.frozen && decide (t.amount + n < 2 ^ 64)) = true) : Ready l a mint n := by
  cases ht : l a with
  | none => rw [ht] at h; cases h
  | some t =>
    rw [ht] at h
    simp only [Option.any_some, Bool.and_eq_true, beq_iff_eq, Bool.not_eq_true', decide_eq_true_eq] at h
    exact ⟨t, ht, h.1.1, h.1.2, h.2⟩

theorem allFit_of {s : State conc} (h : (s.oos.all fun x => decide (Fits s x.1 x.2)) = true) (a : Nat) : AllFit s a := by
  intro b o ho _
  have := List.all_eq_true.1 h _ (ooAt_mem ho)
  simpa using this

-- account 42 of the demonstration market, with a resting bid and queued events, leaves with 200 base and 40000 quote
-- units, its referrer with 1
example : ∃ i s', i ≤ 8 ∧ Sends Demo.P Demo.env (· = 12) (· < 100) i Demo.s3 s' ∧ Left Demo.s3 s' 42 22 32 (some 33) ∧
    (baseClaim Demo.s3 42, quoteClaim Demo.s3 42, rebateClaim Demo.s3 42) = (200, 40000, 1) ∧
    (ordersOf Demo.s3 .bid 42).length = 1 ∧ (eventsOf 42 (pending Demo.s3)).length = 3 := by
  obtain ⟨o, ho, hcl, hw⟩ : ∃ o, ooAt Demo.s3.oos 42 = some o ∧ o.closed = false ∧ o.owner = 12 := by
    have h : (ooAt Demo.s3.oos 42).any (fun o => !o.closed && o.owner == 12) = true := by decide +kernel
    cases ho : ooAt Demo.s3.oos 42 with
    | none => rw [ho] at h; cases h
    | some o => rw [ho] at h; simp at h; exact ⟨o, rfl, h.1, h.2⟩
  obtain ⟨i, s', h0, h1, h2⟩ := can_leave Demo.r3 (by decide +kernel) Demo.env ho hcl (allFit_of (by decide +kernel) 42) (by decide +kernel)
    (coinDst := 22) (pcDst := 32) (refer := some 33) (who := (· = 12)) hw
    (by intro k hk; rw [show Demo.s3.mkt.crankAuth = none by decide +kernel] at hk; cases hk)
    (vs := (Demo.P.vaultSigner Demo.s3.mkt.ownAddress Demo.s3.mkt.vaultSignerNonce).getD 0) (by decide +kernel) (by decide +kernel)
    (ready_of (n := 0) (by decide +kernel)).usable (ready_of (n := 0) (by decide +kernel)).usable (ready_of (by decide +kernel))
    (ready_of (by decide +kernel)) (by rintro r e; cases e; exact ready_of (by decide +kernel))
    (K := (· < 100)) ⟨by decide, by decide +kernel, by decide +kernel, by decide +kernel, by decide +kernel, by decide +kernel,
      by decide +kernel, by decide +kernel, fun k e => by rw [e]; decide⟩
    (by decide +kernel)
    (by
      have hvs : (Demo.P.vaultSigner Demo.s3.mkt.ownAddress Demo.s3.mkt.vaultSignerNonce).getD 0 < 100 := by decide +kernel
      rintro x (rfl | rfl | rfl | rfl | e)
      · decide
      · exact hvs
      · decide
      · decide
      · cases e; decide)
  exact ⟨i, s', Nat.le_trans h0 (by decide +kernel), h1, h2, by decide +kernel, by decide +kernel, by decide +kernel⟩

end Serum.Props
