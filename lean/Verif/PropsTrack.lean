import Verif.PropsChain
import Verif.PropsLog
import Verif.PropsOffsets
import Verif.DemoChain

/-
C97: what is proved of the history of one market holds of the accounts' bytes on a chain with many markets.
-/

namespace Serum.Props

variable {P : Params} {n : Nat} {c c' : Chain}

/-! ### Following a market -/

theorem Later.trans {s s1 s2 : State conc} (h : Later P s s1) (g : Later P s1 s2) : Later P s s2 := by
  induction g with
  | refl => exact h
  | step _ hs ih => exact .step ih hs

/-- The markets on the chain may be given by any states their bytes stand for. -/
theorem Holds.swap {M : Markets} (I : Holds P n c M) {k : Nat} {s : State conc} (hr : Rep c k s) (h : Reach P s) :
    ∃ M', Holds P n c M' ∧ M' k = some s := by
  obtain ⟨s0, hM, _⟩ := I.found hr.market
  have m := I.mkts _ _ hM
  have nr := rep_unique m.rep hr
  have oos : ∀ a, ooAt s.oos a = ooAt s0.oos a := fun a => nr.2 a trivial
  have nr := nr.1
  refine ⟨fun x => if x = k then some s else M x, ⟨?_, ?_, ?_, I.bytes, I.lens, I.amounts⟩, if_pos rfl⟩
  · intro x u hx
    by_cases e : x = k
    · subst e
      rw [if_pos rfl] at hx
      cases hx
      refine ⟨hr, by rw [nr]; exact m.fits, by rw [nr]; exact m.q, by rw [nr]; exact m.bids, by rw [nr]; exact m.asks,
        fun a o ho => m.oos a o (by rw [← oos]; exact ho), by rw [nr]; exact m.seq, by rw [nr]; exact m.count, fun _ _ => h⟩
    · rw [if_neg e] at hx
      exact I.mkts _ _ hx
  · intro a ha
    rcases I.kinds a ha with h | ⟨x, u, hx, hu⟩
    · exact .inl h
    · by_cases e : x = k
      · subst e
        rw [hM] at hx
        cases hx
        refine .inr ⟨x, s, if_pos rfl, ?_⟩
        rw [nr] at *
        rcases hu with hu | ⟨o, hu⟩
        · exact .inl hu
        · exact .inr ⟨o, by rw [oos]; exact hu⟩
      · exact .inr ⟨x, u, by rw [if_neg e]; exact hx, hu⟩
  · have em : s.mkt = s0.mkt := by rw [nr]
    intro x u y v hx hy hne
    by_cases e : x = k
    · have ey : y ≠ k := fun h => hne (e.trans h.symm)
      rw [if_pos e] at hx
      rw [if_neg ey] at hy
      cases hx
      rw [em]
      exact I.disjoint _ _ _ _ hM hy (fun h => ey h.symm)
    · rw [if_neg e] at hx
      by_cases ey : y = k
      · rw [if_pos ey] at hy
        cases hy
        rw [em]
        exact I.disjoint _ _ _ _ hx hM e
      · rw [if_neg ey] at hy
        exact I.disjoint _ _ _ _ hx hy hne

/-- Whatever happens on the chain, each market on it takes steps of its own history. -/
theorem Holds.follow {M : Markets} (I : Holds P n c M) (hP : VaultsDiffer P) (hn : n + 1 < 2 ^ 61) (hst : CStep P c c') :
    ∃ M', Holds P (n + 1) c' M' ∧
      (∀ k s, M k = some s → 0 < s.mkt.coinLot → 0 < s.mkt.pcLot → ∃ s', M' k = some s' ∧ Later P s s') ∧
      ∀ k s', M' k = some s' → 0 < s'.mkt.coinLot → 0 < s'.mkt.pcLot → M k = none → Genesis P s' := by
  have old : ∀ {M' : Markets}, (∀ k s, M k = some s → ∃ s', M' k = some s') → (∀ k, M k = none → M' k = none) →
      ∀ k s', M' k = some s' → 0 < s'.mkt.coinLot → 0 < s'.mkt.pcLot → M k = none → Genesis P s' := by
    intro M' _ h k s' hs _ _ hk
    rw [h k hk] at hs
    cases hs
  cases hst with
  | instr hk hs hx =>
    rcases exec_cases hx with ⟨ix, W, hu, hW, rfl⟩ | ⟨_, _, rfl⟩ | ⟨ix, k, t, t', hu, _, hl, hp, rfl⟩
    · obtain ⟨_, _, _, hv, _⟩ := decoding_is_strict _ _ hu
      have hlen : ∀ a, (c.accs a).data.length < 2 ^ 63 := fun a => Nat.lt_of_le_of_lt (I.lens a) (by decide)
      obtain ⟨F, s, b, a, q, hF, hs, _, _, _, _, e1, e2, e3, hgen, _⟩ := fresh_market I.bytes hlen hk hv I.amounts hW
      obtain ⟨G, nb, na, nq, hG, _, _, d1, d2, d3, hnone, J⟩ := I.init hk hv hW
      have hFG : F = G := keys_inj (hF.symm.trans hG)
      subst hFG
      rw [← e1] at d1; rw [← e2] at d2; rw [← e3] at d3
      subst d1 d2 d3
      refine ⟨_, J, ?_, ?_⟩
      · intro x u hx _ _
        refine ⟨u, ?_, .refl⟩
        have hne : x ≠ F.market := by rintro rfl; rw [hnone] at hx; cases hx
        simp only [if_neg hne]
        exact hx
      · intro x u hx hc hp hM
        by_cases e : x = F.market
        · simp only [if_pos e] at hx
          have hx := Option.some.inj hx
          rw [← hx, ← hs]
          refine (hgen ?_ ?_).1
          · rw [← hx] at hc; exact hc
          · rw [← hx] at hp; exact hp
        · simp only [if_neg e] at hx
          rw [hM] at hx; cases hx
    · exact ⟨M, ⟨fun k s hM => (I.mkts k s hM).mono, I.kinds, I.disjoint, I.bytes, I.lens, I.amounts⟩,
        fun k s hM _ _ => ⟨s, hM, .refl⟩, old (fun k s h => ⟨s, h⟩) (fun _ h => h)⟩
    · obtain ⟨s, s', hM, _, d, e⟩ := I.exec hP hn hk hs hu hl hp
      rw [e]
      refine ⟨_, I.store hM d, ?_, ?_⟩
      · intro x u hu hc hp
        by_cases e : x = k
        · subst e
          rw [hM] at hu
          cases hu
          exact ⟨s', by simp [Markets.put], d.later⟩
        · exact ⟨_, by simp [Markets.put, e, hu], d.others x u hu e hc hp⟩
      · intro x u hx _ _ hn
        rcases Markets.put_some hx with ⟨rfl, rfl⟩ | ⟨_, v, hv, _⟩
        · rw [hM] at hn; cases hn
        · rw [hv] at hn; cases hn
  | @token sg ix l hs hx =>
    refine ⟨_, I.token hs hx, fun k s hM _ _ => ?_, ?_⟩
    · refine ⟨_, by rw [hM]; rfl, .step .refl (.token (ix := ix) (fun x h => hs x h _ _) ?_)⟩
      · rw [(I.mkts _ _ hM).rep.toks]; exact hx
    · intro x u hx _ _ hn
      rw [hn] at hx; cases hx
  | alter ha =>
    obtain ⟨M', J, hl, hn⟩ := I.alter ha
    refine ⟨M', J, fun k s hM _ _ => hl k s hM, ?_⟩
    intro x u hx _ _ h
    rw [hn x h] at hx; cases hx

/-! ### C97 -/

/-- C97. Follow any market over any stretch of the chain's history, whatever is sent to this market, to others, or to
the token program: if its bytes stand for a state of its history at the start, they stand for a later state of the same
history at the end. So what is proved between a state and a later one holds of the bytes. -/
theorem chain_history (hP : VaultsDiffer P) (hr : CReach P n c) {i : Nat} {d : Chain} (hl : CLater P n c i d)
    (hi : i < 2 ^ 61) {k : Nat} {s : State conc} (h : Rep c k s) (hs : Reach P s) (hc : 0 < s.mkt.coinLot)
    (hp : 0 < s.mkt.pcLot) : ∃ s', Rep d k s' ∧ Later P s s' ∧ s'.seq ≤ W64 ∧ Lasts s.mkt s'.mkt := by
  have seq : ∀ {j e t}, CReach P j e → j < 2 ^ 61 → Rep e k t → t.seq ≤ W64 := by
    intro j e t he hj ht
    obtain ⟨u, hu, _, hq, _⟩ := chain_markets hP he hj ht.market
    rw [(rep_unique hu ht).1]
    exact hq
  induction hl with
  | refl => exact ⟨s, h, .refl, seq hr hi h, .refl _⟩
  | step hl hst ih =>
    obtain ⟨t, ht, hst', _, hlast⟩ := ih hr (by omega) h
    have hrt := hl.reach hr
    obtain ⟨M0, I0⟩ := hrt.holds hP (by omega)
    obtain ⟨M, I, hM⟩ := Holds.swap I0 ht (hst'.reach hs)
    obtain ⟨M', J, hf, _⟩ := Holds.follow I hP hi hst
    have e1 : t.mkt.coinLot = s.mkt.coinLot := by rw [hlast.config]
    have e2 : t.mkt.pcLot = s.mkt.pcLot := by rw [hlast.config]
    obtain ⟨s', hM', hls⟩ := hf k t hM (by omega) (by omega)
    have hr' := (J.mkts _ _ hM').rep
    obtain ⟨m', hm', hla, _⟩ := chain_step_lasts hP hrt hi hst ht.market
    have hm' : loadMarketBytes _ _ true = .ok m' := hm'
    rw [hr'.market] at hm'
    have hm' := Except.ok.inj hm'
    subst hm'
    exact ⟨s', hr', hst'.trans hls, seq (.step hrt hst) hi hr', hlast.trans hla⟩

/-- C97. Every market on the chain goes back to its creation: at some earlier point its bytes stood for a new, empty
market, and they now stand for a later state of that market's history. -/
theorem chain_birth (hP : VaultsDiffer P) (hr : CReach P n c) (hn : n < 2 ^ 61) {k : Nat} {m : Market}
    (hm : IsMarket c k m) (hc : 0 < m.coinLot) (hp : 0 < m.pcLot) :
    ∃ i b g s, CReach P i b ∧ CLater P i b n c ∧ Rep b k g ∧ Genesis P g ∧ Rep c k s ∧ s.mkt = m ∧ Later P g s ∧
      s.seq ≤ W64 := by
  suffices ∃ i b g, CReach P i b ∧ CLater P i b n c ∧ Rep b k g ∧ Genesis P g ∧ 0 < g.mkt.coinLot ∧ 0 < g.mkt.pcLot by
    obtain ⟨i, b, g, h1, h2, h3, h4, h5, h6⟩ := this
    obtain ⟨s, g1, g2, g3, _⟩ := chain_history hP h1 h2 hn h3 (.start h4) h5 h6
    have := g1.market
    have hm : loadMarketBytes _ _ true = .ok m := hm
    rw [hm] at this
    exact ⟨i, b, g, s, h1, h2, h3, h4, g1, (Except.ok.inj this).symm, g2, g3⟩
  induction hr generalizing m with
  | start h =>
    obtain ⟨_, _, ho, _⟩ := market_flags_eq hm
    rw [h.owned] at ho; cases ho
  | @step n c c' h hst ih =>
    obtain ⟨M, I⟩ := h.holds hP (by omega)
    obtain ⟨M', J, hf, hg⟩ := Holds.follow I hP hn hst
    obtain ⟨s', hM', rfl⟩ := J.found hm
    cases hM : M k with
    | none =>
      exact ⟨n + 1, c', s', .step h hst, .refl _ _, (J.mkts _ _ hM').rep, hg k s' hM' hc hp hM, hc, hp⟩
    | some s =>
      have hm0 : IsMarket c k s.mkt := (I.mkts _ _ hM).rep.market
      obtain ⟨m', hm', hla, _⟩ := chain_step_lasts hP h hn hst hm0
      have hm' : loadMarketBytes _ _ true = .ok m' := hm'
      have hm2 : loadMarketBytes _ _ true = .ok s'.mkt := hm
      rw [hm2] at hm'
      have hm' := Except.ok.inj hm'
      rw [hm', hla.config] at hc hp
      obtain ⟨i, b, g, h1, h2, h3⟩ := ih (by omega) hm0 hc hp
      exact ⟨i, b, g, h1, h2.step hst, h3⟩

/-! ### The event queue's bytes -/

/-- The event in the 88 bytes at `off`: the first byte is 1 for a fill and 2 for an out event, plus 4 on the bid side,
plus 8 for a resting order's fill or 16 for an out event whose funds are to be released. -/
def EventBytes (d : List UInt8) (off : Nat) : EventView → Prop
  | .fill side maker paid received fee id owner slot tier cid =>
    leAt d off 1 = 1 + (if side = .bid then 4 else 0) + (if maker then 8 else 0) ∧ leAt d (off + 1) 1 = slot ∧
    leAt d (off + 2) 1 = tier.toU8 ∧ leAt d (off + 8) 8 = received ∧ leAt d (off + 16) 8 = paid ∧
    leAt d (off + 24) 8 = fee ∧ leAt d (off + 32) 16 = id ∧ leAt d (off + 48) 32 = owner ∧ leAt d (off + 80) 8 = cid
  | .out side release unlocked still id owner slot cid =>
    leAt d off 1 = 2 + (if side = .bid then 4 else 0) + (if release then 16 else 0) ∧ leAt d (off + 1) 1 = slot ∧
    leAt d (off + 8) 8 = unlocked ∧ leAt d (off + 16) 8 = still ∧
    leAt d (off + 32) 16 = id ∧ leAt d (off + 48) 32 = owner ∧ leAt d (off + 80) 8 = cid

/-- Slots of an event queue account. -/
def slotsIn (d : List UInt8) : Nat := (d.length - 44) / 88

/-- Where the `j`-th newest event is. -/
def newestAt (d : List UInt8) (j : Nat) : Nat :=
  37 + 88 * ((leAt d 13 8 + leAt d 21 8 + slotsIn d - (j + 1)) % slotsIn d)

/-- Events `E` were written between the bytes `d` and `d'`, and `n` consumed: the number at 29 counts the events ever
written, that at 21 those pending, and the newest events can be read at fixed places. -/
structure LogBytes (d d' : List UInt8) (E : List EventView) (n : Nat) : Prop where
  slots : slotsIn d' = slotsIn d
  counted : leAt d' 29 8 = (leAt d 29 8 + E.length) % 2 ^ 64
  pending : leAt d' 21 8 + n = leAt d 21 8 + E.length
  kept : ∀ j v, E.reverse[j]? = some v → j < slotsIn d' → EventBytes d' (newestAt d' j) v

theorem event_bytes {d : List UInt8} {off : Nat} {v : EventView} (h : EventAt d off (Event.new v)) : EventBytes d off v := by
  obtain ⟨h1, h2, h3, h4, h5, h6, h7, h8, h9⟩ := h
  cases v with
  | fill side maker paid received fee id owner slot tier cid =>
    refine ⟨?_, h2.symm, h3.symm, h4.symm, h5.symm, h6.symm, h7.symm, h8.symm, h9.symm⟩
    rw [← h1]
    cases side <;> cases maker <;> rfl
  | out side release unlocked still id owner slot cid =>
    refine ⟨?_, h2.symm, h4.symm, h5.symm, h7.symm, h8.symm, h9.symm⟩
    rw [← h1]
    cases side <;> cases release <;> rfl

theorem Taped.bytes {s s' : State conc} {E : List EventView} {r : Nat} (h : Taped s s' E r) {d d' : List UInt8}
    (hd : loadEventQBytes d = .ok s.q) (hd' : loadEventQBytes d' = .ok s'.q) : LogBytes d d' E r := by
  obtain ⟨_, a⟩ := event_queue_offsets hd
  obtain ⟨_, b⟩ := event_queue_offsets hd'
  have hr := h.ring
  have hl : s'.q.buf.length = s.q.buf.length := by rw [hr.buf, laid_length]
  have e : slotsIn d' = s'.q.buf.length := b.size.2.symm
  refine ⟨?_, ?_, ?_, fun j v hv hj => ?_⟩
  · rw [e, hl]; exact a.size.2
  · rw [← a.seq, ← b.seq]
    simpa [W64] using hr.seq
  · rw [← a.count, ← b.count]
    simpa using hr.count
  · have hE : j < E.length := by
      have := (List.getElem?_eq_some_iff.1 hv).1
      simpa using this
    rw [List.getElem?_reverse hE] at hv
    rw [e] at hj
    have hb := hr.back (j := j) (by simpa using hE) hj
    rw [List.length_map, List.getElem?_map, hv] at hb
    have := b.events _ _ hb
    unfold newestAt
    rw [e, ← b.head, ← b.count]
    exact event_bytes this

/-- C97. A reader of the event queue account of any market: between two points of the chain's history the account shows
how many events were written and consumed, and the newest of those written, in bytes at fixed places. They tell the
record of orders, trades and withdrawals on that market, which explains both sides of its book. -/
theorem chain_event_log (hP : VaultsDiffer P) (hr : CReach P n c) {i : Nat} {d : Chain} (hl : CLater P n c i d)
    (hi : i < 2 ^ 61) {k : Nat} {m : Market} (hm : IsMarket c k m) (hc : 0 < m.coinLot) (hp : 0 < m.pcLot) :
    ∃ s s' E r N, Rep c k s ∧ Rep d k s' ∧ Reach P s ∧ Later P s s' ∧
      LogBytes (c.accs m.eventQ).data (d.accs m.eventQ).data E r ∧ Record P s s' N ∧ Balanced s s' N ∧ Tells m E N := by
  have hn : n < 2 ^ 61 := by
    have : n ≤ i := by
      clear hi
      induction hl with
      | refl => exact Nat.le_refl _
      | step _ _ ih => exact Nat.le_succ_of_le (ih hr hm)
    omega
  obtain ⟨s, h1, rfl, _, h2⟩ := chain_markets hP hr hn hm
  obtain ⟨s', g1, g2, g3, g4⟩ := chain_history hP hr hl hi h1 (h2 hc hp) hc hp
  obtain ⟨E, r, N, t⟩ := logs_all (h2 hc hp) g2 g3
  have e : s'.mkt.eventQ = s.mkt.eventQ := by rw [g4.config]
  exact ⟨s, s', E, r, N, h1, g1, h2 hc hp, g2, t.taped.bytes h1.eventQ (e ▸ g1.eventQ), t.record, t.book, t.tells⟩

/-- C97. The bounds of C95 hold of every account of every market on the chain, over the market's whole life. -/
theorem chain_gains_bounded (hP : VaultsDiffer P) (hr : CReach P n c) (hn : n < 2 ^ 61) {k : Nat} {m : Market}
    (hm : IsMarket c k m) (hc : 0 < m.coinLot) (hp : 0 < m.pcLot) :
    ∃ i b g s J N, CReach P i b ∧ CLater P i b n c ∧ Rep b k g ∧ Genesis P g ∧ Rep c k s ∧ s.mkt = m ∧ Told P g s J N ∧
      ∀ a, a ≠ 0 → InBounds s g.mkt J N a := by
  obtain ⟨i, b, g, s, h1, h2, h3, h4, h5, h6, h7, h8⟩ := chain_birth hP hr hn hm hc hp
  obtain ⟨J, N, t, hb⟩ := gains_and_losses_bounded h4 h7 h8
  exact ⟨i, b, g, s, J, N, h1, h2, h3, h4, h5, h6, t, hb⟩

end Serum.Props

namespace Serum.DemoChain
open Serum.Props

/-- The chain after the ask. -/
def c4 : Chain := storeState c3 50 s50 after (orderAccts.map (·.key))

theorem r4 : CReach P 15 c4 ∧ Rep c4 50 after ∧ CLater P 14 c3 15 c4 := by
  have hk := keys_small (l := orderAccts) (by decide)
  have hu : Instruction.unpack order.pack = some order := instruction_round_trip _ (by
    refine ⟨?_, ?_, ?_, ?_, ?_, ?_⟩ <;> decide)
  have h := chain_exec differ r3 (by decide) hk.1 hk.2 hu (by constructor <;> intro _ h <;> cases h) rfl reps.1 (fun _ => true) 0
  obtain ⟨c, hc, r⟩ := h.1 _ goes
  obtain ⟨M0, I0⟩ := r3.holds differ (by decide)
  obtain ⟨M, I, hM⟩ := Holds.swap I0 reps.1 (minvs.1.reach (by decide) (by decide))
  have e : c = c4 := by
    rcases exec_cases hc with ⟨ix, W, hu', _⟩ | ⟨_, hu', _⟩ | ⟨ix, k, t, t', hu', hk', hl, hp, rfl⟩
    · rw [hu] at hu'; cases hu'
    · rw [hu] at hu'; cases hu'
    · rw [hu] at hu'
      cases hu'
      cases hk'
      obtain ⟨s, s', hM', hp', _, e⟩ := I.exec differ (by decide) hk.1 hk.2 hu hl hp
      have hM' : M 50 = some s := hM'
      rw [hM] at hM'
      have hM' := Option.some.inj hM'
      subst hM'
      rw [goes] at hp'
      have hp' := Except.ok.inj hp'
      subst hp'
      exact e
  subst e
  exact ⟨.step r3 (.instr hk.1 hk.2 hc), r, .step (.refl _ _) (.instr hk.1 hk.2 hc)⟩

/-- From account 42, 11 bids for 2 lots at 1100 on market 50: a trade at 1000. -/
def order2 : Instruction := Demo.i2
def orderAccts2 : List AccMeta :=
  [Demo.acc 50, Demo.acc 42, Demo.acc 53, Demo.acc 54, Demo.acc 55, Demo.acc 56, Demo.acc 31, Demo.sig 11, Demo.acc 51, Demo.acc 52,
   Demo.acc 73, Demo.acc 0]

def traded : State conc :=
  match process conc P (envOf 0 c4) after orderAccts2 order2 with
  | .ok s => s
  | .error _ => after

theorem goes2 : process conc P (envOf 0 c4) after orderAccts2 order2 = .ok traded := by
  have h : (match process conc P (envOf 0 c4) after orderAccts2 order2 with | .ok _ => true | .error _ => false) = true := by
    decide +kernel
  unfold traded
  revert h
  cases process conc P (envOf 0 c4) after orderAccts2 order2 with
  | ok s => exact fun _ => rfl
  | error e => exact fun h => by cases h

theorem traded_log : eventsSince traded 0 = [some (.fill .ask true 200 20000 0 18446744073709551616000 41 0 .base 7),
    some (.fill .bid false 20008 200 8 (genOrderId 1 1100 .bid) 42 0 .base 8),
    some (.out .bid false 9992 0 (genOrderId 1 1100 .bid) 42 0 8)] := by decide +kernel

theorem traded_queue : (traded.q.seq, traded.q.count, traded.mkt.eventQ, s50.mkt.eventQ, s50.q.seq) = (3, 3, 54, 54, 0) := by
  decide +kernel

set_option linter.constructorNameAsVariable false in
/-- On the chain with two markets, from the creation of the second on: a reader of account 54 finds that three events were
written, in the bytes from 37, 125 and 213. -/
example : ∃ c, CReach P 14 c3 ∧ CLater P 14 c3 16 c ∧ IsMarket c3 50 s50.mkt ∧ (∃ m, IsMarket c 150 m ∧ Lasts s150.mkt m) ∧
    leAt (c3.accs 54).data 29 8 = 0 ∧ leAt (c.accs 54).data 29 8 = 3 ∧
    (∃ E r N, LogBytes (c3.accs 54).data (c.accs 54).data E r ∧ Tells s50.mkt E N ∧ E.length % 2 ^ 64 = 3) ∧
    EventBytes (c.accs 54).data 37 (.fill .ask true 200 20000 0 18446744073709551616000 41 0 .base 7) ∧
    EventBytes (c.accs 54).data 125 (.fill .bid false 20008 200 8 (genOrderId 1 1100 .bid) 42 0 .base 8) ∧
    EventBytes (c.accs 54).data 213 (.out .bid false 9992 0 (genOrderId 1 1100 .bid) 42 0 8) := by
  have hk := keys_small (l := orderAccts2) (by decide)
  have hu : Instruction.unpack order2.pack = some order2 := instruction_round_trip _ (by
    refine ⟨?_, ?_, ?_, ?_, ?_, ?_⟩ <;> decide)
  have h := chain_exec differ r4.1 (by decide) hk.1 hk.2 hu (by constructor <;> intro _ h <;> cases h) rfl r4.2.1 (fun _ => true) 0
  obtain ⟨c, hc, r⟩ := h.1 _ goes2
  have hl : CLater P 14 c3 16 c := r4.2.2.step (.instr hk.1 hk.2 hc)
  obtain ⟨q1, q2, q3, q4, q5⟩ := by simpa using traded_queue
  obtain ⟨m', hm', hla⟩ := chain_lasts differ hl r3 (by decide) reps.2.market
  obtain ⟨s, s', E, rr, N, h1, h2, h3, h4, h5, _, _, h6⟩ := chain_event_log differ r3 hl (by decide) (m := s50.mkt) reps.1.market
    (by decide) (by decide)
  have b0 := (event_queue_offsets reps.1.eventQ).2
  have b1 := (event_queue_offsets r.eventQ).2
  rw [q4] at b0
  rw [q3] at b1
  have hlen : E.length % 2 ^ 64 = 3 := by
    have := h5.counted
    rw [q4, ← b1.seq, q1, ← b0.seq, q5] at this
    omega
  refine ⟨c, r3, hl, reps.1.market, ?_, ?_, ?_, ⟨E, rr, N, by rw [q4] at h5; exact h5, h6, hlen⟩, ?_, ?_, ?_⟩
  · exact ⟨m', hm', hla⟩
  · rw [← b0.seq, q5]
  · rw [← b1.seq, q1]
  · refine event_bytes (b1.events 0 _ ?_)
    decide +kernel
  · refine event_bytes (b1.events 1 _ ?_)
    decide +kernel
  · refine event_bytes (b1.events 2 _ ?_)
    decide +kernel

end Serum.DemoChain
