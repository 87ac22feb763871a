import Verif.PropsDisabled

/-!
C11 over histories: the ids of any two orders a market ever accepted.
-/

namespace Serum.Props

/-- An order of side `sd` at `price` was accepted between `s` and `s'` and got `id`: the account named in the
instruction has it in a slot that was free before. -/
def Accepted (P : Params) (s s' : State conc) (sd : Side) (price id : Nat) : Prop :=
  ∃ env accts ix, NotVault P s.mkt accts ∧ OrderValid ix ∧ newOrderV3 conc P env s accts ix = .ok s' ∧
    ix.side = sd ∧ ix.limitPrice = price ∧
    ∃ a o' i, accts[1]? = some a ∧ ooAt s'.oos a.key = some o' ∧ o'.slot i = some (sd, id) ∧
      ∀ o, ooAt s.oos a.key = some o → o.slot i = none

/-- A market went from one state to another: by steps of its history, or by the single orders and cancels that
a replacement instruction consists of. -/
inductive Onward (P : Params) : State conc → State conc → Prop where
  | refl {s : State conc} : Onward P s s
  | step {s s1 s2 : State conc} (h : Onward P s s1) (hs : Step P s1 s2) : Onward P s s2
  | act {s s1 s2 : State conc} {env : Env} {accts : List AccMeta} (h : Onward P s s1)
      (hs : Act P env accts s1 s2) : Onward P s s2

theorem Onward.seq {P : Params} {s s' : State conc} (h : Onward P s s') : s.seq ≤ s'.seq := by
  induction h with
  | refl => exact Nat.le_refl _
  | step _ hs ih => exact Nat.le_trans ih hs.seq
  | act _ hs ih => exact Nat.le_trans ih hs.seq

theorem accounts_at_one {accts : List AccMeta} {a : NewOrderAccts} (h : parseNewOrder accts = .ok a) :
    accts[1]? = some a.oo := by
  unfold parseNewOrder at h
  split at h
  case h_2 => cases h
  split at h
  case isFalse => cases h
  cases h
  rfl

/-- Every accepted order has exactly one such id. -/
theorem accepted_id {P : Params} {s s' : State conc} (h : Reach P s) (hq : s.seq < W64) {env : Env}
    {accts : List AccMeta} {ix : NewOrderIx} (hv : OrderValid ix) (hn : NotVault P s.mkt accts)
    (hx : newOrderV3 conc P env s accts ix = .ok s') :
    ∃ id, Accepted P s s' ix.side ix.limitPrice id := by
  obtain ⟨a, tier, o, o', slot, d, ts, f, evs, e⟩ := place_effect h hq hv hn hx
  refine ⟨genOrderId s.seq ix.limitPrice ix.side, env, accts, ix, hn, hv, hx, rfl, rfl, a.oo, o', slot,
    accounts_at_one e.args.parse, e.account, by rw [e.slots, if_pos rfl], ?_⟩
  intro p hp
  rcases loadOrders_inv e.args.load with ⟨g, _⟩ | ⟨g, _⟩
  · have g' : ooAt s.oos _ = some o := g
    rw [hp] at g'; cases g'
    exact e.slotFree
  · have g' : ooAt s.oos _ = none := g
    rw [hp] at g'; cases g'

/-- The id is the price followed by the number of the order, inverted for bids. -/
theorem accepted_shape {P : Params} {s s' : State conc} (h : Reach P s) (hq : s.seq < W64) {sd : Side}
    {price id : Nat} (ha : Accepted P s s' sd price id) :
    id = genOrderId s.seq price sd ∧ 0 < price ∧ price < W64 ∧ s'.seq = s.seq + 1 := by
  obtain ⟨env, accts, ix, hn, hv, hx, rfl, rfl, a, o', i, h1, h2, h3, h4⟩ := ha
  obtain ⟨A, tier, o, p', slot, d, ts, f, evs, e⟩ := place_effect h hq hv hn hx
  have ea := accounts_at_one e.args.parse
  rw [h1] at ea
  cases ea
  have h2' := e.account
  rw [h2] at h2'
  cases h2'
  refine ⟨?_, Nat.pos_of_ne_zero hv.1.1, hv.1.2, e.seq⟩
  rw [e.slots] at h3
  split at h3
  · cases h3; rfl
  · exfalso
    rcases loadOrders_inv e.args.load with ⟨g, _⟩ | ⟨g, _, _, _, _, w, _, rfl⟩
    · rw [h4 o g] at h3; cases h3
    · rw [init_slot] at h3; cases h3

/-- C11. Two orders of a market, the first accepted before the second, in a market that has numbered fewer than
2^64 orders. Prices are recovered from the ids; on one side the ids differ and sort by price, then time. Ids of
opposite sides differ as long as the market has numbered at most 2^63 orders. -/
theorem order_ids {P : Params} {s1 s1' s2 s2' : State conc} {sd1 sd2 : Side} {p1 p2 id1 id2 : Nat}
    (h1 : Reach P s1) (h2 : Reach P s2) (hl : Onward P s1' s2) (hq : s2.seq < 2 ^ 64)
    (a1 : Accepted P s1 s1' sd1 p1 id1) (a2 : Accepted P s2 s2' sd2 p2 id2) :
    id1 / 2 ^ 64 = p1 ∧ id2 / 2 ^ 64 = p2 ∧ id1 < 2 ^ 128 ∧ id2 < 2 ^ 128 ∧
    (sd1 = sd2 → id1 ≠ id2) ∧
    (sd1 = .ask → sd2 = .ask → (id1 < id2 ↔ p1 ≤ p2)) ∧
    (sd1 = .bid → sd2 = .bid → (id2 < id1 ↔ p2 ≤ p1)) ∧
    (s2.seq < 2 ^ 63 → id1 ≠ id2) := by
  have hle := hl.seq
  have hlt : s1.seq < s2.seq := by
    have : s1.seq < W64 := by
      obtain ⟨env, accts, ix, _, _, hx, _⟩ := a1
      have := (newOrderV3_keeps hx).1.seq
      unfold W64; omega
    have := (accepted_shape h1 this a1).2.2.2
    omega
  obtain ⟨e1, q1, r1, _⟩ := accepted_shape h1 (by unfold W64; omega) a1
  obtain ⟨e2, q2, r2, _⟩ := accepted_shape h2 hq a2
  rw [e1, e2, genOrderId_eq (by unfold W64; omega), genOrderId_eq hq]
  unfold W64 at *
  refine ⟨?_, ?_, ?_, ?_, ?_, ?_, ?_, ?_⟩
  · cases sd1 <;> simp only <;> omega
  · cases sd2 <;> simp only <;> omega
  · cases sd1 <;> simp only <;> omega
  · cases sd2 <;> simp only <;> omega
  · rintro rfl; cases sd1 <;> simp only <;> omega
  · rintro rfl rfl; simp only; omega
  · rintro rfl rfl; simp only; omega
  · cases sd1 <;> cases sd2 <;> simp only <;> omega

/-- Across the sides the bound 2^63 is sharp: the first bid and the 2^64th order, an ask at the same price, would
share their id. -/
example : genOrderId 0 1000 .bid = genOrderId (2 ^ 64 - 1) 1000 .ask := by decide +kernel

-- the ask of 11 at 1000, then the bid of 12 at 1100 which traded with it, then a bid at 900
example : Reach Demo.P Demo.s1 ∧ Onward Demo.P Demo.s2 Demo.s2 ∧
    (∃ id, Accepted Demo.P Demo.s1 Demo.s2 .bid 1100 id) ∧ (∃ id, Accepted Demo.P Demo.s2 Demo.s3 .bid 900 id) :=
  ⟨Demo.r1, .refl,
    accepted_id Demo.r1 (by decide +kernel) (Demo.valid (by decide) : IxValid Demo.i2) (Demo.notVault _ (by decide))
      (Demo.run_eq (by decide +kernel) : process conc Demo.P Demo.env Demo.s1 Demo.a2 Demo.i2 = .ok Demo.s2),
    accepted_id Demo.r2 (by decide +kernel) (Demo.valid (by decide) : IxValid Demo.i3) (Demo.notVault _ (by decide))
      (Demo.run_eq (by decide +kernel) : process conc Demo.P Demo.env Demo.s2 Demo.a2 Demo.i3 = .ok Demo.s3)⟩

end Serum.Props
