import Verif.PropsClaims
import Verif.PropsSame

/-!
# Base balances are whole lots

C115. Base tokens enter, leave and move inside a market only in whole lots: in every reachable state every
account's free base balance, every queued credit of base and the recorded base deposits are multiples of the base
lot size. So an account never holds base that is too small to be sold.
-/

namespace Serum.Props

/-- All base of the market is in whole lots. -/
structure WholeLots (s : State conc) : Prop where
  accounts : ∀ a o, ooAt s.oos a = some o → s.mkt.coinLot ∣ o.coinFree
  events : ∀ v ∈ pending s, s.mkt.coinLot ∣ baseDue v

theorem dvd_total {α : Type} {f : α → Nat} {n : Nat} {l : List α} (h : ∀ x ∈ l, n ∣ f x) : n ∣ total f l := by
  induction l with
  | nil => simp [total]
  | cons x xs ih =>
    rw [total_cons]
    exact Nat.dvd_add (h x List.mem_cons_self) (ih fun y hy => h y (List.mem_cons_of_mem _ hy))

theorem mem_le_total {α : Type} {f : α → Nat} {l : List α} {x : α} (h : x ∈ l) : f x ≤ total f l := by
  induction l with
  | nil => cases h
  | cons y ys ih =>
    rw [total_cons]
    rcases List.mem_cons.1 h with rfl | h
    · omega
    · have := ih h; omega

/-- The events of a matching run credit whole lots. -/
theorem _root_.Serum.Props.Matched.whole {s s' : State conc} {o : OrderParams} {limit : Nat} {ts : List Touch}
    {f : Option Posting} {evs : List EventView} (m : Matched s s' o limit ts f evs)
    (hf : o.side = .ask → tradedLots ts * s.mkt.coinLot < W64) : ∀ v ∈ evs, s.mkt.coinLot ∣ baseDue v := by
  have lock : ∀ sd p n c d e g i, s.mkt.coinLot ∣ baseDue (.out sd true (lockedValue sd s.mkt p n) c d e g i) := by
    intro sd p n c d e g i
    cases sd
    · exact Nat.dvd_zero _
    · exact Nat.dvd_mul_left _ _
  intro v hv
  rcases kinds v with k | k | k | k
  · have : v ∈ evs.filter EventView.isMakerFill := List.mem_filter.2 ⟨hv, k⟩
    rw [m.events.makers] at this
    obtain ⟨t, ht, rfl⟩ := List.mem_map.1 this
    obtain ⟨ht, hft⟩ := List.mem_filter.1 ht
    unfold Touch.makerFill
    cases hs : o.side with
    | bid => exact Nat.dvd_zero _
    | ask =>
      show _ ∣ wmul t.lots s.mkt.coinLot
      have h1 : t.traded ≤ tradedLots ts := mem_le_total (f := Touch.traded) ht
      unfold Touch.traded at h1
      rw [if_pos hft] at h1
      rw [wmul_eq (Nat.lt_of_le_of_lt (Nat.mul_le_mul_right _ h1) (hf hs))]
      exact Nat.dvd_mul_left _ _
  · have : v ∈ evs.filter EventView.isRelease := List.mem_filter.2 ⟨hv, k⟩
    rw [m.events.releases] at this
    rcases List.mem_append.1 this with this | this
    · obtain ⟨t, ht, hv'⟩ := List.mem_flatMap.1 this
      unfold Touch.release at hv'
      split at hv'
      · split at hv'
        · rw [List.mem_singleton.1 hv']
          cases o.side <;> exact Nat.dvd_zero _
        · cases hv'
      · rw [List.mem_singleton.1 hv']; exact lock ..
    · unfold evictRelease at this
      split at this
      · rw [List.mem_singleton.1 this]; exact lock ..
      · cases this
  · cases v with
    | fill sd mk => cases mk
                    · cases sd <;> exact Nat.dvd_zero _
                    · cases k
    | out => cases k
  · cases v with
    | fill => cases k
    | out sd rl => cases rl
                   · cases sd <;> exact Nat.dvd_zero _
                   · cases k

theorem act_whole {P : Params} {env : Env} {accts : List AccMeta} {s s' : State conc} (h : Reach P s)
    (hn : NotVault P s.mkt accts) (hq : s'.seq ≤ W64) (ha : Act P env accts s s') (w : WholeLots s) :
    WholeLots s' := by
  have hs : s.seq ≤ W64 := Nat.le_trans ha.seq hq
  have evs : ∀ {l : List EventView}, s'.mkt.coinLot = s.mkt.coinLot → pending s' = pending s ++ l →
      (∀ v ∈ l, s.mkt.coinLot ∣ baseDue v) → ∀ v ∈ pending s', s'.mkt.coinLot ∣ baseDue v := by
    intro l e1 e2 h v hv
    rw [e1]
    rw [e2] at hv
    rcases List.mem_append.1 hv with hv | hv
    · exact w.events v hv
    · exact h v hv
  have wd : ∀ {a ls}, Withdrawn s s' a ls → WholeLots s' := by
    intro a ls x
    have em : s'.mkt.coinLot = s.mkt.coinLot := by rw [x.mkt]
    refine ⟨?_, evs em x.events ?_⟩
    · intro b o ho
      rw [em]
      by_cases e : b = a
      · subst e
        obtain ⟨p, hp, hp'⟩ := x.account
        rw [ho] at hp'
        cases hp'
        refine Nat.dvd_add (w.accounts _ _ hp) (dvd_total fun y _ => ?_)
        obtain ⟨sd, l⟩ := y
        cases sd
        · exact Nat.dvd_zero _
        · exact Nat.dvd_mul_left _ _
      · rw [x.others b e] at ho
        exact w.accounts _ _ ho
    · intro v hv
      obtain ⟨⟨sd, l⟩, _, rfl⟩ := List.mem_map.1 hv
      cases sd <;> exact Nat.dvd_zero _
  cases ha with
  | idle e => subst e; exact w
  | place hl hv hx =>
    rename_i ix
    have hlt : s.seq < W64 := by have := (newOrderV3_keeps hx).2.1; omega
    obtain ⟨a, tier, p, p', slot, d, ts, f, es, e⟩ := place_effect h hlt hv (hn.subset hl) hx
    have em := e.matched.lots.1
    have hp : s.mkt.coinLot ∣ p.coinFree := by
      rcases loadOrders_inv e.args.load with ⟨g, _⟩ | ⟨_, _, _, _, _, _, _, rfl⟩
      · exact w.accounts _ _ g
      · exact Nat.dvd_zero _
    refine ⟨?_, evs em e.matched.queue (e.matched.whole fun hs => ?_)⟩
    · intro b o ho
      rw [em]
      by_cases hb : b = a.oo.key
      · subst hb
        rw [e.account] at ho
        cases ho
        cases hsd : ix.side with
        | bid =>
          rw [(e.bid hsd).base]
          exact Nat.dvd_add hp (Nat.dvd_mul_left _ _)
        | ask =>
          have m := e.ask hsd
          have hd : s.mkt.coinLot ∣ d := by
            rw [m.deposit]
            exact Nat.dvd_sub (Nat.dvd_mul_left _ _) hp
          have h1 : s.mkt.coinLot ∣ p'.coinFree + (tradedLots ts + postedLots f) * s.mkt.coinLot := by
            rw [m.base]; exact Nat.dvd_add hp hd
          exact (Nat.dvd_add_left (Nat.dvd_mul_left _ _)).1 h1
      · rw [e.others b hb] at ho
        exact w.accounts _ _ ho
    · have m := e.ask hs
      exact Nat.lt_of_le_of_lt (Nat.mul_le_mul_right _ (by have := m.size; omega)) m.fits
  | take hl hv hx =>
    have hlt : s.seq < W64 := by have := (sendTake_keeps hx).2.1; omega
    obtain ⟨a, tier, ts, es, e⟩ := take_effect h hlt hv (hn.subset hl) hx
    have em := e.matched.lots.1
    refine ⟨?_, evs em e.matched.queue (e.matched.whole fun _ => e.lots)⟩
    intro b o ho
    rw [em]
    rw [e.accounts] at ho
    exact w.accounts _ _ ho
  | cancel hl hx => obtain ⟨_, _, _, _, _, _, _, _, _, x⟩ := cancel_withdrawn h hs (.inl ⟨_, _, hx⟩); exact wd x
  | cancelBy hl hx => obtain ⟨_, _, _, _, _, _, _, _, _, x⟩ := cancel_withdrawn h hs (.inr (.inl ⟨_, hx⟩)); exact wd x
  | batch hl hx => obtain ⟨_, _, _, _, _, _, _, _, _, x⟩ := cancel_withdrawn h hs (.inr (.inr ⟨_, hx⟩)); exact wd x
  | prune hl hx => obtain ⟨_, _, _, _, _, _, _, _, _, _, _, _, _, _, _, x, _⟩ := prune_effect h hs hx; exact wd x
  | crank hl hx =>
    obtain ⟨k, _, _, hp, _, hnone, hd, hm, _⟩ := crank_delivers h hs hx
    constructor
    · intro b o ho
      cases hb : ooAt s.oos b with
      | none => rw [hnone b hb] at ho; cases ho
      | some p =>
        obtain ⟨p', g, d⟩ := hd b p hb
        rw [ho] at g
        cases g
        rw [hm, d.coinFree]
        refine Nat.dvd_add (w.accounts _ _ hb) (dvd_total fun v hv => ?_)
        exact w.events v (List.mem_of_mem_take (List.mem_filter.1 hv).1)
    · intro v hv
      rw [hm]
      rw [hp] at hv
      exact w.events v (List.mem_of_mem_drop hv)
  | settle hl hx =>
    obtain ⟨m, oo, owner, cv, pv, cw, pw, vsA, tp, refer, p, rfl, _, hsg, how, st⟩ := settle_effect h hs hx
    have em : s'.mkt.coinLot = s.mkt.coinLot := by rw [st.mkt]
    constructor
    · intro b o ho
      rw [em]
      by_cases e : b = oo.key
      · subst e
        rw [st.after] at ho
        cases ho
        exact Nat.dvd_zero _
      · rw [st.others b e] at ho
        exact w.accounts _ _ ho
    · rw [em]
      unfold pending
      rw [st.rest.2.2.1]
      exact w.events
  | disable hl hx =>
    obtain ⟨_, _, _, _, _, _, e⟩ := disable_inv hx
    subst e
    exact ⟨w.accounts, w.events⟩
  | sweep hl hx =>
    obtain ⟨m, pv, auth, _, vsA, tp, l, rfl, h1, h2, h3, e⟩ := sweep_effect h hs hx
    subst e
    exact ⟨w.accounts, w.events⟩
  | close hl hx =>
    obtain ⟨oo, owner, dest, m, p, rfl, hsg, hp, _, how, _, _, _, e⟩ := (close_is_safe h hs).1 _ _ _ hx
    subst e
    refine ⟨fun b o ho => ?_, w.events⟩
    rw [ooAt_setOo] at ho
    split at ho
    · cases ho
      exact w.accounts oo.key p hp
    · exact w.accounts _ _ ho
  | init hl hx =>
    obtain ⟨oo, owner, m, rent, rest, rfl, hsg, _, hcase⟩ := init_inv hx
    rcases hcase with ⟨e, _⟩ | ⟨e, hnone, _⟩
    · subst e; exact w
    · subst e
      refine ⟨fun b o ho => ?_, w.events⟩
      rw [ooAt_setOo] at ho
      split at ho
      · cases ho
        exact Nat.dvd_zero _
      · exact w.accounts _ _ ho

theorem whole_lots {P : Params} {s : State conc} (h : Reach P s) (hq : s.seq ≤ W64) : WholeLots s := by
  induction h with
  | start h =>
    obtain ⟨buf, hqq, hl⟩ := h.q
    constructor
    · intro a o ho
      rw [h.oos] at ho
      cases ho
    · intro v hv
      unfold pending at hv
      rw [hqq, Queue.iter_eq (Queue.fresh_wf hl), Queue.fresh_toList] at hv
      cases hv
  | @step s s' hr hs ih =>
    have hq0 := Nat.le_trans hs.seq hq
    have hc := ih hq0
    cases hs with
    | instr hn h =>
      obtain ⟨ix, _, hv, hp⟩ := step_instr h
      exact Acts.induct (Q := fun a b => WholeLots a → WholeLots b) (fun _ _ => id) (fun _ _ _ f g => g ∘ f)
        (fun a b hr hn hq h => act_whole hr hn hq h) (process_acts hr hn hv hp) hq hc
    | @purge a o ho hcl =>
      refine ⟨fun b o ho => ?_, hc.events⟩
      rw [ooAt_purge] at ho
      split at ho
      · cases ho
      · exact hc.accounts _ _ ho
    | token hn h => exact ⟨hc.accounts, hc.events⟩

/-- C115, balances. In every reachable state every account's free base, every queued credit of base and the
recorded base deposits are whole numbers of lots. -/
theorem base_whole {P : Params} {s : State conc} (h : Reach P s) (hq : s.seq ≤ W64) :
    (∀ a o, ooAt s.oos a = some o → s.mkt.coinLot ∣ o.coinFree) ∧
    (∀ v ∈ pending s, s.mkt.coinLot ∣ baseDue v) ∧ s.mkt.coinLot ∣ s.mkt.coinDeposits := by
  have w := whole_lots h hq
  refine ⟨w.accounts, w.events, ?_⟩
  rw [base_conservation h hq]
  obtain ⟨vs, _, _, hi⟩ := h.view hq
  refine Nat.dvd_add (Nat.dvd_add (dvd_total fun x hx => ?_) (dvd_total fun _ _ => Nat.dvd_mul_left _ _))
    (dvd_total w.events)
  exact w.accounts x.1 x.2 (ooAt_of_mem hi.shape.keys hx)

/-- C115, transfers. A settlement pays out whole lots of base, and a sell order that needs a deposit takes whole
lots of base from the payer. -/
theorem base_moves_whole {P : Params} {s s' : State conc} (h : Reach P s) {env : Env} {accts : List AccMeta} :
    (s.seq ≤ W64 → settleFunds conc P env s accts = .ok s' →
      ∃ m oo owner cv pv cw rest n l, accts = m :: oo :: owner :: cv :: pv :: cw :: rest ∧
        Paid s.toks l s.mkt.coinVault cw.key (n * s.mkt.coinLot) ∧
        s'.mkt.coinDeposits + n * s.mkt.coinLot = s.mkt.coinDeposits) ∧
    (∀ ix, s.seq < W64 → OrderValid ix → ix.side = .ask → NotVault P s.mkt accts →
      newOrderV3 conc P env s accts ix = .ok s' →
      ∃ a n, parseNewOrder accts = .ok a ∧ n ≤ ix.maxCoinQty ∧
        PaidIn s.toks s'.toks a.payer.key s.mkt.coinVault (n * s.mkt.coinLot) ∧
        s'.mkt.coinDeposits = s.mkt.coinDeposits + n * s.mkt.coinLot) := by
  constructor
  · intro hq hx
    obtain ⟨m, oo, owner, cv, pv, cw, pw, vsA, tp, refer, p, rfl, _, _, _, st⟩ := settle_effect h hq hx
    obtain ⟨n, hn⟩ := (whole_lots h hq).accounts _ _ st.account
    rw [Nat.mul_comm] at hn
    obtain ⟨l1, l2, p1, _⟩ := st.paid
    refine ⟨m, oo, owner, cv, pv, cw, _, n, l1, rfl, hn ▸ p1, ?_⟩
    have e := st.enough.2.2.1
    rw [← hn, st.mkt]
    show s.mkt.coinDeposits - _ + _ = _
    omega
  · intro ix hq hv hs hn hx
    obtain ⟨a, tier, p, p', slot, d, ts, f, es, e⟩ := place_effect h hq hv hn hx
    have w := whole_lots h (Nat.le_of_lt hq)
    have hp : s.mkt.coinLot ∣ p.coinFree := by
      rcases loadOrders_inv e.args.load with ⟨g, _⟩ | ⟨_, _, _, _, _, _, _, rfl⟩
      · exact w.accounts _ _ g
      · exact Nat.dvd_zero _
    have m := e.ask hs
    obtain ⟨k, hk⟩ := hp
    rw [Nat.mul_comm] at hk
    have hd : d = (ix.maxCoinQty - k) * s.mkt.coinLot := by
      rw [m.deposit, hk, Nat.sub_mul]
    have pd := e.paid
    rw [hs] at pd
    refine ⟨a, ix.maxCoinQty - k, e.args.parse, Nat.sub_le _ _, hd ▸ pd, ?_⟩
    rw [m.mkt.mkt, ← hd]
    rfl

-- a reachable market with lots of 100 base units: account 42 holds two lots, five are deposited; a settlement
-- from there pays whole lots
example : Reach Demo.P Demo.s3 ∧ Demo.s3.mkt.coinLot = 100 ∧ Demo.s3.mkt.coinDeposits = 500 ∧
    Demo.s3.oos.map (fun x => x.2.coinFree) = [0, 200] := ⟨Demo.r3, by decide +kernel, by decide +kernel, by decide +kernel⟩
example : Reach Demo.P Demo.s6 ∧ Demo.s6.seq ≤ W64 ∧
    settleFunds conc Demo.P Demo.env Demo.s6 (Demo.settleAccts 42 12 22 32 [Demo.acc 33]) = .ok Demo.s7 :=
  ⟨Demo.r6, by decide +kernel, Demo.e7⟩

end Serum.Props
