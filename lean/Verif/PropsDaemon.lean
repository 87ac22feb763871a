import Verif.PropsCrankClient
import Verif.PropsLog
import Verif.Daemon

/-!
C116: when the crank sends.
-/

namespace Serum.Props
open Crank

variable {o : LoopOpts} {st st' : Daemon} {l : Look} {calls : List Call}

/-! ### One pass -/

/-- The node shows an event queue account of `n` events. -/
def Shows (l : Look) (n : Nat) : Prop :=
  ∃ d q, l.eventQ = some d ∧ loadEventQBytes d = .ok q ∧ q.WF ∧ 0 < q.buf.length ∧ q.iter.length = n

theorem Shows.read {n : Nat} (h : Shows l n) : ∃ d, l.eventQ = some d ∧ readLength d = .ok n := by
  obtain ⟨d, q, h1, h2, h3, h4, h5⟩ := h
  obtain ⟨b, s0, s1, e1, e2, e3⟩ := crank_reads_queue h2 h3 h4
  refine ⟨d, h1, ?_⟩
  unfold readLength
  simp only [bind, Except.bind, e1, e2, pure, Except.pure]
  rw [← List.length_append, e3, h5]

/-- A pass either leaves everything as it was or is a round. -/
theorem pass_cases (h : pass o st l = .ok (st', calls)) :
    (st' = st ∧ calls = []) ∨
      st.maxSlot < l.slot ∧ st'.last = l.done ∧
        (st'.maxSlot = st.maxSlot ∧ (∀ i < calls.length, l.took i = false) ∨
          st'.maxSlot = l.slot ∧ ∃ i < calls.length, l.took i = true) ∧
        ∃ d r len, l.eventQ = some d ∧ l.reqQ = some r ∧ readLength d = .ok len ∧ 0 < len ∧
          (o.maxWait * 1000000000 ≤ l.now - st.last ∨ o.maxQ ≤ len) ∧
          loopCalls o.prog o.keys o.coinWallet o.pcWallet o.workers o.perWorker o.numAccounts d r = .ok calls := by
  unfold pass at h
  split at h
  · cases h; exact .inl ⟨rfl, rfl⟩
  rename_i hs
  obtain ⟨d, h1, h⟩ := bind_ok h
  obtain ⟨r, h2, h⟩ := bind_ok h
  obtain ⟨len, h3, h⟩ := bind_ok h
  obtain ⟨_, h4, h⟩ := bind_ok h
  split at h
  · cases h; exact .inl ⟨rfl, rfl⟩
  split at h
  · cases h; exact .inl ⟨rfl, rfl⟩
  rename_i h5 h6
  unfold secs at h6
  obtain ⟨cs, h7, h⟩ := bind_ok h
  cases h
  have hd : l.eventQ = some d := by
    unfold pass.checkSome at h1
    split at h1
    · cases h1; assumption
    · cases h1
  have hr : l.reqQ = some r := by
    unfold pass.checkSome at h2
    split at h2
    · cases h2; assumption
    · cases h2
  refine .inr ⟨by omega, rfl, ?_, d, r, len, hd, hr, h3, by omega, by omega, h7⟩
  by_cases ha : (List.range calls.length).any l.took = true
  · refine .inr ⟨?_, ?_⟩
    · simp only [ha, if_true]; omega
    · obtain ⟨i, hi, ht⟩ := List.any_eq_true.1 ha
      exact ⟨i, List.mem_range.1 hi, ht⟩
  · refine .inl ⟨?_, fun i hi => ?_⟩
    · simp only [ha]; rfl
    · cases hc : l.took i with
      | false => rfl
      | true => exact absurd (List.any_eq_true.2 ⟨i, List.mem_range.2 hi, hc⟩) ha

/-- C116. Nothing is sent for a slot already cranked, for an empty queue, or for a queue that is short so soon after the last
round; and then nothing is remembered of the pass. -/
theorem daemon_quiet {n : Nat} (hn : Shows l n) (hr : ∃ r, l.reqQ = some r ∧ CrankReq r)
    (h : l.slot ≤ st.maxSlot ∨ n = 0 ∨ (l.now - st.last < o.maxWait * 1000000000 ∧ n < o.maxQ)) : pass o st l = .ok (st, []) := by
  obtain ⟨d, h1, h2⟩ := hn.read
  obtain ⟨r, r1, r2⟩ := hr
  obtain ⟨b, e1, e2⟩ := crank_reads_requests r2
  unfold pass
  split
  · rfl
  simp only [h1, r1, pass.checkSome, bind, Except.bind, h2]
  have : readLength r = .ok 0 := by
    unfold readLength
    simp only [bind, Except.bind, e1, e2, pure, Except.pure]
    rfl
  rw [this]
  simp only
  split
  · rfl
  · rw [if_pos (by unfold secs; omega)]

/-- The loop runs on the market of `s` with arguments a round can be made with. -/
structure Runs (o : LoopOpts) (s : State conc) : Prop where
  market : o.keys.market = s.mkt.ownAddress
  eventQ : o.keys.eventQ = s.mkt.eventQ
  workers : 0 < o.workers
  perWorker : 0 < o.perWorker
  fits : U16 o.perWorker

/-- The node shows the accounts of `s`, the event queue with room for something. -/
structure Sees (l : Look) (s : State conc) : Prop where
  room : 0 < s.q.buf.length
  eventQ : ∃ d, l.eventQ = some d ∧ loadEventQBytes d = .ok s.q
  reqQ : ∃ r, l.reqQ = some r ∧ CrankReq r

/-- It is time for a round: the slot is new, something waits, and either much waits or the last round is long ago. -/
def RoundDue (o : LoopOpts) (st : Daemon) (l : Look) (n : Nat) : Prop :=
  st.maxSlot < l.slot ∧ 0 < n ∧ (o.maxWait * 1000000000 ≤ l.now - st.last ∨ o.maxQ ≤ n)

theorem Sees.shows {P : Params} {sg : Nat → Bool} {s : State conc} (h : Sees l s) (hc : Crankable P sg s) :
    Shows l (pending s).length := by
  obtain ⟨d, h1, h2⟩ := h.eventQ
  exact ⟨d, s.q, h1, h2, (hc.reach.good hc.seq).rs.q.1, h.room, (iter_owners hc.reach hc.seq).2⟩

/-- C116. When a round is due the loop makes it, and if the node executes what is sent, events are delivered from the front of
the queue. -/
theorem daemon_cranks {P : Params} {env : Env} {sg : Nat → Bool} {s : State conc} (hc : Crankable P sg s) (ho : Runs o s)
    (hs : Sees l s) (hd : RoundDue o st l (pending s).length) :
    ∃ calls s', pass o st l = .ok (⟨if (List.range calls.length).any l.took then l.slot else st.maxSlot, l.done⟩, calls) ∧
      calls ≠ [] ∧ calls.length ≤ o.workers ∧ SentAll P env sg s calls s' ∧ Crankable P sg s' ∧ s'.mkt = s.mkt ∧
      ∃ k > 0, k ≤ (pending s).length ∧ pending s' = (pending s).drop k := by
  have hp : pending s ≠ [] := List.length_pos_iff.1 hd.2.1
  obtain ⟨d, h1, h2⟩ := (hs.shows hc).read
  obtain ⟨d', h1', h3⟩ := hs.eventQ
  obtain ⟨r, r1, r2⟩ := hs.reqQ
  obtain ⟨b, e1, e2⟩ := crank_reads_requests r2
  cases h1.symm.trans h1'
  obtain ⟨calls, s', g1, g2, g3, g4, g5, _, k, k1, k2, k3, _⟩ := crank_round (env := env) hc h3 r2 ho.market ho.eventQ
    o.prog o.coinWallet o.pcWallet o.numAccounts ho.workers ho.perWorker ho.fits hp
  refine ⟨calls, s', ?_, ?_, g5, g2, g3, g4, k, k1, k2, k3⟩
  · unfold pass
    rw [if_neg (by have := hd.1; omega)]
    have : readLength r = .ok 0 := by
      unfold readLength
      simp only [bind, Except.bind, e1, e2, pure, Except.pure]
      rfl
    simp only [h1, r1, pass.checkSome, bind, Except.bind, h2, this]
    rw [if_neg (by have := hd.2.1; omega), if_neg (by have := hd.2.2; unfold secs; omega)]
    simp only [g1]
    rw [Nat.max_eq_left (by have := hd.1; omega)]
  · intro hn
    subst hn
    have : s' = s := by cases g2; rfl
    rw [this] at k3
    have := congrArg List.length k3
    rw [List.length_drop] at this
    omega

/-- C116. On such a market the loop sends exactly when a round is due. -/
theorem daemon_sends_iff {P : Params} {sg : Nat → Bool} {s : State conc} (hc : Crankable P sg s) (ho : Runs o s)
    (hs : Sees l s) :
    ∃ st' calls, pass o st l = .ok (st', calls) ∧ (calls ≠ [] ↔ RoundDue o st l (pending s).length) := by
  by_cases hd : RoundDue o st l (pending s).length
  · obtain ⟨calls, _, h1, h2, _⟩ := daemon_cranks (env := ⟨0, fun _ => .zeroed true⟩) hc ho hs hd
    exact ⟨_, calls, h1, fun _ => hd, fun _ => h2⟩
  · refine ⟨st, [], daemon_quiet (hs.shows hc) hs.reqQ ?_, by simp, fun h => absurd h hd⟩
    unfold RoundDue at hd
    omega

/-! ### Runs -/

theorem passes_mono {ls : List Look} {tr : List (Look × List Call)} (h : passes o st ls = .ok (st', tr)) :
    st.maxSlot ≤ st'.maxSlot ∧ tr.map (·.1) = ls ∧ ∀ x ∈ tr, x.2 ≠ [] → st.maxSlot < x.1.slot := by
  induction ls generalizing st tr with
  | nil => cases h; exact ⟨Nat.le_refl _, rfl, by simp⟩
  | cons l ls ih =>
    unfold passes at h
    obtain ⟨⟨s1, cs⟩, h1, h⟩ := bind_ok h
    obtain ⟨⟨s2, rest⟩, h2, h⟩ := bind_ok h
    cases h
    obtain ⟨i1, i2, i3⟩ := ih h2
    have hm : st.maxSlot ≤ s1.maxSlot ∧ (cs ≠ [] → st.maxSlot < l.slot) := by
      rcases pass_cases h1 with ⟨h3, h4⟩ | ⟨h3, _, h4, _⟩
      · rw [h3]; exact ⟨Nat.le_refl _, fun h => absurd h4 h⟩
      · refine ⟨?_, fun _ => h3⟩
        rcases h4 with ⟨h4, _⟩ | ⟨h4, _⟩ <;> omega
    refine ⟨by omega, by simp [i2], fun x hx hne => ?_⟩
    rcases List.mem_cons.1 hx with rfl | hx
    · exact hm.2 hne
    · have := i3 x hx hne
      omega

/-- The node took one of the transactions of a pass. -/
def Took (x : Look × List Call) : Prop := ∃ i < x.2.length, x.1.took i = true

/-- C116. In a run, after a round of which the node took a transaction, nothing is ever sent again for what was seen at that
slot or before. -/
theorem slots_increase {ls : List Look} {tr : List (Look × List Call)} (h : passes o st ls = .ok (st', tr)) :
    tr.Pairwise fun a b => Took a → b.2 ≠ [] → a.1.slot < b.1.slot := by
  induction ls generalizing st tr with
  | nil => cases h; exact List.Pairwise.nil
  | cons l ls ih =>
    unfold passes at h
    obtain ⟨⟨s1, cs⟩, h1, h⟩ := bind_ok h
    obtain ⟨⟨s2, rest⟩, h2, h⟩ := bind_ok h
    cases h
    refine List.pairwise_cons.2 ⟨fun b hb ⟨i, hi, ht⟩ hne => ?_, ih h2⟩
    have hlt := (passes_mono h2).2.2 b hb hne
    rcases pass_cases h1 with ⟨_, h4⟩ | ⟨_, _, h4, _⟩
    · subst h4; exact absurd hi (by simp)
    · rcases h4 with ⟨_, h4⟩ | ⟨h4, _⟩
      · rw [h4 i hi] at ht; cases ht
      · show l.slot < _
        omega

/-- Time does not run backwards. -/
def Clock (ls : List Look) : Prop := (∀ l ∈ ls, l.now ≤ l.done) ∧ ls.Pairwise fun a b => a.done ≤ b.now

theorem passes_last {ls : List Look} {tr : List (Look × List Call)} (h : passes o st ls = .ok (st', tr)) (hc : Clock ls)
    {t : Nat} (ht : t ≤ st.last) (hl : ∀ l ∈ ls, st.last ≤ l.now) {b : Look × List Call} (hb : b ∈ tr) (hne : b.2 ≠ [])
    {n : Nat} (hn : Shows b.1 n) : t + o.maxWait * 1000000000 ≤ b.1.now ∨ o.maxQ ≤ n := by
  induction ls generalizing st tr with
  | nil => cases h; cases hb
  | cons l ls ih =>
    unfold passes at h
    obtain ⟨⟨s1, cs⟩, h1, h⟩ := bind_ok h
    obtain ⟨⟨s2, rest⟩, h2, h⟩ := bind_ok h
    cases h
    have hp := List.pairwise_cons.1 hc.2
    have hln := hl l List.mem_cons_self
    have hld := hc.1 l List.mem_cons_self
    rcases List.mem_cons.1 hb with rfl | hb
    · rcases pass_cases h1 with ⟨_, h4⟩ | ⟨_, _, _, d, _, len, d1, _, d2, _, d3, _⟩
      · exact absurd h4 hne
      · obtain ⟨d', e1, e2⟩ := hn.read
        cases d1.symm.trans e1
        cases d2.symm.trans e2
        rcases d3 with d3 | d3
        · left
          show _ ≤ l.now
          omega
        · exact .inr d3
    · refine ih h2 ⟨fun l hl => hc.1 l (List.mem_cons_of_mem _ hl), hp.2⟩ ?_ ?_ hb
      · rcases pass_cases h1 with ⟨h3, _⟩ | ⟨_, h3, _⟩
        · rw [h3]; exact ht
        · omega
      · intro x hx
        have := hp.1 x hx
        rcases pass_cases h1 with ⟨h3, _⟩ | ⟨_, h3, _⟩
        · rw [h3]; exact hl x (List.mem_cons_of_mem _ hx)
        · omega

/-- C116. Two rounds of a run are apart by the waiting time, unless the later one found the queue long. -/
theorem rounds_spaced {ls : List Look} {tr : List (Look × List Call)} (h : passes o st ls = .ok (st', tr)) (hc : Clock ls) :
    tr.Pairwise fun a b => a.2 ≠ [] → b.2 ≠ [] → ∀ n, Shows b.1 n → a.1.done + o.maxWait * 1000000000 ≤ b.1.now ∨ o.maxQ ≤ n := by
  induction ls generalizing st tr with
  | nil => cases h; exact List.Pairwise.nil
  | cons l ls ih =>
    unfold passes at h
    obtain ⟨⟨s1, cs⟩, h1, h⟩ := bind_ok h
    obtain ⟨⟨s2, rest⟩, h2, h⟩ := bind_ok h
    cases h
    have hp := List.pairwise_cons.1 hc.2
    have hc' : Clock ls := ⟨fun l hl => hc.1 l (List.mem_cons_of_mem _ hl), hp.2⟩
    refine List.pairwise_cons.2 ⟨fun b hb hne hne' n hn => ?_, ih h2 hc'⟩
    rcases pass_cases h1 with ⟨_, h4⟩ | ⟨_, h3, _⟩
    · exact absurd h4 hne
    · exact passes_last h2 hc' (Nat.le_of_eq h3.symm) (fun x hx => by rw [h3]; exact hp.1 x hx) hb hne' hn

/-! ### Service -/

/-- Passes of the loop on a market on which others act as well: before each pass and after the last anything may happen; the
node shows the market as it is, and the calls of the pass are executed in order. -/
inductive Serving (P : Params) (env : Env) (sg : Nat → Bool) (o : LoopOpts) : Daemon → State conc → List Look → State conc → Prop where
  | nil {st s s'} (h : Later P s s') : Serving P env sg o st s [] s'
  | cons {st st1 s t u s' l ls calls} (h : Later P s t) (hc : Crankable P sg t) (ho : Runs o t) (hs : Sees l t)
      (hp : pass o st l = .ok (st1, calls)) (hx : SentAll P env sg t calls u) (hr : Serving P env sg o st1 u ls s') :
      Serving P env sg o st s (l :: ls) s'

/-- Every pass sees a newer slot, and the passes are apart by the waiting time. -/
def Brisk (o : LoopOpts) (st : Daemon) (ls : List Look) : Prop :=
  (∀ l ∈ ls, st.maxSlot < l.slot ∧ st.last + o.maxWait * 1000000000 ≤ l.now) ∧
    ls.Pairwise fun a b => a.slot < b.slot ∧ a.done + o.maxWait * 1000000000 ≤ b.now

/-- C116. While the loop is running nobody waits for ever: whatever else happens on the market, after as many such passes as
there were events in the queue, all of those have been delivered. -/
theorem daemon_serves {P : Params} {env : Env} {sg : Nat → Bool} {s s' : State conc} {ls : List Look}
    (hx : Serving P env sg o st s ls s') (hb : Brisk o st ls) (h : Reach P s) (hq : s'.seq ≤ W64) :
    ∃ E n, n ≤ (pending s).length + E.length ∧ pending s' = (pending s ++ E).drop n ∧ (ls.length ≤ n ∨ (pending s).length ≤ n) := by
  induction hx with
  | nil hl =>
    obtain ⟨E, n, N, hL⟩ := logs_all h hl hq
    exact ⟨E, n, hL.taped.consumed, hL.taped.queue, .inl (Nat.zero_le _)⟩
  | @cons st st1 s t u s' l ls calls hl hc ho hs hp hsent hr ih =>
    obtain ⟨E, n, N, hL⟩ := logs_all h hl hc.seq
    have q1 := hL.taped.consumed
    have q2 := hL.taped.queue
    have hlen : (pending t).length = (pending s).length + E.length - n := by rw [q2]; simp
    have hbp := List.pairwise_cons.1 hb.2
    have hl0 := hb.1 l List.mem_cons_self
    by_cases hd : RoundDue o st l (pending t).length
    · obtain ⟨calls', u', p1, _, _, p2, p3, _, k, k1, k2, k3⟩ := daemon_cranks (env := env) hc ho hs hd
      rw [hp] at p1
      cases p1
      cases hsent.unique p2
      obtain ⟨E', n', r1, r2, r3⟩ := ih (by
        refine ⟨fun x hx => ?_, hbp.2⟩
        have e1 := hbp.1 x hx
        have e2 := hb.1 x (List.mem_cons_of_mem _ hx)
        refine ⟨?_, e1.2⟩
        show (if _ then _ else _) < _
        split
        · exact e1.1
        · exact e2.1) p3.reach hq
      rw [k3] at r1 r2 r3
      rw [List.length_drop] at r1 r3
      refine ⟨E ++ E', n + k + n', by simp only [List.length_append]; omega, ?_, ?_⟩
      · rw [r2, q2, List.drop_drop, ← List.append_assoc, ← List.drop_append_of_le_length (by
          rw [List.length_append]; omega), List.drop_drop]
      · rw [List.length_cons]
        omega
    · have h0 : pending t = [] := by
        apply List.eq_nil_of_length_eq_zero
        unfold RoundDue at hd
        omega
      have p1 := daemon_quiet (o := o) (st := st) (hs.shows hc) hs.reqQ (.inr (.inl (by rw [h0]; rfl)))
      rw [hp] at p1
      cases p1
      cases hsent
      obtain ⟨E', n', r1, r2, r3⟩ := ih ⟨fun x hx => hb.1 x (List.mem_cons_of_mem _ hx), hbp.2⟩ hc.reach hq
      rw [h0] at r1 r2 r3 hlen
      simp only [List.nil_append, List.length_nil] at r1 r2 r3 hlen q1
      refine ⟨E ++ E', n + n', by simp only [List.length_append]; omega, ?_, .inr (by omega)⟩
      rw [r2, ← List.append_assoc, ← List.drop_drop, List.drop_append_of_le_length (by rw [List.length_append]; omega), ← q2,
        h0, List.nil_append]

/-- C116. At the start the loop does not wait, if the clock reaches back that far. -/
theorem daemon_starts_due (o : LoopOpts) {t : Nat} (ht : o.maxWait * 1000000000 ≤ t) {l : Look} (hl : 0 < l.slot) (hn : t ≤ l.now)
    {n : Nat} (h : 0 < n) : RoundDue o (startDaemon o t) l n := by
  refine ⟨hl, h, .inl ?_⟩
  unfold startDaemon secs
  rw [if_pos ht]
  show _ ≤ l.now - (t - o.maxWait * 1000000000)
  omega

/-- C116. A round of which the node took nothing counts as a round for the waiting time but not for the slot. -/
theorem daemon_failed_round (h : pass o st l = .ok (st', calls)) (hne : calls ≠ []) (ht : ∀ i, l.took i = false) :
    st' = ⟨st.maxSlot, l.done⟩ := by
  rcases pass_cases h with ⟨_, h1⟩ | ⟨_, h1, h2, _⟩
  · exact absurd h1 hne
  · rcases h2 with ⟨h2, _⟩ | ⟨_, i, _, h2⟩
    · cases st'; cases h1; cases h2; rfl
    · rw [ht] at h2; cases h2

/-! ### The demonstration -/

/-- Two workers of five events, ten accounts, rounds at 40 events or after three seconds. -/
def demoLoop : LoopOpts := ⟨1, demoKeys, 22, 32, 2, 5, 10, 40, 3⟩

def demoLook (slot now : Nat) : Look := ⟨slot, some stallBytes, some demoRequests, now, fun i => i == 0, now + 7⟩

theorem demo_runs : Runs demoLoop stalled := ⟨by decide +kernel, by decide +kernel, by decide, by decide, by decide⟩

theorem demo_sees (slot now : Nat) : Sees (demoLook slot now) stalled :=
  ⟨queue_room stalled_crankable.reach stalled_crankable.seq crank_once_stalls.1, ⟨_, rfl, stall_bytes⟩, ⟨_, rfl, demo_requests⟩⟩

-- the first pass is due, sends, and is remembered
example : ∃ calls s', pass demoLoop (startDaemon demoLoop (secs 5)) (demoLook 9 (secs 6)) = .ok (⟨9, secs 6 + 7⟩, calls) ∧
    calls ≠ [] ∧ SentAll Demo.P Demo.env demoSigners stalled calls s' ∧ ∃ k > 0, pending s' = (pending stalled).drop k := by
  have hl : (pending stalled).length > 0 := List.length_pos_iff.2 crank_once_stalls.1
  obtain ⟨calls, s', h1, h2, _, h3, _, _, k, k1, _, k2⟩ := daemon_cranks (env := Demo.env) stalled_crankable demo_runs
    (demo_sees 9 (secs 6)) (daemon_starts_due demoLoop (t := secs 5) (by decide) (by decide) (by decide) hl)
  refine ⟨calls, s', ?_, h2, h3, k, k1, k2⟩
  have : (List.range calls.length).any (demoLook 9 (secs 6)).took = true :=
    List.any_eq_true.2 ⟨0, List.mem_range.2 (List.length_pos_iff.2 h2), rfl⟩
  rw [h1, this]
  rfl

-- then it is quiet for the same slot, and for three seconds unless 40 events wait
example : pass demoLoop ⟨9, secs 6 + 7⟩ (demoLook 9 (secs 20)) = .ok (⟨9, secs 6 + 7⟩, []) :=
  daemon_quiet ((demo_sees 9 (secs 20)).shows stalled_crankable) (demo_sees 9 (secs 20)).reqQ (.inl (Nat.le_refl _))

example : pass demoLoop ⟨9, secs 6 + 7⟩ (demoLook 10 (secs 8)) = .ok (⟨9, secs 6 + 7⟩, []) :=
  daemon_quiet ((demo_sees 10 (secs 8)).shows stalled_crankable) (demo_sees 10 (secs 8)).reqQ
    (.inr (.inr ⟨by decide, by decide +kernel⟩))

-- one brisk pass over the queue
example : ∃ st u, Serving Demo.P Demo.env demoSigners demoLoop (startDaemon demoLoop (secs 5)) stalled [demoLook 9 (secs 6)] u ∧
    Brisk demoLoop (startDaemon demoLoop (secs 5)) [demoLook 9 (secs 6)] ∧ st = (pending u).length ∧
    st < (pending stalled).length := by
  have hl : (pending stalled).length > 0 := List.length_pos_iff.2 crank_once_stalls.1
  obtain ⟨calls, s', h1, h2, _, h3, _, _, k, k1, k3, k2⟩ := daemon_cranks (env := Demo.env) stalled_crankable demo_runs
    (demo_sees 9 (secs 6)) (daemon_starts_due demoLoop (t := secs 5) (by decide) (by decide) (by decide) hl)
  refine ⟨_, s', .cons .refl stalled_crankable demo_runs (demo_sees 9 (secs 6)) h1 h3 (.nil .refl), ⟨?_, by simp⟩, rfl, ?_⟩
  · intro l hl
    rw [List.mem_singleton.1 hl]
    decide
  · rw [k2, List.length_drop]
    omega

end Serum.Props
