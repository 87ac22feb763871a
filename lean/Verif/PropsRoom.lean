import Verif.PropsAlike
import Verif.Tight

/-
C117: an instruction needs room for exactly the events it writes.
-/

namespace Serum.Props

theorem _root_.Serum.Sim.error_back {α β : Type} {R : α → β → Prop} {x : Except Err α} {y : Except Err β} (h : Sim R x y)
    {e : Err} (he : y = .error e) : x = .error e := by
  subst he
  cases x with
  | error => simp [Sim] at h; rw [h]
  | ok b => cases h

/-- The instruction in the data is one of the two that consume events. -/
def consumes (data : List UInt8) : Bool :=
  match Instruction.unpack data with
  | some (.consumeEvents _) => true
  | some (.consumeEventsPermissioned _) => true
  | _ => false

theorem tight_raw (c : Nat) (P : Params) (env : Env) (s : State lst) (accts : List AccMeta) (data : List UInt8)
    (hc : consumes data = false) :
    Tight c s.evs State.evs (State.fit c) (processRaw lst P env (s.fit c) accts data) (processRaw lst P env s accts data) := by
  unfold processRaw
  unfold consumes at hc
  cases hu : Instruction.unpack data with
  | none => exact .err
  | some ix =>
    rw [hu] at hc
    refine tight_process c P env s accts ix ?_
    cases ix <;> first | rfl | cases hc

/-- Two markets that look alike but for the lengths of the queues: what one does is the other's run with its length. -/
theorem SameView.near_fit {r : Nat → Nat → Prop} {s t : State conc} (h : SameView r s t) :
    Serum.Near (fun _ => True) (absState s) ((absState t).fit s.q.buf.length) := by
  refine ⟨?_, fun a _ => h.accounts a⟩
  have hi : (absState t).q.items = s.q.toList := h.items.symm
  unfold State.fit
  rw [hi, h.rest]
  rfl

/-- The other market's run. -/
theorem SameView.fit_run {r : Nat → Nat → Prop} {s t : State conc} (h : SameView r s t) (P : Params) (env : Env)
    (accts : List AccMeta) {data : List UInt8} (hc : consumes data = false) :
    match processRaw conc P env t accts data with
    | .ok t' => t.q.count ≤ t'.q.count ∧
        (t'.q.count ≤ s.q.buf.length → ∃ s', processRaw conc P env s accts data = .ok s' ∧
          SameView (fun n m => n = s.q.buf.length ∧ m = t.q.buf.length) s' t') ∧
        (s.q.buf.length < t'.q.count → processRaw conc P env s accts data = .error .eventQueueFull)
    | .error e => e ≠ .eventQueueFull → processRaw conc P env s accts data = .error e ∨
        processRaw conc P env s accts data = .error .eventQueueFull := by
  have g1 := Refines.sim_processRaw h.left P env accts data
  have g2 := Refines.sim_processRaw h.right P env accts data
  have g3 := near_raw P env h.near_fit accts data
  have g4 := tight_raw s.q.buf.length P env (absState t) accts data hc
  have hn : (absState t).evs = t.q.count := Queue.length_toList h.right.q.1
  have hle : (absState t).evs ≤ s.q.buf.length := by
    rw [hn, ← Queue.length_toList h.right.q.1, ← h.items, Queue.length_toList h.left.q.1]
    exact h.left.q.1.count
  have hlt : (absState t).evs ≤ t.q.buf.length := by
    rw [hn]
    exact h.right.q.1.count
  cases ht : processRaw conc P env t accts data with
  | error e =>
    intro he
    have h2 := g2.error_right ht
    rw [h2] at g4
    rcases g4 hle with h4 | h4 | h4
    · rw [h4] at g3
      exact .inl (g1.error_back (g3.error_back rfl))
    · rw [h4] at g3
      exact .inr (g1.error_back (g3.error_back rfl))
    · exact absurd h4 he
  | ok t' =>
    obtain ⟨b, h2, hb⟩ := g2.ok_right ht
    have e2 := RS_abs hb
    subst e2
    have hn' : (absState t').evs = t'.q.count := Queue.length_toList hb.q.1
    have hcap : t'.q.buf.length = t.q.buf.length := by
      have g5 := tight_raw t.q.buf.length P env (absState t) accts data hc
      have hf : (absState t).fit t.q.buf.length = absState t := rfl
      rw [hf, h2] at g5
      have g6 := g5.2 hlt
      by_cases hx : (absState t').evs ≤ t.q.buf.length
      · rw [if_pos hx] at g6
        exact congrArg (fun x : State lst => x.q.cap) (Except.ok.inj g6)
      · rw [if_neg hx] at g6
        cases g6
    rw [h2] at g4
    have h4 : (absState t).evs ≤ (absState t').evs ∧ _ := g4
    rw [hn, hn'] at h4
    refine ⟨h4.1, fun hr => ?_, fun hr => ?_⟩
    · have h5 := g4.2 hle
      rw [if_pos (by rw [hn']; exact hr)] at h5
      obtain ⟨a, h6, h7⟩ := g3.ok_left h5
      obtain ⟨s', h8, h9⟩ := g1.ok_left h6
      have e3 := RS_abs h9
      subst e3
      have hq := h7.rest
      have hq2 : ((absState t').fit s.q.buf.length).q = (absState s').q := by rw [hq]
      refine ⟨s', h8, h9, hb, ?_, fun x => h7.oos x trivial, ?_, ?_, hcap⟩
      · have : absState t' = { (absState t').fit s.q.buf.length with q := t'.q.abs } := rfl
        rw [this, hq]
        rfl
      · exact (congrArg LQ.items hq2).symm
      · exact (congrArg LQ.cap hq2).symm
    · have h5 := g4.2 hle
      rw [if_neg (by rw [hn']; omega)] at h5
      rw [h5] at g3
      exact g1.error_back (g3.error_back rfl)

/-- C117. Of two markets that look alike but for the lengths of their event queues, let an instruction that consumes no
events go through on one. Then it goes through on the other exactly if the events then pending fit in its queue, with the
same effect; and if they do not fit, it is refused as `EventQueueFull`. -/
theorem needs_its_events {P : Params} {s t t' : State conc} (hs : Reach P s) (ht : Reach P t) (hq : s.seq ≤ W64)
    (h : Looks (fun _ _ => True) s t) {env : Env} {accts : List AccMeta} {data : List UInt8} (hc : consumes data = false)
    (hx : processRaw conc P env t accts data = .ok t') :
    t.q.count ≤ t'.q.count ∧
    (t'.q.count ≤ s.q.buf.length → ∃ s', processRaw conc P env s accts data = .ok s' ∧
      Looks (fun n m => n = s.q.buf.length ∧ m = t.q.buf.length) s' t') ∧
    (s.q.buf.length < t'.q.count → processRaw conc P env s accts data = .error .eventQueueFull) := by
  have := (h.alike hs ht hq).fit_run P env accts hc
  rw [hx] at this
  obtain ⟨h1, h2, h3⟩ := this
  refine ⟨h1, fun hr => ?_, h3⟩
  obtain ⟨s', h4, h5⟩ := h2 hr
  exact ⟨s', h4, h5.looks⟩

/-- C117. The length of the queue makes no other difference: what is refused on one for another reason is refused on the
other for the same reason, or because its queue is full. -/
theorem refused_alike {P : Params} {s t : State conc} (hs : Reach P s) (ht : Reach P t) (hq : s.seq ≤ W64)
    (h : Looks (fun _ _ => True) s t) {env : Env} {accts : List AccMeta} {data : List UInt8} (hc : consumes data = false)
    {e : Err} (he : e ≠ .eventQueueFull) (hx : processRaw conc P env t accts data = .error e) :
    processRaw conc P env s accts data = .error e ∨ processRaw conc P env s accts data = .error .eventQueueFull := by
  have := (h.alike hs ht hq).fit_run P env accts hc
  rw [hx] at this
  exact this he

end Serum.Props

namespace Serum.Demo
open Props

theorem roomyReach : Reach P roomy3 :=
  next (next (next (.start roomyGenesis) (valid (by decide)) (by decide +kernel) (by decide)) (valid (by decide))
    (by decide +kernel) (by decide)) (valid (by decide)) (by decide +kernel) (by decide)

theorem roomyLooks : Looks (fun _ _ => True) s3 roomy3 := by
  have ho : roomy3.oos = s3.oos := by decide +kernel
  refine ⟨by decide +kernel, by decide +kernel, roomyToks, fun a => by rw [ho], ?_, by decide +kernel, by decide +kernel,
    by decide +kernel, trivial⟩
  intro sd
  cases sd <;> decide +kernel

-- queues of six and of nine, four events pending: a bid that trades writes three, so it is refused by the shorter queue;
-- one that rests writes one, and goes through on both
example : Reach P s3 ∧ Reach P roomy3 ∧ s3.seq ≤ W64 ∧ Looks (fun _ _ => True) s3 roomy3 ∧
    s3.q.buf.length = 6 ∧ roomy3.q.buf.length = 9 ∧ roomy3.q.count = 4 ∧
    consumes (Instruction.newOrderV3 (order .bid 1100 1 30000 40)).pack = false ∧
    (processRaw conc P env roomy3 a2 (Instruction.newOrderV3 (order .bid 1100 1 30000 40)).pack).toOption.map
      (fun t => t.q.count) = some 7 ∧
    (processRaw conc P env roomy3 a2 (Instruction.newOrderV3 (order .bid 900 1 30000 40)).pack).toOption.map
      (fun t => t.q.count) = some 5 :=
  ⟨r3, roomyReach, by decide +kernel, roomyLooks, by decide +kernel, by decide +kernel, by decide +kernel, by decide +kernel,
    by decide +kernel, by decide +kernel⟩

-- an order whose deadline has passed is refused for this reason
example : processRaw conc P env roomy3 a2 (Instruction.newOrderV3 { order .bid 1100 1 30000 40 with maxTs := -1 }).pack =
    .error .orderMaxTimestampExceeded ∧ Err.orderMaxTimestampExceeded ≠ Err.eventQueueFull :=
  ⟨rfl, by decide⟩

end Serum.Demo
