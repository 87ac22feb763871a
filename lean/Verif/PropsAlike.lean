import Verif.Embed
import Verif.Local
import Verif.PropsCrankTime

/-
C101: markets that look alike behave alike. How the orders lie in the books' memory, where the queue starts in its
ring, and in which order accounts were opened make no difference. C102: a longer event queue never hurts.
-/

namespace Serum.Props

/-! ### What can be seen of a market -/

/-- What can be read off the accounts of a market; the lengths of the event queues are related by `r`. -/
structure Looks (r : Nat → Nat → Prop) (s t : State conc) : Prop where
  market : t.mkt = s.mkt
  seq : t.seq = s.seq
  tokens : t.toks = s.toks
  accounts : ∀ a, ooAt t.oos a = ooAt s.oos a
  orders : ∀ sd, resting t sd = resting s sd
  events : pending t = pending s
  bidRoom : t.bids.cap = s.bids.cap
  askRoom : t.asks.cap = s.asks.cap
  eventRoom : r s.q.buf.length t.q.buf.length

/-- Something that happens: an instruction, a token instruction of somebody, the deletion of a closed account. -/
inductive Move where
  | instr (env : Env) (accts : List AccMeta) (data : List UInt8)
  | token (signs : Nat → Bool) (ix : TokIx)
  | purge (a : Nat)

/-- The state after it, and how it went. A failed instruction changes nothing. -/
def happen (P : Params) (s : State conc) : Move → State conc × Option Err
  | .instr env accts data =>
    match processRaw conc P env s accts data with
    | .ok s' => (s', none)
    | .error e => (s, some e)
  | .token signs ix =>
    match tokExec signs s.toks ix with
    | some l => ({ s with toks := l }, none)
    | none => (s, some .programError)
  | .purge a =>
    match ooAt s.oos a with
    | some o => if o.closed then ({ s with oos := purgeOo s.oos a }, none) else (s, none)
    | none => (s, none)

/-- One thing after another: the last state, and how each went. -/
def story (P : Params) : State conc → List Move → State conc × List (Option Err)
  | s, [] => (s, [])
  | s, m :: ms => ((story P (happen P s m).1 ms).1, (happen P s m).2 :: (story P (happen P s m).1 ms).2)

/-! ### The list level -/

/-- The same contents with at least as much room for events. -/
def longQ : Embeds lst lst where
  RB := Eq
  RQ q r := q.items = r.items ∧ q.cap ≤ r.cap
  best _ h := h ▸ Le.refl
  setBest _ _ h := h ▸ Le.refl
  remove _ h := by subst h; exact Sim.refl.mono fun _ _ e => e ▸ ⟨rfl, rfl⟩
  insert _ _ h := by subst h; exact Le.refl.mono fun _ _ e => e ▸ ⟨rfl, rfl⟩
  evict _ h := by subst h; exact Le.refl.mono fun _ _ e => e ▸ ⟨rfl, rfl⟩
  findBy _ _ h := h ▸ rfl
  push {q r q'} x h hx := by
    obtain ⟨h1, h2⟩ := h
    simp only [lst] at hx ⊢
    split at hx
    · rename_i hl
      cases hx
      exact ⟨_, if_pos (by rw [← h1]; omega), by rw [h1], h2⟩
    · cases hx

theorem le_consumeOne {s t : State lst} (h : longQ.RS s t) (P : Params) (env : Env) (keys : List Nat) :
    Le (OSim longQ.RS) (consumeOne lst P env s keys) (consumeOne lst P env t keys) := by
  unfold consumeOne
  have hi : s.q.items = t.q.items := h.q.1
  have hpk : lst.peek s.q = lst.peek t.q := by show s.q.items.head? = t.q.items.head?; rw [hi]
  rw [hpk]
  cases hp : lst.peek t.q with
  | none => trivial
  | some e =>
    simp only
    refine Le.refl.bind ?_
    rintro v _ rfl
    simp only [h.core]
    refine Le.refl.bind ?_
    rintro r _ rfl
    cases r with
    | none => trivial
    | some oo =>
      refine Le.refl.bind ?_
      rintro o _ rfl
      simp only [hi]
      cases ht : t.q.items with
      | nil => trivial
      | cons x xs => exact ⟨rfl, h.bids, h.asks, rfl, h.q.2⟩

theorem le_consumeLoop (P : Params) (env : Env) (keys : List Nat) (n : Nat) {s t : State lst} (h : longQ.RS s t) :
    Le longQ.RS (consumeLoop lst P env keys n s) (consumeLoop lst P env keys n t) := by
  induction n generalizing s t with
  | zero => exact h
  | succ n ih =>
    unfold consumeLoop
    refine Le.bind (le_consumeOne h P env keys) ?_
    intro x y hxy
    cases x <;> cases y <;> simp [OSim] at hxy
    · exact h
    · exact ih hxy

theorem le_all {s t : State lst} (h : longQ.RS s t) (P : Params) (env : Env) (accts : List AccMeta) (data : List UInt8) :
    Le longQ.RS (processRaw lst P env s accts data) (processRaw lst P env t accts data) := by
  unfold processRaw
  cases hu : Instruction.unpack data with
  | none => trivial
  | some ix =>
    have hv : IxValid ix := by
      obtain ⟨_, _, _, hv, _⟩ := decoding_is_strict _ _ hu
      exact hv
    clear hu
    simp only
    cases hc : ix.isCrank with
    | false => exact Embeds.le_process h P env accts ix hv hc
    | true =>
      cases ix <;> simp only [Instruction.isCrank, Bool.false_eq_true] at hc
      · rename_i n
        show Le _ (consumeEvents lst P env s accts n) (consumeEvents lst P env t accts n)
        unfold consumeEvents
        simp only [h.core]
        refine Le.refl.bind ?_
        rintro _ _ rfl
        split
        · iterate 3
            refine Le.refl.bind ?_
            rintro _ _ rfl
          exact le_consumeLoop P env _ n h
        · trivial
      · rename_i n
        show Le _ (consumeEventsPermissioned lst P env s accts n) (consumeEventsPermissioned lst P env t accts n)
        unfold consumeEventsPermissioned
        simp only [h.core]
        refine Le.refl.bind ?_
        rintro _ _ rfl
        split
        · iterate 4
            refine Le.refl.bind ?_
            rintro _ _ rfl
          exact le_consumeLoop P env _ n h
        · trivial

theorem near_raw {I : Impl} (P : Params) (env : Env) {s t : State I} (h : Serum.Near (fun _ => True) s t) (accts : List AccMeta)
    (data : List UInt8) : Sim (Serum.Near fun _ => True) (processRaw I P env s accts data) (processRaw I P env t accts data) := by
  unfold processRaw
  cases hu : Instruction.unpack data with
  | none => rfl
  | some ix => exact near_process P env h (fun _ _ => trivial) ix

/-! ### From what can be seen to the states and back -/

/-- SameView, on the states themselves. -/
structure SameView (r : Nat → Nat → Prop) (s t : State conc) : Prop where
  left : concLst.RS s (absState s)
  right : concLst.RS t (absState t)
  rest : absState t = { absState s with oos := t.oos, q := t.q.abs }
  accounts : ∀ a, ooAt t.oos a = ooAt s.oos a
  items : s.q.toList = t.q.toList
  room : r s.q.buf.length t.q.buf.length

theorem Looks.alike {r : Nat → Nat → Prop} {P : Params} {s t : State conc} (h : Looks r s t) (hs : Reach P s)
    (ht : Reach P t) (hq : s.seq ≤ W64) : SameView r s t := by
  have hq' : t.seq ≤ W64 := by rw [h.seq]; exact hq
  refine ⟨(hs.good hq).rs, (ht.good hq').rs, ?_, h.accounts, ?_, h.eventRoom⟩
  · have h1 := hs.reqCount
    have h2 := ht.reqCount
    have h3 := h.market
    have h4 := h.seq
    have h5 := h.tokens
    have h6 : t.bids.contents = s.bids.contents := h.orders .bid
    have h7 : t.asks.contents = s.asks.contents := h.orders .ask
    have h8 := h.bidRoom
    have h9 := h.askRoom
    unfold absState Slab.abs
    rw [h6, h7, h8, h9]
    cases hc : t.toCore
    cases hd : s.toCore
    simp only [hc, hd] at h1 h2 h3 h4 h5 ⊢
    subst h1 h2 h3 h4 h5
    rfl
  · rw [(queued hs hq).2, (queued ht hq').2, h.events]

theorem SameView.looks {r : Nat → Nat → Prop} {s t : State conc} (h : SameView r s t) : Looks r s t := by
  have hc : ∀ {u v : State lst}, u = v → u.mkt = v.mkt ∧ u.seq = v.seq ∧ u.toks = v.toks ∧ u.bids = v.bids ∧ u.asks = v.asks :=
    fun e => e ▸ ⟨rfl, rfl, rfl, rfl, rfl⟩
  obtain ⟨h1, h2, h3, h4, h5⟩ := hc h.rest
  refine ⟨h1, h2, h3, h.accounts, ?_, ?_, congrArg LBook.cap h4, congrArg LBook.cap h5, h.room⟩
  · intro sd
    cases sd
    · exact congrArg LBook.items h4
    · exact congrArg LBook.items h5
  · unfold pending
    rw [Queue.iter_eq h.left.q.1, Queue.iter_eq h.right.q.1, h.items]

/-- An instruction on two markets that are alike but for the room in the second's event queue. -/
theorem SameView.more {s t s' : State conc} (h : SameView (· ≤ ·) s t) {P : Params} {env : Env} {accts : List AccMeta}
    {data : List UInt8} (hx : processRaw conc P env s accts data = .ok s') :
    ∃ t', processRaw conc P env t accts data = .ok t' ∧ SameView (· ≤ ·) s' t' := by
  obtain ⟨a, ha, hra⟩ := Sim.ok_right (Refines.sim_processRaw h.left P env accts data) hx
  have hl : longQ.RS (absState s) { absState s with q := t.q.abs } := ⟨rfl, rfl, rfl, h.items, h.room⟩
  obtain ⟨b, hb, hrb⟩ := (le_all hl P env accts data).ok_right ha
  have hn : Serum.Near (fun _ => True) { absState s with q := t.q.abs } (absState t) :=
    ⟨h.rest, fun a _ => h.accounts a⟩
  obtain ⟨c, hc, hrc⟩ := Sim.ok_right (near_raw P env hn accts data) hb
  obtain ⟨t', ht, hrt⟩ := Sim.ok_left (Refines.sim_processRaw h.right P env accts data) hc
  have e1 := RS_abs hra
  have e2 := RS_abs hrt
  subst e1 e2
  refine ⟨t', ht, hra, hrt, ?_, ?_, ?_, ?_⟩
  · rw [hrc.rest]
    have k1 := hrb.core
    have k2 := hrb.bids
    have k3 := hrb.asks
    have k4 : t'.q.abs = b.q := by
      have : (absState t').q = b.q := by rw [hrc.rest]
      exact this
    cases b
    simp only at k1 k2 k3 k4 ⊢
    subst k1 k2 k3 k4
    rfl
  · intro x
    have h1 := hrc.oos x trivial
    have h2 : b.oos = s'.oos := (congrArg Core.oos hrb.core).symm
    rw [h2] at h1
    exact h1
  · have h1 : s'.q.toList = b.q.items := hrb.q.1
    have h2 : (absState t').q = b.q := by rw [hrc.rest]
    rw [h1, ← h2]
    rfl
  · have h1 : s'.q.buf.length ≤ b.q.cap := hrb.q.2
    have h2 : (absState t').q = b.q := by rw [hrc.rest]
    rw [← h2] at h1
    exact h1

/-- An instruction on two markets that are alike. -/
theorem SameView.same {s t : State conc} (h : SameView Eq s t) (P : Params) (env : Env) (accts : List AccMeta)
    (data : List UInt8) : Sim (SameView Eq) (processRaw conc P env s accts data) (processRaw conc P env t accts data) := by
  have g1 := Refines.sim_processRaw h.left P env accts data
  have g2 := Refines.sim_processRaw h.right P env accts data
  have hq : t.q.abs = s.q.abs := by
    unfold Queue.abs
    rw [h.items, h.room]
  have hn : Serum.Near (fun _ => True) (absState s) (absState t) :=
    ⟨by have := h.rest; rw [hq] at this; exact this, fun a _ => h.accounts a⟩
  have g3 := near_raw P env hn accts data
  revert g1 g2 g3
  cases processRaw conc P env s accts data <;> cases processRaw lst P env (absState s) accts data <;>
    cases processRaw lst P env (absState t) accts data <;> cases processRaw conc P env t accts data <;>
    intro g1 g2 g3 <;> simp only [Sim] at g1 g2 g3 ⊢
  · rw [g1, g3, g2]
  · rename_i s' a b t'
    have e1 := RS_abs g1
    have e2 := RS_abs g2
    subst e1 e2
    have hq' : (absState t').q = (absState s').q := by rw [g3.rest]
    refine ⟨g1, g2, ?_, fun x => g3.oos x trivial, ?_, ?_⟩
    · have := g3.rest
      rw [show t'.q.abs = s'.q.abs from hq']
      exact this
    · exact (congrArg LQ.items hq').symm
    · exact (congrArg LQ.cap hq').symm

/-- Anything that happens, on two markets that are alike. -/
theorem SameView.happen {s t : State conc} (h : SameView Eq s t) (P : Params) (m : Move) :
    (Props.happen P t m).2 = (Props.happen P s m).2 ∧ SameView Eq (Props.happen P s m).1 (Props.happen P t m).1 := by
  cases m with
  | instr env accts data =>
    have g := h.same P env accts data
    unfold Props.happen
    simp only
    cases h1 : processRaw conc P env s accts data <;> cases h2 : processRaw conc P env t accts data <;>
      simp only [h1, h2, Sim] at g ⊢
    · exact ⟨by rw [g], h⟩
    · exact ⟨trivial, g⟩
  | token signs ix =>
    have ht : t.toks = s.toks := h.looks.tokens
    simp only [Props.happen, ht]
    cases tokExec signs s.toks ix with
    | none => exact ⟨rfl, h⟩
    | some l =>
      refine ⟨rfl, ?_⟩
      obtain ⟨h1, h2, h3, h4, h5, h6⟩ := h
      refine ⟨⟨rfl, h1.bids, h1.asks, h1.q⟩, ⟨rfl, h2.bids, h2.asks, h2.q⟩, ?_, h4, h5, h6⟩
      have : absState { t with toks := l } = { absState t with toks := l } := rfl
      rw [this, h3]
      rfl
  | purge a =>
    have ht := h.accounts a
    simp only [Props.happen, ht]
    cases ooAt s.oos a with
    | none => exact ⟨rfl, h⟩
    | some o =>
      simp only
      split
      · refine ⟨rfl, ?_⟩
        obtain ⟨h1, h2, h3, h4, h5, h6⟩ := h
        refine ⟨⟨rfl, h1.bids, h1.asks, h1.q⟩, ⟨rfl, h2.bids, h2.asks, h2.q⟩, ?_, ?_, h5, h6⟩
        · have : absState { t with oos := purgeOo t.oos a } = { absState t with oos := purgeOo t.oos a } := rfl
          rw [this, h3]
          rfl
        · intro x
          show ooAt (purgeOo t.oos a) x = ooAt (purgeOo s.oos a) x
          rw [ooAt_purge, ooAt_purge, h4]
      · exact ⟨rfl, h⟩

theorem SameView.happens {s t : State conc} (h : SameView (· ≤ ·) s t) (P : Params) (m : Move) (hm : (Props.happen P s m).2 = none) :
    (Props.happen P t m).2 = none ∧ SameView (· ≤ ·) (Props.happen P s m).1 (Props.happen P t m).1 := by
  cases m with
  | instr env accts data =>
    unfold Props.happen at hm ⊢
    simp only at hm ⊢
    cases hx : processRaw conc P env s accts data with
    | error e => rw [hx] at hm; cases hm
    | ok s' =>
      obtain ⟨t', ht, ha⟩ := h.more hx
      rw [ht]
      exact ⟨rfl, ha⟩
  | token signs ix =>
    have ht : t.toks = s.toks := h.looks.tokens
    simp only [Props.happen, ht] at hm ⊢
    cases hx : tokExec signs s.toks ix with
    | none => rw [hx] at hm; cases hm
    | some l =>
      refine ⟨rfl, ?_⟩
      obtain ⟨h1, h2, h3, h4, h5, h6⟩ := h
      refine ⟨⟨rfl, h1.bids, h1.asks, h1.q⟩, ⟨rfl, h2.bids, h2.asks, h2.q⟩, ?_, h4, h5, h6⟩
      have : absState { t with toks := l } = { absState t with toks := l } := rfl
      rw [this, h3]
      rfl
  | purge a =>
    have ht := h.accounts a
    simp only [Props.happen, ht] at hm ⊢
    cases ooAt s.oos a with
    | none => exact ⟨rfl, h⟩
    | some o =>
      simp only
      split
      · refine ⟨rfl, ?_⟩
        obtain ⟨h1, h2, h3, h4, h5, h6⟩ := h
        refine ⟨⟨rfl, h1.bids, h1.asks, h1.q⟩, ⟨rfl, h2.bids, h2.asks, h2.q⟩, ?_, ?_, h5, h6⟩
        · have : absState { t with oos := purgeOo t.oos a } = { absState t with oos := purgeOo t.oos a } := rfl
          rw [this, h3]
          rfl
        · intro x
          show ooAt (purgeOo t.oos a) x = ooAt (purgeOo s.oos a) x
          rw [ooAt_purge, ooAt_purge, h4]
      · exact ⟨rfl, h⟩

/-! ### C101, C102: the theorems -/

theorem SameView.story {P : Params} {ms : List Move} : ∀ {s t : State conc}, SameView Eq s t →
    (Props.story P t ms).2 = (Props.story P s ms).2 ∧ SameView Eq (Props.story P s ms).1 (Props.story P t ms).1 := by
  induction ms with
  | nil => intro s t h; exact ⟨rfl, h⟩
  | cons m ms ih =>
    intro s t h
    obtain ⟨g1, g2⟩ := h.happen P m
    obtain ⟨g3, g4⟩ := ih g2
    unfold Props.story
    simp only
    exact ⟨by rw [g1, g3], g4⟩

/-- C101. Two markets, each with its own history, that now look alike, go the same way from here on: whatever
instructions (successful or not), token movements and account deletions follow, every single one has the same outcome
on both, error for error, and the markets look alike afterwards. -/
theorem alike_forever {P : Params} {s t : State conc} (hs : Reach P s) (ht : Reach P t) (hq : s.seq ≤ W64)
    (h : Looks Eq s t) (ms : List Move) :
    (story P t ms).2 = (story P s ms).2 ∧ Looks Eq (story P s ms).1 (story P t ms).1 := by
  obtain ⟨h1, h2⟩ := (h.alike hs ht hq).story (P := P) (ms := ms)
  exact ⟨h1, h2.looks⟩

/-- C102. Of two markets that look alike except that one has more room in its event queue, this one can do all that
the other can: whatever succeeds on the other succeeds on it, with the same effect, and so on. -/
theorem longer_queue {P : Params} {s t : State conc} (hs : Reach P s) (ht : Reach P t) (hq : s.seq ≤ W64)
    (h : Looks (· ≤ ·) s t) (ms : List Move) (hm : ∀ r ∈ (story P s ms).2, r = none) :
    (∀ r ∈ (story P t ms).2, r = none) ∧ Looks (· ≤ ·) (story P s ms).1 (story P t ms).1 := by
  have ha := h.alike hs ht hq
  clear h hs ht hq
  induction ms generalizing s t with
  | nil => exact ⟨hm, ha.looks⟩
  | cons m ms ih =>
    unfold story at hm ⊢
    simp only [List.mem_cons, forall_eq_or_imp] at hm ⊢
    obtain ⟨g1, g2⟩ := ha.happens P m hm.1
    obtain ⟨g3, g4⟩ := ih hm.2 g2
    exact ⟨⟨g1, g3⟩, g4⟩

end Serum.Props

namespace Serum.Demo
open Props

/-! ### Two histories: the same orders, one of them cancelled sooner or later -/

def like0 : State conc :=
  run (run (run s4 a1 (.newOrderV3 (order .ask 1030 10 1 30))) (cancelAccts 41 11) (.cancelOrderByClientIdV2 30)) a1
    (.newOrderV3 (order .ask 1010 2 1 20))
def like1 : State conc :=
  run (run like0 (cancelAccts 41 11) (.cancelOrderByClientIdV2 20)) a1 (.newOrderV3 (order .ask 1020 2 1 21))
def like2 : State conc :=
  run (run like0 a1 (.newOrderV3 (order .ask 1020 2 1 21))) (cancelAccts 41 11) (.cancelOrderByClientIdV2 20)
theorem likeR0 : Reach P like0 :=
  next (next (next r4 (valid (by decide)) (by decide +kernel) (by decide)) (by decide : U64 30) (by decide +kernel)
    (by decide)) (valid (by decide)) (by decide +kernel) (by decide)

set_option maxRecDepth 100000 in
theorem likeToks : like2.toks = like1.toks := by rfl

-- the books lie differently in memory, but look the same; the bid that comes trades on both
example : Reach P like1 ∧ Reach P like2 ∧ like1.seq ≤ W64 ∧ Looks Eq like1 like2 ∧ like1.asks ≠ like2.asks ∧
    (story P like1 [.instr env a2 (Instruction.newOrderV3 (order .bid 1100 1 30000 40)).pack]).2 = [none] ∧
    pending (story P like1 [.instr env a2 (Instruction.newOrderV3 (order .bid 1100 1 30000 40)).pack]).1 ≠
      pending like1 := by
  refine ⟨next (next likeR0 (by decide : U64 20) (by decide +kernel) (by decide)) (valid (by decide)) (by decide +kernel)
      (by decide), next (next likeR0 (valid (by decide)) (by decide +kernel) (by decide)) (by decide : U64 20)
      (by decide +kernel) (by decide), by decide +kernel, ?_, by decide +kernel, by decide +kernel, by decide +kernel⟩
  have ho : like2.oos = like1.oos := by decide +kernel
  refine ⟨by decide +kernel, by decide +kernel, likeToks, fun a => by rw [ho], ?_, by decide +kernel, by decide +kernel,
    by decide +kernel, by decide +kernel⟩
  intro sd
  cases sd <;> decide +kernel

/-! ### The same history with a longer event queue -/

def roomy0 : State conc := { s0 with q := Queue.fresh (List.replicate 9 zeroEvent) }
def roomy3 : State conc := run (run (run roomy0 a1 i1) a2 i2) a2 i3
theorem roomyGenesis : Genesis P roomy0 where
  vaults := genesis.vaults
  flags := .inl rfl
  coinLot := by decide
  pcLot := by decide
  coinDeposits := rfl
  pcDeposits := rfl
  pcFees := rfl
  rebates := rfl
  oos := rfl
  seq := rfl
  reqCount := rfl
  bids := ⟨9, rfl⟩
  asks := ⟨9, rfl⟩
  q := ⟨_, rfl, by decide⟩
  amounts := genesis.amounts

set_option maxRecDepth 100000 in
theorem roomyToks : roomy3.toks = s3.toks := by rfl

-- the cancellation fits in both queues
example : Reach P s3 ∧ Reach P roomy3 ∧ s3.seq ≤ W64 ∧ Looks (· ≤ ·) s3 roomy3 ∧
    s3.q.buf.length = 6 ∧ roomy3.q.buf.length = 9 ∧
    (∀ r ∈ (story P s3 [.instr env (cancelAccts 42 12) (Instruction.cancelOrderByClientIdV2 9).pack]).2, r = none) ∧
    (pending (story P s3 [.instr env (cancelAccts 42 12) (Instruction.cancelOrderByClientIdV2 9).pack]).1).length = 5 := by
  refine ⟨r3, next (next (next (.start roomyGenesis) (valid (by decide)) (by decide +kernel) (by decide)) (valid (by decide))
    (by decide +kernel) (by decide)) (valid (by decide)) (by decide +kernel) (by decide), by decide +kernel, ?_,
    by decide +kernel, by decide +kernel, by decide +kernel, by decide +kernel⟩
  have ho : roomy3.oos = s3.oos := by decide +kernel
  refine ⟨by decide +kernel, by decide +kernel, roomyToks, fun a => by rw [ho], ?_, by decide +kernel, by decide +kernel,
    by decide +kernel, by decide +kernel⟩
  intro sd
  cases sd <;> decide +kernel

end Serum.Demo
