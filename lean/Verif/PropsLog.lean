import Verif.PropsGains

/-!
C96: the event queue is a complete log. Explorers, price feeds and bots do not see instructions; they poll the event
queue account and ask for what is new since the counter they saw last. Here: whatever happened in between, the counter has
grown by the number of events written, the newest events can be read from the ring buffer (consumed or not) as long as
no more than its capacity were written, and the events written tell exactly the trades, and every order taken off, of the
record of C78.
-/

namespace Serum.Props

/-! ### A reader -/

/-- The event in a slot of the account. -/
def slotEvent (s : State conc) (i : Nat) : Option EventView := (s.q.buf[i]?).bind fun e => e.asView.toOption

/-- The slot of the `j`-th newest event: the newest is just before the first free slot. -/
def slotBack (s : State conc) (j : Nat) : Nat :=
  (s.q.head + s.q.count + s.q.buf.length - (j + 1)) % s.q.buf.length

/-- What a reader that last saw the counter at `seen` reads, oldest first. -/
def eventsSince (s : State conc) (seen : Nat) : List (Option EventView) :=
  ((List.range ((s.q.seq + W64 - seen) % W64)).map fun j => slotEvent s (slotBack s j)).reverse

/-- Events `E` were written between `s` and `s'` and `n` were consumed. -/
structure Logged (s s' : State conc) (E : List EventView) (n : Nat) : Prop where
  size : s'.q.buf.length = s.q.buf.length
  counted : s'.q.seq = (s.q.seq + E.length) % W64
  consumed : n ≤ (pending s).length + E.length
  queue : pending s' = (pending s ++ E).drop n
  kept : ∀ j, j < E.length → j < s'.q.buf.length → slotEvent s' (slotBack s' j) = E[E.length - 1 - j]?

/-! ### What the events say -/

/-- Which order an event is about: side, account and id. -/
def _root_.Serum.EventView.about (v : EventView) : Side × Nat × Nat := (v.side, v.owner, v.id)

/-- Base and quote units that a fill event moves, the fee taken out. -/
def _root_.Serum.EventView.moved : EventView → Nat × Nat
  | .fill .bid _ paid received fee _ _ _ _ _ => (received, paid - fee)
  | .fill .ask _ paid received fee _ _ _ _ _ => (paid, received + fee)
  | .out .. => (0, 0)

/-- The fee of a fill event. -/
def _root_.Serum.EventView.fee : EventView → Nat
  | .fill _ _ _ _ fee _ _ _ _ _ => fee
  | .out .. => 0

/-- Units an out event says were unlocked. -/
def _root_.Serum.EventView.freed : EventView → Nat
  | .out _ _ u _ _ _ _ _ => u
  | .fill .. => 0

def _root_.Serum.EventView.isOut : EventView → Bool
  | .out .. => true
  | .fill .. => false

/-- Base and quote units of a trade. -/
def Trade.moves (m : Market) (t : Trade) : Nat × Nat := (t.lots * m.coinLot, t.value m)

/-- The resting side of the trades of the record, in order. -/
def Note.makers (m : Market) : Note → List ((Side × Nat × Nat) × (Nat × Nat) × Nat)
  | .filled t => [((t.side, t.owner, t.id), t.moves m, 0)]
  | _ => []

/-- The side of the order placed of the trades of the record, in order. -/
def Note.takers (m : Market) : Note → List ((Side × Nat × Nat) × (Nat × Nat))
  | .placed p => p.took.map fun t => ((p.side, p.account, p.id), t.moves m)
  | _ => []

/-- The orders taken off the book, with the worth of what was taken off, in order. -/
def Note.leavers (m : Market) : Note → List ((Side × Nat × Nat) × Nat)
  | .gone sd a id lots _ => [((sd, a, id), match sd with
    | .bid => lots * extractPrice id * m.pcLot
    | .ask => lots * m.coinLot)]
  | _ => []

/-- The order an entry is about. -/
def Note.about : Note → Side × Nat × Nat
  | .placed p => (p.side, p.account, p.id)
  | .filled t => (t.side, t.owner, t.id)
  | .gone sd a id _ _ => (sd, a, id)

/-- Fees of the entries, counted with a weight that depends on the order's id. -/
def Note.feeOf (w : Nat → Nat) : Note → Nat
  | .placed p => w p.id * p.fee
  | _ => 0

/-- The events `E` tell what the record `N` does. -/
structure Tells (m : Market) (E : List EventView) (N : List Note) : Prop where
  /-- The fills of resting orders are exactly the trades; a resting order neither pays nor earns a fee. -/
  makers : (E.filter EventView.isMakerFill).map (fun v => (v.about, v.moved, v.fee)) = N.flatMap (Note.makers m)
  /-- The fills of orders placed are exactly the trades they made at once. -/
  takers : (E.filter EventView.isTakerFill).map (fun v => (v.about, v.moved)) = N.flatMap (Note.takers m)
  /-- Their fees add up to the fee of each order. -/
  fees : ∀ w, total (fun v => w v.id * v.fee) (E.filter EventView.isTakerFill) = total (Note.feeOf w) N
  /-- Everything taken off the book is announced, in order, with its worth. -/
  outs : (N.flatMap (Note.leavers m)).Sublist ((E.filter EventView.isOut).map fun v => (v.about, v.freed))
  /-- No event is about an order the record does not mention. -/
  known : ∀ v ∈ E, v.about ∈ N.map Note.about

theorem sublist_of_eq {α : Type} {l k : List α} (h : l = k) : l.Sublist k := h ▸ List.Sublist.refl _

theorem Tells.append {m : Market} {E E' : List EventView} {N N' : List Note} (h : Tells m E N) (k : Tells m E' N') :
    Tells m (E ++ E') (N ++ N') := by
  refine ⟨?_, ?_, ?_, ?_, ?_⟩
  · simp only [List.filter_append, List.map_append, List.flatMap_append, h.makers, k.makers]
  · simp only [List.filter_append, List.map_append, List.flatMap_append, h.takers, k.takers]
  · intro w
    simp only [List.filter_append, total_append, h.fees, k.fees]
  · simp only [List.filter_append, List.map_append, List.flatMap_append]
    exact h.outs.append k.outs
  · intro v hv
    rw [List.map_append]
    rcases List.mem_append.1 hv with hv | hv
    · exact List.mem_append_left _ (h.known v hv)
    · exact List.mem_append_right _ (k.known v hv)

theorem Tells.nil (m : Market) : Tells m [] [] :=
  ⟨rfl, rfl, fun _ => rfl, List.Sublist.refl _, by simp⟩

theorem Tells.lots {m m' : Market} (h1 : m'.coinLot = m.coinLot) (h2 : m'.pcLot = m.pcLot) {E : List EventView}
    {N : List Note} (h : Tells m E N) : Tells m' E N := by
  have e : Trade.moves m' = Trade.moves m := by
    funext t; unfold Trade.moves Trade.value; rw [h1, h2]
  have e1 : Note.makers m' = Note.makers m := by
    funext x; cases x <;> simp only [Note.makers, e]
  have e2 : Note.takers m' = Note.takers m := by
    funext x; cases x <;> simp only [Note.takers, e]
  have e3 : Note.leavers m' = Note.leavers m := by
    funext x; cases x <;> simp only [Note.leavers, h1, h2]
  obtain ⟨a, b, c, d, f⟩ := h
  exact ⟨by rw [e1]; exact a, by rw [e2]; exact b, c, by rw [e3]; exact d, f⟩

/-! ### The ring buffer as a tape -/

/-- `xs` written from position `p` on. -/
def laid {α : Type} : List α → Nat → List α → List α
  | buf, _, [] => buf
  | buf, p, x :: xs => laid (buf.set (p % buf.length) x) (p + 1) xs

theorem laid_length {α : Type} (xs : List α) : ∀ (buf : List α) (p : Nat), (laid buf p xs).length = buf.length := by
  induction xs with
  | nil => intro _ _; rfl
  | cons x xs ih => intro buf p; simp only [laid]; rw [ih, List.length_set]

theorem laid_append {α : Type} (xs ys : List α) : ∀ (buf : List α) (p : Nat),
    laid buf p (xs ++ ys) = laid (laid buf p xs) (p + xs.length) ys := by
  induction xs with
  | nil => intro _ _; rfl
  | cons x xs ih =>
    intro buf p
    simp only [List.cons_append, laid, ih, List.length_cons]
    congr 1; omega

theorem laid_mod {α : Type} (xs : List α) : ∀ (buf : List α) (p r : Nat), p % buf.length = r % buf.length →
    laid buf p xs = laid buf r xs := by
  induction xs with
  | nil => intro _ _ _ _; rfl
  | cons x xs ih =>
    intro buf p r h
    simp only [laid, h]
    refine ih _ _ _ ?_
    rw [List.length_set, Nat.add_mod, h, ← Nat.add_mod]

theorem laid_keep {α : Type} (xs : List α) : ∀ (buf : List α) (p j : Nat),
    (∀ i, i < xs.length → (p + i) % buf.length ≠ j) → (laid buf p xs)[j]? = buf[j]? := by
  induction xs with
  | nil => intro _ _ _ _; rfl
  | cons x xs ih =>
    intro buf p j h
    simp only [laid]
    rw [ih _ _ _ fun i hi => by
      rw [List.length_set]
      have := h (i + 1) (by simp; omega)
      rwa [show p + (i + 1) = p + 1 + i by omega] at this]
    exact List.getElem?_set_ne (h 0 (by simp))

theorem mod_inj {p i j n : Nat} (hij : i < j) (hn : j < i + n) : (p + j) % n ≠ (p + i) % n := by
  intro h
  have h1 : (p + j) % n = (p + i + (j - i)) % n := by congr 1; omega
  rw [h1] at h
  have h2 := Nat.sub_mod_eq_zero_of_mod_eq h
  rw [show p + i + (j - i) - (p + i) = j - i by omega] at h2
  rw [Nat.mod_eq_of_lt (by omega)] at h2
  omega

theorem laid_get {α : Type} (xs : List α) : ∀ (buf : List α) (p i : Nat), 0 < buf.length → i < xs.length →
    xs.length ≤ i + buf.length → (laid buf p xs)[(p + i) % buf.length]? = xs[i]? := by
  induction xs with
  | nil => intro _ _ _ _ h _; cases h
  | cons x xs ih =>
    intro buf p i hb hi hl
    simp only [laid]
    cases i with
    | zero =>
      rw [laid_keep xs _ _ _ fun k hk => by
        rw [List.length_set, show p + 1 + k = p + (k + 1) by omega]
        exact mod_inj (by omega) (by simp at hl; omega)]
      simp only [Nat.add_zero]
      rw [List.getElem?_set_self (Nat.mod_lt _ hb)]
      rfl
    | succ i =>
      have := ih (buf.set (p % buf.length) x) (p + 1) i (by rw [List.length_set]; exact hb) (by simp at hi; omega)
        (by rw [List.length_set]; simp at hl; omega)
      rw [List.length_set, show p + 1 + i = p + (i + 1) by omega] at this
      rw [this]; rfl

/-- `E` was written to the queue and `n` items were consumed. -/
structure Ring {α : Type} (q q' : Queue α) (E : List α) (n : Nat) : Prop where
  seq : q'.seq = (q.seq + E.length) % W64
  count : q'.count + n = q.count + E.length
  head : q'.head % q.buf.length = (q.head + n) % q.buf.length
  buf : q'.buf = laid q.buf (q.head + q.count) E

theorem Ring.refl {α : Type} {q : Queue α} (h : q.WF) : Ring q q [] 0 :=
  ⟨(Nat.mod_eq_of_lt h.seq).symm, rfl, rfl, rfl⟩

theorem Ring.trans {α : Type} {q q1 q2 : Queue α} {E E' : List α} {n n' : Nat} (h : Ring q q1 E n)
    (k : Ring q1 q2 E' n') : Ring q q2 (E ++ E') (n + n') := by
  have hl : q1.buf.length = q.buf.length := by rw [h.buf, laid_length]
  obtain ⟨h1, h2, h3, h4⟩ := h
  obtain ⟨k1, k2, k3, k4⟩ := k
  rw [hl] at k3
  refine ⟨?_, ?_, ?_, ?_⟩
  · rw [k1, h1, List.length_append, Nat.mod_add_mod, Nat.add_assoc]
  · rw [List.length_append]; omega
  · rw [k3, Nat.add_mod, h3, ← Nat.add_mod, Nat.add_assoc]
  · rw [k4, laid_append, h4]
    refine laid_mod _ _ _ _ ?_
    rw [laid_length, Nat.add_mod, h3, ← Nat.add_mod]
    congr 1; omega

theorem Ring.push {α : Type} {q q' : Queue α} (h : q.WF) {x : α} (hp : q.pushBack x = some q') : Ring q q' [x] 0 := by
  unfold Queue.pushBack at hp
  split at hp
  · cases hp
  rename_i hf
  have hcount := h.count
  have hlen := h.len
  have hc : q.count < q.buf.length := by
    have : q.count ≠ q.buf.length := by simpa [Queue.full] using hf
    omega
  have hh := h.head (by omega)
  cases hp
  refine ⟨rfl, ?_, rfl, ?_⟩
  · show wadd q.count 1 + 0 = _
    rw [wadd_eq (by unfold W64 at *; omega)]; rfl
  · show q.buf.set _ _ = q.buf.set _ _
    rw [wadd_eq (by unfold W64 at *; omega)]

theorem Ring.pop {α : Type} {q q' : Queue α} (h : q.WF) {x : α} (hp : q.popFront = some (x, q')) : Ring q q' [] 1 := by
  unfold Queue.popFront at hp
  split at hp
  · cases hp
  rename_i hf
  have hcount := h.count
  have hlen := h.len
  have hc : 0 < q.count := by
    have : q.count ≠ 0 := by simpa [Queue.empty] using hf
    omega
  have hh := h.head (by omega)
  split at hp
  · cases hp
  cases hp
  refine ⟨(Nat.mod_eq_of_lt h.seq).symm, ?_, ?_, rfl⟩
  · show wsub q.count 1 + 1 = _
    rw [wsub_eq (by omega) (by unfold W64 at *; omega)]; simp; omega
  · show (wadd q.head 1 % q.buf.length) % q.buf.length = _
    rw [wadd_eq (by unfold W64 at *; omega), Nat.mod_mod]

/-- Reading the newest items. -/
theorem Ring.back {α : Type} {q q' : Queue α} {E : List α} {n : Nat} (h : Ring q q' E n) {j : Nat} (hj : j < E.length)
    (hl : j < q'.buf.length) :
    q'.buf[(q'.head + q'.count + q'.buf.length - (j + 1)) % q'.buf.length]? = E[E.length - 1 - j]? := by
  have hlen : q'.buf.length = q.buf.length := by rw [h.buf, laid_length]
  rw [hlen] at hl ⊢
  have e : (q'.head + q'.count + q.buf.length - (j + 1)) % q.buf.length =
      (q.head + q.count + (E.length - 1 - j)) % q.buf.length := by
    have h2 := h.count
    rw [show q'.head + q'.count + q.buf.length - (j + 1) = q'.head + (q'.count + (q.buf.length - (j + 1))) by omega,
      Nat.add_mod, h.head, ← Nat.add_mod,
      show q.head + n + (q'.count + (q.buf.length - (j + 1))) =
        q.head + q.count + (E.length - 1 - j) + q.buf.length by omega, Nat.add_mod_right]
  rw [e, h.buf]
  exact laid_get _ _ _ _ (by omega) (by omega) (by omega)

/-! ### Only the crank removes events -/

/-- The queue is what it was with some events added. -/
def adding (q0 : Queue Event) : Refines conc conc where
  RB b c := b = c
  RQ q r := q = r ∧ q.WF ∧ ∃ E, Ring q0 q E 0 ∧ q.toList = q0.toList ++ E
  best side h := by subst h; exact Sim.refl
  setBest side q h := by subst h; exact Sim.refl
  remove k h := by
    subst h
    exact Sim.refl.mono fun x y e => by subst e; exact ⟨rfl, rfl⟩
  insert l _ h := by
    subst h
    exact Sim.refl.mono fun x y e => by subst e; exact ⟨rfl, rfl⟩
  evict side h := by
    subst h
    exact Sim.refl.mono fun x y e => by subst e; exact ⟨rfl, rfl⟩
  findBy n p h := by subst h; rfl
  push {q r} e h := by
    obtain ⟨rfl, hw, E, hr, ht⟩ := h
    show OSim _ (q.pushBack e) (q.pushBack e)
    cases hp : q.pushBack e with
    | none => trivial
    | some q' =>
      obtain ⟨h1, h2, _⟩ := Queue.pushBack_spec hw hp
      exact ⟨rfl, h1, E ++ [e], hr.trans (Ring.push hw hp), by rw [h2, ht, List.append_assoc]⟩
  peek h := by obtain ⟨rfl, _⟩ := h; rfl
  canPop := False
  pop h := h.elim

theorem adding_start {s : State conc} (h : s.q.WF) : (adding s.q).RS s s :=
  ⟨rfl, rfl, rfl, rfl, h, [], .refl h, (List.append_nil _).symm⟩

theorem adding_ends {s s' : State conc} {x : Except Err (State conc)} (h : Sim (adding s.q).RS x x) (hx : x = .ok s') :
    ∃ E, Ring s.q s'.q E 0 ∧ s'.q.toList = s.q.toList ++ E := by
  obtain ⟨t, _, hr⟩ := Sim.ok_right h hx
  have := hr.q
  exact this.1 ▸ this.2.2

theorem crank_ring {P : Params} {env : Env} {keys : List Nat} (n : Nat) : ∀ {s s' : State conc}, s.q.WF →
    consumeLoop conc P env keys n s = .ok s' → ∃ k, Ring s.q s'.q [] k := by
  induction n with
  | zero => intro s s' hw h; cases h; exact ⟨0, .refl hw⟩
  | succ n ih =>
    intro s s' hw h
    unfold consumeLoop at h
    obtain ⟨r, h1, h⟩ := bind_ok h
    cases r with
    | none => cases h; exact ⟨0, .refl hw⟩
    | some s1 =>
      unfold consumeOne at h1
      split at h1
      · cases h1
      obtain ⟨v, _, h1⟩ := bind_ok h1
      obtain ⟨r, _, h1⟩ := bind_ok h1
      cases r with
      | none => cases h1
      | some oo =>
        obtain ⟨_, _, h1⟩ := bind_ok h1
        obtain ⟨q1, h3, h1⟩ := bind_ok h1
        cases h1
        have h3 := unwrap_ok.1 h3
        have h3 : (s.q.popFront).map (·.2) = some q1 := h3
        cases hp : s.q.popFront with
        | none => rw [hp] at h3; cases h3
        | some y =>
          rw [hp] at h3
          cases h3
          have hspec := Queue.popFront_spec hw
          have hw1 : y.2.WF := by
            split at hspec
            · rw [hspec] at hp; cases hp
            · obtain ⟨q', e, hw', _⟩ := hspec
              rw [e] at hp; cases hp; exact hw'
          obtain ⟨k, hk⟩ := ih (s := { s with oos := _, q := y.2 }) hw1 h
          have := (Ring.pop hw hp).trans hk
          exact ⟨1 + k, this⟩

/-- Every act but the crank only adds events. -/
theorem act_ring {P : Params} {env : Env} {accts : List AccMeta} {s s' : State conc} (hw : s.q.WF)
    (ha : Act P env accts s s') : (∃ E, Ring s.q s'.q E 0 ∧ s'.q.toList = s.q.toList ++ E) ∨
      ∃ l n, consumeEvents conc P env s l n = .ok s' ∨ consumeEventsPermissioned conc P env s l n = .ok s' := by
  have hs := adding_start hw
  cases ha with
  | idle e => subst e; exact .inl ⟨[], .refl hw, (List.append_nil _).symm⟩
  | place hl hv hx => exact .inl (adding_ends (Refines.sim_newOrderV3 hs P env _ _ hv.1.2) hx)
  | take hl hv hx => exact .inl (adding_ends (Refines.sim_sendTake hs P _ _ hv.1.2) hx)
  | cancel hl hx => exact .inl (adding_ends (Refines.sim_cancelV2 hs env _ _ _) hx)
  | cancelBy hl hx => exact .inl (adding_ends (Refines.sim_cancelByClientIdV2 hs env _ _) hx)
  | batch hl hx => exact .inl (adding_ends (Refines.sim_cancelByClientIds hs env _ _) hx)
  | prune hl hx => exact .inl (adding_ends (Refines.sim_prune hs env _ _) hx)
  | crank hl hx => exact .inr ⟨_, _, hx⟩
  | settle hl hx => exact .inl (adding_ends (Refines.sim_settleFunds hs P env _) hx)
  | disable hl hx => exact .inl (adding_ends (Refines.sim_disableMarket hs P _) hx)
  | sweep hl hx => exact .inl (adding_ends (Refines.sim_sweepFees hs P _) hx)
  | close hl hx => exact .inl (adding_ends (Refines.sim_closeOpenOrders hs env _) hx)
  | init hl hx => exact .inl (adding_ends (Refines.sim_initOpenOrders hs env _) hx)

/-- `E` was written and `n` were consumed, at the level of the account and of the pending events. -/
structure Taped (s s' : State conc) (E : List EventView) (n : Nat) : Prop where
  ring : Ring s.q s'.q (E.map Event.new) n
  consumed : n ≤ (pending s).length + E.length
  queue : pending s' = (pending s ++ E).drop n

theorem view_new (V : List EventView) : (V.map Event.new).filterMap (fun e => e.asView.toOption) = V := by
  rw [List.filterMap_map]
  have : (fun e => e.asView.toOption) ∘ Event.new = (some : EventView → Option EventView) := by
    funext v; simp [Event.asView_new, Except.toOption]
  rw [this, List.filterMap_some]

theorem Taped.same {s s' : State conc} (hw : s.q.WF) (h : s'.q = s.q) : Taped s s' [] 0 := by
  refine ⟨?_, Nat.zero_le _, ?_⟩
  · rw [h]; exact .refl hw
  · unfold pending; rw [h]; simp

theorem Taped.move {s s1 s2 : State conc} {E : List EventView} {n : Nat} (h : Taped s s1 E n) (e : s2.q = s1.q) :
    Taped s s2 E n := by
  obtain ⟨h1, h2, h3⟩ := h
  refine ⟨by rw [e]; exact h1, h2, ?_⟩
  rw [← h3]
  unfold pending; rw [e]

theorem Taped.trans {s s1 s2 : State conc} {E E' : List EventView} {n n' : Nat} (h : Taped s s1 E n)
    (k : Taped s1 s2 E' n') : Taped s s2 (E ++ E') (n + n') := by
  have hl : (pending s1).length = (pending s).length + E.length - n := by rw [h.queue]; simp
  have h1 := h.consumed
  have k1 := k.consumed
  refine ⟨?_, ?_, ?_⟩
  · rw [List.map_append]; exact h.ring.trans k.ring
  · rw [List.length_append]; omega
  · rw [k.queue, h.queue, ← List.append_assoc, ← List.drop_append_of_le_length (by simpa using h1), List.drop_drop]

theorem queue_pending {P : Params} {s : State conc} (h : Reach P s) (hq : s.seq ≤ W64) :
    s.q.WF ∧ s.q.toList = (pending s).map Event.new := by
  have hg := h.good hq
  obtain ⟨_, _, hi, _⟩ := h.view hq
  rw [Queue.iter_eq hg.rs.q.1] at hi
  exact ⟨hg.rs.q.1, hi⟩

theorem act_taped {P : Params} {env : Env} {accts : List AccMeta} {s s' : State conc} (h : Reach P s) (h' : Reach P s')
    (hq : s'.seq ≤ W64) (ha : Act P env accts s s') :
    (∃ E, Taped s s' E 0 ∧ pending s' = pending s ++ E) ∨
      (∃ n, Taped s s' [] n) ∧ ∀ sd, resting s' sd = resting s sd := by
  have hs : s.seq ≤ W64 := Nat.le_trans ha.seq hq
  obtain ⟨hw, hp⟩ := queue_pending h hs
  obtain ⟨hw', hp'⟩ := queue_pending h' hq
  rcases act_ring hw ha with ⟨E, hr, ht⟩ | ⟨l, n, hx⟩
  · left
    have e1 : E = ((pending s').drop (pending s).length).map Event.new := by
      rw [List.map_drop, ← hp', ht, hp, List.drop_append_of_le_length (by simp), List.drop_eq_nil_of_le (by simp)]
      rfl
    have e2 : pending s' = pending s ++ (pending s').drop (pending s).length := by
      have : pending s' = (s.q.toList ++ E).filterMap fun e => e.asView.toOption := by
        conv => lhs; unfold pending
        rw [Queue.iter_eq hw', ht]
      rw [List.filterMap_append, e1, view_new, hp, view_new] at this
      exact this
    refine ⟨_, ⟨by rw [← e1]; exact hr, Nat.zero_le _, by rw [← e2]; rfl⟩, e2⟩
  · right
    obtain ⟨k, _, h2, h3, _, _, _, _, _, hb, hk, _⟩ := crank_delivers h hs hx
    obtain ⟨keys, _, hl⟩ := consume_is_loop hx
    obtain ⟨j, hj⟩ := crank_ring _ hw hl
    have hc := hj.count
    have l1 : s.q.count = (pending s).length := by rw [← Queue.length_toList hw, hp, List.length_map]
    have l2 : s'.q.count = (pending s').length := by rw [← Queue.length_toList hw', hp', List.length_map]
    have l3 : (pending s').length = (pending s).length - k := by rw [h3, List.length_drop]
    have e : j = k := by simp at hc; omega
    subst e
    refine ⟨⟨j, hj, by simpa using h2, by rw [h3, List.append_nil]⟩, fun sd => ?_⟩
    cases sd
    · unfold resting; rw [hb]
    · unfold resting; rw [hk]

/-! ### The events of an order -/

theorem flatMap_single {α β γ : Type} (f : β → List γ) (g : α → β) (k : α → γ) (l : List α) (h : ∀ x, f (g x) = [k x]) :
    (l.map g).flatMap f = l.map k := by
  induction l with
  | nil => rfl
  | cons x l ih => rw [List.map_cons, List.flatMap_cons, h, ih]; rfl

theorem flatMap_none {α β γ : Type} (f : β → List γ) (g : α → β) (l : List α) (h : ∀ x, f (g x) = []) :
    (l.map g).flatMap f = [] := by
  induction l with
  | nil => rfl
  | cons x l ih => rw [List.map_cons, List.flatMap_cons, h, ih]; rfl

/-- The entries of an order or a take that are not the order itself. -/
def metNotes (sd : Side) (a : Nat) (ts : List Touch) (f : Option Posting) : List Note :=
  (tradesOf (otherSide sd) ts).map .filled ++ (ownMet ts).map (fun x => .gone (otherSide sd) a x.1 x.2 .ownOrder) ++
    (evictedOf f).toList.map fun y => .gone sd y.owner y.key y.quantity .crowdedOut

theorem other_otherSide (sd : Side) : sd.other = otherSide sd := by cases sd <;> rfl

section
variable {o : OrderParams} {m : Market} {ts : List Touch} {f : Option Posting} {evs : List EventView}

theorem met_makers (h : EvReport o m ts f evs) (hw : o.side = .ask → tradedLots ts * m.coinLot < W64) :
    (evs.filter EventView.isMakerFill).map (fun v => (v.about, v.moved, v.fee)) =
      (metNotes o.side o.owner ts f).flatMap (Note.makers m) := by
  rw [h.makers]
  unfold metNotes
  rw [List.flatMap_append, List.flatMap_append, flatMap_none _ _ (ownMet ts) (fun _ => rfl),
    flatMap_none _ _ (evictedOf f).toList (fun _ => rfl), flatMap_single (Note.makers m) Note.filled
      (fun t => ((t.side, t.owner, t.id), t.moves m, 0)) _ (fun _ => rfl), List.append_nil, List.append_nil, List.map_map]
  unfold tradesOf
  rw [List.map_map]
  refine List.map_congr_left fun t ht => ?_
  obtain ⟨ht, hfl⟩ := List.mem_filter.1 ht
  cases hsd : o.side with
  | bid =>
    simp [Touch.makerFill, EventView.about, EventView.moved, EventView.fee, EventView.side, EventView.owner, EventView.id,
      Trade.moves, Trade.value, otherSide, Touch.pc]
  | ask =>
    have : wmul t.lots m.coinLot = t.lots * m.coinLot := by
      refine Nat.mod_eq_of_lt (Nat.lt_of_le_of_lt ?_ (hw hsd))
      exact Nat.mul_le_mul_right _ (total_mono_mem ht hfl)
    simp [Touch.makerFill, EventView.about, EventView.moved, EventView.fee, EventView.side, EventView.owner, EventView.id,
      Trade.moves, Trade.value, otherSide, Touch.pc, this]

theorem release_leavers (ho : ∀ t ∈ ts, TouchOk o t) :
    (((ownMet ts).map (fun x => Note.gone (otherSide o.side) o.owner x.1 x.2 .ownOrder)).flatMap
      (Note.leavers m)).Sublist ((ts.flatMap (Touch.release o.side m)).map fun v => (v.about, v.freed)) := by
  unfold ownMet
  induction ts with
  | nil => exact List.Sublist.refl _
  | cons t ts ih =>
    have ih := ih fun x hx => ho x (List.mem_cons_of_mem _ hx)
    rw [List.flatMap_cons, List.map_append]
    cases hf : t.filled with
    | true =>
      rw [List.filter_cons, if_neg (by simp [hf])]
      exact ih.trans (List.sublist_append_right _ _)
    | false =>
      rw [List.filter_cons, if_pos (by simp [hf]), List.map_cons, List.map_cons, List.flatMap_cons]
      have hown : o.owner = t.maker.owner := Classical.byContradiction fun hc => by
        have := (ho t (by simp)).who.2 hc
        rw [hf] at this; cases this
      refine List.Sublist.append ?_ ih
      refine sublist_of_eq ?_
      cases hsd : o.side <;>
        simp [Note.leavers, Touch.release, hf, EventView.about, EventView.freed, EventView.side, EventView.owner,
          EventView.id, otherSide, Side.other, lockedValue, hown, Leaf.price]

theorem met_outs (h : EvReport o m ts f evs) (ho : ∀ t ∈ ts, TouchOk o t) :
    ((metNotes o.side o.owner ts f).flatMap (Note.leavers m)).Sublist
      ((evs.filter EventView.isOut).map fun v => (v.about, v.freed)) := by
  have e : evs.filter EventView.isRelease = (evs.filter EventView.isOut).filter EventView.isRelease := by
    rw [List.filter_filter]
    refine List.filter_congr fun v _ => ?_
    cases v <;> simp [EventView.isRelease, EventView.isOut]
  refine List.Sublist.trans ?_ ((List.filter_sublist (p := EventView.isRelease)).map _)
  rw [← e, h.releases]
  unfold metNotes
  rw [List.flatMap_append, List.flatMap_append, flatMap_none _ _ (tradesOf _ ts) (fun _ => rfl), List.nil_append,
    List.map_append]
  refine (release_leavers ho).append (sublist_of_eq ?_)
  cases f with
  | none => rfl
  | some f =>
    obtain ⟨lots, ev⟩ := f
    cases ev with
    | none => rfl
    | some l =>
      cases hsd : o.side <;>
        simp [evictedOf, Note.leavers, evictRelease, EventView.about, EventView.freed, EventView.side, EventView.owner,
          EventView.id, lockedValue, Leaf.price]

theorem release_known (ho : ∀ t ∈ ts, TouchOk o t) {v : EventView} (hv : v ∈ ts.flatMap (Touch.release o.side m)) :
    v.about ∈ (metNotes o.side o.owner ts f).map Note.about := by
  obtain ⟨t, ht, hv⟩ := List.mem_flatMap.1 hv
  unfold metNotes
  rw [List.map_append, List.map_append]
  refine List.mem_append_left _ ?_
  cases hf : t.filled with
  | true =>
    refine List.mem_append_left _ ?_
    simp only [Touch.release, hf, if_true] at hv
    split at hv
    · rw [List.mem_singleton.1 hv]
      refine List.mem_map.2 ⟨_, List.mem_map.2 ⟨_, List.mem_map.2 ⟨t, List.mem_filter.2 ⟨ht, hf⟩, rfl⟩, rfl⟩, ?_⟩
      simp [Note.about, EventView.about, EventView.side, EventView.owner, EventView.id, other_otherSide]
    · cases hv
  | false =>
    refine List.mem_append_right _ ?_
    have hown : o.owner = t.maker.owner := Classical.byContradiction fun hc => by
      have := (ho t ht).who.2 hc
      rw [hf] at this; cases this
    simp only [Touch.release, hf] at hv
    rw [List.mem_singleton.1 hv]
    refine List.mem_map.2 ⟨_, List.mem_map.2 ⟨_, List.mem_map.2 ⟨t, List.mem_filter.2 ⟨ht, by simp [hf]⟩, rfl⟩, rfl⟩, ?_⟩
    simp [Note.about, EventView.about, EventView.side, EventView.owner, EventView.id, other_otherSide, hown]

theorem met_known (h : EvReport o m ts f evs) (ho : ∀ t ∈ ts, TouchOk o t) {v : EventView} (hv : v ∈ evs)
    (hn : v.isTakerFill = false ∧ v.isReport = false) : v.about ∈ (metNotes o.side o.owner ts f).map Note.about := by
  by_cases hm : v.isMakerFill = true
  · have : v ∈ evs.filter EventView.isMakerFill := List.mem_filter.2 ⟨hv, hm⟩
    rw [h.makers] at this
    obtain ⟨t, ht, rfl⟩ := List.mem_map.1 this
    unfold metNotes
    rw [List.map_append, List.map_append]
    refine List.mem_append_left _ (List.mem_append_left _ ?_)
    refine List.mem_map.2 ⟨_, List.mem_map.2 ⟨_, List.mem_map.2 ⟨t, ht, rfl⟩, rfl⟩, ?_⟩
    cases hsd : o.side <;>
      simp [Note.about, Touch.makerFill, EventView.about, EventView.side, EventView.owner, EventView.id, otherSide]
  · have hr : v.isRelease = true := by
      obtain ⟨h1, h2⟩ := hn
      cases v with
      | fill _ b => cases b <;> simp_all [EventView.isMakerFill, EventView.isTakerFill]
      | out _ b => cases b <;> simp_all [EventView.isRelease, EventView.isReport]
    have : v ∈ evs.filter EventView.isRelease := List.mem_filter.2 ⟨hv, hr⟩
    rw [h.releases] at this
    rcases List.mem_append.1 this with hv | hv
    · exact release_known ho hv
    · unfold metNotes
      rw [List.map_append]
      refine List.mem_append_right _ ?_
      cases f with
      | none => cases hv
      | some f =>
        obtain ⟨lots, ev⟩ := f
        cases ev with
        | none => cases hv
        | some l =>
          simp only [evictRelease] at hv
          rw [List.mem_singleton.1 hv]
          simp [evictedOf, Note.about, EventView.about, EventView.side, EventView.owner, EventView.id]

theorem taker_facts (hw : o.side = .ask → tradedLots ts * m.coinLot < W64) {t : Touch} (ht : t ∈ ts)
    (hfl : t.filled = true) : (Touch.takerFill o m t).about = (o.side, o.owner, o.orderId) ∧
      (Touch.takerFill o m t).moved = (t.lots * m.coinLot, t.pc m) ∧
      (Touch.takerFill o m t).fee = o.feeTier.takerFee (t.pc m) ∧ (Touch.takerFill o m t).id = o.orderId := by
  cases hsd : o.side with
  | bid =>
    simp [Touch.takerFill, hsd, EventView.about, EventView.moved, EventView.fee, EventView.side, EventView.owner,
      EventView.id]
  | ask =>
    have : wmul t.lots m.coinLot = t.lots * m.coinLot := by
      refine Nat.mod_eq_of_lt (Nat.lt_of_le_of_lt ?_ (hw hsd))
      exact Nat.mul_le_mul_right _ (total_mono_mem ht hfl)
    have hfee := takerFee_within o.feeTier (t.pc m)
    simp [Touch.takerFill, hsd, EventView.about, EventView.moved, EventView.fee, EventView.side, EventView.owner,
      EventView.id, this]
    omega

theorem order_tells (h : EvReport o m ts f evs) (hr : OutReport o none f evs) (ho : ∀ t ∈ ts, TouchOk o t)
    (hw : o.side = .ask → tradedLots ts * m.coinLot < W64) (h0 : o.owner ≠ 0) {p : Placed} (hp : p.side = o.side)
    (ha : p.account = o.owner) (hid : p.id = o.orderId) (htk : p.took = tradesOf (otherSide o.side) ts)
    (hfee : p.fee = takerFees m o.feeTier ts) : Tells m evs (.placed p :: metNotes o.side o.owner ts f) := by
  have ht : evs.filter EventView.isTakerFill = (ts.filter (·.filled)).map (Touch.takerFill o m) := by
    rw [h.takers, if_neg h0]
  have hz : ∀ {g : Note → Nat}, (∀ t, g (.filled t) = 0) → (∀ a b c d e, g (.gone a b c d e) = 0) →
      total g (metNotes o.side o.owner ts f) = 0 := by
    intro g g1 g2
    unfold metNotes
    rw [total_append, total_append, total_map, total_map, total_map]
    have := sumBy_zero (L := tradesOf (otherSide o.side) ts) (f := fun t => g (.filled t)) fun t _ => g1 t
    have := sumBy_zero (L := ownMet ts) (f := fun x => g (.gone (otherSide o.side) o.owner x.1 x.2 .ownOrder))
      fun t _ => g2 _ _ _ _ _
    have := sumBy_zero (L := (evictedOf f).toList) (f := fun y => g (.gone o.side y.owner y.key y.quantity .crowdedOut))
      fun t _ => g2 _ _ _ _ _
    unfold total
    unfold sumBy at *
    omega
  refine ⟨?_, ?_, ?_, ?_, ?_⟩
  · rw [List.flatMap_cons]; exact met_makers h hw
  · rw [List.flatMap_cons, ht]
    have e : (metNotes o.side o.owner ts f).flatMap (Note.takers m) = [] := by
      unfold metNotes
      rw [List.flatMap_append, List.flatMap_append, flatMap_none _ _ _ (fun _ => rfl), flatMap_none _ _ _ (fun _ => rfl),
        flatMap_none _ _ _ (fun _ => rfl)]
      rfl
    rw [e, List.append_nil, List.map_map]
    simp only [Note.takers, htk, tradesOf, List.map_map, hp, ha, hid]
    refine List.map_congr_left fun t ht => ?_
    obtain ⟨ht, hfl⟩ := List.mem_filter.1 ht
    obtain ⟨e1, e2, _⟩ := taker_facts hw ht hfl
    simp only [Function.comp, e1, e2]
    rfl
  · intro w
    rw [total_cons, hz (fun _ => rfl) (fun _ _ _ _ _ => rfl), ht, total_map]
    simp only [Note.feeOf, hid, hfee]
    rw [← tradesOf_fees m o.feeTier (otherSide o.side) ts]
    unfold tradesOf
    rw [total_map, ← total_mul_left, Nat.add_zero]
    refine total_congr fun t ht => ?_
    obtain ⟨ht, hfl⟩ := List.mem_filter.1 ht
    obtain ⟨_, _, e3, e4⟩ := taker_facts hw ht hfl
    rw [e3, e4]
    rfl
  · rw [List.flatMap_cons]; exact met_outs h ho
  · intro v hv
    rw [List.map_cons]
    by_cases h1 : v.isTakerFill = true
    · have : v ∈ evs.filter EventView.isTakerFill := List.mem_filter.2 ⟨hv, h1⟩
      rw [ht] at this
      obtain ⟨t, ht, rfl⟩ := List.mem_map.1 this
      obtain ⟨ht, hfl⟩ := List.mem_filter.1 ht
      rw [(taker_facts hw ht hfl).1]
      simp [Note.about, hp, ha, hid]
    · by_cases h2 : v.isReport = true
      · have own : ∀ b, OwnOut o b v → v.about ∈ (Note.placed p).about :: (metNotes o.side o.owner ts f).map Note.about := by
          rintro b ⟨u, s, rfl, _⟩
          simp [Note.about, EventView.about, EventView.side, EventView.owner, EventView.id, hp, ha, hid]
        cases hr with
        | «open» evs hrf hh => exact own _ (hh v hv h2)
        | closed evs v' _ _ _ hh hv' =>
          rcases List.mem_append.1 hv with hv | hv
          · exact own _ (hh v hv h2)
          · rw [List.mem_singleton.1 hv]; rw [List.mem_singleton.1 hv] at own; exact own _ hv'
        | take evs _ _ h3 _ => exact absurd h3 h0
      · exact List.mem_cons_of_mem _ (met_known h ho hv ⟨by simpa using h1, by simpa using h2⟩)

theorem take_tells (h : EvReport o m ts none evs) (hr : OutReport o none none evs) (ho : ∀ t ∈ ts, TouchOk o t)
    (hw : o.side = .ask → tradedLots ts * m.coinLot < W64) (h0 : o.owner = 0) (hown : ownMet ts = []) :
    Tells m evs ((tradesOf (otherSide o.side) ts).map .filled) := by
  have hN : metNotes o.side o.owner ts none = (tradesOf (otherSide o.side) ts).map .filled := by
    unfold metNotes; rw [hown]; simp [evictedOf]
  have ht : evs.filter EventView.isTakerFill = [] := by rw [h.takers, if_pos h0]
  refine ⟨?_, ?_, ?_, ?_, ?_⟩
  · rw [← hN]; exact met_makers h hw
  · rw [ht, flatMap_none _ _ _ (fun _ => rfl)]; rfl
  · intro w
    rw [ht, sum_silent _ _ (fun _ => rfl)]; rfl
  · rw [← hN]; exact met_outs h ho
  · intro v hv
    rw [← hN]
    refine met_known h ho hv ⟨?_, ?_⟩
    · cases hx : v.isTakerFill with
      | false => rfl
      | true =>
        have : v ∈ evs.filter EventView.isTakerFill := List.mem_filter.2 ⟨hv, hx⟩
        rw [ht] at this; cases this
    · cases hr with
      | «open» evs hrf hh => simp at hrf
      | closed evs v' _ _ hne _ _ => exact absurd h0 hne
      | take evs _ _ _ hh => exact hh v hv
end

theorem withdrawn_tells (m : Market) (ls : List (Side × Leaf)) (why : Cause) :
    Tells m (ls.map (outEvent m)) (ls.map fun x => .gone x.1 x.2.owner x.2.key x.2.quantity why) := by
  induction ls with
  | nil => exact .nil m
  | cons x ls ih =>
    refine Tells.append (E := [outEvent m x]) (N := [.gone x.1 x.2.owner x.2.key x.2.quantity why]) ?_ ih
    obtain ⟨sd, l⟩ := x
    cases sd <;> refine ⟨rfl, rfl, fun _ => rfl, sublist_of_eq rfl, fun v hv => ?_⟩ <;>
      (rw [List.mem_singleton.1 hv]; exact List.mem_singleton.2 rfl)

/-! ### Every act -/

theorem act_logged {P : Params} {env : Env} {accts : List AccMeta} {s s' : State conc} (h : Reach P s) (h' : Reach P s')
    (hn : NotVault P s.mkt accts) (hq : s'.seq ≤ W64) (ha : Act P env accts s s') :
    ∃ E n M, Taped s s' E n ∧ Noted P env accts s s' M ∧ Balanced s s' M ∧ Tells s.mkt E M := by
  have hs : s.seq ≤ W64 := Nat.le_trans ha.seq hq
  rcases (act_taped h h' hq ha).symm with ⟨⟨n, ht⟩, hb⟩ | ⟨E, ht, hE⟩
  · exact ⟨[], n, [], ht, .quiet hb, .quiet hb, .nil _⟩
  have fix : ∀ {evs}, pending s' = pending s ++ evs → E = evs := fun e => List.append_cancel_left (hE.symm.trans e)
  have quiet : s'.q = s.q → (∀ sd, resting s' sd = resting s sd) →
      ∃ E n M, Taped s s' E n ∧ Noted P env accts s s' M ∧ Balanced s s' M ∧ Tells s.mkt E M := fun hq' hb =>
    ⟨[], 0, [], .same (queue_pending h hs).1 hq', .quiet hb, .quiet hb, .nil _⟩
  have wd : ∀ {l : List AccMeta}, l ⊆ accts → (∃ (oo signer : AccMeta) (o : OpenOrders) (ls : List (Side × Leaf)),
      oo ∈ l ∧ signer ∈ l ∧ signer.signer = true ∧ ooAt s.oos oo.key = some o ∧
      o.owner = signer.key ∧ Withdrawn s s' oo.key ls) →
      ∃ E n M, Taped s s' E n ∧ Noted P env accts s s' M ∧ Balanced s s' M ∧ Tells s.mkt E M := by
    rintro l hl ⟨oo, signer, o, ls, _, h2, h3, h4, h5, w⟩
    have e := fix w.events
    subst e
    exact ⟨_, 0, _, ht, .withdrawn oo.key signer o ls (hl h2) h3 h4 h5 w.theirs w.nodup, w.balanced h hs .withdrawn,
      withdrawn_tells _ _ _⟩
  cases ha with
  | idle e => subst e; exact quiet rfl fun _ => rfl
  | @place l ix hl hv hx =>
    have hlt : s.seq < W64 := by have := (newOrderV3_keeps hx).2.1; omega
    obtain ⟨a, tier, p, p', slot, d, ts, f, evs, e⟩ := place_effect h hlt hv (hn.subset hl) hx
    obtain ⟨h4, h5⟩ := place_notes (accts := accts) h hs hl hv hlt hx e
    have ee := fix e.matched.queue
    subst ee
    refine ⟨_, 0, _, ht, h4, h5, ?_⟩
    have := order_tells (p := placedBy s ix a.oo.key tier ts f) e.matched.events e.matched.outs e.matched.touches (fun hsd => ?_)
      e.nonzero rfl rfl rfl (by rw [← other_otherSide]; rfl) rfl
    · unfold placeNotes
      rw [other_otherSide]
      exact this
    · exact Nat.lt_of_le_of_lt (Nat.mul_le_mul_right _ (Nat.le_trans (Nat.le_add_right _ _) (e.ask hsd).size)) (e.ask hsd).fits
  | @take l ix hl hv hx =>
    have hlt : s.seq < W64 := by have := (sendTake_keeps hx).2.1; omega
    obtain ⟨a, tier, ts, evs, e⟩ := take_effect h hlt hv (hn.subset hl) hx
    obtain ⟨h4, h5⟩ := take_notes (env := env) hl hv hlt hx e
    have ee := fix e.matched.queue
    subst ee
    refine ⟨_, 0, _, ht, h4, h5, ?_⟩
    have hown : ownMet ts = [] := by
      unfold ownMet
      rw [List.filter_eq_nil_iff.2 fun t ht => ?_]
      · rfl
      · intro hf
        have hf : t.filled = false := by simpa using hf
        rcases (e.matched.touches t ht).self hf with h1 | ⟨h1, _⟩ <;> cases h1
    have := take_tells e.matched.events e.matched.outs e.matched.touches (fun _ => e.lots) rfl hown
    rw [other_otherSide]
    exact this
  | cancel hl hx => exact wd hl (cancel_withdrawn h hs (.inl ⟨_, _, hx⟩))
  | cancelBy hl hx => exact wd hl (cancel_withdrawn h hs (.inr (.inl ⟨_, hx⟩)))
  | batch hl hx => exact wd hl (cancel_withdrawn h hs (.inr (.inr ⟨_, hx⟩)))
  | prune hl hx =>
    obtain ⟨_, _, _, auth, oo, _, _, _, ls, rfl, h1, h2, h3, _, _, w, _⟩ := prune_effect h hs hx
    have e := fix w.events
    subst e
    exact ⟨_, 0, _, ht, .pruned oo.key auth ls (hl (by simp)) h1 h2 h3 w.theirs w.nodup, w.balanced h hs .pruned,
      withdrawn_tells _ _ _⟩
  | crank hl hx =>
    obtain ⟨k, _, h2, h3, _, _, _, _, _, hb, hk, _⟩ := crank_delivers h hs hx
    have hrest : ∀ sd, resting s' sd = resting s sd := fun sd => by
      cases sd
      · unfold resting; rw [hb]
      · unfold resting; rw [hk]
    have e : E = [] := by
      have h4 : (pending s').length = (pending s).length + E.length := by rw [hE, List.length_append]
      rw [h3, List.length_drop] at h4
      exact List.length_eq_zero_iff.1 (by omega)
    subst e
    exact ⟨[], 0, [], ht, .quiet hrest, .quiet hrest, .nil _⟩
  | settle hl hx =>
    obtain ⟨m, oo, owner, cv, pv, cw, pw, vsA, tp, refer, o, rfl, _, hsg, how, st⟩ := settle_effect h hs hx
    refine quiet st.rest.2.2.1 fun sd => ?_
    cases sd
    · unfold resting; rw [st.rest.1]
    · unfold resting; rw [st.rest.2.1]
  | disable hl hx =>
    obtain ⟨_, _, _, _, _, _, e⟩ := disable_inv hx
    subst e
    exact quiet rfl fun sd => by cases sd <;> rfl
  | sweep hl hx =>
    obtain ⟨m, pv, auth, w, vsA, tp, l, rfl, h1, h2, h3, e⟩ := sweep_effect h hs hx
    subst e
    exact quiet rfl fun sd => by cases sd <;> rfl
  | close hl hx =>
    obtain ⟨oo, owner, dest, m, p, rfl, hsg, hp, _, how, _, _, _, e⟩ := (close_is_safe h hs).1 _ _ _ hx
    subst e
    exact quiet rfl fun sd => by cases sd <;> rfl
  | init hl hx =>
    obtain ⟨oo, owner, m, rent, rest, rfl, hsg, _, hcase⟩ := init_inv hx
    rcases hcase with ⟨e, _⟩ | ⟨e, hnone, _⟩
    · subst e
      exact quiet rfl fun sd => rfl
    · subst e
      exact quiet rfl fun sd => by cases sd <;> rfl

/-! ### Whole histories -/

/-- Everything that is kept up along a history. -/
structure LogsAll (P : Params) (s s' : State conc) (E : List EventView) (n : Nat) (N : List Note) : Prop where
  taped : Taped s s' E n
  record : Record P s s' N
  book : Balanced s s' N
  tells : Tells s.mkt E N
  lots : s'.mkt.coinLot = s.mkt.coinLot ∧ s'.mkt.pcLot = s.mkt.pcLot

theorem Acts.first {P : Params} {env : Env} {accts : List AccMeta} {s s' : State conc} (h : Acts P env accts s s') :
    Reach P s := by
  cases h with
  | nil hr => exact hr
  | cons hr _ _ _ => exact hr

theorem Acts.logged {P : Params} {env : Env} {accts : List AccMeta} {s s1 s2 : State conc} {E : List EventView} {n : Nat}
    {N : List Note} (h : LogsAll P s s1 E n N) (ha : Acts P env accts s1 s2) (hq : s2.seq ≤ W64) :
    ∃ E n N, LogsAll P s s2 E n N := by
  induction ha generalizing E n N with
  | nil _ => exact ⟨E, n, N, h⟩
  | cons hr hn ha t ih =>
    obtain ⟨E', n', M, h1, h2, h3, h4⟩ := act_logged hr t.first hn (Nat.le_trans t.seq hq) ha
    obtain ⟨k1, k2⟩ := h.lots
    have k := ha.keeps
    refine ih (E := E ++ E') (n := n + n') (N := N ++ M) ⟨h.taped.trans h1, h.record.act ha h2, h.book.trans h3,
      h.tells.append (h4.lots k1.symm k2.symm), by rw [k.eq]; exact ⟨k1, k2⟩⟩ hq

theorem logs_all {P : Params} {s s' : State conc} (h : Reach P s) (hl : Later P s s') (hq : s'.seq ≤ W64) :
    ∃ E n N, LogsAll P s s' E n N := by
  induction hl with
  | refl =>
    exact ⟨[], 0, [], .same (queue_pending h hq).1 rfl, .nil, .quiet fun _ => rfl, .nil _, rfl, rfl⟩
  | step hl hs ih =>
    have hr := hl.reach h
    cases hs with
    | instr hn hx =>
      obtain ⟨ix, _, hv, hp⟩ := step_instr hx
      have ha := process_acts hr hn hv hp
      obtain ⟨E, n, N, hN⟩ := ih (Nat.le_trans ha.seq hq)
      exact ha.logged hN hq
    | purge ho hc =>
      obtain ⟨E, n, N, t⟩ := ih hq
      exact ⟨E, n, N, t.taped.move rfl, t.record.purge ho hc, t.book.same fun sd => by cases sd <;> rfl, t.tells, t.lots⟩
    | token hn hx =>
      obtain ⟨E, n, N, t⟩ := ih hq
      exact ⟨E, n, N, t.taped.move rfl, t.record.token hx, t.book.same fun sd => by cases sd <;> rfl, t.tells, t.lots⟩

theorem later_seq {P : Params} {s s' : State conc} (h : Reach P s) (hl : Later P s s') : s.seq ≤ s'.seq := by
  induction hl with
  | refl => exact Nat.le_refl _
  | step hl hs ih =>
    refine Nat.le_trans ih ?_
    cases hs with
    | instr hn hx =>
      obtain ⟨ix, _, hv, hp⟩ := step_instr hx
      exact (process_acts (hl.reach h) hn hv hp).seq
    | purge => exact Nat.le_refl _
    | token => exact Nat.le_refl _

theorem Taped.logged {s s' : State conc} {E : List EventView} {n : Nat} (h : Taped s s' E n) : Logged s s' E n := by
  have hr := h.ring
  have hl : s'.q.buf.length = s.q.buf.length := by rw [hr.buf, laid_length]
  refine ⟨hl, by simpa using hr.seq, h.consumed, h.queue, fun j hj hlt => ?_⟩
  unfold slotEvent slotBack
  rw [hr.back (by simpa using hj) hlt, List.length_map, List.getElem?_map]
  have hk : E.length - 1 - j < E.length := by omega
  rw [List.getElem?_eq_getElem hk]
  simp [Event.asView_new, Except.toOption]

theorem Logged.since {s s' : State conc} {E : List EventView} {n : Nat} (h : Logged s s' E n) (h1 : s.q.seq < W64)
    (h2 : s'.q.buf.length < W64) (hE : E.length ≤ s'.q.buf.length) : eventsSince s' s.q.seq = E.map some := by
  have e : (s'.q.seq + W64 - s.q.seq) % W64 = E.length := by
    rw [h.counted]
    unfold W64 at *
    omega
  unfold eventsSince
  rw [e, List.reverse_eq_iff]
  refine List.ext_getElem? fun j => ?_
  by_cases hj : j < E.length
  · rw [List.getElem?_reverse (by simpa using hj), List.getElem?_map, List.getElem?_map, List.getElem?_range hj,
      List.length_map]
    show some (slotEvent s' (slotBack s' j)) = _
    rw [h.kept j hj (by omega), List.getElem?_eq_getElem (by omega)]
    rfl
  · rw [List.getElem?_eq_none (by simpa using hj), List.getElem?_eq_none (by simpa using hj)]

/-- C96. From any reachable state to any later one, whatever instructions ran: some events were written and some consumed.
The counter grew by the number written, the queue is what was pending and what was written less what was consumed, and the
newest written events can be read back from the account, consumed or not. The events written tell the record of orders,
trades and withdrawals that explains both sides of the book. So a reader that polls before more events were written than
the account has slots reads exactly these events. -/
theorem event_queue_is_a_log {P : Params} {s s' : State conc} (h : Reach P s) (hl : Later P s s') (hq : s'.seq ≤ W64) :
    ∃ E n N, Logged s s' E n ∧ Record P s s' N ∧ Balanced s s' N ∧ Tells s.mkt E N ∧
      (E.length ≤ s'.q.buf.length → eventsSince s' s.q.seq = E.map some) := by
  obtain ⟨E, n, N, t⟩ := logs_all h hl hq
  have w' := (queue_pending (hl.reach h) hq).1
  have hs : s.seq ≤ W64 := Nat.le_trans (later_seq h hl) hq
  have w := (queue_pending h hs).1
  have hl := t.taped.logged
  exact ⟨E, n, N, hl, t.record, t.book, t.tells, hl.since w.seq (by have := w'.len; unfold W64 at *; omega)⟩

-- the demo market after nine instructions: all five events have been consumed, and a reader that last looked when the
-- market was new still reads them; one that looked after the third instruction reads only the last. They tell the record
def Demo.log : List EventView :=
  [.fill .ask true 200 20000 0 18446744073709551616000 41 0 .base 7,
    .fill .bid false 20008 200 8 (genOrderId 1 1100 .bid) 42 0 .base 8,
    .out .bid false 9992 0 (genOrderId 1 1100 .bid) 42 0 8, .out .bid false 13000 27000 Demo.bidId 42 1 9,
    .out .bid false 27000 0 Demo.bidId 42 1 9]

example : Reach Demo.P Demo.s0 ∧ Later Demo.P Demo.s0 Demo.s9 ∧ Demo.s9.seq ≤ W64 ∧
    (Demo.s0.q.seq, Demo.s3.q.seq, Demo.s9.q.seq, Demo.s9.q.count, Demo.s9.q.buf.length) = (0, 4, 5, 0, 6) ∧
    eventsSince Demo.s9 0 = Demo.log.map some ∧ eventsSince Demo.s9 4 = (Demo.log.drop 4).map some ∧
    Logged Demo.s0 Demo.s9 Demo.log 5 ∧ Tells Demo.s0.mkt Demo.log Demo.notes ∧
    ∃ E n N, Logged Demo.s0 Demo.s9 E n ∧ Record Demo.P Demo.s0 Demo.s9 N ∧ Tells Demo.s0.mkt E N := by
  refine ⟨.start Demo.genesis, Demo.later9, by decide +kernel, by decide +kernel, by decide +kernel, by decide +kernel,
    ⟨by decide +kernel, by decide +kernel, by decide +kernel, by decide +kernel, ?_⟩,
    ⟨by decide +kernel, by decide +kernel, fun w => ?_, by decide +kernel, by decide +kernel⟩, ?_⟩
  · intro j hj _
    have : ∀ j < 5, slotEvent Demo.s9 (slotBack Demo.s9 j) = Demo.log[Demo.log.length - 1 - j]? := by decide +kernel
    exact this j hj
  · simp [Demo.log, Demo.notes, total, List.filter_cons, EventView.isTakerFill, EventView.id, EventView.fee, Note.feeOf]
  · obtain ⟨E, n, N, h1, h2, _, h3, _⟩ := event_queue_is_a_log (.start Demo.genesis) Demo.later9 (by decide +kernel)
    exact ⟨E, n, N, h1, h2, h3⟩

end Serum.Props
