import Verif.Embed
import Verif.Local
import Verif.PropsCrank
import Verif.PropsAnytime

/-
C100: it does not matter when the crank runs. Delivering the oldest events changes the accounts they belong to and
takes them off the queue. Another instruction that does not name these accounts appends to the queue at most, so it
does the same on the shorter queue (`popped`) and leaves these accounts alone (`apart`).
-/

namespace Serum.Props

/-! ### The queue with its oldest event removed -/

theorem pushBack_popFront {q q' r : Queue Event} {e x : Event} (h : q.WF) (hp : q.popFront = some (e, r))
    (hx : q.pushBack x = some q') : ∃ r', r.pushBack x = some r' ∧ q'.popFront = some (e, r') := by
  unfold Queue.pushBack at hx
  split at hx
  · cases hx
  rename_i hf
  have hlen := h.len
  have hcount := h.count
  have hc : q.count < q.buf.length := by
    have : q.count ≠ q.buf.length := by simpa [Queue.full] using hf
    omega
  have hh := h.head (by omega)
  unfold Queue.popFront at hp
  split at hp
  · cases hp
  rename_i he
  have h0 : 0 < q.count := by
    have : q.count ≠ 0 := by simpa [Queue.empty] using he
    omega
  have hb : q.buf[q.head]? = some q.buf[q.head] := List.getElem?_eq_getElem hh
  rw [hb] at hp
  obtain ⟨rfl, rfl⟩ := Prod.mk.inj (Option.some.inj hp)
  have hcnt : wsub q.count 1 = q.count - 1 := wsub_eq (by omega) (by unfold W64 at *; omega)
  have hcnt2 : wadd q.count 1 = q.count + 1 := wadd_eq (by unfold W64 at *; omega)
  have hcnt3 : wadd (q.count - 1) 1 = q.count := by rw [wadd_eq (by unfold W64 at *; omega)]; omega
  have hcnt4 : wsub (q.count + 1) 1 = q.count := by rw [wsub_eq (by omega) (by unfold W64 at *; omega)]; omega
  have h1 := Queue.mod_idx hh (i := 1) (by omega) hlen
  have hh2 : wadd q.head 1 % q.buf.length < q.buf.length := Nat.mod_lt _ (by omega)
  have h2 := Queue.mod_idx hh2 (i := q.count - 1) (by omega) hlen
  have h3 := Queue.mod_idx hh (i := q.count) (by omega) hlen
  have hslot : wadd (wadd q.head 1 % q.buf.length) (q.count - 1) % q.buf.length = wadd q.head q.count % q.buf.length := by
    rw [h2, h3]
    simp only [h1]
    repeat' split
    all_goals omega
  have hne : wadd q.head q.count % q.buf.length ≠ q.head := by
    rw [h3]; split <;> omega
  have hq' := Option.some.inj hx
  refine ⟨{ q' with count := q.count, head := wadd q.head 1 % q.buf.length }, ?_, ?_⟩
  · unfold Queue.pushBack Queue.full
    rw [if_neg (by simp only [hcnt, beq_iff_eq]; omega)]
    subst hq'
    simp only [hcnt, hcnt3, hslot]
  · subst hq'
    unfold Queue.popFront Queue.empty
    rw [if_neg (by simp only [hcnt2, beq_iff_eq]; omega)]
    simp only [List.getElem?_set_ne hne, hb, List.length_set, hcnt2, hcnt4]

/-- The same books, and a queue without its oldest event. -/
def popped (e : Event) : Embeds conc conc where
  RB := Eq
  RQ q r := q.WF ∧ q.popFront = some (e, r)
  best _ h := h ▸ Le.refl
  setBest _ _ h := h ▸ Le.refl
  remove _ h := by subst h; exact Sim.refl.mono fun _ _ e => e ▸ ⟨rfl, rfl⟩
  insert _ _ h := by subst h; exact Le.refl.mono fun _ _ e => e ▸ ⟨rfl, rfl⟩
  evict _ h := by subst h; exact Le.refl.mono fun _ _ e => e ▸ ⟨rfl, rfl⟩
  findBy _ _ h := h ▸ rfl
  push x h hx := by
    obtain ⟨r', h1, h2⟩ := pushBack_popFront h.1 h.2 hx
    exact ⟨r', h1, (Queue.pushBack_spec h.1 hx).1, h2⟩

/-- The same books and queue, in which certain events come first. -/
def prefixed (L : List Event) : Embeds conc conc where
  RB := Eq
  RQ q r := q = r ∧ q.WF ∧ L <+: q.toList
  best _ h := h ▸ Le.refl
  setBest _ _ h := h ▸ Le.refl
  remove _ h := by subst h; exact Sim.refl.mono fun _ _ e => e ▸ ⟨rfl, rfl⟩
  insert _ _ h := by subst h; exact Le.refl.mono fun _ _ e => e ▸ ⟨rfl, rfl⟩
  evict _ h := by subst h; exact Le.refl.mono fun _ _ e => e ▸ ⟨rfl, rfl⟩
  findBy _ _ h := h ▸ rfl
  push x h hx := by
    obtain ⟨rfl, h2, h3⟩ := h
    obtain ⟨g1, g2, _⟩ := Queue.pushBack_spec h2 hx
    exact ⟨_, hx, rfl, g1, by rw [g2]; exact h3.trans (List.prefix_append _ _)⟩

/-- One account changed. -/
def apart (A : Nat) (o o' : OpenOrders) : Agree (· ≠ A) where
  R l k := ooAt l A = some o ∧ k = setOo l A o'
  get h ha := by
    rw [h.2, ooAt_setOo]
    simp [ha]
  put p h ha := by
    obtain ⟨h1, rfl⟩ := h
    refine ⟨?_, setOo_comm ha h1⟩
    rw [ooAt_setOo]
    simp [ha.symm, h1]

/-! ### One event -/

/-- An account that holds an event's order exists: the crank creates none. -/
theorem loadOrders_crank {c : Core} {env : Env} {a : Nat} {o : OpenOrders} (h : loadOrders c env a none false none = .ok o) :
    ooAt c.oos a = some o ∧ ∀ (d : Core) (env2 : Env), ooAt d.oos a = some o → loadOrders d env2 a none false none = .ok o := by
  unfold loadOrders at h
  split at h
  · rename_i oo ho
    split at h
    · cases h
    rename_i hcl
    split at h
    · cases h
    cases Except.ok.inj h
    refine ⟨ho, fun d env2 hd => ?_⟩
    unfold loadOrders
    simp only [hd]
    rw [if_neg hcl, if_neg (by simp)]
  · split at h
    · cases h
    · split at h
      · cases h
      · unfold initOrders at h
        split at h
        · cases h
        · cases h

theorem peek_of_pop {q r : Queue Event} {e : Event} (h : q.popFront = some (e, r)) : q.peekFront = some e := by
  unfold Queue.popFront at h
  unfold Queue.peekFront
  split at h
  · cases h
  · rename_i he
    rw [if_neg he]
    split at h
    · cases h
    · rename_i x hx
      rw [hx, (Prod.mk.inj (Option.some.inj h)).1]

theorem consumeOne_some {P : Params} {env : Env} {s s' : State conc} {keys : List Nat}
    (h : consumeOne conc P env s keys = .ok (some s')) :
    ∃ e r o o', s.q.popFront = some (e, r) ∧ ooAt s.oos e.owner = some o ∧
      s' = { s with oos := setOo s.oos e.owner o', q := r } ∧
      ∀ (env2 : Env) (t : State conc) (r' : Queue Event), t.q.popFront = some (e, r') → ooAt t.oos e.owner = some o →
        consumeOne conc P env2 t keys = .ok (some { t with oos := setOo t.oos e.owner o', q := r' }) := by
  unfold consumeOne at h
  split at h
  · cases h
  rename_i e he
  obtain ⟨v, hv, h⟩ := bind_ok h
  obtain ⟨x, hx, h⟩ := bind_ok h
  cases x with
  | none => cases h
  | some o =>
    obtain ⟨o', ho, h⟩ := bind_ok h
    obtain ⟨r, hq, h⟩ := bind_ok h
    have hs' := (Option.some.inj (Except.ok.inj h)).symm
    have hq' := (unwrap_ok).1 hq
    obtain ⟨⟨e', r'⟩, hp, hr⟩ := Option.map_eq_some_iff.1 hq'
    cases hr
    have hee : e' = e := by
      have := peek_of_pop hp
      rw [show s.q.peekFront = some e from he] at this
      exact (Option.some.inj this).symm
    subst hee
    unfold eventOwner at hx
    split at hx
    · rename_i hf
      obtain ⟨o2, k1, hx⟩ := bind_ok hx
      obtain ⟨_, k2, hx⟩ := bind_ok hx
      obtain ⟨_, k3, hx⟩ := bind_ok hx
      obtain ⟨id, k4, hx⟩ := bind_ok hx
      obtain ⟨_, k5, hx⟩ := bind_ok hx
      have ho2 : o2 = o := Option.some.inj (Except.ok.inj hx)
      subst ho2
      obtain ⟨m1, m2⟩ := loadOrders_crank k1
      refine ⟨e', r', o2, o', hp, m1, hs', fun env2 t r2 hr2 ht => ?_⟩
      unfold consumeOne
      have hpk : conc.peek t.q = some e' := peek_of_pop hr2
      have hev : eventOwner P env2 t.toCore keys e' v = .ok (some o2) := by
        unfold eventOwner
        rw [if_pos hf, m2 t.toCore env2 ht]
        simp only [k2, k3, k4, k5, bind, Except.bind, pure, Except.pure]
      rw [hpk]
      simp only [hv, hev, ho, bind, Except.bind, pure, Except.pure]
      rw [hr2]
      rfl
    · cases hx

theorem consumeOne_stop {P : Params} {env : Env} {s : State conc} {keys : List Nat} {e : Event} {r : Queue Event}
    (hp : s.q.popFront = some (e, r)) (h : consumeOne conc P env s keys = .ok none) (env2 : Env) {t : State conc}
    {r' : Queue Event} (ht : t.q.popFront = some (e, r')) : consumeOne conc P env2 t keys = .ok none := by
  unfold consumeOne at h ⊢
  have h1 : conc.peek s.q = some e := peek_of_pop hp
  have h2 : conc.peek t.q = some e := peek_of_pop ht
  rw [h1] at h
  rw [h2]
  simp only at h ⊢
  obtain ⟨v, hv, h⟩ := bind_ok h
  obtain ⟨x, hx, h⟩ := bind_ok h
  cases x with
  | some o =>
    obtain ⟨o', ho, h⟩ := bind_ok h
    obtain ⟨r, hq, h⟩ := bind_ok h
    cases Except.ok.inj h
  | none =>
    unfold eventOwner at hx
    split at hx
    · obtain ⟨o2, k1, hx⟩ := bind_ok hx
      obtain ⟨_, k2, hx⟩ := bind_ok hx
      obtain ⟨_, k3, hx⟩ := bind_ok hx
      obtain ⟨id, k4, hx⟩ := bind_ok hx
      obtain ⟨_, k5, hx⟩ := bind_ok hx
      cases Except.ok.inj hx
    · rename_i hf
      have hev : eventOwner P env2 t.toCore keys e v = .ok none := by
        unfold eventOwner
        rw [if_neg hf]
      simp only [hv, hev, bind, Except.bind, pure, Except.pure]

/-- An instruction that is not a crank only appends to the queue. -/
theorem process_prefix {P : Params} {env : Env} {s s2 : State conc} {accts : List AccMeta} {ix : Instruction}
    (hv : IxValid ix) (hc : ix.isCrank = false) (h : process conc P env s accts ix = .ok s2) {L : List Event} (hw : s.q.WF)
    (hL : L <+: s.q.toList) : s2.q.WF ∧ L <+: s2.q.toList := by
  obtain ⟨b, hb, hr⟩ := (Embeds.le_process (F := prefixed L) (s := s) (t := s) ⟨rfl, rfl, rfl, rfl, hw, hL⟩ P env accts ix hv
    hc).ok_right h
  exact hr.q.2

/-- The instruction after the delivery of one event. -/
theorem one_first {P : Params} {env env2 env' : Env} {s s' s2 : State conc} {keys : List Nat} {accts : List AccMeta}
    {ix : Instruction} (hw : s.q.WF) (hv : IxValid ix) (hc : ix.isCrank = false)
    (hu : ∀ e ∈ s.q.toList.take 1, ∀ a ∈ accts, a.key ≠ e.owner)
    (h1 : consumeOne conc P env s keys = .ok (some s'))
    (h2 : process conc P env' s accts ix = .ok s2) :
    ∃ s3, consumeOne conc P env2 s2 keys = .ok (some s3) ∧ process conc P env' s' accts ix = .ok s3 ∧
      s'.q.WF ∧ s'.q.toList = s.q.toList.drop 1 := by
  obtain ⟨e, r, o, o', g1, g2, g3, g4⟩ := consumeOne_some h1
  have hspec := Queue.popFront_spec hw
  have htl : ∃ xs, s.q.toList = e :: xs ∧ r.WF ∧ r.toList = xs := by
    split at hspec
    · rw [hspec] at g1; cases g1
    · rename_i x xs hx
      obtain ⟨q', k1, k2, k3, _⟩ := hspec
      rw [g1] at k1
      cases k1
      exact ⟨xs, hx, k2, k3⟩
  obtain ⟨xs, hx, hrw, hrx⟩ := htl
  have hn : ∀ a ∈ accts, a.key ≠ e.owner := hu e (by rw [hx]; simp)
  obtain ⟨y, hy, hry⟩ := (Embeds.le_process (F := popped e) (s := s) (t := { s with q := r }) ⟨rfl, rfl, rfl, hw, g1⟩ P env'
    accts ix hv hc).ok_right h2
  obtain ⟨z, hz, hrz⟩ := Sim.ok_right (nearBy_process P env' (A := apart e.owner o o') (s := { s with q := r }) (t := s')
    ⟨by rw [g3], g2, by rw [g3]⟩ hn ix) hy
  have hcore := hry.core
  have hoo : y.oos = s2.oos := (congrArg Core.oos hcore).symm
  refine ⟨z, ?_, hz, by rw [g3]; exact hrw, by rw [g3, hx]; exact hrx⟩
  rw [g4 env2 s2 y.q hry.q.2 (by rw [← hoo]; exact hrz.rel.1)]
  congr 2
  rw [hrz.rest, hrz.rel.2, ← hoo]
  have e1 := hry.bids
  have e2 := hry.asks
  cases s2
  cases y
  simp only at hcore e1 e2 ⊢
  subst hcore e1 e2
  rfl

/-! ### The loop -/

theorem loop_first {P : Params} {env env2 env' : Env} {keys : List Nat} {accts : List AccMeta} {ix : Instruction}
    (hv : IxValid ix) (hc : ix.isCrank = false) (n : Nat) : ∀ {s s1 s2 : State conc}, s.q.WF → n ≤ s.q.toList.length →
    (∀ e ∈ s.q.toList.take n, ∀ a ∈ accts, a.key ≠ e.owner) →
    consumeLoop conc P env keys n s = .ok s1 → process conc P env' s accts ix = .ok s2 →
    ∃ s3, consumeLoop conc P env2 keys n s2 = .ok s3 ∧ process conc P env' s1 accts ix = .ok s3 := by
  induction n with
  | zero =>
    intro s s1 s2 hw hn hu h1 h2
    cases Except.ok.inj h1
    exact ⟨s2, rfl, h2⟩
  | succ n ih =>
    intro s s1 s2 hw hn hu h1 h2
    unfold consumeLoop at h1
    obtain ⟨x, hx, h1⟩ := bind_ok h1
    cases x with
    | none =>
      cases Except.ok.inj h1
      refine ⟨s2, ?_, h2⟩
      have hspec := Queue.popFront_spec hw
      split at hspec
      · rename_i h0; rw [h0] at hn; simp at hn
      · rename_i e xs he
        obtain ⟨q', k1, k2, k3, _⟩ := hspec
        obtain ⟨y, hy, hry⟩ := (Embeds.le_process (F := popped e) (s := s) (t := { s with q := q' })
          ⟨rfl, rfl, rfl, hw, k1⟩ P env' accts ix hv hc).ok_right h2
        unfold consumeLoop
        rw [consumeOne_stop k1 hx env2 hry.q.2]
        rfl
    | some s' =>
      obtain ⟨s3, k1, k2, k3, k4⟩ := one_first (env2 := env2) hw hv hc
        (fun e he => hu e (by
          have h0 : ∀ {l : List Event}, e ∈ l.take 1 → e ∈ l.take (n + 1) := by
            intro l h
            cases l with
            | nil => cases h
            | cons a l => simp at h ⊢; exact .inl h
          exact h0 he)) hx h2
      obtain ⟨s4, m1, m2⟩ := ih k3 (by rw [k4, List.length_drop]; omega)
        (fun e he => hu e (by
          rw [k4] at he
          revert he
          cases s.q.toList with
          | nil => simp
          | cons a l => intro he; simp at he ⊢; exact .inr he)) h1 k2
      refine ⟨s4, ?_, m2⟩
      unfold consumeLoop
      rw [k1]
      exact m1

/-! ### C100: the theorems -/

/-- Either crank instruction, with its limit. -/
def IsCrank (n : Nat) (ix : Instruction) : Prop := ix = .consumeEvents n ∨ ix = .consumeEventsPermissioned n

theorem crank_loop {P : Params} {env : Env} {s s1 : State conc} {cacc : List AccMeta} {n : Nat} {cix : Instruction}
    (hx : IsCrank n cix) (h : process conc P env s cacc cix = .ok s1) :
    ∃ keys, consumeLoop conc P env keys n s = .ok s1 ∧
      ∀ (env2 : Env) (t : State conc), t.mkt.ownAddress = s.mkt.ownAddress → t.mkt.eventQ = s.mkt.eventQ →
        t.mkt.crankAuth = s.mkt.crankAuth → checkMarketFlags t.mkt.flags true = .ok () →
        process conc P env2 t cacc cix = consumeLoop conc P env2 keys n t := by
  rcases hx with rfl | rfl
  · change consumeEvents conc P env s cacc n = .ok s1 at h
    unfold consumeEvents at h
    obtain ⟨_, h1, h⟩ := bind_ok h
    split at h
    · rename_i m eq rest he
      obtain ⟨_, h2, h⟩ := bind_ok h
      obtain ⟨_, h3, h⟩ := bind_ok h
      obtain ⟨_, h4, h⟩ := bind_ok h
      refine ⟨_, h, fun env2 t t1 t2 t3 t4 => ?_⟩
      show consumeEvents conc P env2 t cacc n = _
      unfold loadMarket at h2
      obtain ⟨_, h2, _⟩ := bind_ok h2
      have h2' : loadMarket t.toCore m true = .ok () := by
        unfold loadMarket
        rw [t1, t4, h2]
        rfl
      have h4' : loadEventQ t.toCore eq = .ok () := by
        unfold loadEventQ at h4 ⊢; rw [t2]; exact h4
      unfold consumeEvents
      rw [t3]
      simp only [he, h1, h2', h3, h4', bind, Except.bind]
    · cases h
  · change consumeEventsPermissioned conc P env s cacc n = .ok s1 at h
    unfold consumeEventsPermissioned at h
    obtain ⟨_, h1, h⟩ := bind_ok h
    split at h
    · rename_i m eq auth rest he
      obtain ⟨_, h2, h⟩ := bind_ok h
      obtain ⟨_, h3, h⟩ := bind_ok h
      obtain ⟨_, h5, h⟩ := bind_ok h
      obtain ⟨_, h4, h⟩ := bind_ok h
      refine ⟨_, h, fun env2 t t1 t2 t3 t4 => ?_⟩
      show consumeEventsPermissioned conc P env2 t cacc n = _
      unfold loadMarket at h2
      obtain ⟨_, h2, _⟩ := bind_ok h2
      have h2' : loadMarket t.toCore m true = .ok () := by
        unfold loadMarket
        rw [t1, t4, h2]
        rfl
      have h4' : loadEventQ t.toCore eq = .ok () := by
        unfold loadEventQ at h4 ⊢; rw [t2]; exact h4
      unfold consumeEventsPermissioned
      rw [t3]
      simp only [he, h1, h2', h3, h4', h5, bind, Except.bind]
    · cases h

theorem goodFlags_crank {m : Market} (h : goodFlags m.flags = true) :
    ({ m with flags := m.flags ||| 128 } : Market).crankAuth = m.crankAuth := by
  have e : hasFlag (m.flags ||| 128) 512 = hasFlag m.flags 512 ∧ hasFlag (m.flags ||| 128) 1024 = hasFlag m.flags 1024 := by
    generalize m.flags = f at h ⊢
    simp only [goodFlags, List.contains_eq_mem, List.mem_cons, List.not_mem_nil, or_false, decide_eq_true_eq] at h
    rcases h with rfl | rfl | rfl | rfl | rfl | rfl <;> decide
  unfold Market.crankAuth Market.permissioned Market.crankFlag
  rw [e.1, e.2]

theorem process_crankAuth {P : Params} {env : Env} {s s2 : State conc} {accts : List AccMeta} {ix : Instruction}
    (h : process conc P env s accts ix = .ok s2) (hf : goodFlags s.mkt.flags = true) :
    goodFlags s2.mkt.flags = true ∧ s2.mkt.crankAuth = s.mkt.crankAuth := by
  have hk := (process_keeps h).eq
  have hc : s2.mkt.crankAuth = ({ s.mkt with flags := s2.mkt.flags } : Market).crankAuth := by rw [hk]; rfl
  rcases process_flags h with e | ⟨_, e, _⟩
  · rw [hc, e]; exact ⟨hf, rfl⟩
  · rw [hc, e]; exact ⟨goodFlags_disable hf, goodFlags_crank hf⟩

theorem crank_core {P : Params} {env env2 env' : Env} {s s1 s2 : State conc} {cacc accts : List AccMeta} {n : Nat}
    {cix ix : Instruction} (hw : s.q.WF) (hf : goodFlags s.mkt.flags = true) (hx : IsCrank n cix) (hn : n ≤ s.q.toList.length)
    (hv : IxValid ix) (hc : ix.isCrank = false) (hu : ∀ e ∈ s.q.toList.take n, ∀ a ∈ accts, a.key ≠ e.owner)
    (h1 : process conc P env s cacc cix = .ok s1) (h2 : process conc P env' s accts ix = .ok s2) :
    ∃ s3, process conc P env2 s2 cacc cix = .ok s3 ∧ process conc P env' s1 accts ix = .ok s3 := by
  obtain ⟨keys, k1, k2⟩ := crank_loop hx h1
  obtain ⟨s3, m1, m2⟩ := loop_first (env2 := env2) hv hc n hw hn hu k1 h2
  obtain ⟨f1, f2⟩ := process_crankAuth h2 hf
  have hk := (process_keeps h2).eq
  refine ⟨s3, ?_, m2⟩
  rw [k2 env2 s2 (by rw [hk]) (by rw [hk]) f2 (goodFlags_load f1)]
  exact m1

theorem queued {P : Params} {s : State conc} (h : Reach P s) (hq : s.seq ≤ W64) :
    s.q.WF ∧ s.q.toList = (pending s).map Event.new := by
  obtain ⟨vs, hv, hqi, hi⟩ := h.view hq
  have hg := h.good hq
  refine ⟨hg.rs.q.1, ?_⟩
  rw [← hqi, Queue.iter_eq hg.rs.q.1]

/-- C100. Let the crank with limit `n`, at most the number of queued events, succeed, and let another instruction,
not a crank, that names none of the accounts whose events are among the first `n`, succeed in the same state. Then
each succeeds after the other, and the two orders end in the same state. -/
theorem cranking_can_wait {P : Params} {env env2 env' : Env} {s s1 s2 : State conc} {cacc accts : List AccMeta} {n : Nat}
    {cix ix : Instruction} (hr : Reach P s) (hq : s.seq ≤ W64) (hx : IsCrank n cix) (hn : n ≤ (pending s).length)
    (hv : IxValid ix) (hc : ix.isCrank = false) (hu : ∀ v ∈ (pending s).take n, ∀ a ∈ accts, a.key ≠ v.owner)
    (h1 : process conc P env s cacc cix = .ok s1) (h2 : process conc P env' s accts ix = .ok s2) :
    ∃ s3, process conc P env2 s2 cacc cix = .ok s3 ∧ process conc P env' s1 accts ix = .ok s3 := by
  obtain ⟨hw, hl⟩ := queued hr hq
  refine crank_core hw hr.flags hx (by rw [hl]; simpa using hn) hv hc ?_ h1 h2
  intro e he
  rw [hl, ← List.map_take] at he
  obtain ⟨v, hv', rfl⟩ := List.mem_map.1 he
  have : (Event.new v).owner = v.owner := by cases v <;> rfl
  rw [this]
  exact hu v hv'

theorem crank_core_list {P : Params} {cacc : List AccMeta} {n : Nat} {cix : Instruction} (hx : IsCrank n cix) {env2 : Env}
    {L : List Event} (hL : L.length = n) {cs : List Call}
    (hcs : ∀ c ∈ cs, IxValid c.ix ∧ c.ix.isCrank = false ∧ ∀ e ∈ L, ∀ a ∈ c.accts, a.key ≠ e.owner) :
    ∀ {s s1 t : State conc} {env : Env}, s.q.WF → goodFlags s.mkt.flags = true → L <+: s.q.toList →
    process conc P env s cacc cix = .ok s1 → perform P s cs = .ok t →
    ∃ t', (cs ≠ [] → process conc P env2 t cacc cix = .ok t') ∧ (cs = [] → t' = s1) ∧ perform P s1 cs = .ok t' := by
  induction cs with
  | nil =>
    intro s s1 t env hw hf hp h1 h2
    exact ⟨s1, by simp, by simp, rfl⟩
  | cons c cs ih =>
    intro s s1 t env hw hf hp h1 h2
    unfold perform at h2
    split at h2
    · rename_i s2 e
      obtain ⟨hv, hc, hu⟩ := hcs c (by simp)
      have hlen := hp.length_le
      have htk : s.q.toList.take n = L := by rw [← hL]; exact (List.prefix_iff_eq_take.1 hp).symm
      obtain ⟨s3, g1, g2⟩ := crank_core (env2 := env2) hw hf hx (by omega) hv hc (by rw [htk]; exact hu) h1 e
      obtain ⟨w2, p2⟩ := process_prefix hv hc e hw hp
      obtain ⟨t', f1, f2, f3⟩ := ih (fun d hd => hcs d (by simp [hd])) w2 (process_crankAuth e hf).1 p2 g1 h2
      refine ⟨t', fun _ => ?_, by simp, ?_⟩
      · cases cs with
        | nil =>
          cases Except.ok.inj h2
          rw [f2 rfl]; exact g1
        | cons d cs => exact f1 (by simp)
      · unfold perform
        rw [g2]
        exact f3
    · cases h2

/-- C100, any number of instructions. The crank at the start and the crank at the end of a sequence of other
instructions lead to the same state. -/
theorem crank_first_or_last {P : Params} {cacc : List AccMeta} {n : Nat} {cix : Instruction} {cs : List Call} {env : Env}
    {s s1 t : State conc} (hr : Reach P s) (hq : s.seq ≤ W64) (hx : IsCrank n cix) (hn : n ≤ (pending s).length)
    (hcs : ∀ c ∈ cs, IxValid c.ix ∧ c.ix.isCrank = false ∧ ∀ v ∈ (pending s).take n, ∀ a ∈ c.accts, a.key ≠ v.owner)
    (h1 : process conc P env s cacc cix = .ok s1) (h2 : perform P s cs = .ok t) :
    ∃ t', process conc P env t cacc cix = .ok t' ∧ perform P s1 cs = .ok t' := by
  obtain ⟨hw, hl⟩ := queued hr hq
  obtain ⟨t', g1, g2, g3⟩ := crank_core_list (env2 := env) hx (L := ((pending s).take n).map Event.new)
    (by simp; omega) (env := env) (cs := cs)
    (fun c hc => by
      obtain ⟨a1, a2, a3⟩ := hcs c hc
      refine ⟨a1, a2, ?_⟩
      intro e he
      obtain ⟨v, hv, rfl⟩ := List.mem_map.1 he
      have : (Event.new v).owner = v.owner := by cases v <;> rfl
      rw [this]
      exact a3 v hv)
    hw hr.flags (by rw [hl, List.map_take]; exact List.take_prefix _ _) h1 h2
  refine ⟨t', ?_, g3⟩
  cases cs with
  | nil =>
    cases Except.ok.inj h2
    rw [g2 rfl]; exact h1
  | cons c cs => exact g1 (by simp)

end Serum.Props

-- the oldest event concerns 11's account 41; meanwhile 12 bids again and cancels the earlier bid
namespace Serum.Demo
open Props
def late1 : State conc := run s3 a2 (.newOrderV3 (order .bid 800 1 30000 18))
def late2 : State conc := run late1 (cancelAccts 42 12) (.cancelOrderByClientIdV2 9)
def lateCalls : List Call :=
  [⟨env, a2, .newOrderV3 (order .bid 800 1 30000 18)⟩, ⟨env, cancelAccts 42 12, .cancelOrderByClientIdV2 9⟩]

example : Reach P s3 ∧ s3.seq ≤ W64 ∧ IsCrank 1 (crank 1) ∧ 1 ≤ (pending s3).length ∧
    (∀ c ∈ lateCalls, IxValid c.ix ∧ c.ix.isCrank = false ∧ ∀ v ∈ (pending s3).take 1, ∀ a ∈ c.accts, a.key ≠ v.owner) ∧
    process conc P env s3 (crankList [41]) (crank 1) = .ok (run s3 (crankList [41]) (crank 1)) ∧
    perform P s3 lateCalls = .ok late2 ∧
    (pending (run s3 (crankList [41]) (crank 1))).length = 3 ∧ (pending late2).length = 6 ∧
    (s3.bids.contents.length, late1.bids.contents.length, late2.bids.contents.length) = (1, 2, 1) := by
  have f1 : process conc P env s3 a2 (.newOrderV3 (order .bid 800 1 30000 18)) = .ok late1 := run_eq (by decide +kernel)
  have f2 : process conc P env late1 (cancelAccts 42 12) (.cancelOrderByClientIdV2 9) = .ok late2 :=
    run_eq (by decide +kernel)
  have ho : ((pending s3).take 1).all (fun v => v.owner == 41) = true := by decide +kernel
  have hn : ∀ l : List AccMeta, (l.all fun a => a.key != 41) = true →
      ∀ v ∈ (pending s3).take 1, ∀ a ∈ l, a.key ≠ v.owner := by
    intro l hl v hv a ha
    have h1 := List.all_eq_true.1 ho v hv
    have h2 := List.all_eq_true.1 hl a ha
    simp only [beq_iff_eq, bne_iff_ne] at h1 h2
    rw [h1]; exact h2
  refine ⟨r3, by decide +kernel, .inl rfl, by decide +kernel, ?_, run_eq (by decide +kernel), ?_, by decide +kernel,
    by decide +kernel, by decide +kernel⟩
  · intro c hc
    simp only [lateCalls, List.mem_cons, List.not_mem_nil, or_false] at hc
    rcases hc with rfl | rfl
    · exact ⟨valid (by decide), rfl, hn _ (by decide)⟩
    · exact ⟨(by decide : U64 9), rfl, hn _ (by decide)⟩
  · simp only [lateCalls, perform, f1, f2]

end Serum.Demo
