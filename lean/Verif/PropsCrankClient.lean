import Verif.PropsClient
import Verif.PropsLayout
import Verif.Crank

/-!
C62: what the crank reads and sends.
-/

namespace Serum.Props

open Crank

/-! ### Reading accounts -/

theorem removePadding_of {d b : List UInt8} (h : checkPadding d = .ok b) (hb : b ≠ []) : removePadding d = .ok b := by
  unfold checkPadding at h
  obtain ⟨_, h1, h⟩ := bind_ok h
  obtain ⟨_, h2, h⟩ := bind_ok h
  obtain ⟨_, h3, h⟩ := bind_ok h
  obtain ⟨_, h4, h⟩ := bind_ok h
  cases h
  have l1 : 12 ≤ d.length := by simpa using checkAssert_ok.1 h1
  have l2 : 12 < d.length := by
    rcases Nat.lt_or_ge 12 d.length with e | e
    · exact e
    · exact absurd (List.eq_nil_of_length_eq_zero (by unfold middle; simp; omega)) hb
  unfold removePadding
  rw [h1, h2, h3]
  have h4' := checkAssert_ok.1 h4
  simp only [rustAssert, show 5 ≤ d.length by omega, h4', l2, checkAssert, Bool.and_true, if_true,
    bind, Except.bind, decide_true]
  rfl

theorem removePadding_ok {d b : List UInt8} (h : removePadding d = .ok b) : checkPadding d = .ok b ∧ b ≠ [] := by
  unfold removePadding at h
  obtain ⟨_, _, h⟩ := bind_ok h
  obtain ⟨_, h1, h⟩ := bind_ok h
  obtain ⟨_, h2, h⟩ := bind_ok h
  obtain ⟨_, h3, h⟩ := bind_ok h
  obtain ⟨_, h4, h⟩ := bind_ok h
  cases h
  have h4' := checkAssert_ok.1 h4
  simp only [Bool.and_eq_true, decide_eq_true_eq] at h4'
  constructor
  · unfold checkPadding
    rw [h1, h2, h3]
    simp only [checkAssert, h4'.1, if_true, bind, Except.bind]
    rfl
  · intro e
    have := congrArg List.length e
    unfold middle at this
    simp at this
    omega

/-- C62. What the crank takes from an event queue account is exactly the queue, oldest event first. -/
theorem crank_reads_queue {d : List UInt8} {q : Queue Event} (h : loadEventQBytes d = .ok q) (hw : q.WF)
    (hc : 0 < q.buf.length) :
    ∃ b s0 s1, removePadding d = .ok b ∧ parseEventQueue b = .ok (s0, s1) ∧ s0 ++ s1 = q.iter := by
  unfold loadEventQBytes stripHeader at h
  obtain ⟨⟨hd, bd⟩, h1, h⟩ := bind_ok h
  obtain ⟨b, h0, h1⟩ := bind_ok h1
  obtain ⟨_, h2, h1⟩ := bind_ok h1
  cases h1
  obtain ⟨_, _, h⟩ := bind_ok h
  cases h
  have l32 : 32 ≤ b.length := by simpa using rustAssert_ok.1 h2
  rw [Queue.iter_eq hw]
  unfold Queue.toList
  have hcnt := hw.count
  have hhd := hw.head
  simp only at hcnt hhd hc ⊢
  generalize hB : (items 88 (b.drop 32)).map Event.ofBytes = B at *
  generalize h1 : (readFields [8, 8, 8, 8] (b.take 32)).getD 1 0 = head at *
  generalize h2' : (readFields [8, 8, 8, 8] (b.take 32)).getD 2 0 = count at *
  have hh : head ≤ B.length := by have := hhd hc; omega
  refine ⟨b, (B.drop head).take (min (B.drop head).length count),
    (B.take head).take (count - min (B.drop head).length count),
    removePadding_of h0 (by intro e; subst e; simp at l32), ?_, ?_⟩
  · unfold parseEventQueue
    simp only [hB, h1, h2']
    have a1 : decide (1 ≤ B.length) = true := by simp; omega
    have a2 : decide (head ≤ B.length) = true := by simp; omega
    have a3 : decide (count - min (B.drop head).length count ≤ (B.take head).length) = true := by simp; omega
    simp only [rustAssert, checkAssert, l32, a1, a2, a3, decide_true, if_true, bind, Except.bind]
    rfl
  · rw [List.take_append, Nat.min_comm, ← List.take_eq_take_min]
    congr 2
    omega

/-- C62. A market account that the program accepts gives the crank the addresses stored in it. -/
theorem crank_reads_market {P : Params} {d : List UInt8} {m : Market} (h : loadMarketBytes true d true = .ok m) {vs : Nat}
    (hv : P.vaultSigner m.ownAddress m.vaultSignerNonce = some vs) :
    keysForMarket P m.ownAddress d =
      .ok ⟨m.ownAddress, m.reqQ, m.eventQ, m.bids, m.asks, m.coinVault, m.pcVault, vs⟩ := by
  unfold loadMarketBytes at h
  obtain ⟨f, h1, h⟩ := bind_ok h
  obtain ⟨_, _, h⟩ := bind_ok h
  obtain ⟨m', h2, h⟩ := bind_ok h
  obtain ⟨_, h3, h⟩ := bind_ok h
  cases h
  unfold marketFrom at h2
  obtain ⟨b, h4, h2⟩ := bind_ok h2
  obtain ⟨_, h5, h2⟩ := bind_ok h2
  cases h2
  have l := rustAssert_ok.1 h5
  have hb : b ≠ [] := by
    intro e
    subst e
    split at l <;> exact absurd l (by decide)
  unfold keysForMarket
  rw [removePadding_of h4 hb, h1]
  simp only [bind, Except.bind, checkAssert, l, if_true, h3, hv, rustAssert, beq_self_eq_true]
  rfl

/-- C62. Conversely, if the crank accepts an account as the market then so does the program, and the addresses are those
stored in it. -/
theorem crank_market_sound {P : Params} {d : List UInt8} {a : Nat} {k : MarketKeys} (h : keysForMarket P a d = .ok k) :
    ∃ m vs, loadMarketBytes true d true = .ok m ∧ m.ownAddress = a ∧
      P.vaultSigner m.ownAddress m.vaultSignerNonce = some vs ∧
      k = ⟨m.ownAddress, m.reqQ, m.eventQ, m.bids, m.asks, m.coinVault, m.pcVault, vs⟩ := by
  unfold keysForMarket at h
  obtain ⟨b, h1, h⟩ := bind_ok h
  obtain ⟨f, h2, h⟩ := bind_ok h
  obtain ⟨_, h3, h⟩ := bind_ok h
  obtain ⟨_, h4, h⟩ := bind_ok h
  split at h
  · cases h
  rename_i vs hvs
  obtain ⟨_, h5, h⟩ := bind_ok h
  cases h
  have e := rustAssert_ok.1 h5
  rw [beq_iff_eq] at e
  refine ⟨_, vs, ?_, e, by rw [e]; exact hvs, by rw [e]⟩
  unfold loadMarketBytes marketFrom
  have l := checkAssert_ok.1 h3
  rw [h2, (removePadding_ok h1).1]
  simp only [bind, Except.bind, checkAssert, rustAssert, l, if_true, h4, pure, Except.pure]

/-! ### Runs of events -/

/-- How many events from the front belong to the accounts given. -/
def runOf (keys : List Nat) (evs : List EventView) : Nat := (evs.takeWhile fun v => keys.contains v.owner).length

theorem run_le (keys : List Nat) (evs : List EventView) : runOf keys evs ≤ evs.length :=
  (List.takeWhile_prefix _).length_le

theorem take_run (keys : List Nat) : ∀ evs : List EventView, ∀ v ∈ evs.take (runOf keys evs), v.owner ∈ keys
  | [] => by simp
  | w :: evs => by
    unfold runOf
    rw [List.takeWhile_cons]
    split
    · rename_i hw
      simp only [List.length_cons, List.take_succ_cons, List.mem_cons]
      rintro v (rfl | hv)
      · simpa using hw
      · exact take_run keys evs v hv
    · simp

theorem run_stop (keys : List Nat) : ∀ (evs : List EventView) (v : EventView),
    (evs.drop (runOf keys evs)).head? = some v → v.owner ∉ keys
  | [], v => by simp
  | w :: evs, v => by
    unfold runOf
    rw [List.takeWhile_cons]
    split
    · rename_i hw
      simp only [List.length_cons, List.drop_succ_cons]
      exact run_stop keys evs v
    · rename_i hw
      simp only [List.length_nil, List.drop_zero, List.head?_cons, Option.some.injEq]
      rintro rfl
      simpa using hw

theorem run_drop (keys : List Nat) : ∀ (evs : List EventView) (k : Nat), k ≤ runOf keys evs →
    runOf keys (evs.drop k) = runOf keys evs - k
  | [], k, h => by simp [runOf]
  | w :: evs, 0, h => by simp
  | w :: evs, k + 1, h => by
    have e : runOf keys (w :: evs) = runOf keys evs + 1 := by
      unfold runOf at h ⊢
      rw [List.takeWhile_cons] at h ⊢
      split
      · rfl
      · rename_i hw
        rw [if_neg hw] at h
        simp at h
    rw [e] at h ⊢
    rw [List.drop_succ_cons, run_drop keys evs k (by omega)]
    omega

theorem consumeLoop_stop {P : Params} {env : Env} {keys : List Nat} {s : State lst} {evs : List EventView}
    (hq : s.q.items = evs.map Event.new) (h : ∀ v, evs.head? = some v → v.owner ∉ keys) (n : Nat) :
    consumeLoop lst P env keys n s = .ok s := by
  cases n with
  | zero => rfl
  | succ n =>
    unfold consumeLoop consumeOne
    rw [show lst.peek s.q = s.q.items.head? from rfl, hq]
    cases evs with
    | nil => rfl
    | cons v evs =>
      have hf : P.search.find keys v.owner = false := by
        cases hx : P.search.find keys v.owner with
        | false => rfl
        | true => exact absurd (P.search.sound _ _ hx) (h v rfl)
      have e1 : (Event.new v).owner = v.owner := by cases v <;> rfl
      simp only [List.map_cons, List.head?_cons, Event.asView_new, bind, Except.bind, eventOwner, e1, hf,
        Bool.false_eq_true, if_false]
      rfl

/-- Every account with queued events holds and is due amounts that fit in 64 bits. -/
def QueueFits (s : State conc) : Prop := ∀ v ∈ pending s, ∀ o, ooAt s.oos v.owner = some o → Fits s v.owner o

/-- The crank with sorted accounts never fails: it delivers events from the front until the limit is reached or one
belongs to an account that was not given. -/
theorem loop_runs {P : Params} {s : State conc} (h : Reach P s) (hq : s.seq ≤ W64) (env : Env) {keys : List Nat}
    (hs : keys.Pairwise keyLe) (n : Nat) (hf : QueueFits s) :
    ∃ s', consumeLoop conc P env keys n s = .ok s' ∧ pending s' = (pending s).drop (min n (runOf keys (pending s))) := by
  obtain ⟨vs, hv, hqi, hi⟩ := h.view hq
  have hg := h.good hq
  have hL : (absState s).q.items = (pending s).map Event.new := by
    rw [← hqi, Queue.iter_eq hg.rs.q.1]; rfl
  generalize hk : min n (runOf keys (pending s)) = k
  have hmem : ∀ v ∈ (pending s).take k, v ∈ pending s ∧ v.owner ∈ keys := fun v hv =>
    ⟨List.mem_of_mem_take hv, take_run keys _ v
      ((List.take_subset_take_left _ (by omega : k ≤ runOf keys (pending s))) hv)⟩
  have hfl : FitsL (fun a => ∃ v ∈ pending s, v.owner = a) s.mkt s.oos s.bids.contents s.asks.contents (pending s) := by
    rintro a ⟨v, hv', rfl⟩ o ho
    have := hf v hv' o ho
    unfold Fits baseHeld quoteHeld at this
    rw [askLock_only, bidLock_only, evSum_only _ _ lock_ask, evSum_only _ _ lock_bid, evSum_only _ _ free_ask,
      evSum_only _ _ free_bid]
    exact this
  obtain ⟨t, h1, h2⟩ := consumeLoop_ok (P := P) (env := env) (keys := keys) k (s := absState s) hL hi hfl
    (fun v hv => ⟨P.search.complete _ _ hs (hmem v hv).2, v, (hmem v hv).1, rfl⟩)
  have h1' : consumeLoop lst P env keys n (absState s) = .ok t := by
    have := consumeLoop_split lst P env keys (n - k) k (absState s)
    rw [h1, show k + (n - k) = n by omega] at this
    rw [← this]
    rcases Nat.lt_or_ge k n with hlt | hge
    · refine consumeLoop_stop h2 (fun v hv => run_stop keys (pending s) v ?_) _
      rw [show runOf keys (pending s) = k by omega]
      exact hv
    · rw [show n - k = 0 by omega]; rfl
  obtain ⟨s', h3, h4⟩ := Sim.ok_left (Refines.sim_consumeLoop P env keys n hg.rs) h1'
  refine ⟨s', h3, ?_⟩
  have hiter : s'.q.iter = ((pending s).drop k).map Event.new := by
    rw [Queue.iter_eq h4.q.1, ← h2, h4.q.2]; rfl
  unfold pending at hiter ⊢
  rw [hiter, List.filterMap_map]
  have : (fun e => e.asView.toOption) ∘ Event.new = (some : EventView → Option EventView) := by
    funext v
    simp [Function.comp, Event.asView_new, Except.toOption]
  rw [this, List.filterMap_some]

/-- After a run of the crank everything still fits. -/
theorem QueueFits.delivered {P : Params} {s s' : State conc} (h : Reach P s) (hq : s.seq ≤ W64) {env : Env}
    {accts : List AccMeta} {n : Nat} (hx : consumeEvents conc P env s accts n = .ok s') (hf : QueueFits s) :
    QueueFits s' := by
  obtain ⟨k, k1, k2, k3, _, k5, k6, k7, k8, k9, k10, k11⟩ := crank_delivers h hq (.inl hx)
  intro v hv o ho
  cases hb : ooAt s.oos v.owner with
  | none => rw [k5 _ hb] at ho; cases ho
  | some p =>
    obtain ⟨p', d1, d2⟩ := k6 _ p hb
    rw [ho] at d1; cases d1
    have hfb := hf v (by rw [k3] at hv; exact List.mem_of_mem_drop hv) p hb
    have hev : ∀ g : EventView → Nat, total g ((pending s).filter fun w => w.owner == v.owner) =
        total g (eventsOf v.owner ((pending s).take k)) + total g ((pending s').filter fun w => w.owner == v.owner) := by
      intro g
      rw [← total_append, k3]
      unfold eventsOf
      rw [← List.filter_append, List.take_append_drop]
    have e1 := hev baseDue
    have e2 := hev quoteDue
    have e3 := hev baseLocked
    have e4 := hev quoteLocked
    have f1 := d2.coinFree
    have f2 := d2.pcFree
    unfold Fits baseHeld quoteHeld at hfb ⊢
    rw [k7, k9, k10]
    omega

/-- What a crank needs of a market: no crank authority, amounts that fit, and no signature of the vault's key. -/
structure Crankable (P : Params) (sg : Nat → Bool) (s : State conc) : Prop where
  reach : Reach P s
  seq : s.seq ≤ W64
  open_ : s.mkt.crankAuth = none
  fits : QueueFits s
  signers : ∀ k, sg k = true → P.vaultSigner s.mkt.ownAddress s.mkt.vaultSignerNonce ≠ some k

/-- C62. A `ConsumeEvents` with sorted accounts never fails on such a market, whenever it was made: it delivers events from
the front until the limit is reached or one belongs to an account that was not given. -/
theorem crank_call_safe {P : Params} {env : Env} {sg : Nat → Bool} {s : State conc} (h : Crankable P sg s) {keys : List Nat}
    (hk : keys ≠ []) (hs : keys.Pairwise keyLe) {n : Nat} (hn : U16 n) (prog coinFee pcFee : Nat) :
    ∃ s', Sent P env sg s (Client.consumeEvents prog keys s.mkt.ownAddress s.mkt.eventQ coinFee pcFee n) s' ∧
      pending s' = (pending s).drop (min n (runOf keys (pending s))) ∧ Crankable P sg s' ∧ s'.mkt = s.mkt := by
  obtain ⟨s', h1, h2⟩ := loop_runs h.reach h.seq env hs n h.fits
  have hp := (consume_runs h.reach h.open_ hk prog coinFee pcFee n sg).trans h1
  have hsent : Sent P env sg s _ s' := sent_of (.consumeEvents ..) hn hp
  have hx : consumeEvents conc P env s _ n = .ok s' := hp
  obtain ⟨k, k1, k2, k3, _, k5, k6, k7, k8, k9, k10, k11⟩ := crank_delivers h.reach h.seq (.inl hx)
  exact ⟨s', hsent, h2, ⟨h.reach.step (.instr (notVault_accts h.signers) hsent), by rw [k11]; exact h.seq, by rw [k7]; exact h.open_,
    h.fits.delivered h.reach h.seq hx, by rw [k7]; exact h.signers⟩, k7⟩

/-- Calls sent one after the other, all of which succeed. -/
inductive SentAll (P : Params) (env : Env) (sg : Nat → Bool) : State conc → List Call → State conc → Prop where
  | nil (s) : SentAll P env sg s [] s
  | cons {s t u c cs} (h : Sent P env sg s c t) (hs : SentAll P env sg t cs u) : SentAll P env sg s (c :: cs) u

/-- C62. Identical calls one after the other deliver as much as one call with the sum of their limits. -/
theorem crank_calls_safe {P : Params} {env : Env} {sg : Nat → Bool} {keys : List Nat}
    (hk : keys ≠ []) (hs : keys.Pairwise keyLe) {n : Nat} (hn : U16 n) (prog coinFee pcFee : Nat) :
    ∀ (m : Nat) {s : State conc}, Crankable P sg s → ∃ s', SentAll P env sg s
      (List.replicate m (Client.consumeEvents prog keys s.mkt.ownAddress s.mkt.eventQ coinFee pcFee n)) s' ∧
      pending s' = (pending s).drop (min (m * n) (runOf keys (pending s))) ∧ Crankable P sg s' ∧ s'.mkt = s.mkt
  | 0, s, h => ⟨s, .nil s, by simp, h, rfl⟩
  | m + 1, s, h => by
    obtain ⟨t, t1, t2, t3, t4⟩ := crank_call_safe (env := env) h hk hs hn prog coinFee pcFee
    obtain ⟨u, u1, u2, u3, u4⟩ := crank_calls_safe hk hs hn prog coinFee pcFee m t3
    rw [t4] at u1
    refine ⟨u, .cons t1 u1, ?_, u3, u4.trans t4⟩
    rw [u2, t2, List.drop_drop, run_drop _ _ _ (by omega), Nat.succ_mul]
    congr 1
    omega

/-! ### Owners in order -/

theorem digits {a b c d w : Nat} (hb : b < w) (hd : d < w) (h : a * w + b = c * w + d) : a = c ∧ b = d := by
  have h1 : (a * w + b) / w = (c * w + d) / w := by rw [h]
  have h2 : (a * w + b) % w = (c * w + d) % w := by rw [h]
  rw [Nat.mul_comm a, Nat.mul_comm c] at h1 h2
  rw [Nat.mul_add_div (by omega), Nat.mul_add_div (by omega), Nat.div_eq_of_lt hb, Nat.div_eq_of_lt hd] at h1
  rw [Nat.mul_add_mod, Nat.mul_add_mod, Nat.mod_eq_of_lt hb, Nat.mod_eq_of_lt hd] at h2
  omega

/-- Different keys are ordered. -/
theorem keyRank_inj {a b : Nat} (h : keyRank a = keyRank b) : a = b := by
  have hw : 0 < W64 := by decide
  unfold keyRank at h
  obtain ⟨h, e3⟩ := digits (Nat.mod_lt _ hw) (Nat.mod_lt _ hw) h
  obtain ⟨h, e2⟩ := digits (Nat.mod_lt _ hw) (Nat.mod_lt _ hw) h
  obtain ⟨h, e1⟩ := digits (Nat.mod_lt _ hw) (Nat.mod_lt _ hw) h
  obtain ⟨e4, e0⟩ := digits (Nat.mod_lt _ hw) (Nat.mod_lt _ hw) h
  simp only [W64] at *
  omega

/-- Strictly ordered keys. -/
def keyLt (a b : Nat) : Prop := keyRank a < keyRank b

theorem keyLe_of_lt {l : List Nat} (h : l.Pairwise keyLt) : l.Pairwise keyLe := h.imp fun h => Nat.le_of_lt h

theorem nodup_of_lt {l : List Nat} (h : l.Pairwise keyLt) : l.Nodup :=
  h.imp fun h e => by subst e; exact Nat.lt_irrefl _ h

theorem mem_insertKey {k a : Nat} : ∀ {l : List Nat}, a ∈ insertKey k l ↔ a = k ∨ a ∈ l
  | [] => by simp [insertKey]
  | x :: l => by
    unfold insertKey
    split
    · subst_vars; simp
    · split
      · simp
      · simp [mem_insertKey (l := l)]; grind

theorem sorted_insertKey {k : Nat} : ∀ {l : List Nat}, l.Pairwise keyLt → (insertKey k l).Pairwise keyLt
  | [], _ => by simp [insertKey]
  | x :: l, h => by
    unfold insertKey
    split
    · exact h
    · rename_i hne
      have h' := List.pairwise_cons.1 h
      split
      · rename_i hle
        have hlt : keyLt k x := Nat.lt_of_le_of_ne hle fun e => hne (keyRank_inj e)
        refine List.pairwise_cons.2 ⟨?_, h⟩
        intro a ha
        rcases List.mem_cons.1 ha with rfl | ha
        · exact hlt
        · exact Nat.lt_trans hlt (h'.1 a ha)
      · rename_i hle
        refine List.pairwise_cons.2 ⟨?_, sorted_insertKey h'.2⟩
        intro a ha
        rcases mem_insertKey.1 ha with rfl | ha
        · exact Nat.lt_of_not_le hle
        · exact h'.1 a ha

theorem length_insertKey {k : Nat} : ∀ {l : List Nat}, (insertKey k l).length ≤ l.length + 1
  | [] => by simp [insertKey]
  | x :: l => by
    unfold insertKey
    split
    · simp
    · split
      · simp
      · have := length_insertKey (k := k) (l := l)
        simp only [List.length_cons]; omega

theorem collect_spec (num : Nat) : ∀ (ks used : List Nat), used.Pairwise keyLt →
    (collectOwners num ks used).Pairwise keyLt ∧ (∀ a ∈ used, a ∈ collectOwners num ks used) ∧
    ∃ j, (∀ a ∈ collectOwners num ks used, a ∈ used ∨ a ∈ ks.take j) ∧ (∀ a ∈ ks.take j, a ∈ collectOwners num ks used) ∧
      (ks.length ≤ j ∨ 0 < j ∧ num ≤ (collectOwners num ks used).length)
  | [], used, h => ⟨h, fun a ha => ha, 0, fun a ha => .inl ha, by simp, by simp⟩
  | k :: ks, used, h => by
    have h' : (insertKey k used).Pairwise keyLt := sorted_insertKey h
    unfold collectOwners
    split
    · rename_i hn
      refine ⟨h', fun a ha => mem_insertKey.2 (.inr ha), 1, fun a ha => ?_, ?_, .inr ⟨by omega, hn⟩⟩
      · rcases mem_insertKey.1 ha with rfl | ha
        · exact .inr (by simp)
        · exact .inl ha
      · simp only [List.take_succ_cons, List.take_zero, List.mem_singleton]
        rintro _ rfl
        exact mem_insertKey.2 (.inl rfl)
    · obtain ⟨c1, c2, j, c3, c4, c5⟩ := collect_spec num ks _ h'
      refine ⟨c1, fun a ha => c2 a (mem_insertKey.2 (.inr ha)), j + 1, fun a ha => ?_, ?_, ?_⟩
      · rcases c3 a ha with h | h
        · rcases mem_insertKey.1 h with rfl | h
          · exact .inr (by simp)
          · exact .inl h
        · exact .inr (by simp [h])
      · simp only [List.take_succ_cons, List.mem_cons]
        rintro a (rfl | ha)
        · exact c2 _ (mem_insertKey.2 (.inl rfl))
        · exact c4 a ha
      · simp only [List.length_cons]
        omega

theorem collect_length (num : Nat) : ∀ (ks used : List Nat), used.length < max num 1 →
    (collectOwners num ks used).length ≤ max num 1
  | [], used, h => by unfold collectOwners; omega
  | k :: ks, used, h => by
    have := length_insertKey (k := k) (l := used)
    unfold collectOwners
    split
    · omega
    · exact collect_length num ks _ (by omega)

theorem mem_run {keys : List Nat} : ∀ {evs : List EventView} {j : Nat}, (∀ a ∈ (evs.map (·.owner)).take j, a ∈ keys) →
    min j evs.length ≤ runOf keys evs
  | [], j, _ => by simp
  | w :: evs, 0, _ => by simp
  | w :: evs, j + 1, h => by
    simp only [List.map_cons, List.take_succ_cons, List.mem_cons] at h
    have := mem_run (evs := evs) (j := j) fun a ha => h a (.inr ha)
    have hw : keys.contains w.owner = true := by simpa using h w.owner (.inl rfl)
    unfold runOf at this ⊢
    rw [List.takeWhile_cons, if_pos hw]
    simp only [List.length_cons]
    omega

/-- The run the crank's choice of accounts allows: it ends only where the events have more owners than may be named. -/
theorem collect_run (num : Nat) (evs : List EventView) (he : evs ≠ []) :
    let keys := collectOwners num (evs.map (·.owner)) []
    keys ≠ [] ∧ keys.Pairwise keyLt ∧ keys.length ≤ max num 1 ∧ 0 < runOf keys evs ∧
      (runOf keys evs = evs.length ∨ ∃ l : List Nat, l.Nodup ∧ l.length = max num 1 + 1 ∧
        ∀ a ∈ l, ∃ v ∈ evs.take (runOf keys evs + 1), v.owner = a) := by
  intro keys
  obtain ⟨c1, _, j, c3, c4, c5⟩ := collect_spec num (evs.map (·.owner)) [] List.Pairwise.nil
  have hlen : 0 < evs.length := List.length_pos_iff.2 he
  have hrun := mem_run c4
  rw [List.length_map] at c5
  have hj : 0 < j := by omega
  have hne : keys ≠ [] := by
    obtain ⟨v, evs', rfl⟩ := List.exists_cons_of_ne_nil he
    intro e
    have := c4 v.owner (by
      obtain ⟨j', rfl⟩ : ∃ j', j = j' + 1 := ⟨j - 1, by omega⟩
      simp)
    change v.owner ∈ keys at this
    rw [e] at this
    cases this
  have hub : keys.length ≤ max num 1 := collect_length num _ _ (by simp only [List.length_nil]; omega)
  refine ⟨hne, c1, hub, by change min j evs.length ≤ runOf keys evs at hrun; omega, ?_⟩
  rcases Nat.lt_or_ge (runOf keys evs) evs.length with hlt | hge
  · refine .inr ?_
    have hjlt : j ≤ runOf keys evs := by change min j evs.length ≤ runOf keys evs at hrun; omega
    have hnum : num ≤ keys.length := (c5.resolve_left (by omega)).2
    have hpos : 0 < keys.length := List.length_pos_iff.2 hne
    have hstop := run_stop keys evs evs[runOf keys evs] (by simp [List.head?_drop, hlt])
    refine ⟨evs[runOf keys evs].owner :: keys, List.nodup_cons.2 ⟨hstop, nodup_of_lt c1⟩, by simp; omega, ?_⟩
    intro a ha
    rcases List.mem_cons.1 ha with rfl | ha
    · exact ⟨_, List.mem_take_iff_getElem.2 ⟨runOf keys evs, by omega, rfl⟩, rfl⟩
    · rcases c3 a ha with h | h
      · cases h
      · rw [← List.map_take] at h
        obtain ⟨v, hv, rfl⟩ := List.mem_map.1 h
        exact ⟨v, List.take_subset_take_left _ (by omega) hv, rfl⟩
  · exact .inl (Nat.le_antisymm (run_le _ _) hge)

/-! ### The crank's loop -/

theorem iter_owners {P : Params} {s : State conc} (h : Reach P s) (hq : s.seq ≤ W64) :
    s.q.iter.map (·.owner) = (pending s).map (·.owner) ∧ s.q.iter.length = (pending s).length := by
  obtain ⟨vs, hv, hqi, hi⟩ := h.view hq
  have e : s.q.iter = (pending s).map Event.new := hqi
  constructor
  · rw [e, List.map_map]
    refine List.map_congr_left fun v _ => ?_
    cases v <;> rfl
  · rw [e, List.length_map]

theorem queue_room {P : Params} {s : State conc} (h : Reach P s) (hq : s.seq ≤ W64) (hp : pending s ≠ []) :
    0 < s.q.buf.length := by
  have hg := h.good hq
  have h1 := (iter_owners h hq).2
  have h2 : s.q.iter.length = s.q.count := by rw [Queue.iter_eq hg.rs.q.1, Queue.length_toList hg.rs.q.1]
  have h3 := hg.rs.q.1.count
  have := List.length_pos_iff.2 hp
  omega

/-- The request queue is empty and has room for what the crank takes for an event. -/
def CrankReq (r : List UInt8) : Prop := ∃ seq slots, loadReqQBytes r = .ok (0, 0, seq, slots) ∧ 132 ≤ r.length

theorem crank_reads_requests {r : List UInt8} (h : CrankReq r) :
    ∃ b, removePadding r = .ok b ∧ parseEventQueue b = .ok ([], []) := by
  obtain ⟨seq, slots, h, hl⟩ := h
  unfold loadReqQBytes stripHeader at h
  obtain ⟨⟨hd, bd⟩, h1, h⟩ := bind_ok h
  obtain ⟨b, h0, h1⟩ := bind_ok h1
  obtain ⟨_, h2, h1⟩ := bind_ok h1
  cases h1
  obtain ⟨_, _, h⟩ := bind_ok h
  simp only [pure, Except.pure, Except.ok.injEq, Prod.mk.injEq] at h
  have l32 : 32 ≤ b.length := by simpa using rustAssert_ok.1 h2
  have lb : b.length = r.length - 12 := by
    rw [(checkPadding_ok h0).1]; unfold middle; simp; omega
  refine ⟨b, removePadding_of h0 (by intro e; subst e; simp at l32), ?_⟩
  unfold parseEventQueue
  simp only [h.1, h.2.1]
  have hi : (items 88 (b.drop 32)).length = (b.length - 32) / 88 := by simp [items]
  have a1 : decide (1 ≤ ((items 88 (b.drop 32)).map Event.ofBytes).length) = true := by
    rw [List.length_map, hi]; simp; omega
  simp only [rustAssert, checkAssert, l32, a1, decide_true, if_true, bind, Except.bind]
  simp [pure, Except.pure]

/-- C62. One round of the crank's loop, on what it reads from the accounts of any reachable state of a market without crank
authority: every call it sends succeeds, whatever happens to be signed. Together they deliver the first `k ≥ 1` events,
where `k` is what the workers may deliver, or everything, or as many as belong to the number of accounts a call may name. -/
theorem crank_round {P : Params} {env : Env} {sg : Nat → Bool} {s : State conc} (h : Crankable P sg s)
    {d r : List UInt8} (hd : loadEventQBytes d = .ok s.q) (hr : CrankReq r) {keys : MarketKeys}
    (hkm : keys.market = s.mkt.ownAddress) (hke : keys.eventQ = s.mkt.eventQ)
    (prog coinWallet pcWallet : Nat) {workers per : Nat} (num : Nat) (hw : 0 < workers) (hper : 0 < per) (hn : U16 per)
    (hp : pending s ≠ []) :
    ∃ calls s', loopCalls prog keys coinWallet pcWallet workers per num d r = .ok calls ∧ SentAll P env sg s calls s' ∧
      Crankable P sg s' ∧ s'.mkt = s.mkt ∧ calls.length ≤ workers ∧ (∀ c ∈ calls, c.metas.length ≤ max num 1 + 4) ∧
      ∃ k > 0, k ≤ (pending s).length ∧ pending s' = (pending s).drop k ∧
        (k = workers * per ∨ k = (pending s).length ∨ ∃ l : List Nat, l.Nodup ∧ l.length = max num 1 + 1 ∧
          ∀ a ∈ l, ∃ v ∈ (pending s).take (k + 1), v.owner = a) := by
  have hg := h.reach.good h.seq
  obtain ⟨b, s0, s1, b1, b2, b3⟩ := crank_reads_queue hd hg.rs.q.1 (queue_room h.reach h.seq hp)
  obtain ⟨rb, r1, r2⟩ := crank_reads_requests hr
  obtain ⟨io, il⟩ := iter_owners h.reach h.seq
  have hlen : s0.length + s1.length = (pending s).length := by rw [← List.length_append, b3, il]
  have hpos : 0 < (pending s).length := List.length_pos_iff.2 hp
  obtain ⟨c1, c2, c3, c4, c5⟩ := collect_run num (pending s) hp
  generalize hks : collectOwners num ((pending s).map (·.owner)) [] = ks at *
  obtain ⟨s', t1, t2, t3, t4⟩ := crank_calls_safe (env := env) c1 (keyLe_of_lt c2) hn prog coinWallet pcWallet
    (min workers (2 * (pending s).length / per + 1)) h
  have hm : min (min workers (2 * (pending s).length / per + 1) * per) (runOf ks (pending s)) =
      min (workers * per) (runOf ks (pending s)) := by
    have h1 := run_le ks (pending s)
    have h2 : (pending s).length ≤ (2 * (pending s).length / per + 1) * per := by
      have := Nat.lt_div_mul_add (a := 2 * (pending s).length) hper
      rw [Nat.add_mul]
      omega
    rcases Nat.le_total workers (2 * (pending s).length / per + 1) with h3 | h3
    · rw [Nat.min_eq_left h3]
    · rw [Nat.min_eq_right h3]
      have : (2 * (pending s).length / per + 1) * per ≤ workers * per := Nat.mul_le_mul_right _ h3
      omega
  rw [hm] at t2
  have hwp : 0 < workers * per := Nat.mul_pos hw hper
  refine ⟨_, s', ?_, t1, t3, t4, by simp; omega, ?_, min (workers * per) (runOf ks (pending s)), by omega, ?_, t2, ?_⟩
  · unfold loopCalls
    simp only [b1, b2, r1, r2, b3, io, hlen, bind, Except.bind, hks]
    rw [if_neg (by omega)]
    simp only [rustAssert, bne_iff_ne, ne_eq, show ¬ per = 0 by omega, not_false_eq_true, if_true, hkm, hke]
    rw [Nat.mod_eq_of_lt hn]
    rfl
  · intro c hc
    rw [(List.mem_replicate.1 hc).2]
    simp [Client.consumeEvents]
    omega
  · have := run_le ks (pending s); omega
  · rcases Nat.le_total (workers * per) (runOf ks (pending s)) with h3 | h3
    · exact .inl (Nat.min_eq_left h3)
    · rw [Nat.min_eq_right h3]
      exact .inr c5

theorem SentAll.unique {P : Params} {env : Env} {sg : Nat → Bool} {s t u : State conc} {cs : List Call}
    (h : SentAll P env sg s cs t) (g : SentAll P env sg s cs u) : t = u := by
  induction h with
  | nil => cases g; rfl
  | cons h _ ih =>
    cases g with
    | cons g gs =>
      unfold Sent at h g
      rw [h] at g
      cases g
      exact ih gs

/-- A round of the crank's loop: it reads the accounts of `s` and sends its calls, and nothing else happens meanwhile. -/
def CrankRound (P : Params) (env : Env) (sg : Nat → Bool) (prog coinWallet pcWallet workers per num vs : Nat)
    (s s' : State conc) : Prop :=
  ∃ d r calls, loadEventQBytes d = .ok s.q ∧ CrankReq r ∧
    loopCalls prog ⟨s.mkt.ownAddress, s.mkt.reqQ, s.mkt.eventQ, s.mkt.bids, s.mkt.asks, s.mkt.coinVault, s.mkt.pcVault, vs⟩
      coinWallet pcWallet workers per num d r = .ok calls ∧ SentAll P env sg s calls s'

/-- Rounds one after the other. -/
inductive CrankRounds (P : Params) (env : Env) (sg : Nat → Bool) (prog coinWallet pcWallet workers per num vs : Nat) :
    Nat → State conc → State conc → Prop where
  | zero (s) : CrankRounds P env sg prog coinWallet pcWallet workers per num vs 0 s s
  | succ {n s t u} (h : CrankRound P env sg prog coinWallet pcWallet workers per num vs s t)
      (hs : CrankRounds P env sg prog coinWallet pcWallet workers per num vs n t u) :
      CrankRounds P env sg prog coinWallet pcWallet workers per num vs (n + 1) s u

/-- A round never lengthens the queue, and shortens it unless it is empty. -/
theorem CrankRound.shortens {P : Params} {env : Env} {sg : Nat → Bool} {prog coinWallet pcWallet workers per num vs : Nat}
    (hw : 0 < workers) (hper : 0 < per) (hn : U16 per) {s s' : State conc} (h : Crankable P sg s)
    (hx : CrankRound P env sg prog coinWallet pcWallet workers per num vs s s') :
    Crankable P sg s' ∧ (pending s').length ≤ (pending s).length - 1 := by
  obtain ⟨d, r, calls, hd, hr, hl, hs⟩ := hx
  by_cases hp : pending s = []
  · have hc : calls = [] := by
      unfold loopCalls at hl
      obtain ⟨b, h1, hl⟩ := bind_ok hl
      obtain ⟨⟨s0, s1⟩, h2, hl⟩ := bind_ok hl
      obtain ⟨_, _, hl⟩ := bind_ok hl
      obtain ⟨_, _, hl⟩ := bind_ok hl
      have hg := h.reach.good h.seq
      have hcap : 0 < s.q.buf.length := by
        unfold loadEventQBytes stripHeader at hd
        obtain ⟨⟨hd', bd⟩, d1, hd⟩ := bind_ok hd
        obtain ⟨b', d0, d1⟩ := bind_ok d1
        obtain ⟨_, _, d1⟩ := bind_ok d1
        cases d1
        obtain ⟨_, _, hd⟩ := bind_ok hd
        rw [(removePadding_ok h1).1] at d0
        cases d0
        unfold parseEventQueue at h2
        obtain ⟨_, _, h2⟩ := bind_ok h2
        obtain ⟨_, h3, h2⟩ := bind_ok h2
        have := checkAssert_ok.1 h3
        simp only [decide_eq_true_eq] at this
        have e := Except.ok.inj hd
        rw [← e]
        exact this
      obtain ⟨b', t0, t1, e1, e2, e3⟩ := crank_reads_queue hd hg.rs.q.1 hcap
      rw [h1] at e1
      cases e1
      rw [h2] at e2
      cases e2
      have hz : s0.length + s1.length = 0 := by
        rw [← List.length_append, e3, (iter_owners h.reach h.seq).2, hp]; rfl
      simp only [hz, if_true] at hl
      cases hl
      rfl
    subst hc
    cases hs
    exact ⟨h, by simp [hp]⟩
  · obtain ⟨calls', t, h1, h2, h3, _, _, _, k, k1, k2, k3, _⟩ := crank_round (env := env) h hd hr (keys := ⟨s.mkt.ownAddress, s.mkt.reqQ,
      s.mkt.eventQ, s.mkt.bids, s.mkt.asks, s.mkt.coinVault, s.mkt.pcVault, vs⟩) rfl rfl prog coinWallet pcWallet num hw hper hn hp
    rw [hl] at h1
    cases h1
    cases hs.unique h2
    refine ⟨h3, ?_⟩
    rw [k3, List.length_drop]
    omega

/-- C62. The crank's loop empties the queue: after as many rounds as there were events, all are delivered. -/
theorem crank_empties {P : Params} {env : Env} {sg : Nat → Bool} {prog coinWallet pcWallet workers per num vs : Nat}
    (hw : 0 < workers) (hper : 0 < per) (hn : U16 per) {n : Nat} {s s' : State conc}
    (hx : CrankRounds P env sg prog coinWallet pcWallet workers per num vs n s s') (h : Crankable P sg s)
    (hlen : (pending s).length ≤ n) : pending s' = [] := by
  induction hx with
  | zero s => exact List.eq_nil_of_length_eq_zero (by omega)
  | succ hr _ ih =>
    obtain ⟨h1, h2⟩ := CrankRound.shortens hw hper hn h hr
    exact ih h1 (by omega)

/-! ### The single call -/

theorem dedup_spec : ∀ l : List Nat, l.Pairwise keyLe → (dedup l).Pairwise keyLt ∧ (∀ a, a ∈ dedup l ↔ a ∈ l)
  | [], _ => ⟨by simp [dedup], by simp [dedup]⟩
  | [a], _ => ⟨by simp [dedup], by simp [dedup]⟩
  | a :: b :: l, h => by
    have h' := List.pairwise_cons.1 h
    obtain ⟨i1, i2⟩ := dedup_spec (b :: l) h'.2
    unfold dedup
    split
    · rename_i e
      subst e
      refine ⟨i1, fun x => ?_⟩
      rw [i2]; simp
    · rename_i hne
      refine ⟨List.pairwise_cons.2 ⟨fun x hx => ?_, i1⟩, fun x => by simp [i2]⟩
      rw [i2] at hx
      have hle := h'.1 x hx
      refine Nat.lt_of_le_of_ne hle fun e => ?_
      have ex := keyRank_inj e
      subst ex
      have hb : keyRank b ≤ keyRank a := by
        rcases List.mem_cons.1 hx with e | hm
        · exact absurd e hne
        · exact (List.pairwise_cons.1 h'.2).1 a hm
      have ha : keyRank a ≤ keyRank b := h'.1 b (by simp)
      exact hne (keyRank_inj (Nat.le_antisymm ha hb))

/-- The owners of the queued events in order. -/
def sortedOwners (evs : List EventView) : List Nat :=
  dedup ((evs.map (·.owner)).mergeSort fun a b => decide (keyLe a b))

theorem sortedOwners_spec (evs : List EventView) : (sortedOwners evs).Pairwise keyLt ∧
    ∀ a, a ∈ sortedOwners evs ↔ ∃ v ∈ evs, v.owner = a := by
  have hs := List.pairwise_mergeSort (le := fun a b => decide (keyLe a b))
    (fun a b c h1 h2 => by simp only [decide_eq_true_eq] at *; exact Nat.le_trans h1 h2)
    (fun a b => by
      simp only [Bool.or_eq_true, decide_eq_true_eq]
      exact Nat.le_total _ _) (evs.map (·.owner))
  obtain ⟨h1, h2⟩ := dedup_spec _ (hs.imp fun h => by simpa using h)
  exact ⟨h1, fun a => by unfold sortedOwners; rw [h2]; simp⟩

/-- Distinct members of a list are no more than its elements. -/
theorem nodup_length_le : ∀ {l m : List Nat}, l.Nodup → (∀ a ∈ l, a ∈ m) → l.length ≤ m.length
  | [], m, _, _ => by simp
  | a :: l, m, h, hm => by
    have h' := List.nodup_cons.1 h
    have := nodup_length_le (m := m.erase a) h'.2 fun x hx => by
      have hne : x ≠ a := fun e => h'.1 (e ▸ hx)
      exact (List.mem_erase_of_ne hne).2 (hm x (by simp [hx]))
    rw [List.length_erase_of_mem (hm a (by simp))] at this
    have := List.length_pos_of_mem (hm a (by simp))
    simp only [List.length_cons]
    omega

/-- Being among the first of a sorted list. -/
theorem mem_take_sorted {l : List Nat} (hs : l.Pairwise keyLt) {x : Nat} (hx : x ∈ l) (n : Nat) :
    x ∈ l.take n ↔ ¬ ∃ m : List Nat, m.Nodup ∧ m.length = n ∧ ∀ a ∈ m, a ∈ l ∧ keyLt a x := by
  obtain ⟨i, hi, rfl⟩ := List.mem_iff_getElem.1 hx
  have hlt : ∀ j (hj : j < l.length), keyLt l[j] l[i] ↔ j < i := by
    intro j hj
    constructor
    · intro h
      rcases Nat.lt_or_ge j i with e | e
      · exact e
      · rcases Nat.eq_or_lt_of_le e with e | e
        · subst e; exact absurd h (Nat.lt_irrefl _)
        · exact absurd (List.pairwise_iff_getElem.1 hs i j hi hj e) (Nat.lt_asymm h)
    · intro e
      exact List.pairwise_iff_getElem.1 hs j i hj hi e
  constructor
  · rintro h ⟨m, m1, m2, m3⟩
    have hin : i < n := by
      obtain ⟨j, hj, e⟩ := List.mem_take_iff_getElem.1 h
      have : j = i := by
        rcases Nat.lt_trichotomy j i with g | g | g
        · have := (hlt j (by omega)).2 g
          unfold keyLt at this
          rw [e] at this
          exact absurd this (Nat.lt_irrefl _)
        · exact g
        · have := List.pairwise_iff_getElem.1 hs i j hi (by omega) g
          unfold keyLt at this
          rw [e] at this
          exact absurd this (Nat.lt_irrefl _)
      omega
    have := nodup_length_le (m := l.take i) m1 fun a ha => by
      obtain ⟨h1, h2⟩ := m3 a ha
      obtain ⟨j, hj, rfl⟩ := List.mem_iff_getElem.1 h1
      exact List.mem_take_iff_getElem.2 ⟨j, by have := (hlt j hj).1 h2; omega, rfl⟩
    rw [List.length_take] at this
    omega
  · intro h
    rcases Nat.lt_or_ge i n with e | e
    · exact List.mem_take_iff_getElem.2 ⟨i, by omega, rfl⟩
    · refine absurd ⟨l.take n, (nodup_of_lt hs).sublist (List.take_sublist _ _), by simp; omega, fun a ha => ?_⟩ h
      obtain ⟨j, hj, rfl⟩ := List.mem_take_iff_getElem.1 ha
      exact ⟨List.getElem_mem _, (hlt j (by omega)).2 (by omega)⟩

theorem run_pos {keys : List Nat} {v : EventView} {rest : List EventView} :
    0 < runOf keys (v :: rest) ↔ v.owner ∈ keys := by
  unfold runOf
  rw [List.takeWhile_cons]
  split <;> rename_i h
  · simpa using h
  · simpa using h

/-- Without the owner of the first event the crank changes nothing. -/
theorem loop_stuck {P : Params} {env : Env} {s : State conc} (h : Reach P s) (hq : s.seq ≤ W64) {keys : List Nat}
    (hr : runOf keys (pending s) = 0) (n : Nat) : consumeLoop conc P env keys n s = .ok s := by
  cases n with
  | zero => rfl
  | succ n =>
    have hg := h.good hq
    obtain ⟨vs, hv, hqi, hi⟩ := h.view hq
    have hL : (absState s).q.items = (pending s).map Event.new := by
      rw [← hqi, Queue.iter_eq hg.rs.q.1]; rfl
    have h1 := consumeLoop_stop (P := P) (env := env) hL (fun v hv => run_stop keys (pending s) v (by rw [hr]; exact hv)) 1
    unfold consumeLoop at h1 ⊢
    cases h2 : consumeOne lst P env (absState s) keys with
    | error e => rw [h2] at h1; cases h1
    | ok r =>
      have hsim := Refines.sim_consumeOne hg.rs P env keys
      rw [h2] at hsim
      cases r with
      | none =>
        cases h3 : consumeOne conc P env s keys with
        | error e => rw [h3] at hsim; cases hsim
        | ok r' =>
          rw [h3] at hsim
          cases r' with
          | none => rfl
          | some _ => cases hsim
      | some t =>
        exfalso
        unfold consumeOne at h2
        rw [show lst.peek (absState s).q = (absState s).q.items.head? from rfl, hL] at h2
        cases hp : pending s with
        | nil => rw [hp] at h2; cases h2
        | cons v rest =>
          rw [hp] at h2 hr
          have hnm : v.owner ∉ keys := fun hm => by
            have := run_pos (rest := rest).2 hm
            rw [hr] at this
            exact Nat.lt_irrefl _ this
          have hf : P.search.find keys v.owner = false := by
            cases hx : P.search.find keys v.owner with
            | false => rfl
            | true => exact absurd (P.search.sound _ _ hx) hnm
          have e1 : (Event.new v).owner = v.owner := by cases v <;> rfl
          simp only [List.map_cons, List.head?_cons, Event.asView_new, bind, Except.bind, eventOwner, e1, hf,
            Bool.false_eq_true, if_false, pure, Except.pure] at h2
          cases h2

/-- C62. The single call of the crank, on what it reads from any reachable state of a market without crank authority: it
succeeds, but it delivers anything if and only if fewer than 32 accounts with queued events sort before the owner of the
first event. Otherwise nothing changes at all, and the next call is the same. -/
theorem crank_once {P : Params} {env : Env} {sg : Nat → Bool} {s : State conc} (h : Crankable P sg s) {d : List UInt8}
    (hd : loadEventQBytes d = .ok s.q) {keys : MarketKeys} (hkm : keys.market = s.mkt.ownAddress)
    (hke : keys.eventQ = s.mkt.eventQ) (prog coinWallet pcWallet : Nat) {v : EventView} {rest : List EventView}
    (hp : pending s = v :: rest) :
    ∃ c s', onceCall prog keys coinWallet pcWallet d = .ok (some c) ∧ Sent P env sg s c s' ∧ Crankable P sg s' ∧
      ∃ k ≤ 36, pending s' = (pending s).drop k ∧ (k = 0 → s' = s) ∧
        (k = 0 ↔ ∃ m : List Nat, m.Nodup ∧ m.length = 32 ∧ ∀ a ∈ m, (∃ w ∈ pending s, w.owner = a) ∧ keyLt a v.owner) := by
  have hg := h.reach.good h.seq
  have hne : pending s ≠ [] := by rw [hp]; simp
  obtain ⟨b, s0, s1, b1, b2, b3⟩ := crank_reads_queue hd hg.rs.q.1 (queue_room h.reach h.seq hne)
  obtain ⟨io, il⟩ := iter_owners h.reach h.seq
  have hlen : s0.length + s1.length = (pending s).length := by rw [← List.length_append, b3, il]
  obtain ⟨o1, o2⟩ := sortedOwners_spec (pending s)
  have hvm : v.owner ∈ sortedOwners (pending s) := (o2 _).2 ⟨v, by rw [hp]; simp, rfl⟩
  have hks : ((sortedOwners (pending s)).take 32).Pairwise keyLt := o1.sublist (List.take_sublist _ _)
  have hkn : (sortedOwners (pending s)).take 32 ≠ [] := by
    intro e
    have := List.length_pos_of_mem hvm
    have e' := congrArg List.length e
    rw [List.length_take] at e'
    simp only [List.length_nil] at e'
    omega
  have hkl : ((sortedOwners (pending s)).take 32).length ≤ 32 := by rw [List.length_take]; omega
  have hu : U16 (((sortedOwners (pending s)).take 32).length + 4) := by unfold U16; omega
  obtain ⟨s', t1, t2, t3, t4⟩ := crank_call_safe (env := env) h hkn (keyLe_of_lt hks) hu prog coinWallet pcWallet
  refine ⟨_, s', ?_, t1, t3, _, ?_, t2, fun e => ?_, ?_⟩
  · unfold onceCall
    simp only [b1, b2, b3, io, hlen, bind, Except.bind, hkm, hke]
    rw [if_neg (by rw [hp]; simp)]
    change Except.ok (some _) = _
    congr 2
    unfold Client.consumeEvents
    rw [show dedup (List.mergeSort ((pending s).map (·.owner)) fun a b => decide (keyLe a b)) = sortedOwners (pending s) from rfl]
    simp only [List.length_append, List.length_map, List.length_cons, List.length_nil, Nat.reduceAdd]
    rw [Nat.mod_eq_of_lt hu]
  · omega
  · have hr : runOf ((sortedOwners (pending s)).take 32) (pending s) = 0 := by omega
    have g := t1.process (.consumeEvents ..) hu
    rw [consume_runs h.reach h.open_ hkn, loop_stuck h.reach h.seq hr] at g
    exact (Except.ok.inj g).symm
  · have hmt := mem_take_sorted o1 hvm 32
    have hr := run_pos (keys := (sortedOwners (pending s)).take 32) (v := v) (rest := rest)
    rw [hmt, ← hp] at hr
    simp only [o2] at hr
    refine Iff.trans ?_ (Classical.not_not (a := ∃ m : List Nat, _))
    rw [← hr]
    omega

/-! ### Limits of the crank -/

/-- C62. The crank does not serve markets with a crank authority: the program refuses whatever it sends. -/
theorem crank_refused {P : Params} {env : Env} {sg : Nat → Bool} {s s' : State conc} {a : Nat}
    (hc : s.mkt.crankAuth = some a) {prog coinWallet pcWallet : Nat} {keys : MarketKeys} {d : List UInt8} {c : Call}
    (h : (∃ workers per num r calls, loopCalls prog keys coinWallet pcWallet workers per num d r = .ok calls ∧ c ∈ calls) ∨
      onceCall prog keys coinWallet pcWallet d = .ok (some c)) : ¬ Sent P env sg s c s' := by
  obtain ⟨n, hn, hd⟩ : ∃ n, U16 n ∧ c.data = (Instruction.consumeEvents n).pack := by
    rcases h with ⟨workers, per, num, r, calls, h, hm⟩ | h
    · unfold loopCalls at h
      obtain ⟨_, _, h⟩ := bind_ok h
      obtain ⟨⟨s0, s1⟩, _, h⟩ := bind_ok h
      obtain ⟨_, _, h⟩ := bind_ok h
      obtain ⟨_, _, h⟩ := bind_ok h
      simp only at h
      split at h
      · cases h; cases hm
      · obtain ⟨_, _, h⟩ := bind_ok h
        cases h
        rw [(List.mem_replicate.1 hm).2]
        exact ⟨_, Nat.mod_lt _ (by decide), rfl⟩
    · unfold onceCall at h
      obtain ⟨_, _, h⟩ := bind_ok h
      obtain ⟨⟨s0, s1⟩, _, h⟩ := bind_ok h
      simp only at h
      split at h
      · cases h
      · cases h
        exact ⟨_, Nat.mod_lt _ (by decide), rfl⟩
  intro hs
  unfold Sent processRaw at hs
  rw [hd, instruction_round_trip (.consumeEvents n) hn] at hs
  obtain ⟨e, he⟩ := open_crank_refused (P := P) (env := env) (s := s) (accts := c.accts sg) (n := n) (by
    rcases crankAuth_iff s.mkt with ⟨h, _⟩ | ⟨_, h⟩
    · exact h
    · rw [hc] at h; cases h)
  change consumeEvents conc P env s (c.accts sg) n = .ok s' at hs
  rw [he] at hs
  cases hs

/-- C62. Nor does the loop serve a market whose request queue has no room for 88 bytes, though the program accepts one
with room for a single request of 80: the crank fails before it sends anything, whatever is queued. -/
theorem crank_needs_room {prog coinWallet pcWallet workers per num : Nat} {keys : MarketKeys} {d r : List UInt8}
    (hl : r.length < 132) : ∃ e, loopCalls prog keys coinWallet pcWallet workers per num d r = .error e := by
  cases h : loopCalls prog keys coinWallet pcWallet workers per num d r with
  | error e => exact ⟨e, rfl⟩
  | ok calls =>
    exfalso
    unfold loopCalls at h
    obtain ⟨_, _, h⟩ := bind_ok h
    obtain ⟨⟨s0, s1⟩, _, h⟩ := bind_ok h
    obtain ⟨b, h1, h⟩ := bind_ok h
    obtain ⟨_, h2, h⟩ := bind_ok h
    have lb : b.length = r.length - 12 := by
      rw [(checkPadding_ok (removePadding_ok h1).1).1]; unfold middle; simp; omega
    unfold parseEventQueue at h2
    obtain ⟨_, _, h2⟩ := bind_ok h2
    obtain ⟨_, h3, h2⟩ := bind_ok h2
    have := checkAssert_ok.1 h3
    simp [items] at this
    omega

/-! ### The other commands -/

/-- C62. The crank's commands build the same instructions as the program's own builders, for the accounts of the market. -/
theorem crank_commands (P : Params) (prog rent wallet payer oo coinWallet pcWallet : Nat) (keys : MarketKeys) (ix : NewOrderIx) :
    Crank.placeOrder P prog rent wallet payer oo keys ix =
      Client.newOrder keys.market oo keys.reqQ keys.eventQ keys.bids keys.asks wallet payer keys.coinVault keys.pcVault
        P.splToken rent none prog ix ∧
    Crank.settleFunds P prog payer oo coinWallet pcWallet keys =
      Client.settleFunds prog keys.market P.splToken oo payer keys.coinVault coinWallet keys.pcVault pcWallet none
        keys.vaultSigner ∧
    Crank.matchOrders prog coinWallet pcWallet keys =
      Client.matchOrders prog keys.market keys.reqQ keys.bids keys.asks keys.eventQ coinWallet pcWallet 2 :=
  ⟨rfl, rfl, rfl⟩

/-! ### Listing a market -/

/-- The nonce found is the first of the hundred tried that gives an address. -/
theorem findNonce_spec (P : Params) (market : Nat) : ∀ fuel i, match findNonce P market fuel i with
    | .ok (n, vs) => i ≤ n ∧ n < i + fuel ∧ P.vaultSigner market n = some vs ∧ ∀ j, i ≤ j → j < n → P.vaultSigner market j = none
    | .error _ => ∀ j, i ≤ j → j < i + fuel → P.vaultSigner market j = none
  | 0, i => by
    unfold findNonce
    simp only
    intro j h1 h2
    omega
  | fuel + 1, i => by
    unfold findNonce
    cases hv : P.vaultSigner market i with
    | some vs =>
      simp only
      exact ⟨by omega, by omega, hv, by omega⟩
    | none =>
      simp only
      have ih := findNonce_spec P market fuel (i + 1)
      cases hf : findNonce P market fuel (i + 1) with
      | ok r =>
        obtain ⟨n, vs⟩ := r
        rw [hf] at ih
        simp only at ih ⊢
        refine ⟨by omega, by omega, ih.2.2.1, fun j h1 h2 => ?_⟩
        by_cases e : j = i
        · rw [e]; exact hv
        · exact ih.2.2.2 j (by omega) h2
      | error e =>
        rw [hf] at ih
        simp only at ih ⊢
        intro j h1 h2
        by_cases e : j = i
        · rw [e]; exact hv
        · exact ih j (by omega) (by omega)

/-- A new token account: nothing but its mint and its owner. -/
def newTok (mint owner : Nat) : Tok := ⟨mint, owner, 0, false, none, 0, none⟩

/-- What `list_market` has created before it initialises the market: five zeroed accounts of its sizes, rent-exempt and
owned by the program, and two empty vaults of existing mints that belong to the address found. -/
structure Listing (mints : Nat → Bool) (toks : Ledger) (W : Accs) (G : Given) (vs : Nat) : Prop where
  own : G.own.Nodup
  blank : G.own.map W = listingSizes.map fun n => ⟨true, true, List.replicate n 0⟩
  exempt : ∀ a ∈ [G.coinVault, G.pcVault, G.coinMint, G.pcMint], (W a).exempt = true
  mints : mints G.coinMint = true ∧ mints G.pcMint = true
  coinVault : toks G.coinVault = some (newTok G.coinMint vs)
  pcVault : toks G.pcVault = some (newTok G.pcMint vs)
  auth : G.auth = []

theorem reqQ_length (a b c : Nat) (l : List UInt8) : (reqQBytes a b c l).length = l.length + 44 := by
  simp [reqQBytes, padded, headPad, tailPad, packFields_length]
  omega

/-- An account that loads as a market also does where disabled markets are allowed. -/
theorem loads_disabled {o : Bool} {d : List UInt8} {m : Market} (h : loadMarketBytes o d false = .ok m) :
    loadMarketBytes true d true = .ok m := by
  unfold loadMarketBytes at h ⊢
  obtain ⟨f, h1, h⟩ := bind_ok h
  obtain ⟨_, h2, h⟩ := bind_ok h
  obtain ⟨m', h3, h⟩ := bind_ok h
  obtain ⟨_, h4, h⟩ := bind_ok h
  cases h
  have h5 : checkMarketFlags m.flags true = .ok () := by
    unfold checkMarketFlags at h4 ⊢
    simp only [Bool.false_and, Bool.or_false] at h4
    grind
  rw [h1]
  simp only [bind, Except.bind, checkAssert, if_true, h3, h5]
  rfl

/-- C63. `list_market`: unless none of a hundred nonces gives an address, the instruction it sends is accepted for the
accounts it has created, and the result is an empty market without authorities, with 11915 event slots and 909 nodes on
each side of the book. The crank can serve it: it reads the market's addresses and its request queue. -/
theorem list_market_works {P : Params} {mints : Nat → Bool} {toks : Ledger} {W : Accs} (sg : Nat → Bool)
    (ho : ∀ a, (W a).owned = true → OwnedBytes (W a).data) (hlen : ∀ a, (W a).data.length < 2 ^ 63)
    (ht : ∀ a t, toks a = some t → t.amount < W64) {prog : Nat} {G : Given} (hk : ∀ a ∈ G.keys, a < 256 ^ 32)
    {coinLot pcLot : Nat} (hu : U64 coinLot ∧ U64 pcLot) {c : Call} {vs : Nat}
    (hc : listMarket P prog G.rent G.market G.reqQ G.eventQ G.bids G.asks G.coinVault G.pcVault G.coinMint G.pcMint coinLot
      pcLot = .ok (c, vs)) (hl : Listing mints toks W G vs) :
    ∃ ix W' s, Instruction.unpack c.data = some (.initializeMarket ix) ∧
      initMarket P mints toks W (c.accts sg) ix = .ok W' ∧ Stored W' s ∧
      s.mkt.coinLot = coinLot ∧ s.mkt.pcLot = pcLot ∧ s.mkt.crankAuth = none ∧ s.mkt.permissioned = false ∧
      s.q.buf.length = 11915 ∧ s.bids.nodes.length = 909 ∧ s.asks.nodes.length = 909 ∧
      (0 < coinLot → 0 < pcLot → Reach P s) ∧
      keysForMarket P G.market (W' G.market).data =
        .ok ⟨G.market, G.reqQ, G.eventQ, G.bids, G.asks, G.coinVault, G.pcVault, vs⟩ ∧ CrankReq (W' G.reqQ).data := by
  unfold listMarket at hc
  obtain ⟨⟨nonce, vs'⟩, hn, hc⟩ := bind_ok hc
  cases hc
  have hsp := findNonce_spec P G.market 100 0
  rw [hn] at hsp
  obtain ⟨_, hlt, hvs, _⟩ := hsp
  have hun : U64 nonce := by show nonce < 256 ^ 8; omega
  obtain ⟨gm, gr, ge, gb, ga, gcv, gpv, gcm, gpm, grent, gauth⟩ := G
  obtain ⟨l1, l2, l3, l4, l5, l6, l7⟩ := hl
  simp only at l7
  subst l7
  simp only [Given.own, listingSizes, List.map_cons, List.map_nil, List.cons.injEq, and_true] at l2
  obtain ⟨w1, w2, w3, w4, w5⟩ := l2
  simp only [Given.own, List.nodup_cons, List.mem_cons, List.not_mem_nil, or_false, not_or, not_false_eq_true,
    List.nodup_nil, and_true] at l1
  obtain ⟨⟨e1, e2, e3, e4⟩, ⟨e5, e6, e7⟩, ⟨e8, e9⟩, e10⟩ := l1
  have hok : InitOk P mints toks W ⟨gm, gr, ge, gb, ga, gcv, gpv, gcm, gpm, grent, []⟩ nonce := by
    refine ⟨by simp, ?_, ?_, ?_, ?_, ?_, ?_, ?_, ?_, ?_, ?_, vs, hvs, ⟨l4.1, _, l5, rfl, rfl, rfl, rfl, rfl⟩,
      ⟨l4.2, _, l6, rfl, rfl, rfl, rfl, rfl⟩⟩
    · intro a ha
      simp only [List.mem_cons, List.not_mem_nil, or_false] at ha
      rcases ha with rfl | rfl | rfl | rfl | h
      · rw [w2]
      · rw [w3]
      · rw [w4]
      · rw [w5]
      · exact l3 a (by simp only [List.mem_cons, List.not_mem_nil, or_false]; exact h)
    · simp only [Given.own, List.mem_cons, List.not_mem_nil, or_false, forall_eq_or_imp, forall_eq, w1, w2, w3, w4, w5, and_self]
    · simp only [Given.own, List.mem_cons, List.not_mem_nil, or_false, forall_eq_or_imp, forall_eq, w1, w2, w3, w4, w5]
      exact ⟨⟨_, rfl⟩, ⟨_, rfl⟩, ⟨_, rfl⟩, ⟨_, rfl⟩, ⟨_, rfl⟩⟩
    · simp only [Given.own, List.mem_cons, List.not_mem_nil, or_false, forall_eq_or_imp, forall_eq, w1, w2, w3, w4, w5,
        List.length_replicate]
      decide
    · simp only [w1, List.length_replicate]; decide
    · simp only [w2, List.length_replicate]; decide
    · simp only [w3, List.length_replicate]; decide
    · simp only [w4, List.length_replicate]; decide
    · simp only [w5, List.length_replicate]; decide
    · simp only
      refine ⟨e5, ?_, ?_, ?_, ?_, e1, e2⟩ <;> (rintro rfl; simp only [not_true_eq_false] at *)
  have hv : IxValid (.initializeMarket ⟨coinLot, pcLot, 0, nonce, 100⟩) := ⟨hu.1, hu.2, by simp [U16], hun,
    (by decide : U64 100)⟩
  have hkeys : ((Client.initializeMarket grent gm prog gcm gpm gcv gpv none none none gb ga gr ge coinLot pcLot nonce
      100).accts sg).map (·.key) = Given.keys ⟨gm, gr, ge, gb, ga, gcv, gpv, gcm, gpm, grent, []⟩ := rfl
  have hi := (init_market_iff (P := P) (mints := mints) (toks := toks) (ix := ⟨coinLot, pcLot, 0, nonce, 100⟩) ho).2
    ⟨_, hkeys, hok, rfl⟩
  obtain ⟨G, s, nb, na, nq, f1, f2, f3, _, _, _, f4, f5, f6, f7, _, _⟩ := fresh_market ho hlen (fun a ha => by
    refine hk a.key ?_
    rw [← hkeys]
    exact List.mem_map.2 ⟨a, ha, rfl⟩) hv ht hi
  have hG : G = ⟨gm, gr, ge, gb, ga, gcv, gpv, gcm, gpm, grent, []⟩ := by
    rw [hkeys] at f1
    obtain ⟨_, _, _, _, _, _, _, _, _, _, _⟩ := G
    simp only [Given.keys, List.cons_append, List.nil_append, List.cons.injEq] at f1
    obtain ⟨rfl, rfl, rfl, rfl, rfl, rfl, rfl, rfl, rfl, rfl, h⟩ := f1
    rw [← h]
  subst hG
  simp only [w3, w4, w5, List.length_replicate] at f4 f5 f6
  refine ⟨_, _, s, instruction_round_trip _ hv, hi, f3, by rw [f2]; rfl, by rw [f2]; rfl, by rw [f2]; simp [emptyState, newMarket, Market.crankAuth, Market.permissioned, hasFlag],
    by rw [f2]; simp [emptyState, newMarket, Market.permissioned, hasFlag], ?_, ?_, ?_, fun h1 h2 => (f7 h1 h2).2, ?_, ?_⟩
  · rw [f2, f6]; simp only [emptyState, Queue.fresh, List.length_replicate]; decide
  · rw [f2, f4]; simp only [emptyState, Slab.fresh, List.length_replicate]; decide
  · rw [f2, f5]; simp only [emptyState, Slab.fresh, List.length_replicate]; decide
  · have hm := loads_disabled f3.market
    have hx := crank_reads_market (P := P) (vs := vs) hm (by rw [f2]; exact hvs)
    rw [f2] at hx
    exact hx
  · obtain ⟨slots, _, hr⟩ := f3.reqQ
    rw [f2] at hr
    refine ⟨_, _, hr, ?_⟩
    have wr : (created W ⟨coinLot, pcLot, 0, nonce, 100⟩ ⟨gm, gr, ge, gb, ga, gcv, gpv, gcm, gpm, grent, []⟩ gr).data =
        reqQBytes 0 0 0 (zeros ((W gr).data.length - 44)) := by
      unfold created
      simp only
      rw [setData_other _ _ (Ne.symm e1), setData_other _ _ e7, setData_other _ _ e6, setData_other _ _ e5, setData_same]
    rw [wr, reqQ_length, zeros_length, w2, List.length_replicate]
    decide

/-- C63. `list_market` gives up only if none of the hundred nonces gives an address. -/
theorem list_market_fails {P : Params} {prog rent market reqQ eventQ bids asks coinVault pcVault coinMint pcMint coinLot
    pcLot : Nat} {e : Err} (h : listMarket P prog rent market reqQ eventQ bids asks coinVault pcVault coinMint pcMint coinLot
      pcLot = .error e) : ∀ n < 100, P.vaultSigner market n = none := by
  have hsp := findNonce_spec P market 100 0
  unfold listMarket at h
  cases hf : findNonce P market 100 0 with
  | ok r => rw [hf] at h; cases h
  | error e =>
    rw [hf] at hsp
    exact fun n hn => hsp n (by omega) (by omega)

/-! ### Examples -/

/-- An immediate-or-cancel bid that meets nothing. -/
def ioc : NewOrderIx := { Demo.order .bid 500 1 6000 1 with orderType := .ioc }

/-- The demonstration market with a larger queue. -/
def stall0 : State conc := { Demo.s0 with q := Queue.fresh (List.replicate 40 Demo.zeroEvent) }

/-- One such bid for each open-orders account of a list. -/
def stallRun : List Nat → State conc → State conc
  | [], s => s
  | k :: ks, s => stallRun ks (Demo.run s (Demo.orderAccts k 32 12) (.newOrderV3 ioc))

def stallFine : List Nat → State conc → Bool
  | [], _ => true
  | k :: ks, s => Demo.fine s (Demo.orderAccts k 32 12) (.newOrderV3 ioc) &&
      stallFine ks (Demo.run s (Demo.orderAccts k 32 12) (.newOrderV3 ioc))

/-- 33 accounts, the last in order first. -/
def stallKeys : List Nat := (List.range 33).map fun i => 1033 - i

def stalled : State conc := stallRun stallKeys stall0

theorem stall_reach : ∀ (ks : List Nat) {s : State conc}, Reach Demo.P s → stallFine ks s = true → Reach Demo.P (stallRun ks s)
  | [], _, h, _ => h
  | k :: ks, s, h, hf => by
    simp only [stallFine, Bool.and_eq_true] at hf
    exact stall_reach ks (Demo.next h (Demo.valid (sd := .bid) (by decide)) hf.1 (by
      simp [Demo.orderAccts, Demo.acc, Demo.sig])) hf.2

theorem stalled_reach : Reach Demo.P stalled :=
  stall_reach stallKeys (.start { Demo.genesis with q := ⟨_, rfl, by decide⟩ }) (by decide +kernel)

theorem queueFits_of {s : State conc} (h : (s.oos.all fun x => decide (Fits s x.1 x.2)) = true) : QueueFits s := by
  intro v _ o ho
  exact allFit_of h v.owner _ o ho (.inl rfl)

theorem stalled_crankable : Crankable Demo.P demoSigners stalled :=
  ⟨stalled_reach, by decide +kernel, by decide +kernel, queueFits_of (by decide +kernel), fun k hk e => by
    simp only [Demo.P, Option.some.injEq] at e
    subst e
    exact absurd hk (by decide)⟩

/-- The bytes of the queue. -/
def stallBytes : List UInt8 := eventQBytes stalled.q []

theorem stall_bytes : loadEventQBytes stallBytes = .ok stalled.q :=
  event_queue_bytes _ _ (by decide +kernel) (by decide +kernel) (by decide +kernel) (by
    have h : (stalled.q.buf.all fun e => e.fields.all fun f => decide (f.2 < 256 ^ f.1)) = true := by decide +kernel
    intro e he f hf
    simpa using List.all_eq_true.1 (List.all_eq_true.1 h e he) f hf) (by simp) (by simp)

def demoKeys : MarketKeys := ⟨50, 53, 54, 55, 56, 51, 52, 60⟩

/-- C62. A queue that the single call never empties: 33 accounts have one event each and the first event belongs to the
last account in order. The call goes through and changes nothing. -/
theorem crank_once_stalls : pending stalled ≠ [] ∧ ∃ c, onceCall 1 demoKeys 22 32 stallBytes = .ok (some c) ∧
    Sent Demo.P Demo.env demoSigners stalled c stalled := by
  have ho : (pending stalled).map (·.owner) = stallKeys := by decide +kernel
  cases hp : pending stalled with
  | nil => rw [hp] at ho; exact absurd ho (by decide)
  | cons v rest =>
    refine ⟨by simp, ?_⟩
    obtain ⟨c, s', h1, h2, _, k, _, _, h3, h4⟩ := crank_once (env := Demo.env) stalled_crankable stall_bytes (keys := demoKeys)
      (by decide +kernel) (by decide +kernel) 1 22 32 hp
    have hv : v.owner = 1033 := by
      have := congrArg List.head? ho
      rw [hp] at this
      rw [List.map_cons, List.head?_cons, show stallKeys.head? = some 1033 from rfl] at this
      exact Option.some.inj this
    have hk : k = 0 := h4.2 ⟨(List.range 32).map (· + 1001), by decide, by decide, fun a ha => by
      have h5 : ∀ a ∈ (List.range 32).map (· + 1001), a ∈ stallKeys ∧ keyRank a < keyRank 1033 := by decide +kernel
      obtain ⟨h6, h7⟩ := h5 a ha
      rw [← ho] at h6
      obtain ⟨w, w1, w2⟩ := List.mem_map.1 h6
      exact ⟨⟨w, w1, w2⟩, by unfold keyLt; rw [hv]; exact h7⟩⟩
    rw [h3 hk] at h2
    exact ⟨c, h1, h2⟩

/-- A request queue of seven empty slots, as `list_market` makes it. -/
def demoRequests : List UInt8 := reqQBytes 0 0 33 (List.replicate 608 0)

theorem demo_requests : CrankReq demoRequests :=
  ⟨33, 7, by
    unfold demoRequests
    rw [request_queue_bytes 0 0 33 _ (by decide) (by decide) (by decide) (by rw [List.length_replicate]),
      List.length_replicate], by
    unfold demoRequests
    rw [reqQ_length, List.length_replicate]
    decide⟩

-- the loop with two workers and ten accounts delivers ten of the 33 events in the first round
example : ∃ calls s', loopCalls 1 demoKeys 22 32 2 5 10 stallBytes demoRequests = .ok calls ∧
    SentAll Demo.P Demo.env demoSigners stalled calls s' ∧ ∃ k > 0, pending s' = (pending stalled).drop k := by
  obtain ⟨calls, s', h1, h2, _, _, _, _, k, k1, _, k2, _⟩ := crank_round (env := Demo.env) stalled_crankable stall_bytes
    demo_requests (keys := demoKeys) (by decide +kernel) (by decide +kernel) 1 22 32 (workers := 2) (per := 5) 10
    (by decide) (by decide) (by decide) crank_once_stalls.1
  exact ⟨calls, s', h1, h2, k, k1, k2⟩

-- the market account of the demonstration
example : (keysForMarket Demo.P 50 Demo.mkt.bytes).toOption = some demoKeys := by decide +kernel

/-- The accounts `list_market` creates for the demonstration market. -/
def listed : Accs := fun a =>
  match a with
  | 50 => ⟨true, true, List.replicate (376 + 12) 0⟩
  | 53 => ⟨true, true, List.replicate (640 + 12) 0⟩
  | 54 => ⟨true, true, List.replicate (1 <<< 20 + 12) 0⟩
  | 55 => ⟨true, true, List.replicate (1 <<< 16 + 12) 0⟩
  | 56 => ⟨true, true, List.replicate (1 <<< 16 + 12) 0⟩
  | _ => ⟨false, true, []⟩

example : ∃ c, listMarket Demo.P 1 9 50 53 54 55 56 51 52 80 81 100 10 = .ok (c, 60) ∧
    Listing (fun _ => true) Demo.toks listed ⟨50, 53, 54, 55, 56, 51, 52, 80, 81, 9, []⟩ 60 :=
  ⟨_, rfl, ⟨by decide, rfl, by decide, ⟨rfl, rfl⟩, rfl, rfl, rfl⟩⟩

end Serum.Props
