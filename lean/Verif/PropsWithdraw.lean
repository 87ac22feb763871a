import Verif.PropsCrankTime
import Verif.PropsReplace
import Verif.PropsRoundTrip

/-!
C111: it does not matter how, or in which order, orders are withdrawn. Cancels by order id, by client id, in batches and by
pruning, of any owners' orders, in any order: the books that are left determine all that is left.
-/

namespace Serum.Props

/-- The instructions that withdraw orders. -/
def Withdraws : Instruction → Prop
  | .cancelOrderV2 .. => True
  | .cancelOrderByClientIdV2 _ => True
  | .cancelOrdersByClientIds _ => True
  | .prune _ => True
  | _ => False

/-- The orders of `ls` that belong to account `b`. -/
def ownedBy (b : Nat) (ls : List (Side × Leaf)) : List (Side × Leaf) := ls.filter fun x => x.2.owner == b

/-- Between `s` and `s'` exactly the resting orders `ls`, of any accounts, were withdrawn. -/
structure Cleared (s s' : State conc) (ls : List (Side × Leaf)) : Prop where
  theirs : ∀ sd l, (sd, l) ∈ ls → l ∈ resting s sd
  nodup : ls.Nodup
  books : ∀ sd, resting s' sd = without ls sd (resting s sd)
  events : pending s' = pending s ++ ls.map (outEvent s.mkt)
  accounts : ∀ b, ooAt s'.oos b = (ooAt s.oos b).map (released s.mkt (ownedBy b ls))
  mkt : s'.mkt = s.mkt
  toks : s'.toks = s.toks
  seq : s'.seq = s.seq

theorem released_nil (m : Market) (o : OpenOrders) : released m [] o = o := by
  simp [released, total]

theorem Cleared.refl (s : State conc) : Cleared s s [] := by
  refine ⟨by simp, List.nodup_nil, fun sd => (without_nil _ _).symm, by simp, fun b => ?_, rfl, rfl, rfl⟩
  show _ = (ooAt s.oos b).map (released s.mkt [])
  cases ooAt s.oos b with
  | none => rfl
  | some o => rw [Option.map_some, released_nil]

theorem released_append (m : Market) (ls ks : List (Side × Leaf)) (o : OpenOrders) :
    released m ks (released m ls o) = released m (ls ++ ks) o := by
  simp only [released, total_append, Nat.add_assoc]

theorem Cleared.trans {s s1 s2 : State conc} {ls ks : List (Side × Leaf)} (h : Cleared s s1 ls) (k : Cleared s1 s2 ks) :
    Cleared s s2 (ls ++ ks) := by
  have hk : ∀ sd l, (sd, l) ∈ ks → l ∈ resting s sd ∧ (sd, l) ∉ ls := fun sd l hl => by
    have := k.theirs sd l hl
    rw [h.books] at this
    exact mem_without.1 this
  refine ⟨fun sd l hl => ?_, ?_, fun sd => ?_, ?_, fun b => ?_, k.mkt.trans h.mkt, k.toks.trans h.toks, k.seq.trans h.seq⟩
  · rcases List.mem_append.1 hl with hl | hl
    · exact h.theirs sd l hl
    · exact (hk sd l hl).1
  · refine List.nodup_append.2 ⟨h.nodup, k.nodup, fun x hx y hy e => ?_⟩
    subst e
    exact (hk x.1 x.2 hy).2 hx
  · rw [k.books, h.books]
    unfold without
    rw [List.filter_filter]
    congr 1
    funext x
    simp [Bool.and_comm]
  · rw [k.events, h.events, h.mkt, List.map_append, List.append_assoc]
  · rw [k.accounts, h.accounts, h.mkt]
    unfold ownedBy
    rw [List.filter_append]
    cases ooAt s.oos b with
    | none => rfl
    | some o => simp only [Option.map_some, released_append]

theorem Withdrawn.cleared {s s' : State conc} {a : Nat} {ls : List (Side × Leaf)} (h : Withdrawn s s' a ls) :
    Cleared s s' ls := by
  refine ⟨fun sd l hl => (h.theirs sd l hl).1, h.nodup, h.books, h.events, fun b => ?_, h.mkt, h.toks, h.seq⟩
  by_cases e : b = a
  · subst e
    have : ownedBy b ls = ls := List.filter_eq_self.2 fun x hx => by simpa using (h.theirs x.1 x.2 hx).2
    obtain ⟨o, h1, h2⟩ := h.account
    rw [h1, h2, this]
    rfl
  · have : ownedBy b ls = [] := List.filter_eq_nil_iff.2 fun x hx => by
      have := (h.theirs x.1 x.2 hx).2
      simp [this, Ne.symm e]
    rw [h.others b e, this]
    cases ooAt s.oos b with
    | none => rfl
    | some o => rw [Option.map_some, released_nil]

theorem withdraws_cleared {P : Params} {s s' : State conc} (h : Reach P s) (hq : s.seq ≤ W64) {env : Env} {accts : List AccMeta}
    {ix : Instruction} (hw : Withdraws ix) (hx : process conc P env s accts ix = .ok s') : ∃ ls, Cleared s s' ls := by
  have one : (∃ (oo signer : AccMeta) (o : OpenOrders) (ls : List (Side × Leaf)), oo ∈ accts ∧ signer ∈ accts ∧
      signer.signer = true ∧ ooAt s.oos oo.key = some o ∧ o.owner = signer.key ∧ Withdrawn s s' oo.key ls) →
      ∃ ls, Cleared s s' ls := fun ⟨_, _, _, ls, _, _, _, _, _, w⟩ => ⟨ls, w.cleared⟩
  cases ix <;> try exact hw.elim
  · exact one (cancel_withdrawn h hq (.inl ⟨_, _, hx⟩))
  · exact one (cancel_withdrawn h hq (.inr (.inl ⟨_, hx⟩)))
  · obtain ⟨_, _, _, _, _, _, _, _, ls, _, _, _, _, _, _, w, _⟩ := prune_effect h hq hx
    exact ⟨ls, w.cleared⟩
  · exact one (cancel_withdrawn h hq (.inr (.inr ⟨_, hx⟩)))

/-- Only withdrawals, by anybody. -/
def AllWithdraw (P : Params) (m : Market) (cs : List Call) : Prop :=
  ∀ c ∈ cs, Withdraws c.ix ∧ IxValid c.ix ∧ NotVault P m c.accts

theorem perform_cleared {P : Params} : ∀ {cs : List Call} {s t : State conc}, Reach P s → s.seq ≤ W64 →
    AllWithdraw P s.mkt cs → perform P s cs = .ok t → Reach P t ∧ ∃ ls, Cleared s t ls
  | [], s, t, hr, _, _, h => by cases Except.ok.inj h; exact ⟨hr, [], .refl s⟩
  | c :: cs, s, t, hr, hq, hc, h => by
    unfold perform at h
    split at h
    · rename_i s1 e
      obtain ⟨h1, h2, h3⟩ := hc c (by simp)
      obtain ⟨ls, k⟩ := withdraws_cleared hr hq h1 e
      have hr1 := hr.act h2 h3 e
      obtain ⟨g, ks, k'⟩ := perform_cleared hr1 (k.seq ▸ hq) (by rw [k.mkt]; exact fun c hc' => hc c (by simp [hc'])) h
      exact ⟨g, _, k.trans k'⟩
    · cases h

/-- The books determine what was withdrawn. -/
theorem Cleared.mem {s s' : State conc} {ls : List (Side × Leaf)} (h : Cleared s s' ls) {x : Side × Leaf} :
    x ∈ ls ↔ x.2 ∈ resting s x.1 ∧ x.2 ∉ resting s' x.1 := by
  rw [h.books, mem_without]
  constructor
  · exact fun hx => ⟨h.theirs _ _ hx, fun e => e.2 hx⟩
  · rintro ⟨h1, h2⟩
    exact Classical.byContradiction fun hn => h2 ⟨h1, hn⟩

theorem Cleared.perm {s t u : State conc} {ls ks : List (Side × Leaf)} (h : Cleared s t ls) (k : Cleared s u ks)
    (hb : ∀ sd, resting t sd = resting u sd) : ls.Perm ks :=
  (List.perm_ext_iff_of_nodup h.nodup k.nodup).2 fun x => by rw [h.mem, k.mem, hb]

/-- Two states of a market that differ at most in the order of the events queued since `s`. -/
structure AlikeSince (s t u : State conc) : Prop where
  books : ∀ sd, resting t sd = resting u sd
  mkt : t.mkt = u.mkt
  toks : t.toks = u.toks
  seq : t.seq = u.seq
  /-- All accounts, with all that is written in them. -/
  accounts : ∀ b, ooAt t.oos b = ooAt u.oos b
  queue : ∃ E F, pending t = pending s ++ E ∧ pending u = pending s ++ F ∧ E.Perm F

/-- C111. Two courses of withdrawals, of whatever kinds and by whomever, after which the same orders are left on the books, leave
the same market: the same accounts, market record and balances, and the same events queued, though perhaps in another order. -/
theorem withdrawals_agree {P : Params} {s t u : State conc} (h : Reach P s) (hq : s.seq ≤ W64) {cs ds : List Call}
    (hc : AllWithdraw P s.mkt cs) (hd : AllWithdraw P s.mkt ds) (h1 : perform P s cs = .ok t) (h2 : perform P s ds = .ok u)
    (hb : ∀ sd, resting t sd = resting u sd) : AlikeSince s t u := by
  obtain ⟨_, ls, k⟩ := perform_cleared h hq hc h1
  obtain ⟨_, ks, k'⟩ := perform_cleared h hq hd h2
  have hp := k.perm k' hb
  refine ⟨hb, k.mkt.trans k'.mkt.symm, k.toks.trans k'.toks.symm, k.seq.trans k'.seq.symm, fun b => ?_,
    _, _, k.events, k'.events, hp.map _⟩
  rw [k.accounts, k'.accounts]
  cases ooAt s.oos b with
  | none => rfl
  | some o =>
    simp only [Option.map_some]
    unfold ownedBy
    rw [released_perm (hp.filter _)]

/-! ### After the crank -/

/-- Two records of an account that a user cannot tell apart: the same money, owner and orders in the same slots. -/
structure SameRecord (o o' : OpenOrders) : Prop where
  coinFree : o.coinFree = o'.coinFree
  coinTotal : o.coinTotal = o'.coinTotal
  pcFree : o.pcFree = o'.pcFree
  pcTotal : o.pcTotal = o'.pcTotal
  rebates : o.rebates = o'.rebates
  owner : o.owner = o'.owner
  closed : o.closed = o'.closed
  orders : ∀ i, orderIn o i = orderIn o' i

theorem Delivered.append {o o1 o2 : OpenOrders} {es fs : List EventView} (h : Delivered o o1 es) (k : Delivered o1 o2 fs) :
    Delivered o o2 (es ++ fs) := by
  obtain ⟨a1, a2, a3, a4, a5, a6, a7, a8⟩ := h
  obtain ⟨b1, b2, b3, b4, b5, b6, b7, b8⟩ := k
  refine ⟨?_, ?_, ?_, ?_, ?_, b6.trans a6, b7.trans a7, fun i => ?_⟩
  · rw [total_append]; omega
  · rw [total_append]; omega
  · rw [total_append]; omega
  · rw [total_append, total_append]; omega
  · rw [total_append, total_append]; omega
  · rw [b8, a8, List.any_append]
    cases es.any (fun v => v.slot == i && endsOrder v) <;> cases fs.any (fun v => v.slot == i && endsOrder v) <;> rfl

theorem Delivered.same {o o1 o2 : OpenOrders} {es fs : List EventView} (h : Delivered o o1 es) (k : Delivered o o2 fs)
    (hp : es.Perm fs) (k1 : OoOk o1) (k2 : OoOk o2) : SameRecord o1 o2 := by
  obtain ⟨a1, a2, a3, a4, a5, a6, a7, a8⟩ := h
  obtain ⟨b1, b2, b3, b4, b5, b6, b7, b8⟩ := k
  have t : ∀ f : EventView → Nat, total f es = total f fs := fun f => sumBy_perm f hp
  have c1 := k1.coinTotal
  have c2 := k2.coinTotal
  have d1 := k1.pcTotal
  have d2 := k2.pcTotal
  unfold W64 at c1 c2 d1 d2
  rw [t] at a1 a2 a3
  rw [t, t] at a4 a5
  refine ⟨by omega, by omega, by omega, by omega, by omega, a6.trans b6.symm, a7.trans b7.symm, fun i => ?_⟩
  have e : es.any (fun v => v.slot == i && endsOrder v) = fs.any (fun v => v.slot == i && endsOrder v) := by
    rw [Bool.eq_iff_iff, List.any_eq_true, List.any_eq_true]
    simp only [hp.mem_iff]
  rw [a8, b8, e]

/-- Only cranks, of either kind. -/
def AllCrank (P : Params) (m : Market) (cs : List Call) : Prop :=
  ∀ c ∈ cs, (∃ n, IsCrank n c.ix) ∧ IxValid c.ix ∧ NotVault P m c.accts

/-- What a course of cranks does: it delivers the events from the front of the queue on, each to its account. -/
theorem perform_delivers {P : Params} : ∀ {cs : List Call} {s t : State conc}, Reach P s → s.seq ≤ W64 →
    AllCrank P s.mkt cs → perform P s cs = .ok t → Reach P t ∧ t.mkt = s.mkt ∧ t.toks = s.toks ∧ t.seq = s.seq ∧
      (∀ sd, resting t sd = resting s sd) ∧ ∃ k, k ≤ (pending s).length ∧ pending t = (pending s).drop k ∧
      (∀ a, ooAt s.oos a = none → ooAt t.oos a = none) ∧
      ∀ a o, ooAt s.oos a = some o → ∃ o', ooAt t.oos a = some o' ∧ Delivered o o' (eventsOf a ((pending s).take k))
  | [], s, t, hr, _, _, h => by
    cases Except.ok.inj h
    exact ⟨hr, rfl, rfl, rfl, fun _ => rfl, 0, Nat.zero_le _, rfl, fun _ h => h, fun a o ho => ⟨o, ho, .refl o⟩⟩
  | c :: cs, s, t, hr, hq, hc, h => by
    unfold perform at h
    split at h
    · rename_i s1 e
      obtain ⟨⟨n, hx⟩, h2, h3⟩ := hc c (by simp)
      have hx' : consumeEvents conc P c.env s c.accts n = .ok s1 ∨ consumeEventsPermissioned conc P c.env s c.accts n = .ok s1 := by
        rcases hx with hx | hx <;> rw [hx] at e
        · exact .inl e
        · exact .inr e
      obtain ⟨k, _, kl, kp, _, ka, kb, km, kt, k1, k2, ks⟩ := crank_delivers hr hq hx'
      have hr1 := hr.act h2 h3 e
      obtain ⟨g0, g1, g2, g3, g4, j, jl, jp, ja, jb⟩ := perform_delivers hr1 (ks ▸ hq)
        (by rw [km]; exact fun c hc' => hc c (by simp [hc'])) h
      rw [kp, List.length_drop] at jl
      rw [kp, List.drop_drop] at jp
      refine ⟨g0, g1.trans km, g2.trans kt, g3.trans ks, fun sd => ?_, k + j, by omega, jp, fun a h => ja a (ka a h), fun a o ho => ?_⟩
      · rw [g4]
        cases sd
        · show s1.bids.contents = s.bids.contents
          rw [k1]
        · show s1.asks.contents = s.asks.contents
          rw [k2]
      · obtain ⟨o1, w1, w2⟩ := kb a o ho
        obtain ⟨o2, v1, v2⟩ := jb a o1 w1
        refine ⟨o2, v1, ?_⟩
        have := w2.append v2
        rw [kp] at this
        unfold eventsOf at this ⊢
        rw [← List.filter_append, ← List.take_add] at this
        exact this
    · cases h

/-- C111, after the crank: once the queues are empty the two markets cannot be told apart. -/
theorem withdrawals_agree_delivered {P : Params} {s t u t' u' : State conc} (h : Reach P s) (hq : s.seq ≤ W64) {cs ds cs' ds' : List Call}
    (hc : AllWithdraw P s.mkt cs) (hd : AllWithdraw P s.mkt ds) (h1 : perform P s cs = .ok t) (h2 : perform P s ds = .ok u)
    (hb : ∀ sd, resting t sd = resting u sd) (kc : AllCrank P s.mkt cs') (kd : AllCrank P s.mkt ds')
    (k1 : perform P t cs' = .ok t') (k2 : perform P u ds' = .ok u') (e1 : pending t' = []) (e2 : pending u' = []) :
    (∀ sd, resting t' sd = resting u' sd) ∧ t'.mkt = u'.mkt ∧ t'.toks = u'.toks ∧ t'.seq = u'.seq ∧
    ∀ a, (ooAt t'.oos a = none ∧ ooAt u'.oos a = none) ∨
      ∃ o o', ooAt t'.oos a = some o ∧ ooAt u'.oos a = some o' ∧ SameRecord o o' := by
  obtain ⟨rt, _, ct⟩ := perform_cleared h hq hc h1
  obtain ⟨ru, _, cu⟩ := perform_cleared h hq hd h2
  have al := withdrawals_agree h hq hc hd h1 h2 hb
  have hqt : t.seq ≤ W64 := ct.seq ▸ hq
  have hqu : u.seq ≤ W64 := cu.seq ▸ hq
  obtain ⟨rt', a1, a2, a3, a4, j, jl, jp, ja, jb⟩ := perform_delivers rt hqt (by rw [ct.mkt]; exact kc) k1
  obtain ⟨ru', b1, b2, b3, b4, i, il, ip, ia, ib⟩ := perform_delivers ru hqu (by rw [cu.mkt]; exact kd) k2
  have full : ∀ {L : List EventView} {n : Nat}, [] = L.drop n → L.take n = L := fun {L n} e => by
    have := List.take_append_drop n L
    rw [← e, List.append_nil] at this
    exact this
  rw [e1] at jp
  rw [e2] at ip
  rw [full jp] at jb
  rw [full ip] at ib
  refine ⟨fun sd => by rw [a4, b4, hb], by rw [a1, b1, al.mkt], by rw [a2, b2, al.toks], by rw [a3, b3, al.seq], fun a => ?_⟩
  have ho := al.accounts a
  cases e : ooAt t.oos a with
  | none => exact .inl ⟨ja a e, ia a (ho ▸ e)⟩
  | some o =>
    obtain ⟨o1, x1, x2⟩ := jb a o e
    obtain ⟨o2, y1, y2⟩ := ib a o (ho ▸ e)
    obtain ⟨E, F, q1, q2, q3⟩ := al.queue
    have hp : (eventsOf a (pending t)).Perm (eventsOf a (pending u)) := by
      unfold eventsOf
      rw [q1, q2]
      exact (q3.append_left _).filter _
    obtain ⟨_, _, _, hi1⟩ := rt'.view (a3 ▸ hqt)
    obtain ⟨_, _, _, hi2⟩ := ru'.view (b3 ▸ hqu)
    exact .inr ⟨o1, o2, x1, y1, x2.same y2 hp (hi1.shape.accts a o1 x1) (hi2.shape.accts a o2 y1)⟩

/-! ### Any order will do -/

/-- The cancel of a resting order, signed by the owner of the account it belongs to. -/
def ownersCancel (s : State conc) (env : Env) (x : Side × Leaf) : Call :=
  ⟨env, cancelAccts s x.2.owner (((ooAt s.oos x.2.owner).map (·.owner)).getD 0), .cancelOrderV2 x.1 x.2.key⟩

theorem ownersCancel_congr {s t : State conc} {env : Env} {x : Side × Leaf} (hm : t.mkt = s.mkt)
    (ho : (ooAt t.oos x.2.owner).map (·.owner) = (ooAt s.oos x.2.owner).map (·.owner)) :
    ownersCancel t env x = ownersCancel s env x := by
  unfold ownersCancel cancelAccts
  rw [hm, ho]

/-- Withdrawing the orders of one account leaves what another holds unchanged. -/
theorem Withdrawn.held_other {s s' : State conc} {a b : Nat} {ls : List (Side × Leaf)} (hw : Withdrawn s s' a ls) (hb : b ≠ a)
    (o : OpenOrders) : baseHeld s' b o = baseHeld s b o ∧ quoteHeld s' b o = quoteHeld s b o := by
  have hbk : ∀ sd, (resting s' sd).filter (fun l => l.owner == b) = (resting s sd).filter fun l => l.owner == b := fun sd => by
    rw [hw.books]
    unfold without
    rw [List.filter_filter]
    refine List.filter_congr fun l hl => ?_
    by_cases e : l.owner = b
    · have : (sd, l) ∉ ls := fun hm => hb (e.symm.trans (hw.theirs sd l hm).2)
      simp [e, this]
    · simp [e]
  have hev : (pending s').filter (fun v => v.owner == b) = (pending s).filter fun v => v.owner == b := by
    rw [hw.events, List.filter_append]
    have : (ls.map (outEvent s.mkt)).filter (fun v => v.owner == b) = [] := by
      refine List.filter_eq_nil_iff.2 fun v hv => ?_
      obtain ⟨x, hx, rfl⟩ := List.mem_map.1 hv
      have := (hw.theirs x.1 x.2 hx).2
      obtain ⟨d, l⟩ := x
      have e : (outEvent s.mkt (d, l)).owner = l.owner := by cases d <;> rfl
      simp only [] at this
      simp [e, this, Ne.symm hb]
    rw [this, List.append_nil]
  have ka : s'.asks.contents.filter (fun l => l.owner == b) = s.asks.contents.filter fun l => l.owner == b := hbk .ask
  have kb : s'.bids.contents.filter (fun l => l.owner == b) = s.bids.contents.filter fun l => l.owner == b := hbk .bid
  unfold baseHeld quoteHeld
  rw [ka, kb, hev, hw.mkt]
  exact ⟨rfl, rfl⟩

/-- C111: resting orders can be cancelled by their owners in any order one likes. -/
theorem any_order_of_cancels {P : Params} (env : Env) : ∀ {ls : List (Side × Leaf)} {s : State conc}, Reach P s → s.seq ≤ W64 →
    ls.Nodup → (∀ x ∈ ls, x.2 ∈ resting s x.1) → (pending s).length + ls.length ≤ s.q.buf.length →
    (∀ x ∈ ls, ∀ o, ooAt s.oos x.2.owner = some o → HoldsFit s x.2.owner o ∧
      P.vaultSigner s.mkt.ownAddress s.mkt.vaultSignerNonce ≠ some o.owner) →
    ∃ t, perform P s (ls.map (ownersCancel s env)) = .ok t ∧ AllWithdraw P s.mkt (ls.map (ownersCancel s env)) ∧
      Cleared s t ls
  | [], s, _, _, _, _, _, _ => ⟨s, rfl, by simp [AllWithdraw], .refl s⟩
  | (sd, l) :: ls, s, hr, hq, hn, hm, hroom, hf => by
    have hl : l ∈ resting s sd := hm (sd, l) (by simp)
    obtain ⟨o, _, ho, _⟩ := (slots_are_live_orders hr hq).2.2.1 sd l hl
    simp only [List.length_cons] at hroom
    obtain ⟨hfit, hv⟩ := hf (sd, l) (by simp) o ho
    obtain ⟨s1, h1, hw⟩ := cancel_works hr hq env hl ho (by omega) hfit
    have hkey : l.key < 2 ^ 128 := by
      have hg := hr.good hq
      cases sd with
      | bid => exact hg.rs.bids.1.key_lt l hl
      | ask => exact hg.rs.asks.1.key_lt l hl
    have hval : IxValid (.cancelOrderV2 sd l.key) := by show l.key < 256 ^ 16; simpa using hkey
    have he : ownersCancel s env (sd, l) = ⟨env, cancelAccts s l.owner o.owner, .cancelOrderV2 sd l.key⟩ := by
      unfold ownersCancel
      simp only [ho, Option.map_some, Option.getD_some]
    have hnv : NotVault P s.mkt (cancelAccts s l.owner o.owner) := fun m hm hs => by
      simp only [cancelAccts, List.mem_cons, List.not_mem_nil, or_false] at hm
      rcases hm with rfl | rfl | rfl | rfl | rfl | rfl <;> first | exact hv | simp at hs
    have hr1 : Reach P s1 := hr.act (ix := .cancelOrderV2 sd l.key) hval hnv h1
    have hcap := queue_capacity hr hq (raw_of (ix := .cancelOrderV2 sd l.key) hval h1)
    have hd : (sd, l) ∉ ls ∧ ls.Nodup := List.nodup_cons.1 hn
    have hown : ∀ b, (ooAt s1.oos b).map (·.owner) = (ooAt s.oos b).map (·.owner) := fun b => by
      rw [hw.cleared.accounts]
      cases ooAt s.oos b <;> rfl
    have hcon : ls.map (ownersCancel s1 env) = ls.map (ownersCancel s env) :=
      List.map_congr_left fun x _ => ownersCancel_congr hw.mkt (hown _)
    obtain ⟨t, k1, k2, k3⟩ := any_order_of_cancels env (ls := ls) hr1 (hw.seq ▸ hq) hd.2
      (fun x hx => by
        rw [hw.books, mem_without]
        refine ⟨hm x (by simp [hx]), fun e => ?_⟩
        simp only [List.mem_singleton] at e
        exact hd.1 (e ▸ hx))
      (by rw [hcap, hw.events]; simp only [List.length_append, List.map_cons, List.map_nil, List.length_singleton]; omega)
      (fun x hx p hp => by
        rw [hw.mkt]
        by_cases e : x.2.owner = l.owner
        · obtain ⟨o1, w1, w2⟩ := hw.account
          rw [ho] at w1
          cases w1
          rw [e, w2] at hp
          cases hp
          have := hw.held hr hq o
          refine ⟨?_, hv⟩
          unfold HoldsFit
          rw [e, this.1, this.2]
          exact hfit
        · rw [hw.others _ e] at hp
          have hx' := hf x (by simp [hx]) p hp
          have := hw.held_other e p
          refine ⟨?_, hx'.2⟩
          unfold HoldsFit
          rw [this.1, this.2]
          exact hx'.1)
    rw [hcon] at k1 k2
    rw [hw.mkt] at k2
    refine ⟨t, ?_, fun c hc => ?_, hw.cleared.trans k3⟩
    · rw [List.map_cons, he]
      unfold perform
      rw [show process conc P env s (cancelAccts s l.owner o.owner) (.cancelOrderV2 sd l.key) = .ok s1 from h1]
      exact k1
    · rw [List.map_cons, he] at hc
      rcases List.mem_cons.1 hc with rfl | hc
      · exact ⟨trivial, hval, hnv⟩
      · exact k2 c hc

/-- C111: cancelled in two different orders, with the same outcome. -/
theorem cancels_commute {P : Params} (env : Env) {ls ks : List (Side × Leaf)} {s : State conc} (hr : Reach P s) (hq : s.seq ≤ W64)
    (hp : ls.Perm ks) (hn : ls.Nodup) (hm : ∀ x ∈ ls, x.2 ∈ resting s x.1) (hroom : (pending s).length + ls.length ≤ s.q.buf.length)
    (hf : ∀ x ∈ ls, ∀ o, ooAt s.oos x.2.owner = some o → HoldsFit s x.2.owner o ∧
      P.vaultSigner s.mkt.ownAddress s.mkt.vaultSignerNonce ≠ some o.owner) :
    ∃ t u, perform P s (ls.map (ownersCancel s env)) = .ok t ∧ perform P s (ks.map (ownersCancel s env)) = .ok u ∧
      (∀ sd, resting t sd = (resting s sd).filter fun l => !ls.contains (sd, l)) ∧ AlikeSince s t u := by
  obtain ⟨t, h1, h2, h3⟩ := any_order_of_cancels env hr hq hn hm hroom hf
  obtain ⟨u, k1, k2, k3⟩ := any_order_of_cancels env hr hq (hp.nodup_iff.1 hn) (fun x hx => hm x (hp.mem_iff.2 hx))
    (hp.length_eq ▸ hroom) (fun x hx => hf x (hp.mem_iff.2 hx))
  refine ⟨t, u, h1, k1, h3.books, withdrawals_agree hr hq h2 k2 h1 k1 fun sd => ?_⟩
  rw [h3.books, k3.books]
  refine List.filter_congr fun l _ => ?_
  congr 1
  rw [Bool.eq_iff_iff]
  simp only [List.contains_iff_mem, hp.mem_iff]

end Serum.Props

namespace Serum.Demo

open Serum.Props

/-- 11's ask and 12's bid are cancelled: one after the other, and the other way round. -/
def both : List (Side × Leaf) := (resting mind1 .bid).map (Side.bid, ·) ++ (resting mind1 .ask).map (Side.ask, ·)

theorem commute_demo : both.length = 2 ∧ ∃ t u, perform P mind1 (both.map (ownersCancel mind1 env)) = .ok t ∧
    perform P mind1 (both.reverse.map (ownersCancel mind1 env)) = .ok u ∧ AlikeSince mind1 t u := by
  refine ⟨by decide +kernel, ?_⟩
  have r : Reach P mind1 := r1.act (accts := a2) (ix := i3) (valid (by decide)) (notVault _ (by decide)) (run_eq (by decide +kernel))
  have k : ∀ x ∈ both, ((ooAt mind1.oos x.2.owner).all fun o => decide (HoldsFit mind1 x.2.owner o ∧
      P.vaultSigner mind1.mkt.ownAddress mind1.mkt.vaultSignerNonce ≠ some o.owner)) = true := by decide +kernel
  obtain ⟨t, u, h1, h2, _, h3⟩ := cancels_commute (ls := both) (ks := both.reverse) env r (by decide +kernel)
    (List.reverse_perm _).symm (by decide +kernel) (by decide +kernel) (by decide +kernel) fun x hx o ho => by
      have := k x hx
      rw [ho] at this
      exact of_decide_eq_true this
  exact ⟨t, u, h1, h2, h3⟩

/-- The same two cancels: the bid by its id and then the ask; or first the ask and then the bid by the client id 12 gave it.
Afterwards a crank delivers all events. -/
def askKey : Nat := (((resting mind1 .ask).head?).map (·.key)).getD 0
def oneWay : List Call := [⟨env, cancelAccts12, .cancelOrderV2 .bid (genOrderId s1.seq 900 .bid)⟩,
  ⟨env, cancelAccts 41 11, .cancelOrderV2 .ask askKey⟩]
def otherWay : List Call := [⟨env, cancelAccts 41 11, .cancelOrderV2 .ask askKey⟩,
  ⟨env, cancelAccts12, .cancelOrderByClientIdV2 9⟩]
def delivery : List Call := [⟨env, crankList [41, 42], crank 6⟩]
def after (s : State conc) (cs : List Call) : State conc := (perform P s cs).toOption.getD s

theorem after_eq {s : State conc} {cs : List Call} (h : (perform P s cs).toOption.isSome = true) : perform P s cs = .ok (after s cs) := by
  unfold after
  cases e : perform P s cs with
  | ok t => rfl
  | error e' => rw [e] at h; cases h

theorem agree_demo : (pending (after mind1 oneWay)).length = 3 ∧
    ∀ a, (ooAt (after (after mind1 oneWay) delivery).oos a = none ∧ ooAt (after (after mind1 otherWay) delivery).oos a = none) ∨
      ∃ o o', ooAt (after (after mind1 oneWay) delivery).oos a = some o ∧
        ooAt (after (after mind1 otherWay) delivery).oos a = some o' ∧ SameRecord o o' := by
  refine ⟨by decide +kernel, ?_⟩
  have r : Reach P mind1 := r1.act (accts := a2) (ix := i3) (valid (by decide)) (notVault _ (by decide)) (run_eq (by decide +kernel))
  have w : ∀ c ∈ oneWay ++ otherWay, Withdraws c.ix ∧ IxValid c.ix ∧ NotVault P mind1.mkt c.accts := fun c hc => by
    simp only [oneWay, otherWay, List.cons_append, List.nil_append, List.mem_cons, List.not_mem_nil, or_false] at hc
    rcases hc with rfl | rfl | rfl | rfl 
    all_goals refine ⟨trivial, ?_, notVault _ (by decide)⟩
    · show _ < 256 ^ 16; decide +kernel
    · show _ < 256 ^ 16; decide +kernel
    · show _ < 256 ^ 16; decide +kernel
    · show _ < W64; decide
  have d : AllCrank P mind1.mkt delivery := fun c hc => by
    simp only [delivery, List.mem_cons, List.not_mem_nil, or_false] at hc
    subst hc
    exact ⟨⟨_, .inl rfl⟩, by show 6 < 256 ^ 2; decide, notVault _ (by decide)⟩
  exact (withdrawals_agree_delivered r (by decide +kernel) (fun c hc => w c (by simp [hc])) (fun c hc => w c (by simp [hc]))
    (after_eq (by decide +kernel)) (after_eq (by decide +kernel)) (fun sd => by cases sd <;> decide +kernel) d d (after_eq (by decide +kernel))
    (after_eq (by decide +kernel)) (by decide +kernel) (by decide +kernel)).2.2.2.2

end Serum.Demo
