import Verif.Accounts

/-
The invariant of a market: shape of the data, slots, accounting identities and vault backing, and the
instructions that do not run the matching engine.
-/

namespace Serum

/-- All accounts. -/
def every : Nat → Bool := fun _ => true
/-- One account. -/
def only (a : Nat) : Nat → Bool := fun b => b == a

/-- Shape of books, slots and ids. -/
structure Shape (m : Market) (seq : Nat) (oos : List (Nat × OpenOrders)) (bids asks : List Leaf)
    (evs : List EventView) : Prop where
  mkt : MktOk m
  book : BookOk m bids asks
  slots : SlotOk (slotsOf oos) none (tagged bids asks) evs
  keys : (oos.map (·.1)).Nodup
  zero : 0 ∉ oos.map (·.1)
  accts : ∀ a o, ooAt oos a = some o → OoOk o
  ids : ∀ a i sd id, slotsOf oos a i = some (sd, id) →
    ∃ n p, n < seq ∧ n < W64 ∧ 0 < p ∧ p < W64 ∧ id = genOrderId n p sd
  uniq : ∀ a i sd id b j sd', slotsOf oos a i = some (sd, id) → slotsOf oos b j = some (sd', id) →
    sd = sd' → a = b ∧ i = j
  noCross : ∀ b ∈ bids, ∀ k ∈ asks, b.price < k.price

/-- Accounting identities. Deposits equal claims exactly; the totals stored in an account follow their
contents modulo 2^64. -/
structure Money (m : Market) (oos : List (Nat × OpenOrders)) (bids asks : List Leaf)
    (evs : List EventView) : Prop where
  coin : m.coinDeposits = accSum (·.coinFree) oos + bookLock .ask m every asks +
    evSum (EventView.free .ask) every evs
  pc : m.pcDeposits = accSum (·.pcFree) oos + bookLock .bid m every bids +
    evSum (EventView.free .bid) every evs
  coinTot : ∀ a o, ooAt oos a = some o → o.coinTotal =
    (o.coinFree + bookLock .ask m (only a) asks + evSum (EventView.lock .ask) (only a) evs) % W64
  pcTot : ∀ a o, ooAt oos a = some o → o.pcTotal =
    (o.pcFree + bookLock .bid m (only a) bids + evSum (EventView.lock .bid) (only a) evs) % W64
  rebates : accSum (·.rebates) oos + evSum EventView.rebate every evs ≤ m.referrerRebates

/-- What the market owes to the holder of a token account. -/
def owed (m : Market) (a : Nat) : Nat :=
  (if a = m.coinVault then m.coinDeposits else 0) +
  (if a = m.pcVault then m.pcDeposits + m.pcFees + m.referrerRebates else 0)

/-- A token account controlled by the vault signer alone. -/
def Held (vs : Nat) (l : Ledger) (a : Nat) : Prop :=
  ∃ t, l a = some t ∧ t.owner = vs ∧ t.delegate = none ∧ t.closeAuth = none

/-- The token ledger backs the market. -/
structure Funds (vs : Nat) (m : Market) (l : Ledger) : Prop where
  amounts : ∀ a t, l a = some t → t.amount < W64
  coin : Held vs l m.coinVault
  pc : Held vs l m.pcVault
  solvent : ∀ a, owed m a ≤ bal l a

/-- The invariant. -/
structure Inv (vs : Nat) (m : Market) (seq : Nat) (oos : List (Nat × OpenOrders)) (l : Ledger)
    (bids asks : List Leaf) (evs : List EventView) : Prop where
  shape : Shape m seq oos bids asks evs
  money : Money m oos bids asks evs
  funds : Funds vs m l

/-! ### Slots -/

theorem SlotOk.congr {σ σ' : SlotMap} {x L evs} (h : SlotOk σ x L evs) (e : ∀ a i, σ' a i = σ a i) :
    SlotOk σ' x L evs := by
  intro a i; rw [e]; exact h a i

/-- An order takes a free slot. -/
theorem SlotOk.begin {σ σ' : SlotMap} {L evs} {a i : Nat} {c : Side × Nat} (h : SlotOk σ none L evs)
    (hn : σ a i = none) (e : ∀ b j, σ' b j = if b = a ∧ j = i then some c else σ b j) :
    SlotOk σ' (some (a, i)) L evs := by
  intro b j
  rw [e]
  by_cases hb : b = a ∧ j = i
  · obtain ⟨rfl, rfl⟩ := hb
    have h1 := h b j
    rw [hn] at h1
    rw [if_pos ⟨rfl, rfl⟩, beq_self_eq_true]
    generalize L.filter (leafIsAt b j) = F at *
    generalize evs.filter (EventView.isAt b j) = E at *
    cases h1
    obtain ⟨sd, id⟩ := c
    exact .flight (by simp)
  · rw [if_neg hb, flight_ne (fun h => hb ⟨h.1.symm, h.2.symm⟩)]
    exact h b j

/-- The event at the head of the queue and its slot. -/
theorem SlotOk.head {σ : SlotMap} {L v evs} (h : SlotOk σ none L (v :: evs)) :
    ∃ sd id, σ v.owner v.slot = some (sd, id) ∧ v.tells sd id := by
  have h1 := h v.owner v.slot
  have hv : v.isAt v.owner v.slot = true := isAt_iff.2 ⟨rfl, rfl⟩
  rw [List.filter_cons_of_pos hv] at h1
  generalize hE : v :: evs.filter (EventView.isAt v.owner v.slot) = E at h1
  generalize L.filter (leafIsAt v.owner v.slot) = F at h1
  generalize σ v.owner v.slot = S at h1
  generalize hx : ((none : Option (Nat × Nat)) == some (v.owner, v.slot)) = x at h1
  cases h1 with
  | free => cases hE
  | live h' =>
    subst hE
    exact ⟨_, _, rfl, (h' v (by simp)).1⟩
  | @done sd id es w h' ht hw =>
    cases es with
    | nil =>
      simp only [List.nil_append, List.cons.injEq] at hE
      obtain ⟨rfl, _⟩ := hE
      exact ⟨_, _, rfl, ht⟩
    | cons e es =>
      simp only [List.cons_append, List.cons.injEq] at hE
      obtain ⟨rfl, _⟩ := hE
      exact ⟨_, _, rfl, (h' v (by simp)).1⟩
  | flight => cases hx

/-- Consuming an event that does not end its order. -/
theorem SlotOk.pop {σ : SlotMap} {L v evs} (h : SlotOk σ none L (v :: evs)) (hf : v.final = false) :
    SlotOk σ none L evs := by
  intro a i
  have h1 := h a i
  by_cases hv : v.isAt a i = true
  · rw [List.filter_cons_of_pos hv] at h1
    generalize hE : v :: evs.filter (EventView.isAt a i) = E at h1
    generalize L.filter (leafIsAt a i) = F at *
    generalize σ a i = S at *
    generalize hx : ((none : Option (Nat × Nat)) == some (a, i)) = x at *
    cases h1 with
    | free => cases hE
    | live h' =>
      subst hE
      exact .live (fun w hw => h' w (by simp [hw]))
    | @done sd id es w h' ht hw =>
      cases es with
      | nil =>
        simp only [List.nil_append, List.cons.injEq] at hE
        obtain ⟨rfl, _⟩ := hE
        rw [hf] at hw; cases hw
      | cons e es =>
        simp only [List.cons_append, List.cons.injEq] at hE
        obtain ⟨rfl, h3⟩ := hE
        rw [h3]
        exact .done (fun w hw => h' w (by simp [hw])) ht hw
    | flight => cases hx
  · rw [List.filter_cons_of_neg hv] at h1
    exact h1

/-- Consuming the event that ends its order. -/
theorem SlotOk.popFinal {σ σ' : SlotMap} {L v evs} (h : SlotOk σ none L (v :: evs)) (hf : v.final = true)
    (e : ∀ b j, σ' b j = if b = v.owner ∧ j = v.slot then none else σ b j) :
    SlotOk σ' none L evs := by
  intro a i
  have h1 := h a i
  rw [e]
  by_cases hv : v.isAt a i = true
  · have hai := isAt_iff.1 hv
    rw [if_pos ⟨hai.1.symm, hai.2.symm⟩]
    rw [List.filter_cons_of_pos hv] at h1
    generalize hE : v :: evs.filter (EventView.isAt a i) = E at h1
    generalize L.filter (leafIsAt a i) = F at *
    generalize σ a i = S at *
    generalize hx : ((none : Option (Nat × Nat)) == some (a, i)) = x at *
    cases h1 with
    | free => cases hE
    | live h' =>
      subst hE
      rw [(h' v (by simp)).2] at hf; cases hf
    | @done sd id es w h' ht hw =>
      cases es with
      | nil =>
        simp only [List.nil_append, List.cons.injEq] at hE
        rw [hE.2]
        exact .free
      | cons e es =>
        simp only [List.cons_append, List.cons.injEq] at hE
        obtain ⟨rfl, h3⟩ := hE
        rw [(h' v (by simp)).2] at hf; cases hf
    | flight => cases hx
  · rw [List.filter_cons_of_neg hv] at h1
    have hai : ¬ (a = v.owner ∧ i = v.slot) := fun h => hv (isAt_iff.2 ⟨h.1.symm, h.2.symm⟩)
    rw [if_neg hai]
    exact h1

/-- A free slot has no resting order and no event. -/
theorem SlotOk.free {σ : SlotMap} {L evs} (h : SlotOk σ none L evs) {a i : Nat} (hn : σ a i = none) :
    (∀ x ∈ L, ¬ (x.2.owner = a ∧ x.2.ownerSlot = i)) ∧ ∀ v ∈ evs, ¬ (v.owner = a ∧ v.slot = i) := by
  have h1 := h a i
  rw [hn] at h1
  generalize hF : L.filter (leafIsAt a i) = F at h1
  generalize hE : evs.filter (EventView.isAt a i) = E at h1
  cases h1
  rw [List.filter_eq_nil_iff] at hF hE
  exact ⟨fun x hx hc => hF x hx (leafIsAt_iff.2 hc), fun v hv hc => hE v hv (isAt_iff.2 hc)⟩

/-! ### Opening an account -/

theorem Inv.open {vs m seq oos l bids asks evs} (h : Inv vs m seq oos l bids asks evs) {a w : Nat}
    (hn : ooAt oos a = none) (h0 : a ≠ 0) :
    Inv vs m seq (setOo oos a (OpenOrders.init w)) l bids asks evs := by
  obtain ⟨hs, hm, hf⟩ := h
  have hσ : ∀ b i, slotsOf (setOo oos a (OpenOrders.init w)) b i = slotsOf oos b i := by
    intro b i
    rw [slotsOf_setOo]
    split
    · rename_i hb
      subst hb
      rw [init_slot]; unfold slotsOf; rw [hn]
    · rfl
  have hfree := fun i => hs.slots.free (a := a) (i := i) (by unfold slotsOf; rw [hn])
  have hb1 : ∀ x ∈ tagged bids asks, x.2.owner ≠ a := fun x hx e => (hfree _).1 x hx ⟨e, rfl⟩
  have he1 : ∀ v ∈ evs, v.owner ≠ a := fun v hv e => (hfree _).2 v hv ⟨e, rfl⟩
  have hz : ∀ w, evSum w (only a) evs = 0 := by
    intro w
    apply sumBy_zero
    intro v hv
    simp [only, he1 v hv]
  have hzb : bookLock .bid m (only a) bids = 0 := by
    apply sumBy_zero
    intro x hx
    simp [leafLock, only, hb1 (.bid, x) (by simp [tagged, hx])]
  have hza : bookLock .ask m (only a) asks = 0 := by
    apply sumBy_zero
    intro x hx
    simp [leafLock, only, hb1 (.ask, x) (by simp [tagged, hx])]
  refine ⟨⟨hs.mkt, hs.book, hs.slots.congr hσ, setOo_nodup hs.keys _ _, ?_, ?_, ?_, ?_, hs.noCross⟩,
    ⟨?_, ?_, ?_, ?_, ?_⟩, hf⟩
  · rw [setOo_keys]
    split
    · exact hs.zero
    · simp only [List.mem_append, List.mem_singleton, not_or]
      exact ⟨hs.zero, fun e => h0 e.symm⟩
  · intro b o ho
    rw [ooAt_setOo] at ho
    split at ho
    · cases ho; exact init_ok _
    · exact hs.accts b o ho
  · intro b i sd id hb
    rw [hσ] at hb
    exact hs.ids b i sd id hb
  · intro b i sd id c j sd' h1 h2
    rw [hσ] at h1 h2
    exact hs.uniq b i sd id c j sd' h1 h2
  · rw [accSum_setOo_new hn, hm.coin]; rfl
  · rw [accSum_setOo_new hn, hm.pc]; rfl
  · intro b o ho
    rw [ooAt_setOo] at ho
    split at ho
    · rename_i hb
      subst hb
      cases ho
      rw [hz, hza]; rfl
    · exact hm.coinTot b o ho
  · intro b o ho
    rw [ooAt_setOo] at ho
    split at ho
    · rename_i hb
      subst hb
      cases ho
      rw [hz, hzb]; rfl
    · exact hm.pcTot b o ho
  · rw [accSum_setOo_new hn]; exact hm.rebates

/-- Loading an account, initialising it if need be, preserves the invariant. -/
theorem Inv.load {vs : Nat} {c : Core} {env : Env} {bids asks evs} {a : Nat} {owner : Option Nat}
    {rent : Bool} {auth : Option Nat} {oo : OpenOrders}
    (h : Inv vs c.mkt c.seq c.oos c.toks bids asks evs)
    (hl : loadOrders c env a owner rent auth = .ok oo) :
    Inv vs c.mkt c.seq (setOo c.oos a oo) c.toks bids asks evs ∧ a ≠ 0 := by
  rcases loadOrders_inv hl with ⟨h1, h2, _⟩ | ⟨h1, h0, _, _, _, w, _, rfl⟩
  · rw [setOo_same h1]
    refine ⟨h, ?_⟩
    rintro rfl
    exact h.shape.zero (by
      have := ooAt_mem h1
      exact List.mem_map_of_mem (f := (·.1)) this)
  · exact ⟨h.open h1 h0, h0⟩

/-! ### Changing one account without touching its slots -/

/-- The shape survives a change of an account that keeps its slots. -/
theorem Shape.update {m seq oos bids asks evs} (h : Shape m seq oos bids asks evs) {a : Nat}
    {o o' : OpenOrders} (ho : ooAt oos a = some o) (hok : OoOk o') (hsl : ∀ i, o'.slot i = o.slot i) :
    Shape m seq (setOo oos a o') bids asks evs := by
  have hσ : ∀ b i, slotsOf (setOo oos a o') b i = slotsOf oos b i := by
    intro b i
    rw [slotsOf_setOo]
    split
    · rename_i hb
      subst hb
      rw [hsl]; unfold slotsOf; rw [ho]
    · rfl
  have hin : a ∈ oos.map (·.1) := List.mem_map_of_mem (f := (·.1)) (ooAt_mem ho)
  refine ⟨h.mkt, h.book, h.slots.congr hσ, setOo_nodup h.keys _ _, ?_, ?_, ?_, ?_, h.noCross⟩
  · rw [setOo_keys, if_pos hin]; exact h.zero
  · intro b p hp
    rw [ooAt_setOo] at hp
    split at hp
    · cases hp; exact hok
    · exact h.accts b p hp
  · intro b i sd id hb
    rw [hσ] at hb
    exact h.ids b i sd id hb
  · intro b i sd id c j sd' h1 h2
    rw [hσ] at h1 h2
    exact h.uniq b i sd id c j sd' h1 h2

theorem Shape.market {m m' seq oos bids asks evs} (h : Shape m seq oos bids asks evs) (hm : MktOk m')
    (h1 : m'.coinLot = m.coinLot) (h2 : m'.pcLot = m.pcLot) : Shape m' seq oos bids asks evs := by
  obtain ⟨_, hb, h3, h4, h5, h6, h7, h8, h9⟩ := h
  refine ⟨hm, ?_, h3, h4, h5, h6, h7, h8, h9⟩
  obtain ⟨a1, a2, a3, a4, a5, a6, a7, a8⟩ := hb
  exact ⟨a1, a2, a3, a4, a5, a6, by rw [h2]; exact a7, by rw [h1]; exact a8⟩

theorem lockedValue_congr {m m' : Market} (h1 : m'.coinLot = m.coinLot) (h2 : m'.pcLot = m.pcLot)
    (sd : Side) (p n : Nat) : lockedValue sd m' p n = lockedValue sd m p n := by
  unfold lockedValue; rw [h1, h2]

theorem bookLock_congr {m m' : Market} (h1 : m'.coinLot = m.coinLot) (h2 : m'.pcLot = m.pcLot)
    (sd : Side) (P : Nat → Bool) (L : List Leaf) : bookLock sd m' P L = bookLock sd m P L := by
  unfold bookLock leafLock
  simp only [lockedValue_congr h1 h2]

/-! ### Consuming an event -/

/-- What applying an event does to an account. -/
structure Applied (o o' : OpenOrders) (v : EventView) : Prop where
  coinFree : o'.coinFree = (o.coinFree + v.free .ask) % W64
  pcFree : o'.pcFree = (o.pcFree + v.free .bid) % W64
  coinTotal : (o'.coinTotal + v.lock .ask) % W64 = (o.coinTotal + v.free .ask) % W64
  pcTotal : (o'.pcTotal + v.lock .bid) % W64 = (o.pcTotal + v.free .bid) % W64
  rebates : o'.rebates = (o.rebates + v.rebate) % W64
  owner : o'.owner = o.owner
  closed : o'.closed = o.closed
  ok : OoOk o'
  keep : v.final = false → ∀ i, o'.slot i = o.slot i
  freed : v.final = true → ∀ i, o'.slot i = if i = v.slot then none else o.slot i

theorem wsub_mod (a b : Nat) : (wsub a b + b) % W64 = a % W64 := by
  unfold wsub W64
  omega

theorem applyEvent_inv {o o' : OpenOrders} {v : EventView} (ho : OoOk o) (hc : o.closed = false)
    (h : applyEvent o v = .ok o') : Applied o o' v := by
  obtain ⟨h1, h2, h3, h4, h5, h6, h7, h8⟩ := ho
  have nc : ∀ P : Prop, o.closed = true → P := by intro P hx; rw [hc] at hx; cases hx
  cases v with
  | fill side mk paid recv fee id ow sl ft cid =>
    cases mk with
    | true =>
      cases side with
      | bid =>
        simp only [applyEvent, if_true, Except.ok.injEq] at h
        subst h
        refine ⟨rfl, rfl, ?_, ?_, ?_, rfl, rfl, ⟨h1, h2, Nat.mod_lt _ (by decide), Nat.mod_lt _ (by decide),
          Nat.mod_lt _ (by decide), wsub_lt _ _, h7, fun h => nc _ h⟩, fun _ _ => rfl, fun h => by cases h⟩
        · simp [EventView.free, EventView.lock, wadd]
        · simp only [EventView.free, EventView.lock, if_true]
          have := wsub_mod o.pcTotal paid
          unfold W64 at *; omega
        · simp only [EventView.rebate]; exact (Nat.mod_eq_of_lt h7).symm
      | ask =>
        simp only [applyEvent, if_true, Except.ok.injEq] at h
        subst h
        refine ⟨?_, rfl, ?_, ?_, ?_, rfl, rfl, ⟨h1, h2, h3, wsub_lt _ _, Nat.mod_lt _ (by decide),
          Nat.mod_lt _ (by decide), h7, fun h => nc _ h⟩, fun _ _ => rfl, fun h => by cases h⟩
        · simp [EventView.free]; exact (Nat.mod_eq_of_lt h3).symm
        · simp only [EventView.free, EventView.lock, if_true]
          have := wsub_mod o.coinTotal paid
          unfold W64 at *; simp; omega
        · simp [EventView.free, EventView.lock, wadd]
        · simp only [EventView.rebate]; exact (Nat.mod_eq_of_lt h7).symm
    | false =>
      simp only [applyEvent, Bool.false_eq_true, if_false, Except.ok.injEq] at h
      subst h
      exact ⟨(Nat.mod_eq_of_lt h3).symm, (Nat.mod_eq_of_lt h5).symm, rfl, rfl, rfl, rfl, rfl,
        ⟨h1, h2, h3, h4, h5, h6, Nat.mod_lt _ (by decide), fun h => nc _ h⟩, fun _ _ => rfl, fun h => by cases h⟩
  | out side rel u still id ow sl cid =>
    have key : ∀ (o1 o' : OpenOrders), OoOk o1 → o1.slot = o.slot →
        (if still = 0 then o1.removeOrder sl else .ok o1) = .ok o' →
        o'.coinFree = o1.coinFree ∧ o'.pcFree = o1.pcFree ∧ o'.coinTotal = o1.coinTotal ∧
        o'.pcTotal = o1.pcTotal ∧ o'.rebates = o1.rebates ∧ o'.owner = o1.owner ∧ o'.closed = o1.closed ∧
        (o1.closed = false → OoOk o') ∧
        ((EventView.out side rel u still id ow sl cid).final = false → ∀ i, o'.slot i = o.slot i) ∧
        ((EventView.out side rel u still id ow sl cid).final = true →
          ∀ i, o'.slot i = if i = sl then none else o.slot i) := by
      intro o1 o' hk hs hr
      split at hr
      · rename_i h0
        obtain ⟨f, b, he, _, hsl⟩ := removeOrder_inv hr
        obtain ⟨k1, k2, k3, k4, k5, k6, k7, k8⟩ := hk
        rw [hs] at hsl
        refine ⟨?_, ?_, ?_, ?_, ?_, ?_, ?_, ?_, ?_, fun _ => hsl⟩
        iterate 7 (subst he; rfl)
        · intro hc1
          subst he
          exact ⟨by simpa using k1, by simpa using k2, k3, k4, k5, k6, k7, fun hc => by
            rw [hc1] at hc; cases hc⟩
        · intro hf; simp [EventView.final, h0] at hf
      · rename_i h0
        cases hr
        refine ⟨rfl, rfl, rfl, rfl, rfl, rfl, rfl, fun _ => hk, fun _ i => by rw [hs], ?_⟩
        intro hf; simp [EventView.final, h0] at hf
    cases side with
    | bid =>
      have hk : OoOk { o with pcFree := if rel = true then wadd o.pcFree u else o.pcFree } := by
        refine ⟨h1, h2, h3, h4, ?_, h6, h7, fun h => nc _ h⟩
        show (if rel = true then wadd o.pcFree u else o.pcFree) < W64
        split
        · exact wadd_lt _ _
        · exact h5
      have hr : (if still = 0 then ({ o with pcFree := if rel = true then wadd o.pcFree u else o.pcFree } : OpenOrders).removeOrder sl
          else .ok { o with pcFree := if rel = true then wadd o.pcFree u else o.pcFree }) = .ok o' := by
        cases rel <;> simp only [applyEvent, if_true, Bool.false_eq_true, if_false] at h ⊢
        all_goals
          split at h
          · cases h
          · exact h
      obtain ⟨a1, a2, a3, a4, a5, a6, a7, a8, a9, a10⟩ := key _ _ hk rfl hr
      simp only at a1 a2 a3 a4 a5 a6 a7 a8
      refine ⟨?_, ?_, ?_, ?_, ?_, a6, a7, a8 hc, a9, a10⟩
      · rw [a1]; cases rel <;> simp [EventView.free, Nat.mod_eq_of_lt h3]
      · rw [a2]; cases rel <;> simp [EventView.free, wadd, Nat.mod_eq_of_lt h5]
      · rw [a3]; cases rel <;> simp [EventView.free, EventView.lock]
      · rw [a4]; cases rel <;> simp [EventView.free, EventView.lock]
      · rw [a5]; simp [EventView.rebate, Nat.mod_eq_of_lt h7]
    | ask =>
      have hk : OoOk { o with coinFree := if rel = true then wadd o.coinFree u else o.coinFree } := by
        refine ⟨h1, h2, ?_, h4, h5, h6, h7, fun h => nc _ h⟩
        show (if rel = true then wadd o.coinFree u else o.coinFree) < W64
        split
        · exact wadd_lt _ _
        · exact h3
      have hr : (if still = 0 then ({ o with coinFree := if rel = true then wadd o.coinFree u else o.coinFree } : OpenOrders).removeOrder sl
          else .ok { o with coinFree := if rel = true then wadd o.coinFree u else o.coinFree }) = .ok o' := by
        cases rel <;> simp only [applyEvent, if_true, Bool.false_eq_true, if_false] at h ⊢
        all_goals
          split at h
          · cases h
          · exact h
      obtain ⟨a1, a2, a3, a4, a5, a6, a7, a8, a9, a10⟩ := key _ _ hk rfl hr
      simp only at a1 a2 a3 a4 a5 a6 a7 a8
      refine ⟨?_, ?_, ?_, ?_, ?_, a6, a7, a8 hc, a9, a10⟩
      · rw [a1]; cases rel <;> simp [EventView.free, wadd, Nat.mod_eq_of_lt h3]
      · rw [a2]; cases rel <;> simp [EventView.free, Nat.mod_eq_of_lt h5]
      · rw [a3]; cases rel <;> simp [EventView.free, EventView.lock]
      · rw [a4]; cases rel <;> simp [EventView.free, EventView.lock]
      · rw [a5]; simp [EventView.rebate, Nat.mod_eq_of_lt h7]

end Serum
