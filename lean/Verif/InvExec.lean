import Verif.InvOps

/-
Preservation of the invariant by the instructions that do not run the matching engine, on list-level
states.
-/

namespace Serum

/-- The invariant of a list-level state. -/
def SInv (P : Params) (s : State lst) : Prop :=
  ∃ vs evs, P.vaultSigner s.mkt.ownAddress s.mkt.vaultSignerNonce = some vs ∧
    s.q.items = evs.map Event.new ∧
    Inv vs s.mkt s.seq s.oos s.toks s.bids.items s.asks.items evs

theorem sendFromVault_ok {P : Params} {m : Market} {l l' : Ledger} {v dst n : Nat} {vs : Nat}
    (hv : P.vaultSigner m.ownAddress m.vaultSignerNonce = some vs)
    (h : sendFromVault P m l v dst n = .ok l') : splTransfer l v dst vs n = .ok l' := by
  unfold sendFromVault at h
  rw [hv] at h
  simp only at h
  split at h
  · cases h; assumption
  · cases h

/-- Where the rebates go when funds are settled. -/
theorem settleRebates_funds {P : Params} {m : Market} {l : Ledger} {oo : OpenOrders} {r : Option AccMeta}
    {m' : Market} {l' : Ledger} {vs : Nat}
    (hv : P.vaultSigner m.ownAddress m.vaultSignerNonce = some vs)
    (h : settleRebates P m l oo r = .ok (m', l')) (hle : oo.rebates ≤ m.referrerRebates)
    (hw : m.pcFees + m.referrerRebates < W64) (hf : Funds vs m l) :
    ∃ x, x < W64 ∧ x ≤ m.pcFees + oo.rebates ∧ m' = { m with pcFees := x } ∧
      Funds vs { m' with referrerRebates := wsub m'.referrerRebates oo.rebates } l' := by
  have hr : wsub m.referrerRebates oo.rebates = m.referrerRebates - oo.rebates := wsub_eq hle (by omega)
  have keep : ∃ x, x < W64 ∧ x ≤ m.pcFees + oo.rebates ∧
      { m with pcFees := wadd m.pcFees oo.rebates } = { m with pcFees := x } ∧
      Funds vs { m with
        pcFees := wadd m.pcFees oo.rebates
        referrerRebates := wsub m.referrerRebates oo.rebates } l := by
    have he : wadd m.pcFees oo.rebates = m.pcFees + oo.rebates := wadd_eq (by omega)
    refine ⟨wadd m.pcFees oo.rebates, wadd_lt _ _, by omega, rfl, hf.mono rfl rfl ?_⟩
    intro a
    simp only [owed, he, hr]
    split <;> split <;> omega
  unfold settleRebates at h
  split at h
  · rename_i r
    split at h
    · obtain ⟨l1, h1, h⟩ := bind_ok h
      cases h
      have h2 := sendFromVault_ok hv h1
      refine ⟨m.pcFees, by omega, by omega, rfl, hf.send h2 rfl rfl ?_⟩
      intro a
      simp only [owed, hr]
      split <;> split <;> omega
    · cases h
      exact keep
  · cases h
    exact keep

theorem settle_inv {P : Params} {s s' : State lst} {a : SettleAccts} {oo : OpenOrders}
    (h : settleExec lst P s a oo = .ok s') (hi : SInv P s) (ho : ooAt s.oos a.oo.key = some oo) :
    SInv P s' := by
  obtain ⟨vs, evs, hv, hq, hi⟩ := hi
  have hd := hi.deposits_lt
  have hm := hi.money
  have hk := hi.shape.accts _ _ ho
  have c1 := hm.coin
  have c2 := hm.pc
  have c3 := hm.rebates
  have g1 := accSum_ge (g := (·.coinFree)) ho
  have g2 := accSum_ge (g := (·.pcFree)) ho
  have g3 := accSum_ge (g := (·.rebates)) ho
  unfold settleExec at h
  simp only at h
  obtain ⟨ct, hct, h⟩ := bind_ok h
  rw [unwrap_ok, checkedSub_some] at hct
  obtain ⟨pt, hpt, h⟩ := bind_ok h
  rw [unwrap_ok, checkedSub_some] at hpt
  obtain ⟨l1, h1, h⟩ := bind_ok h
  obtain ⟨l2, h2, h⟩ := bind_ok h
  obtain ⟨⟨m3, l3⟩, h3, h⟩ := bind_ok h
  simp only [pure, Except.pure, Except.ok.injEq] at h
  have t1 := sendFromVault_ok (vs := vs) (by exact hv) h1
  have t2 := sendFromVault_ok (vs := vs) (by exact hv) h2
  have e1 : wsub s.mkt.coinDeposits oo.coinFree = s.mkt.coinDeposits - oo.coinFree := wsub_eq (by omega) (by omega)
  have e2 : wsub s.mkt.pcDeposits oo.pcFree = s.mkt.pcDeposits - oo.pcFree := wsub_eq (by omega) (by omega)
  have f1 : Funds vs { s.mkt with coinDeposits := wsub s.mkt.coinDeposits oo.coinFree } l1 := by
    refine hi.funds.send t1 rfl rfl ?_
    intro b
    simp only [owed, e1]
    split <;> split <;> omega
  have f2 : Funds vs { s.mkt with
      coinDeposits := wsub s.mkt.coinDeposits oo.coinFree
      pcDeposits := wsub s.mkt.pcDeposits oo.pcFree } l2 := by
    refine f1.send t2 rfl rfl ?_
    intro b
    simp only [owed, e2]
    split <;> split <;> omega
  obtain ⟨x, hx, hxle, rfl, f3⟩ := settleRebates_funds (vs := vs) (by exact hv) h3 (by show _ ≤ s.mkt.referrerRebates; omega)
    (by show s.mkt.pcFees + s.mkt.referrerRebates < _; omega) f2
  have hr : wsub s.mkt.referrerRebates oo.rebates = s.mkt.referrerRebates - oo.rebates := wsub_eq (by omega) (by omega)
  subst h
  refine ⟨vs, evs, hv, hq, ?_, ?_, f3⟩
  · refine Shape.market (m := s.mkt) ?_ ⟨hi.shape.mkt.coinLot, hi.shape.mkt.pcLot, ?_, ?_, ?_, ?_⟩ rfl rfl
    · refine hi.shape.update ho ?_ (fun i => rfl)
      exact ⟨hk.orders, hk.clientIds, (show 0 < W64 by decide), by have := hk.coinTotal; simp only; omega, (show 0 < W64 by decide),
        by have := hk.pcTotal; simp only; omega, (show 0 < W64 by decide), fun hc => by
          have := hk.closed hc
          exact ⟨this.1, by have := this.2.1; simp only; omega, by have := this.2.2; simp only; omega⟩⟩
    · exact hx
    · exact wsub_lt _ _
    · exact wsub_lt _ _
    · exact wsub_lt _ _
  · have q1 := hm.coinTot _ _ ho
    have q2 := hm.pcTot _ _ ho
    refine hm.step ho rfl rfl ?_ ?_ ?_ ?_ (fun _ _ => rfl) (fun _ _ => rfl) ?_
    · simp only [e1]; omega
    · simp only [e2]; omega
    · have := hk.coinTotal
      have := hk.coinFree
      simp only
      generalize bookLock .ask s.mkt (only a.oo.key) s.asks.items = X at *
      generalize evSum (EventView.lock .ask) (only a.oo.key) evs = Y at *
      unfold W64 at *
      omega
    · have := hk.pcTotal
      have := hk.pcFree
      simp only
      generalize bookLock .bid s.mkt (only a.oo.key) s.bids.items = X at *
      generalize evSum (EventView.lock .bid) (only a.oo.key) evs = Y at *
      unfold W64 at *
      omega
    · simp only [hr]; omega

theorem sweep_inv {P : Params} {s s' : State lst} {accts : List AccMeta}
    (h : sweepFees lst P s accts = .ok s') (hi : SInv P s) : SInv P s' := by
  obtain ⟨vs, evs, hv, hq, hi⟩ := hi
  unfold sweepFees at h
  split at h
  · obtain ⟨_, _, h⟩ := bind_ok h
    obtain ⟨_, _, h⟩ := bind_ok h
    obtain ⟨_, _, h⟩ := bind_ok h
    obtain ⟨_, _, h⟩ := bind_ok h
    obtain ⟨_, _, h⟩ := bind_ok h
    obtain ⟨_, _, h⟩ := bind_ok h
    obtain ⟨_, _, h⟩ := bind_ok h
    obtain ⟨l, hl, h⟩ := bind_ok h
    cases h
    have t := sendFromVault_ok hv hl
    refine ⟨vs, evs, hv, hq, ?_, ?_, ?_⟩
    · exact hi.shape.market ⟨hi.shape.mkt.coinLot, hi.shape.mkt.pcLot, (show 0 < W64 by decide), hi.shape.mkt.rebates,
        hi.shape.mkt.pcDeposits, hi.shape.mkt.coinDeposits⟩ rfl rfl
    · exact ⟨hi.money.coin, hi.money.pc, hi.money.coinTot, hi.money.pcTot, hi.money.rebates⟩
    · refine hi.funds.send t rfl rfl ?_
      intro b
      simp only [owed]
      split <;> split <;> omega
  · cases h

theorem disable_inv {P : Params} {s s' : State lst} {accts : List AccMeta}
    (h : disableMarket lst P s accts = .ok s') (hi : SInv P s) : SInv P s' := by
  obtain ⟨vs, evs, hv, hq, hi⟩ := hi
  unfold disableMarket at h
  split at h
  · obtain ⟨_, _, h⟩ := bind_ok h
    obtain ⟨_, _, h⟩ := bind_ok h
    obtain ⟨_, _, h⟩ := bind_ok h
    cases h
    refine ⟨vs, evs, hv, hq, ?_, ?_, ?_⟩
    · exact hi.shape.market ⟨hi.shape.mkt.coinLot, hi.shape.mkt.pcLot, hi.shape.mkt.pcFees, hi.shape.mkt.rebates,
        hi.shape.mkt.pcDeposits, hi.shape.mkt.coinDeposits⟩ rfl rfl
    · exact ⟨hi.money.coin, hi.money.pc, hi.money.coinTot, hi.money.pcTot, hi.money.rebates⟩
    · exact hi.funds.mono rfl rfl (fun _ => Nat.le_refl _)
  · cases h

/-! ### Accounts opened and closed -/

theorem Inv.toState {P : Params} {s s' : State lst} {evs : List EventView} {vs : Nat}
    (hv : P.vaultSigner s.mkt.ownAddress s.mkt.vaultSignerNonce = some vs)
    (hm : s'.mkt = s.mkt) (hq : s'.q.items = evs.map Event.new)
    (h : Inv vs s'.mkt s'.seq s'.oos s'.toks s'.bids.items s'.asks.items evs) : SInv P s' :=
  ⟨vs, evs, by rw [hm]; exact hv, hq, h⟩

theorem initOpen_inv {P : Params} {env : Env} {s s' : State lst} {accts : List AccMeta}
    (h : initOpenOrders lst env s accts = .ok s') (hi : SInv P s) : SInv P s' := by
  obtain ⟨vs, evs, hv, hq, hi⟩ := hi
  unfold initOpenOrders at h
  split at h
  · split at h
    · obtain ⟨_, _, h⟩ := bind_ok h
      obtain ⟨_, _, h⟩ := bind_ok h
      obtain ⟨_, _, h⟩ := bind_ok h
      obtain ⟨o, ho, h⟩ := bind_ok h
      cases h
      exact ⟨vs, evs, hv, hq, (hi.load ho).1⟩
    · cases h
  · cases h

theorem close_inv {P : Params} {env : Env} {s s' : State lst} {accts : List AccMeta}
    (h : closeOpenOrders lst env s accts = .ok s') (hi : SInv P s) : SInv P s' := by
  obtain ⟨vs, evs, hv, hq, hi⟩ := hi
  unfold closeOpenOrders at h
  split at h
  · obtain ⟨_, _, h⟩ := bind_ok h
    obtain ⟨_, _, h⟩ := bind_ok h
    obtain ⟨o, hl, h⟩ := bind_ok h
    obtain ⟨_, hc, h⟩ := bind_ok h
    cases h
    rename_i oo owner dest m _ _
    rcases loadOrders_inv hl with ⟨ho, _⟩ | ⟨_, _, hx, _⟩
    · have hk := hi.shape.accts _ _ ho
      unfold checkClosable at hc
      split at hc
      · cases hc
      · rename_i hn
        have : o.freeBits = BitVec.allOnes 128 ∧ o.coinTotal = 0 ∧ o.pcTotal = 0 := by
          refine ⟨?_, ?_, ?_⟩
          · exact Classical.byContradiction fun e => hn (.inl e)
          · exact Classical.byContradiction fun e => hn (.inr (.inl e))
          · exact Classical.byContradiction fun e => hn (.inr (.inr e))
        refine ⟨vs, evs, hv, hq, ?_, ?_, hi.funds⟩
        · exact hi.shape.update ho ⟨hk.orders, hk.clientIds, hk.coinFree, hk.coinTotal, hk.pcFree, hk.pcTotal,
            hk.rebates, fun _ => this⟩ (fun i => rfl)
        · exact hi.money.step ho rfl rfl rfl rfl (by exact hi.money.coinTot _ o ho) (by exact hi.money.pcTot _ o ho)
            (fun _ _ => rfl) (fun _ _ => rfl) (Nat.le_refl _)
    · cases hx
  · cases h

/-- An account with no slot in use has no resting order and no queued event. -/
theorem Inv.quiet {vs m seq oos l bids asks evs} (h : Inv vs m seq oos l bids asks evs) {a : Nat}
    (hn : ∀ i, slotsOf oos a i = none) :
    (∀ x ∈ bids, x.owner ≠ a) ∧ (∀ x ∈ asks, x.owner ≠ a) ∧ (∀ v ∈ evs, v.owner ≠ a) := by
  have hfree := fun i => h.shape.slots.free (a := a) (i := i) (hn i)
  refine ⟨fun x hx e => (hfree _).1 (.bid, x) (by simp [tagged, hx]) ⟨e, rfl⟩,
    fun x hx e => (hfree _).1 (.ask, x) (by simp [tagged, hx]) ⟨e, rfl⟩,
    fun v hv e => (hfree _).2 v hv ⟨e, rfl⟩⟩

/-- All free bits set means no slot in use. -/
theorem slot_none_of_allOnes {o : OpenOrders} (h : o.freeBits = BitVec.allOnes 128) (i : Nat) :
    o.slot i = none := by
  unfold OpenOrders.slot
  split
  · rename_i hi
    rw [(freeBits_allOnes_iff o).1 h i hi]
  · rfl

/-- A closed account holds nothing. -/
theorem Inv.closed_zero {vs m seq oos l bids asks evs} (h : Inv vs m seq oos l bids asks evs) {a : Nat}
    {o : OpenOrders} (ho : ooAt oos a = some o) (hc : o.closed = true) :
    o.coinFree = 0 ∧ o.pcFree = 0 ∧ (∀ i, slotsOf oos a i = none) := by
  have hk := h.shape.accts _ _ ho
  obtain ⟨k1, k2, k3⟩ := hk.closed hc
  have hn : ∀ i, slotsOf oos a i = none := by
    intro i; unfold slotsOf; rw [ho]; exact slot_none_of_allOnes k1 i
  obtain ⟨q1, q2, q3⟩ := h.quiet hn
  have z1 : bookLock .ask m (only a) asks = 0 := sumBy_zero fun x hx => by simp [leafLock, only, q2 x hx]
  have z2 : bookLock .bid m (only a) bids = 0 := sumBy_zero fun x hx => by simp [leafLock, only, q1 x hx]
  have z3 : ∀ w, evSum w (only a) evs = 0 := fun w => sumBy_zero fun v hv => by simp [only, q3 v hv]
  have t1 := h.money.coinTot _ _ ho
  have t2 := h.money.pcTot _ _ ho
  simp only [z1, z3, k2, Nat.add_zero, Nat.mod_eq_of_lt hk.coinFree] at t1
  simp only [z2, z3, k3, Nat.add_zero, Nat.mod_eq_of_lt hk.pcFree] at t2
  exact ⟨t1.symm, t2.symm, hn⟩

/-- The runtime deletes a closed account: its lamports were taken away. -/
def purgeOo (l : List (Nat × OpenOrders)) (a : Nat) : List (Nat × OpenOrders) := l.filter (fun x => x.1 != a)

theorem ooAt_purge (l : List (Nat × OpenOrders)) (a b : Nat) :
    ooAt (purgeOo l a) b = if b = a then none else ooAt l b := by
  induction l with
  | nil => simp [purgeOo, ooAt]
  | cons x xs ih =>
    obtain ⟨c, p⟩ := x
    unfold purgeOo at *
    by_cases hc : c = a
    · subst hc
      rw [List.filter_cons_of_neg (by simp), ih, ooAt_cons]
      by_cases hb : b = c
      · simp [hb]
      · simp [hb]
    · rw [List.filter_cons_of_pos (by simpa using hc), ooAt_cons, ooAt_cons, ih]
      by_cases hb : b = a
      · subst hb
        simp
        exact fun e => hc e.symm
      · simp [hb]

theorem accSum_purge (g : OpenOrders → Nat) {l : List (Nat × OpenOrders)} (hn : (l.map (·.1)).Nodup) {a : Nat}
    {o : OpenOrders} (ho : ooAt l a = some o) : accSum g (purgeOo l a) + g o = accSum g l := by
  induction l with
  | nil => simp [ooAt] at ho
  | cons x xs ih =>
    obtain ⟨c, p⟩ := x
    simp only [List.map_cons, List.nodup_cons] at hn
    rw [ooAt_cons] at ho
    unfold purgeOo accSum at *
    by_cases hc : c = a
    · subst hc
      simp only [if_true, Option.some.injEq] at ho
      subst ho
      rw [List.filter_cons_of_neg (by simp)]
      have : xs.filter (fun x => x.1 != c) = xs := by
        rw [List.filter_eq_self]
        intro y hy
        simp
        rintro rfl
        exact hn.1 (List.mem_map_of_mem (f := (·.1)) hy)
      rw [this]; simp; omega
    · have hc' : a ≠ c := fun e => hc e.symm
      simp only [hc', if_false] at ho
      rw [List.filter_cons_of_pos (by simpa using hc)]
      have := ih hn.2 ho
      simp; omega

/-- Deleting a closed account keeps the invariant. -/
theorem Inv.purge {vs m seq oos l bids asks evs} (h : Inv vs m seq oos l bids asks evs) {a : Nat}
    {o : OpenOrders} (ho : ooAt oos a = some o) (hc : o.closed = true) :
    Inv vs m seq (purgeOo oos a) l bids asks evs := by
  obtain ⟨z1, z2, hn⟩ := h.closed_zero ho hc
  have s1 := accSum_purge (·.coinFree) h.shape.keys ho
  have s2 := accSum_purge (·.pcFree) h.shape.keys ho
  have s3 := accSum_purge (·.rebates) h.shape.keys ho
  have hsub : ((purgeOo oos a).map (·.1)).Sublist (oos.map (·.1)) := (List.filter_sublist).map _
  have hσ : ∀ b i, slotsOf (purgeOo oos a) b i = slotsOf oos b i := by
    intro b i
    by_cases hb : b = a
    · subst hb
      rw [hn]; unfold slotsOf; rw [ooAt_purge]; simp
    · unfold slotsOf; rw [ooAt_purge]; simp [hb]
  have hat : ∀ b p, ooAt (purgeOo oos a) b = some p → ooAt oos b = some p := by
    intro b p hb
    rw [ooAt_purge] at hb
    split at hb
    · cases hb
    · exact hb
  have hs := h.shape
  refine ⟨⟨hs.mkt, hs.book, hs.slots.congr hσ, hs.keys.sublist hsub, fun h0 => hs.zero (hsub.subset h0),
    fun b p hb => hs.accts b p (hat b p hb), ?_, ?_, hs.noCross⟩, ⟨?_, ?_, ?_, ?_, ?_⟩, h.funds⟩
  · intro b i sd id hb
    rw [hσ] at hb
    exact hs.ids b i sd id hb
  · intro b i sd id c j sd' h1 h2
    rw [hσ] at h1 h2
    exact hs.uniq b i sd id c j sd' h1 h2
  · rw [h.money.coin]; omega
  · rw [h.money.pc]; omega
  · exact fun b p hb => h.money.coinTot b p (hat b p hb)
  · exact fun b p hb => h.money.pcTot b p (hat b p hb)
  · have := h.money.rebates; omega

/-! ### Cancelling -/

theorem pushEv_items {ob ob' : Ob lst} {v : EventView} (h : pushEv lst ob v = .ok ob') : ob' = ob.push [v] :=
  (pushEv_lst h).1

theorem cancelLeaf_inv {ob ob' : Ob lst} {lf : Leaf} {sd : Side} {oo oo' : OpenOrders} {a id : Nat}
    (h : cancelLeaf lst ob lf sd oo a id = .ok (ob', oo')) :
    lf.owner = a ∧ oo.orderAt lf.ownerSlot = some id ∧ oo.slotSide lf.ownerSlot = some sd ∧
    ∃ n, unlockLeaf ob.mkt lf sd oo = .ok (n, oo') ∧
      ob' = ob.push [.out sd false n 0 id a lf.ownerSlot lf.clientId] := by
  unfold cancelLeaf at h
  split at h
  · cases h
  · rename_i hown
    obtain ⟨id', h1, h⟩ := bind_ok h
    rw [unwrap_ok] at h1
    obtain ⟨_, h2, h⟩ := bind_ok h
    rw [checkAssert_ok] at h2
    obtain ⟨_, h3, h⟩ := bind_ok h
    rw [checkAssert_ok] at h3
    obtain ⟨⟨n, o1⟩, h4, h⟩ := bind_ok h
    obtain ⟨ob1, h5, h⟩ := bind_ok h
    cases h
    refine ⟨by simpa using hown, ?_, by simpa using h3, n, h4, pushEv_items h5⟩
    rw [h1]; simp at h2; rw [h2]

/-- The id checked by a cancellation is the id of the leaf. -/
theorem Inv.leaf_id {vs m seq oos l bids asks evs} (h : Inv vs m seq oos l bids asks evs) {a : Nat}
    {o : OpenOrders} (ho : ooAt oos a = some o) {sd : Side} {lf : Leaf} (hl : lf ∈ sideOf sd bids asks)
    (hown : lf.owner = a) : o.slot lf.ownerSlot = some (sd, lf.key) := by
  have h1 := (h.shape.slots.perm (tagged_drop h.shape.book hl)).at_leaf
  have h2 : slotsOf oos lf.owner lf.ownerSlot = some (sd, lf.key) := h1.2.1
  unfold slotsOf at h2
  rw [hown, ho] at h2
  exact h2

theorem orderAt_slot {o : OpenOrders} {i : Nat} {sd : Side} {k : Nat} (h : o.slot i = some (sd, k)) :
    o.orderAt i = some k := by
  rw [slot_eq_some] at h
  obtain ⟨_, _, h⟩ := h
  unfold OpenOrders.orderAt
  exact h

end Serum
