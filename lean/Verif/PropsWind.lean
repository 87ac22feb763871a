import Verif.PropsExit
import Verif.PropsJournal
import Verif.PropsPlace

/-!
C77: a market can be wound down. All owners can leave, one after the other; then the books, the queue and all accounts are
empty, nothing is recorded as deposited, the vaults have paid out exactly the deposits, and the fees can be swept.
-/

namespace Serum.Props

/-! ### Payments -/

/-- One unit vector: `n` at address `a`. -/
def amountAt (a x n : Nat) : Nat := if x = a then n else 0

theorem Paid.balance {l l' : Ledger} {src dst n : Nat} (h : Paid l l' src dst n) (x : Nat) :
    bal l' x + amountAt src x n = bal l x + amountAt dst x n := by
  unfold amountAt
  by_cases e : src = dst
  · rw [h.self e, e]
  · have h1 := h.from_ e
    have h2 := h.to_ e
    have h3 := h.enough
    by_cases e1 : x = src
    · subst e1
      rw [if_pos rfl, if_neg e]; omega
    · by_cases e2 : x = dst
      · subst e2
        rw [if_neg e1, if_pos rfl]; omega
      · rw [if_neg e1, if_neg e2]
        unfold bal
        rw [h.others x e1 e2]

theorem Paid.usable {l l' : Ledger} {src dst n : Nat} (h : Paid l l' src dst n) {x mint : Nat} (u : Usable l x mint) :
    Usable l' x mint := by
  obtain ⟨t, h1, h2, h3⟩ := u
  obtain ⟨t', k1, k2, k3⟩ := h.keeps x t h1
  exact ⟨t', k1, k2.trans h2, k3.trans h3⟩

theorem Paid.ready {l l' : Ledger} {src dst n k : Nat} (h : Paid l l' src dst n) {x mint : Nat} (u : Ready l x mint (n + k)) :
    Ready l' x mint k := by
  obtain ⟨t, h1, h2, h3, h4⟩ := u
  obtain ⟨t', k1, k2, k3⟩ := h.keeps x t h1
  refine ⟨t', k1, k2.trans h2, k3.trans h3, ?_⟩
  have hb := h.balance x
  have e1 : bal l x = t.amount := by unfold bal; rw [h1]
  have e2 : bal l' x = t'.amount := by unfold bal; rw [k1]
  have : amountAt dst x n ≤ n := by unfold amountAt; split <;> omega
  omega

theorem Ready.less {l : Ledger} {x mint n k : Nat} (u : Ready l x mint n) (h : k ≤ n) : Ready l x mint k := by
  obtain ⟨t, h1, h2, h3, h4⟩ := u
  exact ⟨t, h1, h2, h3, by omega⟩

/-! ### Quiet markets -/

/-- While nothing is queued, what an account holds fits in 64 bits. -/
theorem fits_of_quiet {P : Params} {s : State conc} (h : Reach P s) (hq : s.seq ≤ W64) (hp : pending s = []) {a : Nat}
    {o : OpenOrders} (ho : ooAt s.oos a = some o) : Fits s a o := by
  obtain ⟨vs, _, _, hi⟩ := h.view hq
  have hd := hi.deposits_lt
  obtain ⟨_, _, t1, t2⟩ := totals_are_backed h hq ho
  unfold W64 at hd
  unfold Fits baseHeld quoteHeld
  rw [hp]
  simp only [List.filter_nil, total, List.map_nil, List.sum_nil, Nat.add_zero] at t1 t2 ⊢
  omega

/-- Nothing belongs to a closed account but rebates. -/
theorem closed_claims {P : Params} {s : State conc} (h : Reach P s) (hq : s.seq ≤ W64) {a : Nat} {o : OpenOrders}
    (ho : ooAt s.oos a = some o) (hc : o.closed = true) : baseClaim s a = 0 ∧ quoteClaim s a = 0 := by
  obtain ⟨k1, k2, k3, k4⟩ := (close_is_safe h hq).2 a o ho (.inl hc)
  have f : freeOf s a = (0, 0) := by unfold freeOf; rw [ho]; simp only [k1, k2]
  have z1 : ∀ sd, ordersOf s sd a = [] := fun sd => List.filter_eq_nil_iff.2 fun l hl => by simpa using k3 sd l hl
  have z2 : eventsOf a (pending s) = [] := List.filter_eq_nil_iff.2 fun l hl => by simpa using k4 l hl
  unfold baseClaim quoteClaim
  rw [f, z1, z1, z2]
  exact ⟨rfl, rfl⟩

theorem closed_fits {P : Params} {s : State conc} (h : Reach P s) (hq : s.seq ≤ W64) {a : Nat} {o : OpenOrders}
    (ho : ooAt s.oos a = some o) (hc : o.closed = true) : Fits s a o := by
  obtain ⟨k1, k2, k3, k4⟩ := (close_is_safe h hq).2 a o ho (.inl hc)
  have z1 : ∀ sd, (resting s sd).filter (fun l => l.owner == a) = [] :=
    fun sd => List.filter_eq_nil_iff.2 fun l hl => by simpa using k3 sd l hl
  have z2 : (pending s).filter (fun v => v.owner == a) = [] := List.filter_eq_nil_iff.2 fun l hl => by simpa using k4 l hl
  have y1 := z1 .bid
  have y2 := z1 .ask
  simp only [resting] at y1 y2
  unfold Fits baseHeld quoteHeld
  rw [k1, k2, y1, y2, z2]
  exact ⟨by simp [total], by simp [total]⟩

/-- What belongs to one account is part of what the market has recorded. -/
theorem claims_le {P : Params} {s : State conc} (h : Reach P s) (hq : s.seq ≤ W64) (a : Nat) :
    baseClaim s a ≤ s.mkt.coinDeposits ∧ quoteClaim s a ≤ s.mkt.pcDeposits ∧ rebateClaim s a ≤ s.mkt.referrerRebates := by
  cases ho : ooAt s.oos a with
  | none =>
    obtain ⟨z1, z2, z3⟩ := absent_zero h hq ho
    rw [z1, z2, z3]
    exact ⟨Nat.zero_le _, Nat.zero_le _, Nat.zero_le _⟩
  | some o =>
    obtain ⟨vs, _, _, hi⟩ := h.view hq
    have hm := hi.money
    have c1 := hm.coin
    have c2 := hm.pc
    have c3 := hm.rebates
    have g1 := accSum_ge (g := (·.coinFree)) ho
    have g2 := accSum_ge (g := (·.pcFree)) ho
    have g3 := accSum_ge (g := (·.rebates)) ho
    have f : freeOf s a = (o.coinFree, o.pcFree) := by unfold freeOf; rw [ho]
    have r : rebatesOf s a = o.rebates := by unfold rebatesOf; rw [ho]
    have le : ∀ {α : Type} (f g : α → Nat) (l : List α), (∀ x, f x ≤ g x) → sumBy f l ≤ sumBy g l := by
      intro α f g l hfg
      induction l with
      | nil => exact Nat.le_refl _
      | cons x l ih => simp only [sumBy_cons]; have := hfg x; omega
    have b1 : ∀ sd L, bookLock sd s.mkt (only a) L ≤ bookLock sd s.mkt every L := fun sd L =>
      le _ _ _ fun x => by unfold leafLock only every; simp only [if_true]; split <;> omega
    have b2 : ∀ w L, evSum w (only a) L ≤ evSum w every L := fun w L =>
      le _ _ _ fun x => by unfold only every; simp only [if_true]; split <;> omega
    have d1 := b1 .ask (resting s .ask)
    have d2 := b1 .bid (resting s .bid)
    have d3 := b2 (EventView.free .ask) (pending s)
    have d4 := b2 (EventView.free .bid) (pending s)
    have d5 := b2 EventView.rebate (pending s)
    simp only [resting] at d1 d2
    rw [baseClaim_eq, quoteClaim_eq, rebateClaim_eq, f, r]
    simp only [resting]
    exact ⟨by omega, by omega, by omega⟩

/-- Absent accounts stay absent. -/
theorem Sends.absent {P : Params} {env : Env} {who K : Nat → Prop} {i : Nat} {s s' : State conc} (h : Sends P env who K i s s') :
    ∀ b, ooAt s.oos b = none → ooAt s'.oos b = none := by
  induction h with
  | done => exact fun _ h => h
  | send _ _ _ _ _ _ hc _ ih => exact fun b hb => ih b (hc b hb)

/-! ### C77 -/

/-- Every account of `L` has left `s`: all accounts are closed, both books and the queue are empty, nothing is
recorded as deposited, fees and rebates together are what they were, and nothing else about the market changed. The vaults
have paid all recorded deposits, to each account's wallets exactly what belonged to the account. -/
structure Emptied (s s' : State conc) (L : List Nat) (coinW pcW : Nat → Nat) : Prop where
  closed : ∀ a o, ooAt s'.oos a = some o → o.closed = true ∧ o.coinFree = 0 ∧ o.pcFree = 0
  books : ∀ sd, resting s' sd = []
  queue : pending s' = []
  fees : feesHeld s' = feesHeld s
  mkt : ∃ fees rebates, s'.mkt = { s.mkt with coinDeposits := 0, pcDeposits := 0, pcFees := fees, referrerRebates := rebates }
  base : total (baseClaim s) L = s.mkt.coinDeposits
  quote : total (quoteClaim s) L = s.mkt.pcDeposits
  paid : ∀ x, bal s'.toks x + amountAt s.mkt.coinVault x s.mkt.coinDeposits + amountAt s.mkt.pcVault x s.mkt.pcDeposits =
    bal s.toks x + total (fun a => amountAt (coinW a) x (baseClaim s a)) L + total (fun a => amountAt (pcW a) x (quoteClaim s a)) L

/-- What the market holds for others. -/
def heldFor (m : Market) : Nat := m.coinDeposits + (m.pcDeposits + m.referrerRebates)

/-- Instructions can be sent after which all accounts are closed and those of `L` were paid. -/
def AllLeft (P : Params) (env : Env) (who K : Nat → Prop) (coinW pcW : Nat → Nat) (s : State conc) (L : List Nat) : Prop :=
  ∃ i s', Sends P env who K i s s' ∧ Reach P s' ∧ s'.seq = s.seq ∧ (∀ a o, ooAt s'.oos a = some o → o.closed = true) ∧
    feesHeld s' = feesHeld s ∧
    s'.mkt.coinDeposits + total (baseClaim s) L = s.mkt.coinDeposits ∧
    s'.mkt.pcDeposits + total (quoteClaim s) L = s.mkt.pcDeposits ∧
    (∃ fees rebates, s'.mkt = { s.mkt with coinDeposits := s'.mkt.coinDeposits, pcDeposits := s'.mkt.pcDeposits, pcFees := fees, referrerRebates := rebates }) ∧
    ∀ x, bal s'.toks x + amountAt s.mkt.coinVault x (total (baseClaim s) L) + amountAt s.mkt.pcVault x (total (quoteClaim s) L) =
      bal s.toks x + total (fun a => amountAt (coinW a) x (baseClaim s a)) L +
        total (fun a => amountAt (pcW a) x (quoteClaim s a)) L

/-- The accounts of `L` leave; those outside are closed. -/
theorem all_leave {P : Params} {env : Env} {coinW pcW : Nat → Nat} {who K : Nat → Prop} {vs : Nat} (L : List Nat) :
    ∀ {s : State conc} (_ : Reach P s) (_ : s.seq ≤ W64) (_ : L.Nodup)
    (_ : ∀ a o, ooAt s.oos a = some o → a ∈ L ∨ o.closed = true)
    (_ : ∀ a o, ooAt s.oos a = some o → o.closed = false → Fits s a o ∧ who o.owner ∧ K a ∧ K (coinW a) ∧ K (pcW a) ∧
      Ready s.toks (coinW a) s.mkt.coinMint (heldFor s.mkt) ∧ Ready s.toks (pcW a) s.mkt.pcMint (heldFor s.mkt))
    (_ : 0 < s.q.buf.length) (_ : ∀ k, s.mkt.crankAuth = some k → who k)
    (_ : P.vaultSigner s.mkt.ownAddress s.mkt.vaultSignerNonce = some vs) (_ : ¬ who vs) (_ : K vs)
    (_ : Usable s.toks s.mkt.coinVault s.mkt.coinMint) (_ : Usable s.toks s.mkt.pcVault s.mkt.pcMint)
    (_ : Names P s.mkt who K),
    AllLeft P env who K coinW pcW s L := by
  induction L with
  | nil =>
    intro s h hq _ hin _ _ _ _ _ _ _ _ _
    refine ⟨0, s, .done _, h, rfl, fun a o ho => ?_, rfl, rfl, rfl, ⟨_, _, rfl⟩, fun x => ?_⟩
    · rcases hin a o ho with e | e
      · cases e
      · exact e
    · simp only [total, List.map_nil, List.sum_nil, amountAt, ite_self]
  | cons a L ih =>
    intro s h hq hn hin hopen hcap hw' hvs hns hKvs hcv hpv hK
    obtain ⟨hnot, hnd⟩ := List.nodup_cons.1 hn
    have tc : ∀ f : Nat → Nat, total f (a :: L) = f a + total f L := fun f => by simp [total]
    have skip : (baseClaim s a = 0 ∧ quoteClaim s a = 0) → (∀ o, ooAt s.oos a = some o → o.closed = true) →
        AllLeft P env who K coinW pcW s (a :: L) := by
      intro z hcl
      have := ih h hq hnd (fun b o ho => by
        rcases hin b o ho with e | e
        · rcases List.mem_cons.1 e with e | e
          · subst e; exact .inr (hcl o ho)
          · exact .inl e
        · exact .inr e) hopen hcap hw' hvs hns hKvs hcv hpv hK
      unfold AllLeft at this ⊢
      simp only [tc, z.1, z.2]
      have z' : ∀ w x, amountAt w x 0 = 0 := fun w x => by unfold amountAt; split <;> rfl
      simp only [z', Nat.zero_add]
      exact this
    cases hoa : ooAt s.oos a with
    | none =>
      obtain ⟨z1, z2, _⟩ := absent_zero h hq hoa
      exact skip ⟨z1, z2⟩ (fun o ho => by rw [hoa] at ho; cases ho)
    | some o =>
      by_cases hcl : o.closed = true
      · exact skip (closed_claims h hq hoa hcl) (fun p hp => by rw [hoa] at hp; cases hp; exact hcl)
      · have hcl : o.closed = false := by simpa using hcl
        obtain ⟨_, hwo, hKa, hKc, hKp, r1, r2⟩ := hopen a o hoa hcl
        have hlive := (slots_are_live_orders h hq).2.2.2
        have hle : baseClaim s a + (quoteClaim s a + rebateClaim s a) ≤ heldFor s.mkt := by
          have c1 := claims_le h hq a
          unfold heldFor; omega
        obtain ⟨i, s1, _, hs, hleft, hr1, hsq, hcp⟩ := can_leave_near h hq env hoa hcl (coinDst := coinW a) (pcDst := pcW a)
          (refer := none) (who := who) (K := K)
          (by
            intro b p hb hor
            rcases hin b p hb with e | e
            · by_cases hpc : p.closed = true
              · exact closed_fits h hq hb hpc
              · exact (hopen b p hb (by simpa using hpc)).1
            · exact closed_fits h hq hb e)
          hcap hwo hw' hvs hns hcv hpv (r1.less hle) (r2.less hle) (fun r e => by cases e) hK
          (by
            intro v hv
            obtain ⟨p, _, hp, hpc, _⟩ := hlive v hv
            exact (hopen v.owner p hp hpc).2.2.1)
          (by rintro x (rfl | rfl | rfl | rfl | e) <;> first | assumption | cases e)
        have hm := hleft.mkt
        rw [if_pos rfl] at hm
        have hen := hleft.enough
        obtain ⟨l1, l2, p1, p2, p3⟩ := hleft.paid
        have hl2 : s1.toks = l2 := by
          revert p3
          split
          · rename_i e; split at e <;> cases e
          · exact id
        have hclaim : ∀ b, b ≠ a → baseClaim s1 b = baseClaim s b ∧ quoteClaim s1 b = quoteClaim s b := by
          intro b hb
          cases hbo : ooAt s.oos b with
          | none =>
            obtain ⟨z1, z2, _⟩ := absent_zero h hq hbo
            obtain ⟨y1, y2, _⟩ := absent_zero hr1 (by rw [hsq]; exact hq) (hs.absent b hbo)
            exact ⟨y1.trans z1.symm, y2.trans z2.symm⟩
          | some p =>
            obtain ⟨p', _, _, _, f⟩ := hleft.others b p hb hbo
            exact ⟨f.base, f.quote⟩
        have hback : ∀ b o', ooAt s1.oos b = some o' → b ≠ a → ∃ p, ooAt s.oos b = some p ∧ o'.owner = p.owner ∧ o'.closed = p.closed := by
          intro b o' ho' hb
          cases hbo : ooAt s.oos b with
          | none => rw [hs.absent b hbo] at ho'; cases ho'
          | some p =>
            obtain ⟨p', k1, k2, k3, _⟩ := hleft.others b p hb hbo
            rw [ho'] at k1; cases k1
            exact ⟨p, rfl, k2, k3⟩
        have hacl : ∀ o', ooAt s1.oos a = some o' → o'.closed = true := by
          intro o' ho'
          obtain ⟨q, k1, k2⟩ := hleft.closed
          rw [ho'] at k1; cases k1; exact k2
        have hready : ∀ x mint, Ready s.toks x mint (heldFor s.mkt) → Ready s1.toks x mint (heldFor s1.mkt) := by
          intro x mint r
          rw [hl2]
          have e : baseClaim s a + (quoteClaim s a + (heldFor s1.mkt)) ≤ heldFor s.mkt := by
            rw [hm]; unfold heldFor; simp only; omega
          exact p2.ready (p1.ready (r.less e))
        have hu : ∀ x mint, Usable s.toks x mint → Usable s1.toks x mint := by
          intro x mint u
          rw [hl2]
          exact p2.usable (p1.usable u)
        obtain ⟨j, s2, t1, t2, t3, t4, t5, t6, t7, ⟨fe, re, t8⟩, t9⟩ := ih (s := s1) hr1 (by rw [hsq]; exact hq) hnd
          (by
            intro b o' ho'
            by_cases hb : b = a
            · subst hb; exact .inr (hacl o' ho')
            · obtain ⟨p, k1, k2, k3⟩ := hback b o' ho' hb
              rcases hin b p k1 with e | e
              · rcases List.mem_cons.1 e with e | e
                · exact absurd e hb
                · exact .inl e
              · exact .inr (k3.trans e))
          (by
            intro b o' ho' hc'
            have hb : b ≠ a := fun e => by subst e; rw [hacl o' ho'] at hc'; cases hc'
            obtain ⟨p, k1, k2, k3⟩ := hback b o' ho' hb
            obtain ⟨_, m2, m3, m4, m5, m6, m7⟩ := hopen b p k1 (by rw [← k3]; exact hc')
            refine ⟨fits_of_quiet hr1 (by rw [hsq]; exact hq) hleft.queue ho', by rw [k2]; exact m2, m3, m4, m5, ?_, ?_⟩
            · have := hready _ _ m6
              rw [show s1.mkt.coinMint = s.mkt.coinMint by rw [hm]]
              exact this
            · have := hready _ _ m7
              rw [show s1.mkt.pcMint = s.mkt.pcMint by rw [hm]]
              exact this)
          (by rw [hcp]; exact hcap) (by rw [hm]; exact hw') (by rw [hm]; exact hvs) hns hKvs
          (by
            rw [show s1.mkt.coinVault = s.mkt.coinVault by rw [hm], show s1.mkt.coinMint = s.mkt.coinMint by rw [hm]]
            exact hu _ _ hcv)
          (by
            rw [show s1.mkt.pcVault = s.mkt.pcVault by rw [hm], show s1.mkt.pcMint = s.mkt.pcMint by rw [hm]]
            exact hu _ _ hpv)
          (by rw [hm]; exact { hK with })
        have hsum : ∀ (f g : Nat → Nat), (∀ b, b ≠ a → f b = g b) → total f L = total g L := by
          intro f g hfg
          unfold total
          congr 1
          exact List.map_congr_left fun b hb => hfg b fun e => hnot (e ▸ hb)
        have hb1 := hsum _ _ fun b hb => (hclaim b hb).1
        have hb2 := hsum _ _ fun b hb => (hclaim b hb).2
        have dc : s1.mkt.coinDeposits = s.mkt.coinDeposits - baseClaim s a := by rw [hm]
        have dp : s1.mkt.pcDeposits = s.mkt.pcDeposits - quoteClaim s a := by rw [hm]
        refine ⟨i + j, s2, hs.trans t1, t2, t3.trans hsq, t4, ?_, ?_, ?_, ?_, ?_⟩
        · rw [t5]
          unfold feesHeld
          rw [hm]; simp only; omega
        · rw [hb1] at t6; rw [tc]; omega
        · rw [hb2] at t7; rw [tc]; omega
        · exact ⟨fe, re, by rw [t8, hm]⟩
        · intro x
          have hx := t9 x
          rw [hb1, hb2, hsum (fun b => amountAt (coinW b) x (baseClaim s1 b)) (fun b => amountAt (coinW b) x (baseClaim s b))
            (fun b hb => by rw [(hclaim b hb).1]),
            hsum (fun b => amountAt (pcW b) x (quoteClaim s1 b)) (fun b => amountAt (pcW b) x (quoteClaim s b))
            (fun b hb => by rw [(hclaim b hb).2]),
            show s1.mkt.coinVault = s.mkt.coinVault by rw [hm], show s1.mkt.pcVault = s.mkt.pcVault by rw [hm], hl2] at hx
          have y1 := p1.balance x
          have y2 := p2.balance x
          have aa : ∀ w m n, amountAt w x (m + n) = amountAt w x m + amountAt w x n := by
            intro w m n; unfold amountAt; split <;> rfl
          simp only [tc, aa]
          omega

/-- With every account closed, nothing is left. -/
theorem emptied_of {P : Params} {s' : State conc} (h : Reach P s') (hq : s'.seq ≤ W64)
    (hc : ∀ a o, ooAt s'.oos a = some o → o.closed = true) :
    (∀ a o, ooAt s'.oos a = some o → o.closed = true ∧ o.coinFree = 0 ∧ o.pcFree = 0) ∧ (∀ sd, resting s' sd = []) ∧
      pending s' = [] ∧ s'.mkt.coinDeposits = 0 ∧ s'.mkt.pcDeposits = 0 := by
  obtain ⟨_, _, h3, h4⟩ := slots_are_live_orders h hq
  have hr : ∀ sd, resting s' sd = [] := by
    intro sd
    refine List.eq_nil_iff_forall_not_mem.2 fun l hl => ?_
    obtain ⟨o, _, ho, hf, _⟩ := h3 sd l hl
    rw [hc _ _ ho] at hf; cases hf
  have hp : pending s' = [] := by
    refine List.eq_nil_iff_forall_not_mem.2 fun v hv => ?_
    obtain ⟨o, _, ho, hf, _⟩ := h4 v hv
    rw [hc _ _ ho] at hf; cases hf
  have hz : ∀ a o, ooAt s'.oos a = some o → o.closed = true ∧ o.coinFree = 0 ∧ o.pcFree = 0 := fun a o ho => by
    obtain ⟨k1, k2, _⟩ := (close_is_safe h hq).2 a o ho (.inl (hc a o ho))
    exact ⟨hc a o ho, k1, k2⟩
  obtain ⟨vs, _, _, hi⟩ := h.view hq
  have hmem : ∀ x ∈ s'.oos, ooAt s'.oos x.1 = some x.2 := fun x hx => ooAt_of_mem hi.shape.keys hx
  have b := base_conservation h hq
  have q := quote_conservation h hq
  have r1 := hr .ask
  have r2 := hr .bid
  simp only [resting] at r1 r2
  rw [r1, hp, total_zero fun x hx => (hz _ _ (hmem x hx)).2.1] at b
  rw [r2, hp, total_zero fun x hx => (hz _ _ (hmem x hx)).2.2] at q
  exact ⟨hz, hr, hp, b, q⟩

/-- C77. From every reachable state of a market, also a disabled one: if all owners of open accounts (and the crank authority,
if the market has one) want to leave, they can. There are instructions, signed by nobody else, after which all accounts are
closed, both books and the queue are empty, nothing is recorded as deposited, and the wallets named for each account
received exactly what belonged to it. All of that together is exactly what was recorded as deposited; of the vaults the rest,
fees and rebates among it, remains. It takes holdings that fit in 64 bits and token accounts the token program accepts. -/
theorem market_empties {P : Params} {s : State conc} (h : Reach P s) (hq : s.seq ≤ W64) (env : Env) {coinW pcW : Nat → Nat}
    {who K : Nat → Prop} {vs : Nat}
    (hopen : ∀ a o, ooAt s.oos a = some o → o.closed = false → Fits s a o ∧ who o.owner ∧ K a ∧ K (coinW a) ∧ K (pcW a) ∧
      Ready s.toks (coinW a) s.mkt.coinMint (heldFor s.mkt) ∧ Ready s.toks (pcW a) s.mkt.pcMint (heldFor s.mkt))
    (hcap : 0 < s.q.buf.length) (hw' : ∀ k, s.mkt.crankAuth = some k → who k)
    (hvs : P.vaultSigner s.mkt.ownAddress s.mkt.vaultSignerNonce = some vs) (hns : ¬ who vs) (hKvs : K vs)
    (hcv : Usable s.toks s.mkt.coinVault s.mkt.coinMint) (hpv : Usable s.toks s.mkt.pcVault s.mkt.pcMint)
    (hK : Names P s.mkt who K) :
    ∃ i s', Sends P env who K i s s' ∧ Emptied s s' (s.oos.map (·.1)) coinW pcW := by
  obtain ⟨v', _, _, hi⟩ := h.view hq
  obtain ⟨i, s', t1, t2, t3, t4, t5, t6, t7, ⟨fe, re, t8⟩, t9⟩ := all_leave (env := env) (s.oos.map (·.1)) h hq hi.shape.keys
    (fun a o ho => .inl (List.mem_map.2 ⟨_, ooAt_mem ho, rfl⟩)) hopen hcap hw' hvs hns hKvs hcv hpv hK
  obtain ⟨k1, k2, k3, k4, k5⟩ := emptied_of t2 (by rw [t3]; exact hq) t4
  rw [k4, Nat.zero_add] at t6
  rw [k5, Nat.zero_add] at t7
  refine ⟨i, s', t1, k1, k2, k3, t5, ⟨fe, re, ?_⟩, t6, t7, fun x => ?_⟩
  · rw [k4, k5] at t8; exact t8
  · rw [← t6, ← t7]; exact t9 x

/-- C77, fees. On an enabled market the sweep authority can have the fees paid out at any time. -/
theorem sweep_works {P : Params} {s : State conc} (h : Reach P s) (hq : s.seq ≤ W64) (hen : s.mkt.isDisabled = false) {vs w : Nat}
    (hvs : P.vaultSigner s.mkt.ownAddress s.mkt.vaultSignerNonce = some vs)
    (hpv : Usable s.toks s.mkt.pcVault s.mkt.pcMint) (hw : Ready s.toks w s.mkt.pcMint s.mkt.pcFees) :
    ∃ s', sweepFees conc P s [⟨s.mkt.ownAddress, false⟩, ⟨s.mkt.pcVault, false⟩, ⟨P.feeSweeper, true⟩, ⟨w, false⟩, ⟨vs, false⟩,
        ⟨P.splToken, false⟩] = .ok s' ∧
      s'.mkt = { s.mkt with pcFees := 0 } ∧ Paid s.toks s'.toks s.mkt.pcVault w s.mkt.pcFees := by
  obtain ⟨vs', hv, hqi, hi⟩ := h.view hq
  rw [hvs] at hv
  cases hv
  obtain ⟨_, hb, _⟩ := vault_solvency h hq
  obtain ⟨l, hl, _⟩ := spl_ready hi.funds.pc hpv hw (by omega)
  obtain ⟨u1, u2, u3⟩ := usable_tok hpv
  obtain ⟨w1, w2, w3⟩ := usable_tok hw.usable
  refine ⟨{ s with mkt := { s.mkt with pcFees := 0 }, toks := l }, ?_, rfl, spl_paid hl⟩
  have k1 : loadMarket s.toCore ⟨s.mkt.ownAddress, false⟩ false = .ok () := by
    unfold loadMarket
    rw [show checkAssert (s.mkt.ownAddress == s.toCore.mkt.ownAddress) = .ok () from checkAssert_ok.2 (by simp)]
    exact goodFlags_enabled h.flags hen
  have k2 : pcVault s.toCore ⟨s.mkt.pcVault, false⟩ = .ok () := by
    unfold pcVault
    rw [show tokAcct s.toCore.toks s.mkt.pcVault = .ok u1 from u2]
    simp [bind, Except.bind]
  have k3 : pcWallet s.toCore ⟨w, false⟩ = .ok () := by
    unfold pcWallet
    rw [show tokAcct s.toCore.toks w = .ok w1 from w2]
    simp [bind, Except.bind, w3]
  have k4 : vaultSignerAcct P s.toCore ⟨vs, false⟩ = .ok () := by
    unfold vaultSignerAcct
    rw [show P.vaultSigner s.toCore.mkt.ownAddress s.toCore.mkt.vaultSignerNonce = some vs from hvs]
    exact checkAssert_ok.2 (by simp)
  have k5 : splProgram P ⟨P.splToken, false⟩ = .ok () := checkAssert_ok.2 (by simp)
  have k6 : sendFromVault P s.mkt s.toks s.mkt.pcVault w s.mkt.pcFees = .ok l := by
    unfold sendFromVault
    rw [hvs]
    simp only [hl]
  unfold sweepFees
  simp only [k1, k2, k3, k4, k5, k6, bind, Except.bind, checkAssert, beq_self_eq_true, if_true, pure, Except.pure]

-- both traders of the demonstration market leave: trader 11 with 300 base and 20000 quote units, trader 12 with 200 and
-- 40000; the vaults pay the 500 and 60000 recorded as deposited
example : ∃ i s', Sends Demo.P Demo.env (fun k => k = 11 ∨ k = 12) (· < 100) i Demo.s3 s' ∧
    Emptied Demo.s3 s' [41, 42] (· - 20) (· - 10) ∧
    (Demo.s3.mkt.coinDeposits, Demo.s3.mkt.pcDeposits) = (500, 60000) ∧
    (bal s'.toks 21, bal s'.toks 22, bal s'.toks 31, bal s'.toks 32) =
      (bal Demo.s3.toks 21 + 300, bal Demo.s3.toks 22 + 200, bal Demo.s3.toks 31 + 20000, bal Demo.s3.toks 32 + 40000) ∧
    ((pending Demo.s3).length, (resting Demo.s3 .bid).length, (resting Demo.s3 .ask).length) = (4, 1, 1) := by
  have hall : ∀ x ∈ Demo.s3.oos, x.2.closed = false ∧ (x.1 = 41 ∧ x.2.owner = 11 ∨ x.1 = 42 ∧ x.2.owner = 12) ∧
      Fits Demo.s3 x.1 x.2 := by decide +kernel
  obtain ⟨i, s', h1, h2⟩ := market_empties Demo.r3 (by decide +kernel) Demo.env (coinW := (· - 20)) (pcW := (· - 10))
    (who := fun k => k = 11 ∨ k = 12) (K := (· < 100))
    (vs := (Demo.P.vaultSigner Demo.s3.mkt.ownAddress Demo.s3.mkt.vaultSignerNonce).getD 0)
    (by
      intro a o ho _
      obtain ⟨_, hk, hf⟩ := hall _ (ooAt_mem ho)
      refine ⟨hf, ?_⟩
      rcases hk with ⟨e1, e2⟩ | ⟨e1, e2⟩ <;> (simp only at e1 e2; subst e1; rw [e2])
      · exact ⟨.inl rfl, by decide, by decide, by decide, ready_of (by decide +kernel), ready_of (by decide +kernel)⟩
      · exact ⟨.inr rfl, by decide, by decide, by decide, ready_of (by decide +kernel), ready_of (by decide +kernel)⟩)
    (by decide +kernel) (by intro k hk; rw [show Demo.s3.mkt.crankAuth = none by decide +kernel] at hk; cases hk)
    (by decide +kernel) (by decide +kernel) (by decide +kernel)
    (ready_of (n := 0) (by decide +kernel)).usable (ready_of (n := 0) (by decide +kernel)).usable
    ⟨by decide, by decide +kernel, by decide +kernel, by decide +kernel, by decide +kernel, by decide +kernel,
      by decide +kernel, by decide +kernel, fun k e => by rcases e with rfl | rfl <;> decide⟩
  have hL : Demo.s3.oos.map (·.1) = [41, 42] := by decide +kernel
  rw [hL] at h2
  have hp := h2.paid
  have c : ∀ x y z w, total (fun a => amountAt (a - 20) x (baseClaim Demo.s3 a)) [41, 42] = z →
      total (fun a => amountAt (a - 10) x (quoteClaim Demo.s3 a)) [41, 42] = w →
      amountAt Demo.s3.mkt.coinVault x Demo.s3.mkt.coinDeposits + amountAt Demo.s3.mkt.pcVault x Demo.s3.mkt.pcDeposits = 0 →
      y = z + w → bal s'.toks x = bal Demo.s3.toks x + y := by
    intro x y z w h1 h2 h3 h4
    have := hp x
    rw [h1, h2] at this
    omega
  refine ⟨i, s', h1, h2, by decide +kernel, ?_, by decide +kernel⟩
  rw [c 21 300 300 0 (by decide +kernel) (by decide +kernel) (by decide +kernel) rfl,
    c 22 200 200 0 (by decide +kernel) (by decide +kernel) (by decide +kernel) rfl,
    c 31 20000 0 20000 (by decide +kernel) (by decide +kernel) (by decide +kernel) rfl,
    c 32 40000 0 40000 (by decide +kernel) (by decide +kernel) (by decide +kernel) rfl]

-- the sweep authority takes the 7 units of fees
example : Reach Demo.P Demo.s3 ∧ Demo.s3.mkt.isDisabled = false ∧ Demo.s3.mkt.pcFees = 7 ∧
    Usable Demo.s3.toks Demo.s3.mkt.pcVault Demo.s3.mkt.pcMint ∧ Ready Demo.s3.toks 33 Demo.s3.mkt.pcMint Demo.s3.mkt.pcFees :=
  ⟨Demo.r3, by decide +kernel, by decide +kernel, (ready_of (n := 0) (by decide +kernel)).usable, ready_of (by decide +kernel)⟩

end Serum.Props
