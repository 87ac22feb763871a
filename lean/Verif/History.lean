import Verif.Token
import Verif.ProcSim

/-
Histories of one market: its creation, followed by any sequence of instructions from anybody, removals
of closed accounts and token movements outside the program. Every state of a history satisfies the
invariant.
-/

namespace Serum

/-- A market as `InitializeMarket` leaves it (`state.rs` 3477-3604; derived from the code in
`Verif.InitMarket`): empty books and queues, no deposits, no accounts, vaults owned by the vault signer
without delegate or close authority. Positive lot sizes are not enforced by the code (DESIGN.md, F1). -/
structure Genesis (P : Params) (s : State conc) : Prop where
  vaults : ∃ vs, P.vaultSigner s.mkt.ownAddress s.mkt.vaultSignerNonce = some vs ∧
    Held vs s.toks s.mkt.coinVault ∧ Held vs s.toks s.mkt.pcVault
  flags : s.mkt.flags = 3 ∨ s.mkt.flags = 515 ∨ s.mkt.flags = 1539
  coinLot : 0 < s.mkt.coinLot
  pcLot : 0 < s.mkt.pcLot
  coinDeposits : s.mkt.coinDeposits = 0
  pcDeposits : s.mkt.pcDeposits = 0
  pcFees : s.mkt.pcFees = 0
  rebates : s.mkt.referrerRebates = 0
  oos : s.oos = []
  seq : s.seq = 0
  reqCount : s.reqCount = 0
  bids : ∃ n, s.bids = Slab.fresh n
  asks : ∃ n, s.asks = Slab.fresh n
  q : ∃ buf, s.q = Queue.fresh buf ∧ buf.length < W64 / 2
  amounts : ∀ a t, s.toks a = some t → t.amount < W64

/-- One step of a history. -/
inductive Step (P : Params) : State conc → State conc → Prop where
  /-- A successful instruction, whoever sends it with whatever accounts and data. The vault signer is a
  program address and signs only inside the program's own token transfers. -/
  | instr {s s' : State conc} {env : Env} {accts : List AccMeta} {data : List UInt8}
      (hn : NotVault P s.mkt accts) (h : processRaw conc P env s accts data = .ok s') : Step P s s'
  /-- The runtime deletes a closed open-orders account without lamports. -/
  | purge {s : State conc} {a : Nat} {o : OpenOrders} (ho : ooAt s.oos a = some o)
      (hc : o.closed = true) : Step P s { s with oos := purgeOo s.oos a }
  /-- A token instruction of somebody else. -/
  | token {s : State conc} {signs : Nat → Bool} {ix : TokIx} {l : Ledger}
      (hn : ∀ k, signs k = true → P.vaultSigner s.mkt.ownAddress s.mkt.vaultSignerNonce ≠ some k)
      (h : tokExec signs s.toks ix = some l) : Step P s { s with toks := l }

/-- Reachable states of a market. -/
inductive Reach (P : Params) : State conc → Prop where
  | start {s : State conc} (h : Genesis P s) : Reach P s
  | step {s s' : State conc} (h : Reach P s) (hs : Step P s s') : Reach P s'

/-- The list-level view of a state. -/
def absState (s : State conc) : State lst :=
  { s with
    bids := s.bids.abs
    asks := s.asks.abs
    q := s.q.abs }

theorem RS_abs {s : State conc} {t : State lst} (h : concLst.RS s t) : t = absState s := by
  obtain ⟨c, b, a, q⟩ := s
  obtain ⟨c', b', a', q'⟩ := t
  obtain ⟨h1, ⟨_, h2⟩, ⟨_, h3⟩, ⟨_, h4⟩⟩ := h
  simp only at h1 h2 h3 h4
  subst h1; subst h2; subst h3; subst h4
  rfl

/-- Data structures well formed and the market invariant. -/
structure Good (P : Params) (s : State conc) : Prop where
  rs : concLst.RS s (absState s)
  inv : SInv P (absState s)

theorem Genesis.good {P : Params} {s : State conc} (h : Genesis P s) : Good P s := by
  obtain ⟨⟨vs, hv, hc, hp⟩, _, h1, h2, h3, h4, h5, h6, h7, h8, h9, ⟨n, hb⟩, ⟨k, ha⟩, ⟨buf, hq, hl⟩, hm⟩ := h
  refine ⟨⟨rfl, ⟨?_, rfl⟩, ⟨?_, rfl⟩, ⟨?_, rfl⟩⟩, ?_⟩
  · rw [hb]; exact fresh_inv n
  · rw [ha]; exact fresh_inv k
  · rw [hq]; exact Queue.fresh_wf hl
  · refine ⟨vs, [], hv, ?_, ?_⟩
    · show s.q.toList = []
      rw [hq]; exact Queue.fresh_toList buf
    · have eb : (absState s).bids.items = [] := by show s.bids.contents = []; rw [hb]; rfl
      have ea : (absState s).asks.items = [] := by show s.asks.contents = []; rw [ha]; rfl
      rw [eb, ea]
      show Inv vs s.mkt s.seq s.oos s.toks [] [] []
      rw [h7, h8]
      have z : (0 : Nat) < W64 := by decide
      refine ⟨⟨⟨h1, h2, by rw [h5]; exact z, by rw [h6]; exact z, by rw [h4]; exact z, by rw [h3]; exact z⟩,
        ⟨by simp, by simp, by simp, by simp, by simp, by simp, by simp, by simp⟩, ?_, by simp, by simp, ?_, ?_, ?_,
        by simp⟩,
        ⟨by rw [h3]; rfl, by rw [h4]; rfl, ?_, ?_, by rw [h6]; exact Nat.le_refl _⟩, ⟨hm, hc, hp, ?_⟩⟩
      · intro a i; exact .free
      · intro a o ho; cases ho
      · intro a i sd id h; cases h
      · intro a i sd id b j sd' h; cases h
      · intro a o ho; cases ho
      · intro a o ho; cases ho
      · intro a
        unfold owed
        rw [h3, h4, h5, h6]
        simp

theorem Step.good {P : Params} {s s' : State conc} (h : Step P s s') (hq : s'.seq ≤ W64) (hg : Good P s) :
    Good P s' := by
  obtain ⟨hr, hi⟩ := hg
  cases h with
  | @instr _ env accts data hn h =>
    obtain ⟨t', ht, hr'⟩ := Sim.ok_right (Refines.sim_processRaw hr P env accts data) h
    have e := RS_abs hr'
    subst e
    refine ⟨hr', ?_⟩
    unfold processRaw at ht
    cases hu : Instruction.unpack data with
    | none => rw [hu] at ht; simp at ht
    | some ix =>
      rw [hu] at ht
      simp only at ht
      obtain ⟨_, _, _, hv, _⟩ := Props.decoding_is_strict _ _ hu
      exact process_inv ht hv hn hq hi
  | purge ho hc =>
    obtain ⟨vs, evs, h1, h2, h3⟩ := hi
    exact ⟨⟨rfl, hr.bids, hr.asks, hr.q⟩, vs, evs, h1, h2, h3.purge ho hc⟩
  | @token signs ix l hn h =>
    obtain ⟨vs, evs, h1, h2, h3⟩ := hi
    have hs : signs vs = false := by
      cases e : signs vs with
      | false => rfl
      | true => exact absurd h1 (hn vs e)
    exact ⟨⟨rfl, hr.bids, hr.asks, hr.q⟩, vs, evs, h1, h2, h3.shape, h3.money,
      h3.funds.outside (tokExec_outside hs h)⟩

theorem processRaw_keeps {I : Impl} {P : Params} {env : Env} {s s' : State I} {accts : List AccMeta}
    {data : List UInt8} (h : processRaw I P env s accts data = .ok s') : Keeps s s' := by
  unfold processRaw at h
  split at h
  · exact process_keeps h
  · cases h

theorem Step.seq {P : Params} {s s' : State conc} (h : Step P s s') : s.seq ≤ s'.seq := by
  cases h with
  | instr hn h => exact (processRaw_keeps h).seq
  | purge => exact Nat.le_refl _
  | token => exact Nat.le_refl _

/-- Every reachable state is good, up to 2^64 orders. -/
theorem Reach.good {P : Params} {s : State conc} (h : Reach P s) (hq : s.seq ≤ W64) : Good P s := by
  induction h with
  | start h => exact h.good
  | step h hs ih => exact hs.good hq (ih (Nat.le_trans hs.seq hq))

/-- The request queue stays empty. -/
theorem Reach.reqCount {P : Params} {s : State conc} (h : Reach P s) : s.reqCount = 0 := by
  induction h with
  | start h => exact h.reqCount
  | step h hs ih =>
    cases hs with
    | instr hn h1 => rw [(processRaw_keeps h1).reqCount]; exact ih
    | purge => exact ih
    | token => exact ih

/-- Only `DisableMarket` changes the flags, and only an enabled market's. -/
theorem process_flags {I : Impl} {P : Params} {env : Env} {s s' : State I} {accts : List AccMeta}
    {ix : Instruction} (h : process I P env s accts ix = .ok s') :
    s'.mkt.flags = s.mkt.flags ∨
    (ix = .disableMarket ∧ s'.mkt.flags = s.mkt.flags ||| 128 ∧
      checkMarketFlags s.mkt.flags false = .ok ()) := by
  unfold process at h
  split at h
  · cases h
  · cases h
  · cases h; exact .inl rfl
  · exact .inl (by rw [(consumeEvents_keeps h).1])
  · cases h
  · exact .inl (settleFunds_keeps h).2.2.1
  · cases h
  · right
    unfold disableMarket at h
    split at h
    · obtain ⟨_, h1, h⟩ := bind_ok h
      iterate 2 obtain ⟨_, _, h⟩ := bind_ok h
      cases h
      unfold loadMarket at h1
      obtain ⟨_, _, h1⟩ := bind_ok h1
      exact ⟨rfl, rfl, h1⟩
    · cases h
  · exact .inl (sweep_keeps h).2.2
  · cases h
  · exact .inl (newOrderV3_keeps h).2.2
  · exact .inl (by rw [(cancelV2_keeps h).2.2.1])
  · exact .inl (by rw [(cancelByClientIdV2_keeps h).2.2.1])
  · exact .inl (sendTake_keeps h).2.2
  · exact .inl (by rw [(close_keeps h).1])
  · exact .inl (by rw [(initOpen_keeps h).1])
  · exact .inl (by rw [(prune_keeps h).2.2.1])
  · exact .inl (by rw [(consumePermissioned_keeps h).1])
  · exact .inl (by rw [(cancelByClientIds_keeps h).2.2.1])
  · exact .inl (replaceOrders_keeps h).2.2
  · exact .inl (replaceOrders_keeps h).2.2

/-- The flag words of reachable markets: plain, permissioned, with crank authority; each also disabled. -/
def goodFlags (f : Nat) : Bool := [3, 515, 1539, 131, 643, 1667].contains f

theorem goodFlags_disable {f : Nat} (h : goodFlags f = true) : goodFlags (f ||| 128) = true := by
  simp only [goodFlags, List.contains_eq_mem, List.mem_cons, List.not_mem_nil, or_false,
    decide_eq_true_eq] at h
  rcases h with rfl | rfl | rfl | rfl | rfl | rfl <;> decide

theorem goodFlags_load {f : Nat} (h : goodFlags f = true) : checkMarketFlags f true = .ok () := by
  simp only [goodFlags, List.contains_eq_mem, List.mem_cons, List.not_mem_nil, or_false,
    decide_eq_true_eq] at h
  rcases h with rfl | rfl | rfl | rfl | rfl | rfl <;> rfl

theorem Reach.flags {P : Params} {s : State conc} (h : Reach P s) : goodFlags s.mkt.flags = true := by
  induction h with
  | start h =>
    rcases h.flags with e | e | e <;> rw [e] <;> decide
  | step h hs ih =>
    cases hs with
    | instr hn h1 =>
      unfold processRaw at h1
      split at h1
      · rcases process_flags h1 with e | ⟨_, e, _⟩
        · rw [e]; exact ih
        · rw [e]; exact goodFlags_disable ih
      · cases h1
    | purge => exact ih
    | token => exact ih

end Serum
