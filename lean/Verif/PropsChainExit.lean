import Verif.PropsChain
import Verif.PropsExit

/-
C74: on a chain with any number of markets, the owner of an open-orders account can always leave, by instructions in
the form of bytes.
-/

namespace Serum.Props

variable {P : Params} {n : Nat} {c c' : Chain}

/-! ### Specification -/

/-- `i` instructions in the form of bytes sent to the program one after the other, each with at most ten accounts,
signed by nobody but `who`. -/
inductive CSends (P : Params) (mints : Nat → Bool) (now : Int) (who : Nat → Prop) : Nat → Chain → Chain → Prop where
  | done (c : Chain) : CSends P mints now who 0 c c
  | send {i : Nat} {c c1 c2 : Chain} {accts : List AccMeta} {data : List UInt8}
      (hx : ∃ ix, Instruction.unpack data = some ix ∧ leaves ix = true)
      (hs : ∀ m ∈ accts, m.signer = true → who m.key) (hk : ∀ m ∈ accts, m.key < 256 ^ 32) (hl : accts.length ≤ 10)
      (h : execBytes P mints now c accts data = .ok c1) (ht : CSends P mints now who i c1 c2) :
      CSends P mints now who (i + 1) c c2

/-- What was sent is part of the history of the chain. -/
theorem CSends.later {mints : Nat → Bool} {now : Int} {who : Nat → Prop} (hw : ∀ a, who a → ∀ k m, P.vaultSigner k m ≠ some a)
    {i : Nat} (h : CSends P mints now who i c c') : ∀ {j : Nat} {b : Chain}, CLater P j b n c → CLater P j b (n + i) c' := by
  induction h generalizing n with
  | done => exact fun h => h
  | @send i _ _ _ _ _ _ hs hk _ h _ ih =>
    intro j b hb
    have := ih (n := n + 1) (.step hb (.instr hk (fun m hm hsg => hw _ (hs m hm hsg)) h))
    rw [show n + (i + 1) = n + 1 + i by omega]
    exact this

/-! ### Blank accounts stay blank -/

theorem acctKind_nonzero {a : RawAcc} (h : flagsWord a.data ≠ 0) : acctKind a = .other .wrongOrdersAccount := by
  unfold acctKind
  rw [if_neg]
  intro e
  simp only [Bool.and_eq_true, beq_iff_eq] at e
  rw [e.2, flagsWord_zeros] at h
  exact h rfl

/-- An instruction that creates no account changes no account's kind. -/
theorem env_same {k : Nat} {s s' : State conc} {t t' : State conc} {keys : List Nat} (hr : Rep c k s)
    (hr' : Rep (storeState c k t t' keys) k s') (hn : Serum.Near (· ∈ keys) s t) (hn' : Serum.Near (· ∈ keys) s' t')
    (hown : s'.mkt.own = s.mkt.own) (hc : ∀ b, ooAt s.oos b = none → ooAt s'.oos b = none) (now : Int) :
    envOf now (storeState c k t t' keys) = envOf now c := by
  unfold envOf
  congr 1
  funext x
  have htm : t.mkt = s.mkt := by rw [hn.1]
  by_cases hx : x ∈ s.mkt.own
  · rw [acctKind_nonzero (hr.nonzero hx).1, acctKind_nonzero (hr'.nonzero (by rw [hown]; exact hx)).1]
  · have hne : x ≠ k ∧ x ≠ s.mkt.reqQ ∧ x ≠ s.mkt.eventQ ∧ x ≠ s.mkt.bids ∧ x ≠ s.mkt.asks := by
      have := hr.own
      simp only [Market.own, List.mem_cons, List.not_mem_nil, or_false, not_or] at hx
      rw [this] at hx
      exact hx
    have keep : (∀ o, ooAt s.oos x ≠ some o) → (storeState c k t t' keys).accs x = c.accs x := by
      intro hno
      have h0 : ooAt s.oos x = none := by
        cases h : ooAt s.oos x with
        | none => rfl
        | some o => exact absurd h (hno o)
      have h1 := hc x h0
      unfold storeState putData
      simp only [htm]
      rw [if_neg hne.1, if_neg hne.2.1, if_neg hne.2.2.1, if_neg hne.2.2.2.2, if_neg hne.2.2.2.1]
      split
      · rename_i hk
        have : ooAt t'.oos x = none := by rw [hn'.2 x hk]; exact h1
        rw [this]
      · rfl
    cases h0 : ooAt s.oos x with
    | none => rw [keep (fun o e => by rw [h0] at e; cases e)]
    | some o =>
      have e0 : flagsWord (c.accs x).data ≠ 0 := by
        rw [hr.oos] at h0
        have := ooOf_word h0
        omega
      have e1 : flagsWord ((storeState c k t t' keys).accs x).data ≠ 0 := by
        cases h1 : ooAt s'.oos x with
        | some o' =>
          rw [hr'.oos] at h1
          have := ooOf_word h1
          omega
        | none =>
          have : ((storeState c k t t' keys).accs x).data = (c.accs x).data := by
            unfold storeState putData
            simp only [htm]
            rw [if_neg hne.1, if_neg hne.2.1, if_neg hne.2.2.1, if_neg hne.2.2.2.2, if_neg hne.2.2.2.1]
            split
            · rename_i hk
              have : ooAt t'.oos x = none := by rw [hn'.2 x hk]; exact h1
              rw [this]
            · rfl
          rw [this]; exact e0
      rw [acctKind_nonzero e0, acctKind_nonzero e1]

/-- One instruction on the bytes. -/
theorem chain_send (hP : VaultsDiffer P) (h : CReach P n c) (hn : n + 1 < 2 ^ 61) {accts : List AccMeta}
    (hk : ∀ a ∈ accts, a.key < 256 ^ 32) (hs : ∀ a ∈ accts, a.signer = true → ∀ k n, P.vaultSigner k n ≠ some a.key)
    {ix : Instruction} (hv : IxValid ix) (hx : leaves ix = true) {k : Nat} {s s' : State conc} (hr : Rep c k s)
    (mints : Nat → Bool) (now : Int) (hp : processRaw conc P (envOf now c) s accts ix.pack = .ok s')
    (hc : ∀ b, ooAt s.oos b = none → ooAt s'.oos b = none) :
    ∃ c', execBytes P mints now c accts ix.pack = .ok c' ∧ Rep c' k s' ∧ envOf now c' = envOf now c := by
  have hu := instruction_round_trip ix hv
  have hf : ForMarket ix := by
    constructor <;> (rintro i rfl; simp [leaves] at hx)
  have hp' : process conc P (envOf now c) s accts ix = .ok s' := by
    unfold processRaw at hp
    rw [hu] at hp
    exact hp
  have hmk := names_market hp' hf.2
  rw [hr.own] at hmk
  obtain ⟨c1, e1, r1⟩ := (chain_exec hP h hn hk hs hu hf hmk hr mints now).1 s' hp'
  have hown : s'.mkt.own = s.mkt.own := by
    obtain ⟨m', hm', hl, _⟩ := chain_step_lasts hP h hn (.instr hk hs e1) hr.market
    have e : m' = s'.mkt := by
      have := r1.market
      rw [hm'] at this
      exact Except.ok.inj this
    subst e
    have hc := hl.config
    simp only [Market.own]
    rw [hc]
  refine ⟨c1, e1, r1, ?_⟩
  rw [exec_eq hu hf hmk, hr.load] at e1
  have nr := hr.near (accts.map (·.key))
  have sim := near_process P (envOf now c) nr (fun a ha => List.mem_map_of_mem ha) ix
  obtain ⟨t', ht', nr'⟩ := Sim.ok_right sim hp'
  have e2 : storeState c k { s with oos := loadedOos c k (accts.map (·.key)) } t' (accts.map (·.key)) = c1 := by
    have : (process conc P (envOf now c) { s with oos := loadedOos c k (accts.map (·.key)) } accts ix >>= fun s' =>
      (pure (storeState c k { s with oos := loadedOos c k (accts.map (·.key)) } s' (accts.map (·.key))) : Except Err Chain)) =
        .ok c1 := e1
    rw [ht'] at this
    exact Except.ok.inj this
  rw [← e2] at r1 ⊢
  exact env_same hr r1 nr nr' hown hc now

/-- Instructions on the state, sent to the chain. -/
theorem chain_sends (hP : VaultsDiffer P) {who : Nat → Prop} (hw : ∀ a, who a → ∀ k m, P.vaultSigner k m ≠ some a)
    (mints : Nat → Bool) (now : Int) {env : Env} {k i : Nat} {s s' : State conc} (h : Sends P env who (· < 256 ^ 32) i s s') :
    ∀ {n : Nat} {c : Chain}, CReach P n c → n + i < 2 ^ 61 → Rep c k s → env = envOf now c →
      ∃ c', CSends P mints now who i c c' ∧ Rep c' k s' := by
  induction h with
  | done s => exact fun {n c} _ _ hr _ => ⟨c, .done c, hr⟩
  | @send i s s1 s2 accts ix hv hx hs hk hl hp hc _ ih =>
    intro n c hn hi hr he
    subst he
    have hsg : ∀ a ∈ accts, a.signer = true → ∀ k n, P.vaultSigner k n ≠ some a.key := fun a ha hsa => hw _ (hs a ha hsa)
    obtain ⟨c1, e1, r1, e2⟩ := chain_send hP hn (by omega) hk hsg hv hx hr mints now hp hc
    obtain ⟨c2, e3, r2⟩ := ih (.step hn (.instr hk hsg e1)) (by omega) r1 e2.symm
    exact ⟨c2, .send ⟨ix, instruction_round_trip ix hv, hx⟩ hs hk hl e1 e3, r2⟩

/-! ### C74 -/

theorem iterFrom_mem {α : Type} {q : Queue α} {x : α} : ∀ {f i : Nat}, x ∈ q.iterFrom i f → x ∈ q.buf := by
  intro f
  induction f with
  | zero => intro i h; cases h
  | succ f ih =>
    intro i h
    unfold Queue.iterFrom at h
    split at h
    · cases h
    · split at h
      · cases h
      · rename_i y hy
        rcases List.mem_cons.1 h with rfl | h
        · exact List.mem_of_getElem? hy
        · exact ih h

/-- Decoding an event keeps the owner. -/
theorem asView_owner {e : Event} {v : EventView} (h : e.asView = .ok v) : v.owner = e.owner := by
  unfold Event.asView at h
  obtain ⟨_, _, h⟩ := bind_ok h
  simp only at h
  split at h
  · obtain ⟨_, _, h⟩ := bind_ok h
    split at h
    · cases h
    · cases h; rfl
  · obtain ⟨_, _, h⟩ := bind_ok h
    cases h; rfl

/-- The addresses in queued events are 32-byte addresses. -/
theorem queue_addresses {s : State conc} (h : QueueFit s.q.buf.length s.q) : ∀ v ∈ pending s, v.owner < 256 ^ 32 := by
  intro v hv
  unfold pending at hv
  obtain ⟨e, he, hv⟩ := List.mem_filterMap.1 hv
  cases hx : e.asView with
  | error _ => rw [hx] at hv; cases hv
  | ok w =>
    rw [hx] at hv
    cases hv
    rw [asView_owner hx]
    exact h.buf e (iterFrom_mem he) (32, e.owner) (by simp [Event.fields])

/-- C74. On every reachable chain, with any number of markets: the owner of an open account (with the crank
authority's signature if the market has one) can send instructions, as bytes and of at most ten accounts each, at most
one per queued event, two per order and two more, after which the bytes say that the account is closed and everything
that belonged to it is in the wallets named. It takes what C59 takes. -/
theorem chain_can_leave (hP : VaultsDiffer P) (h : CReach P n c) {k a : Nat} {s : State conc} (hr : Rep c k s)
    (hR : Reach P s)
    (hn : n + (pending s).length + 2 * ((ordersOf s .bid a).length + (ordersOf s .ask a).length) + 2 < 2 ^ 61)
    {o : OpenOrders} (ho : ooOf k (c.accs a) = some o) (hcl : o.closed = false) (hf : AllFit s a) (hcap : 0 < s.q.buf.length)
    {coinDst pcDst vs : Nat} {refer : Option Nat} {who : Nat → Prop} (hw : who o.owner)
    (hw' : ∀ x, s.mkt.crankAuth = some x → who x) (hns : ∀ x, who x → x < 256 ^ 32 ∧ ∀ k m, P.vaultSigner k m ≠ some x)
    (hvs : P.vaultSigner k s.mkt.vaultSignerNonce = some vs)
    (hcv : Usable c.toks s.mkt.coinVault s.mkt.coinMint) (hpv : Usable c.toks s.mkt.pcVault s.mkt.pcMint)
    (hcw : Ready c.toks coinDst s.mkt.coinMint (baseClaim s a + (quoteClaim s a + rebateClaim s a)))
    (hpw : Ready c.toks pcDst s.mkt.pcMint (baseClaim s a + (quoteClaim s a + rebateClaim s a)))
    (hrf : ∀ r, refer = some r → Ready c.toks r s.mkt.pcMint (baseClaim s a + (quoteClaim s a + rebateClaim s a)))
    (haddr : ∀ x, x = a ∨ x = vs ∨ x = coinDst ∨ x = pcDst ∨ x = P.splToken ∨ some x = refer → x < 256 ^ 32)
    (mints : Nat → Bool) (now : Int) :
    ∃ i c' s', i ≤ (pending s).length + 2 * ((ordersOf s .bid a).length + (ordersOf s .ask a).length) + 2 ∧
      CSends P mints now who i c c' ∧ CLater P n c (n + i) c' ∧ Rep c' k s' ∧ Left s s' a coinDst pcDst refer := by
  obtain ⟨M, I⟩ := h.holds hP (by omega)
  obtain ⟨s0, hM, hs0⟩ := I.found hr.market
  have mi := I.mkts _ _ hM
  have hnear := rep_unique mi.rep hr
  have hq : s.seq ≤ W64 := by
    have := mi.seq
    rw [hnear.1]
    simp only [W64]
    omega
  have ho' : ooAt s.oos a = some o := by rw [hr.oos]; exact ho
  have hfit : MarketFits s.mkt := by rw [hnear.1]; exact mi.fits
  have hQ : QueueFit s.q.buf.length s.q := by rw [hnear.1]; exact mi.q
  have hfld : ∀ x, (32, x) ∈ s.mkt.fieldsV2 → x < 256 ^ 32 := fun x hx => hfit.fit _ hx
  have hnames : Names P s.mkt who (· < 256 ^ 32) := by
    refine ⟨by decide, ?_, ?_, ?_, ?_, ?_, ?_, haddr _ (by simp), fun x hx => (hns x hx).1⟩ <;>
      exact hfld _ (by simp [Market.fieldsV2, Market.fieldsV1])
  have htk := hr.toks
  have hwn : ¬ who vs := fun e => (hns vs e).2 _ _ hvs
  obtain ⟨i, s', hi, hs', hl⟩ := can_leave hR hq (envOf now c) ho' hcl hf hcap (coinDst := coinDst) (pcDst := pcDst) (vs := vs)
    (refer := refer) hw hw' (by rw [hr.own]; exact hvs) hwn (by rw [htk]; exact hcv) (by rw [htk]; exact hpv)
    (by rw [htk]; exact hcw) (by rw [htk]; exact hpw) (by rw [htk]; exact hrf) hnames (queue_addresses hQ)
    (fun x hx => haddr x (by
      rcases hx with e | e | e | e | e
      · exact .inl e
      · exact .inr (.inl e)
      · exact .inr (.inr (.inl e))
      · exact .inr (.inr (.inr (.inl e)))
      · exact .inr (.inr (.inr (.inr (.inr e))))))
  obtain ⟨c', hc', hr'⟩ := chain_sends hP (fun x hx => (hns x hx).2) mints now hs' h (by omega) hr rfl
  exact ⟨i, c', s', hi, hc', hc'.later (fun x hx => (hns x hx).2) (.refl n c), hr', hl⟩

end Serum.Props
