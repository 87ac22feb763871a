import Verif.ChainInv
import Verif.PropsDisabled

/-
Histories of the whole chain: at every point each market on it is in a state of the histories of `Verif.History`.
-/

namespace Serum

open Props

/-- Different markets have different vault signers (program addresses are hashes that include the market's
address). -/
def VaultsDiffer (P : Params) : Prop :=
  ∀ k n k' n' v, P.vaultSigner k n = some v → P.vaultSigner k' n' = some v → k = k'

/-- The market at `k` is in state `s` after `n` steps of the chain. -/
structure MInv (P : Params) (n : Nat) (c : Chain) (k : Nat) (s : State conc) : Prop where
  rep : Rep c k s
  fits : MarketFits s.mkt
  q : QueueFit s.q.buf.length s.q
  bids : SlabFit s.bids.nodes.length s.bids
  asks : SlabFit s.asks.nodes.length s.asks
  oos : ∀ a o, ooAt s.oos a = some o → OoFit o
  seq : s.seq ≤ 8 * n
  count : s.reqCount = 0
  reach : 0 < s.mkt.coinLot → 0 < s.mkt.pcLot → Reach P s

/-- The markets on the chain, by address. -/
abbrev Markets := Nat → Option (State conc)

/-- The chain after `n` steps holds the markets `M`, and nothing else. -/
structure Holds (P : Params) (n : Nat) (c : Chain) (M : Markets) : Prop where
  mkts : ∀ k s, M k = some s → MInv P n c k s
  kinds : ∀ a, (c.accs a).owned = true → (∃ l, (c.accs a).data = zeros l) ∨
    ∃ k s, M k = some s ∧ (a ∈ s.mkt.own ∨ ∃ o, ooAt s.oos a = some o)
  disjoint : ∀ k s k' s', M k = some s → M k' = some s' → k ≠ k' → ∀ a, a ∈ s.mkt.own → a ∉ s'.mkt.own
  bytes : ∀ a, (c.accs a).owned = true → OwnedBytes (c.accs a).data
  lens : ∀ a, (c.accs a).data.length ≤ maxLen
  amounts : ∀ a t, c.toks a = some t → t.amount < W64

variable {P : Params} {n : Nat} {c : Chain} {M : Markets}

theorem MInv.mono {k : Nat} {s : State conc} (h : MInv P n c k s) : MInv P (n + 1) c k s :=
  { h with seq := by have := h.seq; omega }

theorem MInv.key {k : Nat} {s : State conc} (h : MInv P n c k s) : k < 256 ^ 32 := by
  rw [← h.rep.own]
  exact h.fits.fit (32, s.mkt.ownAddress) (by simp [Market.fieldsV2, Market.fieldsV1])

/-- What loads as a market is one of the markets. -/
theorem Holds.found (I : Holds P n c M) {k : Nat} {allow : Bool} {m : Market}
    (h : loadMarketBytes (c.accs k).owned (c.accs k).data allow = .ok m) : ∃ s, M k = some s ∧ s.mkt = m := by
  have hw := market_flags_word h
  obtain ⟨_, _, ho, _⟩ := market_flags_eq h
  have hw' := hw
  simp only [kindFlags, List.mem_cons, List.not_mem_nil, or_false] at hw'
  rcases I.kinds k ho with ⟨l, hl⟩ | ⟨k', s, hM, hk⟩
  · rw [hl, flagsWord_zeros] at hw'; omega
  · have r := (I.mkts _ _ hM).rep
    rcases hk with hk | ⟨o, hk⟩
    · have e := (r.nonzero hk).2.2.2 hw
      subst e
      refine ⟨s, hM, ?_⟩
      have h1 := r.market
      unfold loadMarketBytes at h1 h
      obtain ⟨f, e1, h⟩ := bind_ok h
      obtain ⟨f', e1', h1⟩ := bind_ok h1
      rw [e1] at e1'; cases e1'
      obtain ⟨_, _, h⟩ := bind_ok h
      obtain ⟨_, _, h1⟩ := bind_ok h1
      obtain ⟨x, e2, h⟩ := bind_ok h
      obtain ⟨x', e2', h1⟩ := bind_ok h1
      rw [e2] at e2'; cases e2'
      obtain ⟨_, _, h⟩ := bind_ok h
      obtain ⟨_, _, h1⟩ := bind_ok h1
      cases h
      cases h1
      rfl
    · rw [r.oos] at hk
      have := ooOf_word hk
      omega

theorem flags_permissioned {f : Nat} (h : checkMarketFlags f true = .ok ()) : hasFlag (f ||| 128) 512 = hasFlag f 512 := by
  unfold checkMarketFlags at h
  split at h
  · cases h
  · split at h
    · split at h
      · rename_i hh
        simp only [Bool.or_eq_true, Bool.and_eq_true, beq_iff_eq, true_and] at hh
        rcases hh with (rfl | rfl) | rfl | rfl <;> decide
      · cases h
    · split at h
      · rename_i hh
        simp only [Bool.or_eq_true, Bool.and_eq_true, beq_iff_eq, true_and] at hh
        rcases hh with rfl | rfl <;> decide
      · cases h

theorem transfer_amounts {l l' : Ledger} {src dst auth k : Nat} (h : ∀ a t, l a = some t → t.amount < W64)
    (ht : splTransfer l src dst auth k = .ok l') : ∀ a t, l' a = some t → t.amount < W64 := by
  have hx : tokExec (fun x => x == auth) l (.transfer src dst auth k) = some l' := by
    simp [tokExec, ht]
  exact (tokExec_outside (vs := auth + 1) (by simp) hx).amounts h

theorem put_amounts {l : Ledger} (h : ∀ a t, l a = some t → t.amount < W64) {x : Nat} {t : Option Tok}
    (ht : ∀ u, t = some u → u.amount < W64) : ∀ a t', l.put x t a = some t' → t'.amount < W64 := by
  intro a t' e
  unfold Ledger.put at e
  split at e
  · exact ht t' e
  · exact h a t' e

theorem tokExec_amounts {signs : Nat → Bool} {l l' : Ledger} {ix : TokIx} (hx : tokExec signs l ix = some l')
    (h : ∀ a t, l a = some t → t.amount < W64) : ∀ a t, l' a = some t → t.amount < W64 := by
  cases ix with
  | transfer src dst auth n =>
    simp only [tokExec] at hx
    split at hx
    · split at hx
      · rename_i e; cases hx; exact transfer_amounts h e
      · cases hx
    · cases hx
  | burn a auth n =>
    simp only [tokExec] at hx
    split at hx
    · rename_i t ht
      split at hx
      · split at hx
        · rename_i t' hd
          cases hx
          refine put_amounts h fun u hu => ?_
          cases hu
          have := h _ _ ht
          unfold debitTok at hd
          repeat' split at hd
          all_goals first
            | (cases hd; done)
            | (cases hd; show t.amount - n < W64; omega)
        · cases hx
      · cases hx
    · cases hx
  | openAcct =>
    simp only [tokExec] at hx
    split at hx
    · cases hx
    · cases hx; exact put_amounts h fun u hu => by cases hu; exact (by decide : 0 < W64)
  | close =>
    simp only [tokExec] at hx
    split at hx
    · split at hx
      · cases hx; exact put_amounts h fun u hu => by cases hu
      · cases hx
    · cases hx
  | mint =>
    simp only [tokExec] at hx
    split at hx
    · split at hx
      · rename_i hh
        cases hx; exact put_amounts h fun u hu => by cases hu; exact hh.2
      · cases hx
    · cases hx
  | freeze | thaw =>
    simp only [tokExec] at hx
    split at hx
    · rename_i ht
      cases hx; have := h _ _ ht; exact put_amounts h fun u hu => by cases hu; exact this
    · cases hx
  | approve | revoke | setOwner | setCloseAuthority =>
    simp only [tokExec] at hx
    split at hx
    · rename_i ht
      split at hx
      · cases hx; have := h _ _ ht; exact put_amounts h fun u hu => by cases hu; exact this
      · cases hx
    · cases hx

/-- What an instruction on the market at `k` does. -/
structure Done (P : Params) (n : Nat) (c : Chain) (M : Markets) (k : Nat) (keys : List Nat) (s s' : State conc) : Prop where
  upd : Updates s s'
  ord : Orders c k keys s s'
  seq : s'.seq ≤ 8 * (n + 1)
  reach : 0 < s.mkt.coinLot → 0 < s.mkt.pcLot → Reach P s'
  later : Later P s s'
  others : ∀ k' u, M k' = some u → k' ≠ k → 0 < u.mkt.coinLot → 0 < u.mkt.pcLot → Later P u { u with toks := s'.toks }
  vaults : ∀ k' u, M k' = some u → k' ≠ k → 0 < u.mkt.coinLot → 0 < u.mkt.pcLot →
    ∀ v, v = u.mkt.coinVault ∨ v = u.mkt.pcVault → bal s.toks v ≤ bal s'.toks v
  amounts : ∀ a t, s'.toks a = some t → t.amount < W64
  reqQ : s.mkt.reqQ ∈ keys ∨ s'.seq = s.seq
  eventQ : s.mkt.eventQ ∈ keys ∨ s'.q = s.q
  bids : s.mkt.bids ∈ keys ∨ s'.bids = s.bids
  asks : s.mkt.asks ∈ keys ∨ s'.asks = s.asks

/-- Tokens in a vault cannot be moved without its signer. -/
theorem vault_grows {u : State conc} (h : Reach P u) (hq : u.seq ≤ W64) {l : Ledger} {src dst auth m : Nat}
    (hn : P.vaultSigner u.mkt.ownAddress u.mkt.vaultSignerNonce ≠ some auth)
    (ht : splTransfer u.toks src dst auth m = .ok l) {v : Nat} (hv : v = u.mkt.coinVault ∨ v = u.mkt.pcVault) :
    bal u.toks v ≤ bal l v := by
  obtain ⟨vs, hvs, _, hi⟩ := h.view hq
  have o : Outside vs u.toks l := tokExec_outside (signs := fun x => x == auth) (ix := .transfer src dst auth m)
    (by
      by_cases e : vs = auth
      · subst e; exact absurd hvs hn
      · simpa using e) (by simp [tokExec, ht])
  rcases hv with rfl | rfl
  · exact (o.held _ hi.funds.coin).2
  · exact (o.held _ hi.funds.pc).2

/-- The surroundings an instruction sees on the chain. -/
def envOf (now : Int) (c : Chain) : Env := ⟨now, fun a => acctKind (c.accs a)⟩

theorem Holds.done (I : Holds P n c M) (hP : VaultsDiffer P) (hn : n + 1 < 2 ^ 61) {k : Nat} {s s' : State conc} (hM : M k = some s)
    {accts : List AccMeta} (hk : ∀ a ∈ accts, a.key < 256 ^ 32)
    (hs : ∀ a ∈ accts, a.signer = true → ∀ k n, P.vaultSigner k n ≠ some a.key) {data : List UInt8} {ix : Instruction}
    (hu : Instruction.unpack data = some ix) {now : Int} (h : process conc P (envOf now c) s accts ix = .ok s') :
    Done P n c M k (accts.map (·.key)) s s' := by
  obtain ⟨_, _, _, hv, _⟩ := decoding_is_strict _ _ hu
  have mi := I.mkts _ _ hM
  have r := mi.rep
  let X : Scope := {
    C := s.mkt.config
    B := ⟨s.bids.nodes.length, s.asks.nodes.length, s.q.buf.length⟩
    A := fun a => (c.accs a).owned = true ∧ ((c.accs a).data = zeros 3228 ∨ ∃ o, ooOf k (c.accs a) = some o)
    K := fun a => a ∈ accts.map (·.key)
    S := fun a => ∀ k n, P.vaultSigner k n ≠ some a
    F := ooAt s.oos
    T := fun l => (∀ a t, l a = some t → t.amount < W64) ∧
      ∀ k' u, M k' = some u → k' ≠ k → 0 < u.mkt.coinLot → 0 < u.mkt.pcLot → Later P u { u with toks := l } ∧
        ∀ v, v = u.mkt.coinVault ∨ v = u.mkt.pcVault → bal s.toks v ≤ bal l v
    O := s }
  have hT : Moves P X := by
    rintro l l' src dst auth m ⟨h1, h2⟩ ha ht
    refine ⟨transfer_amounts h1 ht, ?_⟩
    intro k' u hu hne hc hp
    have hau : P.vaultSigner u.mkt.ownAddress u.mkt.vaultSignerNonce ≠ some auth := by
      rcases ha with ha | ha
      · exact ha _ _
      · intro hx
        have e1 : u.mkt.ownAddress = k' := (I.mkts _ _ hu).rep.own
        have e2 := hP _ _ _ _ _ hx ha
        exact hne (e1.symm.trans (e2.trans r.own))
    obtain ⟨hr, hb⟩ := h2 k' u hu hne hc hp
    refine ⟨.step hr ?_, fun v hv => Nat.le_trans (hb v hv) ?_⟩
    · refine Step.token (s := { u with toks := l }) (signs := fun x => x == auth) (ix := .transfer src dst auth m) ?_ ?_
      · intro x hx
        have hx : x = auth := by simpa using hx
        subst hx
        exact hau
      · simp [tokExec, ht]
    · refine vault_grows (hr.reach ((I.mkts _ _ hu).reach hc hp)) ?_ hau ht hv
      have := (I.mkts _ _ hu).seq
      show u.seq ≤ _
      simp only [W64]
      omega
  have hz : Opens (envOf now c) X := by
    intro a b _ _ hz
    have hz : acctKind (c.accs a) = .zeroed b := hz
    unfold acctKind at hz
    split at hz
    · rename_i h
      simp only [Bool.and_eq_true, beq_iff_eq] at h
      exact ⟨h.1, .inl h.2⟩
    · cases hz
  have h0 : SFit X (8 * n) s := by
    refine ⟨⟨mi.fits, rfl, (market_flags_eq r.market).2.1⟩, mi.bids, mi.asks, r.same, mi.q, ?_, ⟨fun _ _ => rfl, fun _ h => h⟩, ?_,
      mi.seq, mi.count, .inr rfl, .inr rfl, .inr rfl, .inr rfl⟩
    · intro a o ho
      refine ⟨mi.oos a o ho, ?_⟩
      rw [r.oos] at ho
      exact ⟨(ooOf_some ho).1, .inr ⟨o, ho⟩⟩
    · refine ⟨by rw [r.toks]; exact I.amounts, ?_⟩
      intro k' u hu _ hc hp
      have mu := I.mkts _ _ hu
      have : ({ u with toks := s.toks } : State conc) = u := by rw [r.toks, ← mu.rep.toks]
      rw [this]
      exact ⟨.refl, fun _ _ => Nat.le_refl _⟩
  have ha : Addrs X accts := fun a ha => ⟨hk a ha, List.mem_map_of_mem ha, hs a ha⟩
  have f := fit_process hT hz h0 ha hv s' h
  have hperm : s'.mkt.permissioned = s.mkt.permissioned := by
    unfold Market.permissioned
    rcases process_flags h with e | ⟨_, e, _⟩
    · rw [e]
    · rw [e]; exact flags_permissioned h0.mkt.flags
  have hseq := f.seq
  have st : Step P s s' := by
    refine .instr (env := envOf now c) (accts := accts) (data := data) ?_ ?_
    · intro a ha hsg
      exact hs a ha hsg _ _
    · unfold processRaw
      rw [hu]
      exact h
  refine ⟨⟨f.mkt.cfg, hperm, f.mkt.fits, f.mkt.flags, ?_, ⟨mi.count, f.reqCount⟩, f.q, f.bids, f.asks, f.same⟩,
    ⟨f.oos, f.frame.1, f.frame.2⟩, by omega, fun hc hp => .step (mi.reach hc hp) st, .step .refl st,
    fun k' u hu hne hc hp => (f.toks.2 k' u hu hne hc hp).1,
    fun k' u hu hne hc hp => (f.toks.2 k' u hu hne hc hp).2, f.toks.1, f.atReqQ, f.atEventQ, f.atBids, f.atAsks⟩
  simp only [W64]; omega

/-- The markets after an instruction on the one at `k`. -/
def Markets.put (M : Markets) (k : Nat) (s : State conc) : Markets := fun x =>
  if x = k then some s else (M x).map fun u => { u with toks := s.toks }

theorem Markets.put_some {k x : Nat} {s u : State conc} (h : M.put k s x = some u) :
    (x = k ∧ u = s) ∨ (x ≠ k ∧ ∃ v, M x = some v ∧ u = { v with toks := s.toks }) := by
  unfold Markets.put at h
  split at h
  · exact .inl ⟨‹_›, (Option.some.inj h).symm⟩
  · obtain ⟨v, hv, rfl⟩ := Option.map_eq_some_iff.1 h
    exact .inr ⟨‹_›, v, hv, rfl⟩

theorem Holds.store (I : Holds P n c M) {k : Nat} {s s' : State conc} (hM : M k = some s) {keys : List Nat}
    (d : Done P n c M k keys s s') : Holds P (n + 1) (storeState c k s s' keys) (M.put k s') := by
  have mi := I.mkts _ _ hM
  have r := mi.rep
  have dj : ∀ k' u, M k' = some u → k' ≠ k → ∀ a, a ∈ u.mkt.own → a ∉ s.mkt.own := fun k' u hu hne =>
    I.disjoint _ _ _ _ hu hM hne
  have self : M.put k s' k = some s' := by simp [Markets.put]
  have other : ∀ {x u}, M x = some u → x ≠ k → M.put k s' x = some { u with toks := s'.toks } := by
    intro x u hx hne
    simp [Markets.put, hne, hx]
  refine ⟨?_, ?_, ?_, ?_, ?_, d.amounts⟩
  · intro x u hx
    rcases Markets.put_some hx with ⟨rfl, rfl⟩ | ⟨hne, v, hv, rfl⟩
    · refine ⟨store_rep r d.upd mi.key d.ord, d.upd.fits, ?_, ?_, ?_, fun a o ho => (d.ord.fit a o ho).1, d.seq,
        d.upd.count.2, ?_⟩
      · have := d.upd.q; rw [this.len.1]; exact this
      · have := d.upd.bids; rw [this.len.1]; exact this
      · have := d.upd.asks; rw [this.len.1]; exact this
      · intro hc hp
        have e1 : u.mkt.coinLot = s.mkt.coinLot := cfg_field (·.coinLot) (fun _ => rfl) d.upd.cfg
        have e2 : u.mkt.pcLot = s.mkt.pcLot := cfg_field (·.pcLot) (fun _ => rfl) d.upd.cfg
        exact d.reach (by omega) (by omega)
    · have mv := I.mkts _ _ hv
      exact ⟨store_rep_other r d.upd mi.key mv.rep hne (dj x v hv hne) d.ord, mv.fits, mv.q, mv.bids, mv.asks, mv.oos,
        by have := mv.seq; show v.seq ≤ _; omega, mv.count,
        fun hc hp => (d.others x v hv hne hc hp).reach (mv.reach hc hp)⟩
  · intro a ha
    have ha : (c.accs a).owned = true := ha
    by_cases hown : a ∈ s.mkt.own
    · exact .inr ⟨k, s', self, .inl (by rw [own_eq d.upd]; exact hown)⟩
    · rcases put_other (s' := s') (keys := keys) (d := (c.accs a).data) r.own hown with e | ⟨o, _, hs, _⟩
      · have e' : ((storeState c k s s' keys).accs a).data = (c.accs a).data := e
        rw [e']
        rcases I.kinds a ha with h | ⟨x, u, hx, hu⟩
        · exact .inl h
        · by_cases hxk : x = k
          · subst hxk
            rw [hM] at hx
            cases hx
            rcases hu with hu | ⟨o, hu⟩
            · exact absurd hu hown
            · refine .inr ⟨x, s', self, .inr ?_⟩
              cases hs : ooAt s'.oos a with
              | none => rw [d.ord.kept a hs] at hu; cases hu
              | some o => exact ⟨o, rfl⟩
          · exact .inr ⟨x, _, other hx hxk, hu⟩
      · exact .inr ⟨k, s', self, .inr ⟨o, hs⟩⟩
  · intro x u y v hx hy hne a ha
    rcases Markets.put_some hx with ⟨rfl, rfl⟩ | ⟨hnx, u', hu, rfl⟩
    · rcases Markets.put_some hy with ⟨rfl, rfl⟩ | ⟨hny, v', hv, rfl⟩
      · exact absurd rfl hne
      · rw [own_eq d.upd] at ha
        exact fun hb => dj _ _ hv hny a hb ha
    · rcases Markets.put_some hy with ⟨rfl, rfl⟩ | ⟨hny, v', hv, rfl⟩
      · rw [own_eq d.upd]
        exact dj _ _ hu hnx a ha
      · exact I.disjoint _ _ _ _ hu hv hne a ha
  · intro a ha
    rcases put_padded k s s' keys a (c.accs a).data with e | ⟨b, e⟩
    · have e' : ((storeState c k s s' keys).accs a).data = (c.accs a).data := e
      rw [e']; exact I.bytes a ha
    · exact .inr ⟨b, e⟩
  · intro a
    rw [store_lengths r d.upd mi.key d.ord]
    exact I.lens a


/-! ### The steps -/

/-- A representation depends on the accounts of the market, the decoded open-orders accounts and the ledger. -/
theorem Rep.transfer {c c' : Chain} {k : Nat} {s : State conc} (h : Rep c k s) {l : List (Nat × OpenOrders)}
    (ho : ∀ a ∈ s.mkt.own, (c'.accs a).data = (c.accs a).data ∧ (c'.accs a).owned = (c.accs a).owned)
    (hl : ∀ a, ooAt l a = ooOf k (c'.accs a)) : Rep c' k { s with oos := l, toks := c'.toks } := by
  obtain ⟨h1, h2, h3, h4, h5, h6, h7, h8, h9, h10⟩ := h
  have m0 := ho k (by simp [Market.own, h2])
  have m1 := ho s.mkt.reqQ (by simp [Market.own])
  have m2 := ho s.mkt.eventQ (by simp [Market.own])
  have m3 := ho s.mkt.bids (by simp [Market.own])
  have m4 := ho s.mkt.asks (by simp [Market.own])
  refine ⟨?_, h2, ?_, ?_, ?_, ?_, h7, ?_, hl, rfl⟩
  · show loadMarketBytes (c'.accs k).owned (c'.accs k).data true = .ok s.mkt
    rw [m0.1, m0.2]; exact h1
  · show ∃ n, loadReqQBytes (c'.accs s.mkt.reqQ).data = _
    rw [m1.1]; exact h3
  · show loadEventQBytes (c'.accs s.mkt.eventQ).data = _
    rw [m2.1]; exact h4
  · show loadBookBytes _ (c'.accs s.mkt.asks).data = _
    rw [m4.1]; exact h5
  · intro hn
    show loadBookBytes _ (c'.accs s.mkt.bids).data = _
    rw [m3.1]; exact h6 hn
  · intro a ha
    rw [(ho a ha).2]; exact h8 a ha

theorem Holds.token (I : Holds P n c M) {signs : Nat → Bool} {ix : TokIx} {l : Ledger}
    (hs : ∀ a, signs a = true → ∀ k n, P.vaultSigner k n ≠ some a) (h : tokExec signs c.toks ix = some l) :
    Holds P (n + 1) { c with toks := l } (fun k => (M k).map fun s => { s with toks := l }) := by
  refine ⟨?_, ?_, ?_, I.bytes, I.lens, tokExec_amounts h I.amounts⟩
  · intro k s hk
    obtain ⟨u, hu, rfl⟩ := Option.map_eq_some_iff.1 hk
    have m := I.mkts _ _ hu
    refine ⟨m.rep.transfer (c' := { c with toks := l }) (fun _ _ => ⟨rfl, rfl⟩) m.rep.oos, m.fits, m.q, m.bids, m.asks, m.oos,
      by have := m.seq; show u.seq ≤ _; omega, m.count, ?_⟩
    intro hc hp
    exact .step (m.reach hc hp) (.token (signs := signs) (ix := ix) (fun x hx => hs x hx _ _) (by rw [m.rep.toks]; exact h))
  · intro a ha
    rcases I.kinds a ha with h | ⟨k, s, hk, hs⟩
    · exact .inl h
    · exact .inr ⟨k, { s with toks := l }, by simp [hk], hs⟩
  · intro k s k' s' hk hk' hne
    obtain ⟨u, hu, rfl⟩ := Option.map_eq_some_iff.1 hk
    obtain ⟨u', hu', rfl⟩ := Option.map_eq_some_iff.1 hk'
    exact I.disjoint k u k' u' hu hu' hne

/-- A closed account disappears from its market. -/
def dropped (s : State conc) (a : Nat) : State conc :=
  if (ooAt s.oos a).isSome then { s with oos := purgeOo s.oos a } else s

theorem dropped_rest (s : State conc) (a : Nat) : (dropped s a).mkt = s.mkt ∧ (dropped s a).q = s.q ∧
    (dropped s a).bids = s.bids ∧ (dropped s a).asks = s.asks ∧ (dropped s a).seq = s.seq ∧
    (dropped s a).reqCount = s.reqCount ∧ (dropped s a).toks = s.toks ∧ dropped s a = { s with oos := (dropped s a).oos } ∧
    ∀ b, ooAt (dropped s a).oos b = if b = a then none else ooAt s.oos b := by
  unfold dropped
  split
  · exact ⟨rfl, rfl, rfl, rfl, rfl, rfl, rfl, rfl, fun b => ooAt_purge _ _ _⟩
  · rename_i h
    refine ⟨rfl, rfl, rfl, rfl, rfl, rfl, rfl, rfl, fun b => ?_⟩
    split
    · rename_i e; subst e; simpa using h
    · rfl

theorem Holds.alter (I : Holds P n c M) {a : Nat} {r : RawAcc} (h : Alters (c.accs a) r) :
    ∃ M', Holds P (n + 1) { c with accs := fun x => if x = a then r else c.accs x } M' ∧
      (∀ k s, M k = some s → ∃ s', M' k = some s' ∧ Later P s s') ∧ ∀ k, M k = none → M' k = none := by
  cases h with
  | lamports e =>
    refine ⟨M, ?_, fun k s h => ⟨s, h, .refl⟩, fun _ h => h⟩
    have ed : ∀ x, ((if x = a then { c.accs a with exempt := e } else c.accs x) : RawAcc).data = (c.accs x).data := by
      intro x; split
      · rename_i e; rw [e]
      · rfl
    have eo : ∀ x, ((if x = a then { c.accs a with exempt := e } else c.accs x) : RawAcc).owned = (c.accs x).owned := by
      intro x; split
      · rename_i e; rw [e]
      · rfl
    have eoo : ∀ k x, ooOf k ((if x = a then { c.accs a with exempt := e } else c.accs x) : RawAcc) = ooOf k (c.accs x) := by
      intro k x; unfold ooOf; rw [ed, eo]
    refine ⟨?_, ?_, I.disjoint, ?_, ?_, I.amounts⟩
    · intro k s hk
      have m := I.mkts _ _ hk
      have hr := m.rep.transfer (c' := { c with accs := fun x => if x = a then { c.accs a with exempt := e } else c.accs x })
        (l := s.oos) (fun x _ => ⟨ed x, eo x⟩) (fun x => by rw [m.rep.oos]; exact (eoo k x).symm)
      have : ({ s with oos := s.oos, toks := c.toks } : State conc) = s := by rw [← m.rep.toks]
      rw [this] at hr
      exact ⟨hr, m.fits, m.q, m.bids, m.asks, m.oos, by have := m.seq; omega, m.count, m.reach⟩
    · intro x hx
      simp only [eo, ed] at hx ⊢
      exact I.kinds x hx
    · intro x hx
      simp only [eo, ed] at hx ⊢
      exact I.bytes x hx
    · intro x
      simp only [ed]
      exact I.lens x
  | other h hz hl =>
    have hnew : ∀ k, ooOf k r = none := by
      intro k
      cases ho : r.owned with
      | false => exact ooOf_unowned ho
      | true =>
        obtain ⟨n, hn⟩ := hz ho
        apply ooOf_none_word <;> rw [hn, flagsWord_zeros] <;> omega
    have hown : ∀ k s, M k = some s → ∀ x ∈ s.mkt.own, x ≠ a := by
      rintro k s hk x hx rfl
      have m := I.mkts _ _ hk
      rcases h with h | h
      · rw [m.rep.owned _ hx] at h; cases h
      · exact (m.rep.nonzero hx).2.2.1 h
    have hclosed : ∀ k s o, M k = some s → ooAt s.oos a = some o → o.closed = true := by
      intro k s o hk ho
      have m := I.mkts _ _ hk
      rw [m.rep.oos] at ho
      obtain ⟨g1, _, g2, _⟩ := ooOf_some ho
      rcases h with h | h
      · rw [g1] at h; cases h
      · have h : flagsWord (c.accs a).data = 256 := h
        rw [g2] at h
        cases hc : o.closed with
        | true => rfl
        | false => rw [hc] at h; simp at h
    refine ⟨fun k => (M k).map fun s => dropped s a, ?_, fun k s hk => ⟨dropped s a, by simp [hk], ?_⟩,
      fun k hk => by simp [hk]⟩
    rotate_left
    · unfold dropped
      cases ho : ooAt s.oos a with
      | none => exact .refl
      | some o => exact .step .refl (.purge ho (hclosed _ _ _ hk ho))
    refine ⟨?_, ?_, ?_, ?_, ?_, I.amounts⟩
    · intro k s hk
      obtain ⟨u, hu, rfl⟩ := Option.map_eq_some_iff.1 hk
      have m := I.mkts _ _ hu
      obtain ⟨d1, d2, d3, d4, d5, d6, d7, d8, d9⟩ := dropped_rest u a
      have hr := m.rep.transfer (c' := { c with accs := fun x => if x = a then r else c.accs x }) (l := (dropped u a).oos)
        (fun x hx => by
          have : x ≠ a := hown _ _ hu x hx
          simp [this]) (fun x => by
          rw [d9]
          by_cases hx : x = a
          · simp [hx, hnew]
          · simp only [if_neg hx]; exact m.rep.oos x)
      have e : ({ u with oos := (dropped u a).oos, toks := c.toks } : State conc) = dropped u a := by
        rw [← m.rep.toks]; exact d8.symm
      rw [e] at hr
      refine ⟨hr, by rw [d1]; exact m.fits, by rw [d2]; exact m.q, by rw [d3]; exact m.bids, by rw [d4]; exact m.asks, ?_,
        by rw [d5]; have := m.seq; omega, by rw [d6]; exact m.count, ?_⟩
      · intro x o ho
        rw [d9] at ho
        split at ho
        · cases ho
        · exact m.oos x o ho
      · rw [d1]
        intro hc hp
        unfold dropped
        cases ho : ooAt u.oos a with
        | none => exact m.reach hc hp
        | some o => exact .step (m.reach hc hp) (.purge ho (hclosed _ _ _ hu ho))
    · intro x hx
      by_cases hxa : x = a
      · simp only [if_pos hxa] at hx ⊢
        exact .inl (hz hx)
      · simp only [if_neg hxa] at hx ⊢
        rcases I.kinds x hx with h | ⟨k, s, hk, hs⟩
        · exact .inl h
        · obtain ⟨d1, _, _, _, _, _, _, _, d9⟩ := dropped_rest s a
          refine .inr ⟨k, dropped s a, by simp [hk], ?_⟩
          rw [d1, d9, if_neg hxa]
          exact hs
    · intro k s k' s' hk hk' hne
      obtain ⟨u, hu, rfl⟩ := Option.map_eq_some_iff.1 hk
      obtain ⟨u', hu', rfl⟩ := Option.map_eq_some_iff.1 hk'
      rw [(dropped_rest u a).1, (dropped_rest u' a).1]
      exact I.disjoint _ _ _ _ hu hu' hne
    · intro x hx
      by_cases hxa : x = a
      · simp only [if_pos hxa] at hx ⊢
        obtain ⟨m, hm⟩ := hz hx
        exact .inl ⟨m, hm⟩
      · simp only [if_neg hxa] at hx ⊢
        exact I.bytes x hx
    · intro x
      by_cases hxa : x = a
      · simp only [if_pos hxa]; exact hl
      · simp only [if_neg hxa]; exact I.lens x


/-! ### Creating a market -/

theorem setData_meta (W : Accs) (a : Nat) (d : List UInt8) (x : Nat) :
    (setData W a d x).owned = (W x).owned ∧ (setData W a d x).exempt = (W x).exempt := by
  unfold setData
  split <;> exact ⟨rfl, rfl⟩

theorem created_meta (W : Accs) (ix : InitMarketIx) (G : Given) (x : Nat) :
    (created W ix G x).owned = (W x).owned ∧ (created W ix G x).exempt = (W x).exempt := by
  unfold created
  simp only
  refine ⟨?_, ?_⟩
  · simp only [fun W a d => (setData_meta W a d x).1]
  · simp only [fun W a d => (setData_meta W a d x).2]

theorem setData_length {W : Accs} {a : Nat} {d : List UInt8} (h : d.length = (W a).data.length) (x : Nat) :
    (setData W a d x).data.length = (W x).data.length := by
  unfold setData
  split
  · rename_i e; subst e; exact h
  · rfl

theorem created_length {W : Accs} {ix : InitMarketIx} {G : Given} {mints : Nat → Bool} {toks : Ledger}
    (h : InitOk P mints toks W G ix.vaultSignerNonce) (x : Nat) : (created W ix G x).data.length = (W x).data.length := by
  have p8 : ∀ w, (packFields [(8, w)]).length = 8 := fun w => by rw [packFields_length]; rfl
  have p32 : ∀ w x y z, (packFields [(8, w), (8, x), (8, y), (8, z)]).length = 32 := fun w x y z => by
    rw [packFields_length]; rfl
  have h1 := h.reqQ
  have h2 := h.eventQ
  have h3 := h.bids
  have h4 := h.asks
  have h5 := h.market
  have e1 : ∀ y, (setData W G.reqQ (reqQBytes 0 0 0 (zeros ((W G.reqQ).data.length - 44))) y).data.length =
      (W y).data.length := setData_length (by
    unfold reqQBytes; rw [padded_length, List.length_append, p32, zeros_length]; omega)
  unfold created
  simp only
  rw [setData_length, setData_length, setData_length, setData_length, e1]
  · rw [e1, padded_length, List.length_append, p32, zeros_length]; omega
  · rw [setData_length, e1, padded_length, List.length_append, p8, zeros_length]
    · omega
    · rw [e1, padded_length, List.length_append, p32, zeros_length]; omega
  · rw [setData_length, setData_length, e1, padded_length, List.length_append, p8, zeros_length]
    · omega
    · rw [e1, padded_length, List.length_append, p32, zeros_length]; omega
    · rw [setData_length, e1, padded_length, List.length_append, p8, zeros_length]
      · omega
      · rw [e1, padded_length, List.length_append, p32, zeros_length]; omega
  · rw [setData_length, setData_length, setData_length, e1, market_bytes_length, h5, newMarket_permissioned]
    · by_cases hh : G.auth = [] <;> simp [hh]
    · rw [e1, padded_length, List.length_append, p32, zeros_length]; omega
    · rw [setData_length, e1, padded_length, List.length_append, p8, zeros_length]
      · omega
      · rw [e1, padded_length, List.length_append, p32, zeros_length]; omega
    · rw [setData_length, setData_length, e1, padded_length, List.length_append, p8, zeros_length]
      · omega
      · rw [e1, padded_length, List.length_append, p32, zeros_length]; omega
      · rw [setData_length, e1, padded_length, List.length_append, p8, zeros_length]
        · omega
        · rw [e1, padded_length, List.length_append, p32, zeros_length]; omega

theorem fresh_slab_fit {k : Nat} (h : k ≤ 256 ^ 4) : SlabFit (Slab.fresh k).nodes.length (Slab.fresh k) := by
  refine ⟨Nat.zero_le _, (by decide : 0 < W64), (by decide : 0 < 256 ^ 4), (by decide : 0 < 256 ^ 4), (by decide : 0 < W64), ?_, rfl, by simpa [Slab.fresh] using h⟩
  intro x hx
  rw [List.eq_of_mem_replicate hx]
  trivial

theorem fresh_queue_fit {k : Nat} (h : k < W64) :
    QueueFit (Queue.fresh (List.replicate k Event.zero)).buf.length (Queue.fresh (List.replicate k Event.zero)) := by
  refine ⟨by simp [Queue.fresh]; decide, by simp [Queue.fresh]; decide, by simp [Queue.fresh]; decide, ?_, rfl, by simpa [Queue.fresh] using h⟩
  intro x hx
  rw [List.eq_of_mem_replicate hx]
  intro f hf
  have : (Event.zero.fields.all fun f => decide (f.2 < 256 ^ f.1)) = true := by decide +kernel
  simpa using List.all_eq_true.1 this f hf

theorem keys_inj {G G' : Given} (e : G'.keys = G.keys) : G' = G := by
  obtain ⟨_, _, _, _, _, _, _, _, _, _, _⟩ := G
  obtain ⟨_, _, _, _, _, _, _, _, _, _, _⟩ := G'
  simp only [Given.keys, List.cons_append, List.nil_append, List.cons.injEq] at e
  obtain ⟨rfl, rfl, rfl, rfl, rfl, rfl, rfl, rfl, rfl, rfl, rfl⟩ := e
  rfl

/-- Creating a market adds it to the chain; the others stay. -/
theorem Holds.init (I : Holds P n c M) {mints : Nat → Bool} {accts : List AccMeta} {ix : InitMarketIx} {W : Accs}
    (hk : ∀ a ∈ accts, a.key < 256 ^ 32) (hv : IxValid (.initializeMarket ix))
    (h : initMarket P mints c.toks c.accs accts ix = .ok W) :
    ∃ G nb na nq, accts.map (·.key) = G.keys ∧ InitOk P mints c.toks c.accs G ix.vaultSignerNonce ∧
      W = created c.accs ix G ∧ nb = ((c.accs G.bids).data.length - 52) / 72 ∧
      na = ((c.accs G.asks).data.length - 52) / 72 ∧ nq = ((c.accs G.eventQ).data.length - 44) / 88 ∧ M G.market = none ∧
      Holds P (n + 1) { c with accs := W }
        (fun x => if x = G.market then some (emptyState c.toks (newMarket ix G) nb na nq) else M x) := by
  have hlen : ∀ a, (c.accs a).data.length < 2 ^ 63 := fun a => Nat.lt_of_le_of_lt (I.lens a) (by decide)
  obtain ⟨G, s, nb, na, nq, hG, rfl, hst, b1, b2, b3, b4, b5, b6, hgen, hfr, hpad⟩ :=
    fresh_market I.bytes hlen hk hv I.amounts h
  obtain ⟨G', hG', ok, hW⟩ := (init_market_iff I.bytes).1 h
  have hGG : G' = G := keys_inj (hG'.symm.trans hG)
  subst hGG
  have hk' : ∀ a ∈ G'.keys, a < 256 ^ 32 := by
    intro a ha
    rw [← hG] at ha
    obtain ⟨x, hx, rfl⟩ := List.mem_map.1 ha
    exact hk x hx
  have own : (newMarket ix G').own = G'.own := rfl
  have hmeta : ∀ x, (W x).owned = (c.accs x).owned := fun x => by rw [hW]; exact (created_meta _ _ _ x).1
  have blank : ∀ a ∈ G'.own, flagsWord (c.accs a).data = 0 := by
    intro a ha
    obtain ⟨m, hm⟩ := ok.blank a ha
    rw [hm]
    exact flagsWord_zeros m
  have outside : ∀ k s, M k = some s → ∀ a ∈ s.mkt.own, a ∉ G'.own := fun k s hM a ha hb =>
    ((I.mkts _ _ hM).rep.nonzero ha).1 (blank a hb)
  have hnone : M G'.market = none := by
    cases e : M G'.market with
    | none => rfl
    | some s =>
      exact absurd (by simp [Given.own]) (outside _ _ e G'.market (by simp [Market.own, (I.mkts _ _ e).rep.own]))
  have hbook : nb ≤ 256 ^ 4 ∧ na ≤ 256 ^ 4 ∧ nq < W64 := by
    have l1 := I.lens G'.bids
    have l2 := I.lens G'.asks
    have l3 := I.lens G'.eventQ
    simp only [maxLen] at l1 l2 l3
    simp only [W64]
    omega
  have newWords : Words { c with accs := W } G'.market (newMarket ix G') := by
    refine ⟨market_flags_word hst.market, ?_, ?_, book_flags hst.asks, fun hn => book_flags (hst.bids hn)⟩
    · obtain ⟨_, _, h⟩ := hst.reqQ
      exact List.mem_singleton.1 (loads_flags (k := .requests) ⟨_, h⟩)
    · exact List.mem_singleton.1 (loads_flags (k := .events) ⟨_, hst.eventQ⟩)
  have oldNone : ∀ k, ∀ a ∈ G'.own, ooOf k (c.accs a) = none := by
    intro k a ha
    apply ooOf_none_word <;> rw [blank a ha] <;> omega
  have newNone : ∀ k, ∀ a ∈ G'.own, ooOf k (W a) = none := by
    intro k a ha
    have w := newWords.own rfl (a := a) (by rw [own]; exact ha)
    exact ooOf_none_word w.2.1 w.2.2.1
  have sameOo : ∀ k a, ooOf k (W a) = ooOf k (c.accs a) := by
    intro k a
    by_cases ha : a ∈ G'.own
    · rw [oldNone k a ha, newNone k a ha]
    · rw [hfr a ha]
  have noOo : ∀ a, ooOf G'.market (W a) = none := by
    intro a
    rw [sameOo]
    cases e : ooOf G'.market (c.accs a) with
    | none => rfl
    | some o =>
      exfalso
      have hw := ooOf_word e
      rcases I.kinds a (ooOf_some e).1 with ⟨l, hl⟩ | ⟨x, u, hx, hu | ⟨o', hu⟩⟩
      · rw [hl, flagsWord_zeros] at hw; omega
      · have := (I.mkts _ _ hx).rep.nonzero hu; omega
      · rw [(I.mkts _ _ hx).rep.oos] at hu
        rw [← ooOf_unique e hu, hnone] at hx
        cases hx
  refine ⟨G', nb, na, nq, hG, ok, hW, b4, b5, b6, hnone, ?_⟩
  refine ⟨?_, ?_, ?_, ?_, ?_, I.amounts⟩
  · intro x u hx
    split at hx
    · rename_i e
      subst e
      cases hx
      refine ⟨⟨?_, rfl, ?_, hst.eventQ, hst.asks, hst.bids, ?_, ?_, fun a => (noOo a).symm, rfl⟩, new_market_fits hk' hv,
        fresh_queue_fit hbook.2.2, fresh_slab_fit hbook.1, fresh_slab_fit hbook.2.1, ?_, Nat.zero_le _, rfl, ?_⟩
      · have hl := hst.market
        have hl2 := market_flags_eq hl
        have ow : (W G'.market).owned = true := hl2.2.2.1
        have wm : (W G'.market).data = (newMarket ix G').bytes := by rw [hW]; exact setData_same _ _ _
        show loadMarketBytes (W G'.market).owned (W G'.market).data true = _
        rw [ow, wm, market_bytes _ (new_market_fits hk' hv)]
        show Except.map _ (checkMarketFlags (newMarket ix G').flags true) = Except.ok (newMarket ix G')
        rcases new_market_flags ix G' with h | h | h <;> rw [h] <;> rfl
      · obtain ⟨m, _, h⟩ := hst.reqQ
        exact ⟨m, h⟩
      · intro he
        have he : G'.bids = G'.asks := he
        show Slab.fresh nb = Slab.fresh na
        rw [b4, b5, he]
      · intro a ha
        show (W a).owned = true
        rw [hmeta]
        exact ok.owned a ha
      · intro a o ho; cases ho
      · intro hc hp
        exact (hgen hc hp).2
    · have m := I.mkts _ _ hx
      have hr := m.rep.transfer (c' := { c with accs := W }) (l := u.oos) (fun a ha => by
          show (W a).data = _ ∧ (W a).owned = _
          rw [hfr a (outside _ _ hx a ha)]
          exact ⟨rfl, rfl⟩) (fun a => by rw [m.rep.oos]; exact (sameOo x a).symm)
      have : ({ u with oos := u.oos, toks := c.toks } : State conc) = u := by rw [← m.rep.toks]
      rw [this] at hr
      exact ⟨hr, m.fits, m.q, m.bids, m.asks, m.oos, by have := m.seq; omega, m.count, m.reach⟩
  · intro a ha
    have ha : (W a).owned = true := ha
    rw [hmeta] at ha
    by_cases hg : a ∈ G'.own
    · exact .inr ⟨G'.market, emptyState c.toks (newMarket ix G') nb na nq, by simp, .inl hg⟩
    · show (∃ l, (W a).data = zeros l) ∨ _
      rw [hfr a hg]
      rcases I.kinds a ha with h | ⟨x, u, hx, hu⟩
      · exact .inl h
      · have hne : x ≠ G'.market := by rintro rfl; rw [hnone] at hx; cases hx
        exact .inr ⟨x, u, by simp [hne, hx], hu⟩
  · intro x u y v hx hy hne a ha
    split at hx
    · rename_i e1
      cases hx
      split at hy
      · rename_i e2; exact absurd (e1.trans e2.symm) hne
      · exact fun hb => outside _ _ hy a hb ha
    · split at hy
      · cases hy
        exact outside _ _ hx a ha
      · exact I.disjoint _ _ _ _ hx hy hne a ha
  · intro a ha
    have ha : (W a).owned = true := ha
    show OwnedBytes (W a).data
    by_cases hg : a ∈ G'.own
    · exact .inr (hpad a hg)
    · rw [hfr a hg]
      rw [hmeta] at ha
      exact I.bytes a ha
  · intro a
    show (W a).data.length ≤ maxLen
    rw [hW, created_length ok]
    exact I.lens a

/-! ### Histories -/

/-- The three ways an instruction succeeds. -/
theorem exec_cases {mints : Nat → Bool} {now : Int} {c' : Chain} {accts : List AccMeta} {data : List UInt8}
    (h : execBytes P mints now c accts data = .ok c') :
    (∃ ix W, Instruction.unpack data = some (.initializeMarket ix) ∧ initMarket P mints c.toks c.accs accts ix = .ok W ∧
      c' = { c with accs := W }) ∨
    (∃ limit, Instruction.unpack data = some (.matchOrders limit) ∧ c' = c) ∨
    ∃ ix k s s', Instruction.unpack data = some ix ∧ marketAt ix accts = some k ∧
      loadState c k (accts.map (·.key)) = .ok s ∧ process conc P (envOf now c) s accts ix = .ok s' ∧
      c' = storeState c k s s' (accts.map (·.key)) := by
  unfold execBytes at h
  split at h
  · cases h
  · obtain ⟨W, hW, h⟩ := bind_ok h
    cases h
    exact .inl ⟨_, W, by assumption, hW, rfl⟩
  · cases h
    exact .inr (.inl ⟨_, by assumption, rfl⟩)
  · split at h
    · cases h
    · rename_i k hk
      obtain ⟨s, hs, h⟩ := bind_ok h
      obtain ⟨s', hs', h⟩ := bind_ok h
      cases h
      exact .inr (.inr ⟨_, k, s, s', by assumption, hk, hs, hs', rfl⟩)

/-- An instruction that succeeds on the bytes: the state the bytes stand for moves accordingly. -/
theorem Holds.exec (I : Holds P n c M) (hP : VaultsDiffer P) (hn : n + 1 < 2 ^ 61) {accts : List AccMeta}
    (hk : ∀ a ∈ accts, a.key < 256 ^ 32) (hs : ∀ a ∈ accts, a.signer = true → ∀ k n, P.vaultSigner k n ≠ some a.key)
    {data : List UInt8} {ix : Instruction} (hu : Instruction.unpack data = some ix) {now : Int} {k : Nat} {t t' : State conc}
    (hl : loadState c k (accts.map (·.key)) = .ok t) (hp : process conc P (envOf now c) t accts ix = .ok t') :
    ∃ s s', M k = some s ∧ process conc P (envOf now c) s accts ix = .ok s' ∧
      Done P n c M k (accts.map (·.key)) s s' ∧
      storeState c k t t' (accts.map (·.key)) = storeState c k s s' (accts.map (·.key)) := by
  have hm : ∃ m, loadMarketBytes (c.accs k).owned (c.accs k).data true = .ok m := by
    unfold loadState at hl
    obtain ⟨m, hm, _⟩ := bind_ok hl
    exact ⟨m, hm⟩
  obtain ⟨m, hm⟩ := hm
  obtain ⟨s, hM, _⟩ := I.found hm
  have r := (I.mkts _ _ hM).rep
  rw [r.load] at hl
  cases hl
  have nr := r.near (accts.map (·.key))
  obtain ⟨s', hs', nr'⟩ := Sim.ok_left (near_process P (envOf now c) nr (fun a ha => List.mem_map_of_mem ha) ix) hp
  exact ⟨s, s', hM, hs', I.done hP hn hM hk hs hu hs', store_near nr nr'⟩

/-- Every reachable chain holds markets and nothing else. -/
theorem CReach.holds (hP : VaultsDiffer P) (h : CReach P n c) (hn : n < 2 ^ 61) : ∃ M, Holds P n c M := by
  induction h with
  | start h =>
    refine ⟨fun _ => none, ?_, ?_, ?_, ?_, h.lens, h.amounts⟩
    · intro k s hk; cases hk
    · intro a ha; rw [h.owned] at ha; cases ha
    · intro k s k' s' hk; cases hk
    · intro a ha; rw [h.owned] at ha; cases ha
  | step h hst ih =>
    obtain ⟨M, I⟩ := ih (by omega)
    cases hst with
    | instr hk hs hx =>
      rcases exec_cases hx with ⟨ix, W, hu, hW, rfl⟩ | ⟨_, _, rfl⟩ | ⟨ix, k, t, t', hu, _, hl, hp, rfl⟩
      · obtain ⟨_, _, _, hv, _⟩ := decoding_is_strict _ _ hu
        obtain ⟨_, _, _, _, _, _, _, _, _, _, _, J⟩ := I.init hk hv hW
        exact ⟨_, J⟩
      · exact ⟨M, fun k s hM => (I.mkts k s hM).mono, I.kinds, I.disjoint, I.bytes, I.lens, I.amounts⟩
      · obtain ⟨s, s', hM, _, d, e⟩ := I.exec hP hn hk hs hu hl hp
        rw [e]
        exact ⟨_, I.store hM d⟩
    | token hs hx => exact ⟨_, I.token hs hx⟩
    | alter ha =>
      obtain ⟨M', J, _⟩ := I.alter ha
      exact ⟨M', J⟩

end Serum
