import Verif.PropsInit

/-!
C98: what `InitializeMarket` answers when it refuses. The answer is that of the first fault in a fixed list of
faults, each said in terms of the accounts given.
-/

namespace Serum.Props

/-- The answer for the first of the faults that is present. -/
def FirstFault : List (Prop × Err) → Err → Prop
  | [], _ => False
  | f :: l, e => (f.1 ∧ e = f.2) ∨ (¬ f.1 ∧ FirstFault l e)

/-- An account ready to become one of the market's: the program's, nothing but zero bytes, of an aligned size. -/
structure ReadyAcc (a : RawAcc) : Prop where
  owned : a.owned = true
  blank : ∃ n, a.data = List.replicate n 0
  aligned : a.data.length % 8 = 4
  header : 20 ≤ a.data.length

/-- Everything that can be wrong with a new market, in the order in which it is noticed, and the answers. -/
def initFaults (P : Params) (mints : Nat → Bool) (toks : Ledger) (W : Accs) (G : Given) (nonce : Nat) :
    List (Prop × Err) :=
  let len a := (W a).data.length
  [ (3 < G.auth.length, .assertion),
    (∃ a ∈ [G.reqQ, G.eventQ, G.bids, G.asks, G.coinVault, G.pcVault, G.coinMint, G.pcMint], (W a).exempt = false,
      .assertion),
    (∃ a ∈ G.own, ¬ ReadyAcc (W a), .assertion),
    (P.vaultSigner G.market nonce = none, .programError),
    (∃ vs, P.vaultSigner G.market nonce = some vs ∧ ¬ (GoodVault mints toks vs G.coinVault G.coinMint ∧
      GoodVault mints toks vs G.pcVault G.pcMint), .assertion),
    (len G.reqQ < 44, .panic),
    (len G.reqQ < 124, .requestQueueEmpty),
    (G.eventQ = G.reqQ, .panic),
    (len G.eventQ ≤ 44, .assertion),
    (len G.eventQ < 11308, .eventQueueTooSmall),
    (G.bids = G.reqQ ∨ G.bids = G.eventQ, .panic),
    (len G.bids ≤ 20, .assertion),
    (len G.bids < 52, .panic),
    (len G.bids < 14524, .slabTooSmall),
    (G.asks = G.reqQ ∨ G.asks = G.eventQ, .panic),
    (len G.asks ≤ 20, .assertion),
    (len G.asks < 52, .panic),
    (len G.asks < 14524, .slabTooSmall),
    (G.market = G.reqQ ∨ G.market = G.eventQ, .programError),
    (len G.market ≠ (if G.auth = [] then 388 else 1476), .assertion) ]

/-! ### Proof -/

theorem checkAssert_err {b : Bool} {e : Err} (h : checkAssert b = .error e) : b = false ∧ e = .assertion := by
  unfold checkAssert at h
  split at h
  · cases h
  · rename_i hb
    cases h
    exact ⟨by simpa using hb, rfl⟩

theorem bind_err {α β : Type} {x : Except Err α} {f : α → Except Err β} {e : Err} (h : (x >>= f) = .error e) :
    x = .error e ∨ ∃ a, x = .ok a ∧ f a = .error e := by
  cases x with
  | error e' => cases h; exact .inl rfl
  | ok a => exact .inr ⟨a, rfl, h⟩

theorem checkBlank_err {a : RawAcc} {e : Err} (h : checkBlank a = .error e) : e = .assertion := by
  unfold checkBlank at h
  rcases bind_err h with h | ⟨_, _, h⟩
  · exact (checkAssert_err h).2
  rcases bind_err h with h | ⟨_, _, h⟩
  · exact (checkAssert_err h).2
  rcases bind_err h with h | ⟨_, _, h⟩
  · exact (checkAssert_err h).2
  rcases bind_err h with h | ⟨_, _, h⟩
  · exact (checkAssert_err h).2
  rcases bind_err h with h | ⟨_, _, h⟩
  · exact (checkAssert_err h).2
  · exact (checkAssert_err h).2

theorem checkVault_err {mints : Nat → Bool} {toks : Ledger} {vs v m : Nat} {e : Err}
    (h : checkVault mints toks vs v m = .error e) : e = .assertion := by
  unfold checkVault at h
  split at h
  · cases h; rfl
  rcases bind_err h with h | ⟨_, _, h⟩
  · exact (checkAssert_err h).2
  rcases bind_err h with h | ⟨_, _, h⟩
  · exact (checkAssert_err h).2
  rcases bind_err h with h | ⟨_, _, h⟩
  · exact (checkAssert_err h).2
  rcases bind_err h with h | ⟨_, _, h⟩
  · exact (checkAssert_err h).2
  rcases bind_err h with h | ⟨_, _, h⟩
  · exact (checkAssert_err h).2
  · exact (checkAssert_err h).2

theorem ready_iff {a : RawAcc} (ho : a.owned = true → OwnedBytes a.data) : checkBlank a = .ok () ↔ ReadyAcc a := by
  rw [checkBlank_iff ho]
  exact ⟨fun ⟨a, b, c, d⟩ => ⟨a, b, c, d⟩, fun ⟨a, b, c, d⟩ => ⟨a, b, c, d⟩⟩

theorem blank_or {a : RawAcc} (ho : a.owned = true → OwnedBytes a.data) :
    (ReadyAcc a ∧ checkBlank a = .ok ()) ∨ (¬ ReadyAcc a ∧ checkBlank a = .error .assertion) := by
  cases h : checkBlank a with
  | ok u => exact .inl ⟨(ready_iff ho).1 h, rfl⟩
  | error e =>
    refine .inr ⟨fun hr => ?_, by rw [checkBlank_err h]⟩
    rw [(ready_iff ho).2 hr] at h
    cases h

theorem vault_or (mints : Nat → Bool) (toks : Ledger) (vs v m : Nat) :
    (GoodVault mints toks vs v m ∧ checkVault mints toks vs v m = .ok ()) ∨
      (¬ GoodVault mints toks vs v m ∧ checkVault mints toks vs v m = .error .assertion) := by
  cases h : checkVault mints toks vs v m with
  | ok u => exact .inl ⟨checkVault_iff.1 h, rfl⟩
  | error e =>
    refine .inr ⟨fun hr => ?_, by rw [checkVault_err h]⟩
    rw [checkVault_iff.2 hr] at h
    cases h

/-- The market's account, of whatever bytes: a wrong size is an assertion. -/
theorem initMarketAcc_size {W : Accs} {m : Market} {crank : Option Nat} (h8 : (W m.ownAddress).data.length % 8 = 4)
    (h20 : 20 ≤ (W m.ownAddress).data.length)
    (h : (W m.ownAddress).data.length ≠ if m.permissioned then 1476 else 388) :
    initMarketAcc W m crank = .error .assertion := by
  unfold initMarketAcc
  rw [initPadding_eq h8 h20]
  have hl : (middle (W m.ownAddress).data).length = (W m.ownAddress).data.length - 12 := by
    unfold middle
    rw [List.length_take, List.length_drop]
    omega
  simp only [bind, Except.bind, hl, checkAssert]
  cases hp : m.permissioned with
  | false =>
    simp only [hp, Bool.false_eq_true, if_false] at h ⊢
    rw [if_neg (by simp only [beq_iff_eq]; omega)]
  | true =>
    simp only [hp, if_true] at h ⊢
    rw [if_neg (by simp only [beq_iff_eq]; omega)]

theorem checkAssert_true {b : Bool} (h : b = true) : checkAssert b = .ok () := by rw [h]; rfl
theorem checkAssert_false {b : Bool} (h : b = false) : checkAssert b = .error .assertion := by rw [h]; rfl
theorem ok_bind {α β : Type} (a : α) (f : α → Except Err β) : (Except.ok a >>= f) = f a := rfl
theorem err_bind {α β : Type} (e : Err) (f : α → Except Err β) : ((Except.error e : Except Err α) >>= f) = .error e := rfl

/-- The sequence of blank checks. -/
theorem blanks {W : Accs} {G : Given} (ho : ∀ a ∈ G.own, (W a).owned = true → OwnedBytes (W a).data)
    (k : Except Err Accs) :
    ((∃ a ∈ G.own, ¬ ReadyAcc (W a)) ∧
      (checkBlank (W G.market) >>= fun _ => checkBlank (W G.reqQ) >>= fun _ => checkBlank (W G.eventQ) >>= fun _ =>
        checkBlank (W G.bids) >>= fun _ => checkBlank (W G.asks) >>= fun _ => k) = .error .assertion) ∨
    ((∀ a ∈ G.own, ReadyAcc (W a)) ∧
      (checkBlank (W G.market) >>= fun _ => checkBlank (W G.reqQ) >>= fun _ => checkBlank (W G.eventQ) >>= fun _ =>
        checkBlank (W G.bids) >>= fun _ => checkBlank (W G.asks) >>= fun _ => k) = k) := by
  have hb : ∀ a ∈ G.own, _ := fun a ha => blank_or (ho a ha)
  simp only [Given.own, List.mem_cons, List.not_mem_nil, or_false, forall_eq_or_imp, forall_eq, exists_eq_or_imp,
    exists_eq_left] at hb ⊢
  obtain ⟨b1, b2, b3, b4, b5⟩ := hb
  rcases b1 with ⟨r1, b1⟩ | ⟨r1, b1⟩
  rotate_left; · exact .inl ⟨.inl r1, by rw [b1]; rfl⟩
  rcases b2 with ⟨r2, b2⟩ | ⟨r2, b2⟩
  rotate_left; · exact .inl ⟨.inr (.inl r2), by rw [b1, b2]; rfl⟩
  rcases b3 with ⟨r3, b3⟩ | ⟨r3, b3⟩
  rotate_left; · exact .inl ⟨.inr (.inr (.inl r3)), by rw [b1, b2, b3]; rfl⟩
  rcases b4 with ⟨r4, b4⟩ | ⟨r4, b4⟩
  rotate_left; · exact .inl ⟨.inr (.inr (.inr (.inl r4))), by rw [b1, b2, b3, b4]; rfl⟩
  rcases b5 with ⟨r5, b5⟩ | ⟨r5, b5⟩
  rotate_left; · exact .inl ⟨.inr (.inr (.inr (.inr r5))), by rw [b1, b2, b3, b4, b5]; rfl⟩
  exact .inr ⟨⟨r1, r2, r3, r4, r5⟩, by rw [b1, b2, b3, b4, b5]; rfl⟩

theorem faults_answer {P : Params} {mints : Nat → Bool} {toks : Ledger} {W : Accs} {G : Given} {ix : InitMarketIx} {e : Err}
    (ho : ∀ a ∈ G.own, (W a).owned = true → OwnedBytes (W a).data)
    (h : FirstFault (initFaults P mints toks W G ix.vaultSignerNonce) e) : initGiven P mints toks W G ix = .error e := by
  unfold initFaults at h
  unfold initGiven
  rcases h with ⟨p, rfl⟩ | ⟨n1, h⟩
  · rw [checkAssert_false (by simpa using p)]; rfl
  simp only [Nat.not_lt] at n1
  rw [checkAssert_true (by simpa using n1), ok_bind]
  rcases h with ⟨p, rfl⟩ | ⟨n2, h⟩
  · rw [checkAssert_false]
    · rfl
    · obtain ⟨a, ha, hx⟩ := p
      exact List.all_eq_false.2 ⟨a, ha, by simp [hx]⟩
  rw [checkAssert_true (List.all_eq_true.2 fun a ha => by
    cases hx : (W a).exempt with
    | true => rfl
    | false => exact absurd ⟨a, ha, hx⟩ n2), ok_bind]
  rcases blanks ho (match P.vaultSigner G.market ix.vaultSignerNonce with
    | none => .error .programError
    | some vs => do
      checkVault mints toks vs G.coinVault G.coinMint
      checkVault mints toks vs G.pcVault G.pcMint
      let W ← initReqQ W G.reqQ
      rustAssert (G.eventQ != G.reqQ)
      let W ← initEventQ W G.eventQ
      rustAssert (G.bids != G.reqQ && G.bids != G.eventQ)
      let W ← initBook .bid W G.bids
      rustAssert (G.asks != G.reqQ && G.asks != G.eventQ)
      let W ← initBook .ask W G.asks
      let m := freshMarket ix G.market G.reqQ G.eventQ G.bids G.asks G.coinVault G.pcVault G.coinMint G.pcMint G.auth
      if G.market = G.reqQ ∨ G.market = G.eventQ then .error .programError
      else initMarketAcc W m G.auth[2]?) with ⟨hb, hk⟩ | ⟨hb, hk⟩
  · rcases h with ⟨_, rfl⟩ | ⟨n3, _⟩
    · exact hk
    · exact absurd hb n3
  refine hk.trans ?_
  clear hk
  rcases h with ⟨⟨a, ha, p⟩, _⟩ | ⟨_, h⟩
  · exact absurd (hb a ha) p
  rcases h with ⟨p, rfl⟩ | ⟨n4, h⟩
  · simp only at p; rw [p]
  cases hvs : P.vaultSigner G.market ix.vaultSignerNonce with
  | none => exact absurd hvs n4
  | some vs =>
    simp only
    rcases vault_or mints toks vs G.coinVault G.coinMint with ⟨gc, c⟩ | ⟨gc, c⟩
    rotate_left
    · rw [c]
      rcases h with ⟨_, rfl⟩ | ⟨n5, _⟩
      · rfl
      · exact absurd ⟨vs, hvs, fun x => gc x.1⟩ n5
    rcases vault_or mints toks vs G.pcVault G.pcMint with ⟨gp, c'⟩ | ⟨gp, c'⟩
    rotate_left
    · rw [c, c']
      rcases h with ⟨_, rfl⟩ | ⟨n5, _⟩
      · rfl
      · exact absurd ⟨vs, hvs, fun x => gp x.2⟩ n5
    rw [c, c', ok_bind, ok_bind]
    rcases h with ⟨⟨vs', hvs', p⟩, _⟩ | ⟨_, h⟩
    · rw [hvs] at hvs'
      cases hvs'
      exact absurd ⟨gc, gp⟩ p
    simp only [Given.own, List.mem_cons, List.not_mem_nil, or_false, forall_eq_or_imp, forall_eq] at hb
    obtain ⟨⟨_, ⟨nm, em⟩, am, lm⟩, ⟨_, ⟨nr, er⟩, ar, lr⟩, ⟨_, ⟨ne, ee⟩, ae, le⟩, ⟨_, ⟨nb, eb⟩, ab, lb⟩, ⟨_, ⟨na, ea⟩, aa, la⟩⟩ := hb
    have zr : (W G.reqQ).data = zeros nr := er
    have ze : (W G.eventQ).data = zeros ne := ee
    have zb : (W G.bids).data = zeros nb := eb
    have za : (W G.asks).data = zeros na := ea
    have zm : (W G.market).data = zeros nm := em
    rw [er, List.length_replicate] at ar lr
    rw [ee, List.length_replicate] at ae le
    rw [eb, List.length_replicate] at ab lb
    rw [ea, List.length_replicate] at aa la
    rw [em, List.length_replicate] at am lm
    rw [initReqQ_eq zr ar lr]
    simp only [zr, ze, zb, za, zm, zeros_length] at h
    rcases h with ⟨p, rfl⟩ | ⟨n6, h⟩
    · rw [if_pos p]; rfl
    rw [if_neg n6]
    rcases h with ⟨p, rfl⟩ | ⟨n7, h⟩
    · rw [if_pos p]; rfl
    rw [if_neg n7, ok_bind]
    rcases h with ⟨p, rfl⟩ | ⟨n8, h⟩
    · simp only at p
      rw [p]; simp [rustAssert, bind, Except.bind]
    simp only at n8
    rw [show rustAssert (G.eventQ != G.reqQ) = .ok () by simp [rustAssert, n8], ok_bind,
      initEventQ_eq (n := ne) (by rw [setData_other _ _ n8]; exact ze) ae le]
    rcases h with ⟨p, rfl⟩ | ⟨n9, h⟩
    · rw [if_pos p]; rfl
    rw [if_neg n9]
    rcases h with ⟨p, rfl⟩ | ⟨n10, h⟩
    · rw [if_pos p]; rfl
    rw [if_neg n10, ok_bind]
    rcases h with ⟨p, rfl⟩ | ⟨n11, h⟩
    · simp only at p
      rw [show rustAssert (G.bids != G.reqQ && G.bids != G.eventQ) = .error .panic by
        rcases p with p | p <;> simp [rustAssert, p]]
      rfl
    simp only [not_or] at n11
    rw [show rustAssert (G.bids != G.reqQ && G.bids != G.eventQ) = .ok () by simp [rustAssert, n11], ok_bind]
    have hb0 := book_step (W := W) zb
    rw [initBook_eq (n := nb) (by rw [setData_other _ _ n11.2, setData_other _ _ n11.1]; exact hb0.1)
      (by rw [setData_other _ _ n11.2, setData_other _ _ n11.1]; exact hb0.2) ab lb]
    rcases h with ⟨p, rfl⟩ | ⟨n12, h⟩
    · rw [if_pos p]; rfl
    rw [if_neg n12]
    rcases h with ⟨p, rfl⟩ | ⟨n13, h⟩
    · rw [if_pos p]; rfl
    rw [if_neg n13]
    rcases h with ⟨p, rfl⟩ | ⟨n14, h⟩
    · rw [if_pos p]; rfl
    rw [if_neg n14, ok_bind]
    rcases h with ⟨p, rfl⟩ | ⟨n15, h⟩
    · simp only at p
      rw [show rustAssert (G.asks != G.reqQ && G.asks != G.eventQ) = .error .panic by
        rcases p with p | p <;> simp [rustAssert, p]]
      rfl
    simp only [not_or] at n15
    rw [show rustAssert (G.asks != G.reqQ && G.asks != G.eventQ) = .ok () by simp [rustAssert, n15], ok_bind]
    rw [initBook_eq (n := na)
      (asks_step (sd := .bid) (nb := nb) lb (by rw [setData_other _ _ n15.2, setData_other _ _ n15.1]; exact za)
        (by rw [setData_other _ _ n11.2, setData_other _ _ n11.1]; exact zb)).1
      (asks_step (sd := .bid) (nb := nb) lb (by rw [setData_other _ _ n15.2, setData_other _ _ n15.1]; exact za)
        (by rw [setData_other _ _ n11.2, setData_other _ _ n11.1]; exact zb)).2 aa la]
    rcases h with ⟨p, rfl⟩ | ⟨n16, h⟩
    · rw [if_pos p]; rfl
    rw [if_neg n16]
    rcases h with ⟨p, rfl⟩ | ⟨n17, h⟩
    · rw [if_pos p]; rfl
    rw [if_neg n17]
    rcases h with ⟨p, rfl⟩ | ⟨n18, h⟩
    · rw [if_pos p]; rfl
    rw [if_neg n18, ok_bind]
    rcases h with ⟨p, rfl⟩ | ⟨n19, h⟩
    · simp only
      rw [if_pos p]
    rw [if_neg n19]
    rcases h with ⟨p, rfl⟩ | ⟨_, h⟩
    rotate_left; · exact h.elim
    simp only at p
    simp only [not_or] at n19
    rw [freshMarket_eq _ _ n1]
    have hmk : (newMarket ix G).ownAddress = G.market := rfl
    have hperm : (if (newMarket ix G).permissioned = true then 1476 else 388) = if G.auth = [] then 388 else 1476 := by
      rw [newMarket_permissioned]
      by_cases hh : G.auth = [] <;> simp [hh]
    have hlen : (setData (setData (setData (setData W G.reqQ (reqQBytes 0 0 0 (zeros (nr - 44)))) G.eventQ
        (padded (packFields [(8, 17), (8, 0), (8, 0), (8, 0)] ++ zeros (ne - 44)))) G.bids
        (padded (packFields [(8, sideFlags .bid)] ++ zeros (nb - 20)))) G.asks
        (padded (packFields [(8, sideFlags .ask)] ++ zeros (na - 20))) G.market).data.length = nm := by
      by_cases hma : G.market = G.asks
      · rw [hma, setData_same, side_length]
        rw [hma, za] at zm
        have := congrArg List.length zm
        simp only [zeros_length] at this
        omega
      · rw [setData_other _ _ hma]
        by_cases hmb : G.market = G.bids
        · rw [hmb, setData_same, side_length]
          rw [hmb, zb] at zm
          have := congrArg List.length zm
          simp only [zeros_length] at this
          omega
        · rw [setData_other _ _ hmb, setData_other _ _ n19.2, setData_other _ _ n19.1, zm, zeros_length]
    refine initMarketAcc_size ?_ ?_ ?_
    · rw [hmk, hlen]; exact am
    · rw [hmk, hlen]; exact lm
    · rw [hmk, hlen, hperm]; exact p

/-- Without a fault there is everything a market needs. -/
theorem faults_total {P : Params} {mints : Nat → Bool} {toks : Ledger} {W : Accs} {G : Given} {nonce : Nat}
    (h : ∀ e, ¬ FirstFault (initFaults P mints toks W G nonce) e) : InitOk P mints toks W G nonce := by
  unfold initFaults at h
  have key : ∀ (l : List (Prop × Err)), (∀ e, ¬ FirstFault l e) → ∀ f ∈ l, ¬ f.1 := by
    intro l
    induction l with
    | nil => intro _ f hf; cases hf
    | cons g l ih =>
      intro hl f hf
      have hg : ¬ g.1 := fun hg => hl g.2 (.inl ⟨hg, rfl⟩)
      rcases List.mem_cons.1 hf with rfl | hf
      · exact hg
      · exact ih (fun e he => hl e (.inr ⟨hg, he⟩)) f hf
  have h := key _ h
  simp only [List.mem_cons, List.not_mem_nil, or_false, forall_eq_or_imp, forall_eq] at h
  obtain ⟨h1, h2, h3, h4, h5, h6, h7, h8, h9, h10, h11, h12, h13, h14, h15, h16, h17, h18, h19, h20⟩ := h
  have hr : ∀ a ∈ G.own, ReadyAcc (W a) := fun a ha => Classical.byContradiction fun hn =>
    h3 (by
      have : ∃ a ∈ G.own, ¬ ReadyAcc (W a) := ⟨a, ha, hn⟩
      simpa only [Given.own, List.mem_cons, List.not_mem_nil, or_false, exists_eq_or_imp, exists_eq_left] using this)
  simp only [not_or] at h11 h15 h19
  refine ⟨by omega, ?_, fun a ha => (hr a ha).owned, fun a ha => (hr a ha).blank, fun a ha => (hr a ha).aligned,
    Classical.byContradiction h20, by omega, by omega, by omega, by omega,
    ⟨Ne.symm h8, h11.1, h11.2, h15.1, h15.2, h19.1, h19.2⟩, ?_⟩
  · intro a ha
    cases hx : (W a).exempt with
    | true => rfl
    | false =>
      exact absurd (by
        have : ∃ a ∈ [G.reqQ, G.eventQ, G.bids, G.asks, G.coinVault, G.pcVault, G.coinMint, G.pcMint],
          (W a).exempt = false := ⟨a, ha, hx⟩
        simpa only [List.mem_cons, List.not_mem_nil, or_false, exists_eq_or_imp, exists_eq_left] using this) h2
  · cases hv : P.vaultSigner G.market nonce with
    | none => exact absurd hv h4
    | some vs =>
      refine ⟨vs, rfl, ?_⟩
      exact Classical.byContradiction fun hn => h5 ⟨vs, hv, hn⟩

/-- C98. For all accounts, bytes, token ledgers and parameters: a market is refused with an answer exactly if there are
fewer than ten accounts (an assertion), or the answer is that of the first fault in the list. -/
theorem init_refusal {P : Params} {mints : Nat → Bool} {toks : Ledger} {W : Accs} {accts : List AccMeta}
    {ix : InitMarketIx} {e : Err} (ho : ∀ a, (W a).owned = true → OwnedBytes (W a).data) :
    initMarket P mints toks W accts ix = .error e ↔
      (accts.length < 10 ∧ e = .assertion) ∨
      ∃ G : Given, accts.map (·.key) = G.keys ∧ FirstFault (initFaults P mints toks W G ix.vaultSignerNonce) e := by
  constructor
  · intro h
    by_cases hl : accts.length < 10
    · refine .inl ⟨hl, ?_⟩
      unfold initMarket at h
      split at h
      · rename_i hk
        have := congrArg List.length hk
        simp only [List.length_map, List.length_cons] at this
        omega
      · cases h; rfl
    · obtain ⟨G, hG⟩ : ∃ G : Given, accts.map (·.key) = G.keys := by
        match hm : accts.map (·.key) with
        | market :: reqQ :: eventQ :: bids :: asks :: coinVault :: pcVault :: coinMint :: pcMint :: rent :: auth =>
          exact ⟨⟨market, reqQ, eventQ, bids, asks, coinVault, pcVault, coinMint, pcMint, rent, auth⟩, hm⟩
        | [] | [_] | [_, _] | [_, _, _] | [_, _, _, _] | [_, _, _, _, _] | [_, _, _, _, _, _] | [_, _, _, _, _, _, _]
        | [_, _, _, _, _, _, _, _] | [_, _, _, _, _, _, _, _, _] =>
          have := congrArg List.length hm
          simp only [List.length_map, List.length_cons, List.length_nil] at this
          omega
      refine .inr ⟨G, hG, ?_⟩
      rw [initMarket_given hG] at h
      apply Classical.byContradiction
      intro hn
      have : ∀ e', ¬ FirstFault (initFaults P mints toks W G ix.vaultSignerNonce) e' := by
        intro e' he'
        have := faults_answer (ix := ix) (fun a _ => ho a) he'
        rw [h] at this
        cases this
        exact hn he'
      have := (initGiven_iff (W' := created W ix G) fun a _ => ho a).2 ⟨faults_total this, rfl⟩
      rw [h] at this
      cases this
  · rintro (⟨hl, rfl⟩ | ⟨G, hG, h⟩)
    · unfold initMarket
      split
      · rename_i hk
        have := congrArg List.length hk
        simp only [List.length_map, List.length_cons] at this
        omega
      · rfl
    · rw [initMarket_given hG]
      exact faults_answer (fun a _ => ho a) h

/-- C98, the reasons by name. `RequestQueueEmpty`, `EventQueueTooSmall` and `SlabTooSmall` mean that the account named
has no room for one request, 128 events or 201 nodes, and that all accounts are otherwise ready and the vaults good. -/
theorem init_reason {P : Params} {mints : Nat → Bool} {toks : Ledger} {W : Accs} {accts : List AccMeta}
    {ix : InitMarketIx} {e : Err} (ho : ∀ a, (W a).owned = true → OwnedBytes (W a).data)
    (h : initMarket P mints toks W accts ix = .error e) (hne : e ≠ .assertion) (hnp : e ≠ .panic) :
    ∃ G : Given, accts.map (·.key) = G.keys ∧ (∀ a ∈ G.own, ReadyAcc (W a)) ∧
      ((e = .programError ∧ (P.vaultSigner G.market ix.vaultSignerNonce = none ∨ G.market = G.reqQ ∨ G.market = G.eventQ)) ∨
        (∃ vs, P.vaultSigner G.market ix.vaultSignerNonce = some vs ∧
          GoodVault mints toks vs G.coinVault G.coinMint ∧ GoodVault mints toks vs G.pcVault G.pcMint) ∧
        ((e = .requestQueueEmpty ∧ ((W G.reqQ).data.length - 44) / 80 = 0) ∨
         (e = .eventQueueTooSmall ∧ ((W G.eventQ).data.length - 44) / 88 < 128) ∨
         (e = .slabTooSmall ∧ (((W G.bids).data.length - 52) / 72 < 201 ∨ ((W G.asks).data.length - 52) / 72 < 201)))) := by
  rcases (init_refusal ho).1 h with ⟨_, h⟩ | ⟨G, hG, h⟩
  · exact absurd h hne
  refine ⟨G, hG, ?_⟩
  unfold initFaults at h
  rcases h with ⟨_, h⟩ | ⟨_, h⟩
  · exact absurd h hne
  rcases h with ⟨_, h⟩ | ⟨_, h⟩
  · exact absurd h hne
  rcases h with ⟨_, h⟩ | ⟨n3, h⟩
  · exact absurd h hne
  refine ⟨fun a ha => Classical.byContradiction fun hn => n3 ⟨a, ha, hn⟩, ?_⟩
  rcases h with ⟨p, h⟩ | ⟨n4, h⟩
  · exact .inl ⟨h, .inl p⟩
  rcases h with ⟨_, h⟩ | ⟨n5, h⟩
  · exact absurd h hne
  have hv : ∃ vs, P.vaultSigner G.market ix.vaultSignerNonce = some vs ∧
      GoodVault mints toks vs G.coinVault G.coinMint ∧ GoodVault mints toks vs G.pcVault G.pcMint := by
    cases hv : P.vaultSigner G.market ix.vaultSignerNonce with
    | none => exact absurd hv n4
    | some vs => exact ⟨vs, rfl, Classical.byContradiction fun hn => n5 ⟨vs, hv, hn⟩⟩
  rcases h with ⟨_, h⟩ | ⟨_, h⟩
  · exact absurd h hnp
  rcases h with ⟨p, h⟩ | ⟨_, h⟩
  · exact .inr ⟨hv, .inl ⟨h, by simp only at p; omega⟩⟩
  rcases h with ⟨_, h⟩ | ⟨_, h⟩
  · exact absurd h hnp
  rcases h with ⟨_, h⟩ | ⟨_, h⟩
  · exact absurd h hne
  rcases h with ⟨p, h⟩ | ⟨_, h⟩
  · exact .inr ⟨hv, .inr (.inl ⟨h, by simp only at p; omega⟩)⟩
  rcases h with ⟨_, h⟩ | ⟨_, h⟩
  · exact absurd h hnp
  rcases h with ⟨_, h⟩ | ⟨_, h⟩
  · exact absurd h hne
  rcases h with ⟨_, h⟩ | ⟨_, h⟩
  · exact absurd h hnp
  rcases h with ⟨p, h⟩ | ⟨_, h⟩
  · exact .inr ⟨hv, .inr (.inr ⟨h, .inl (by simp only at p; omega)⟩)⟩
  rcases h with ⟨_, h⟩ | ⟨_, h⟩
  · exact absurd h hnp
  rcases h with ⟨_, h⟩ | ⟨_, h⟩
  · exact absurd h hne
  rcases h with ⟨_, h⟩ | ⟨_, h⟩
  · exact absurd h hnp
  rcases h with ⟨p, h⟩ | ⟨_, h⟩
  · exact .inr ⟨hv, .inr (.inr ⟨h, .inr (by simp only at p; omega)⟩)⟩
  rcases h with ⟨p, h⟩ | ⟨_, h⟩
  · exact .inl ⟨h, .inr p⟩
  rcases h with ⟨_, h⟩ | ⟨_, h⟩
  · exact absurd h hne
  · exact h.elim

/-- C98, the reverse. Take accounts that would make a market and shrink one of them to fewer events, requests or
nodes than needed, keeping it aligned and its header whole: the answer is the reason that names it. -/
theorem init_too_small {P : Params} {mints : Nat → Bool} {toks : Ledger} {W : Accs} {accts : List AccMeta}
    {ix : InitMarketIx} {G : Given} {n : Nat} (ho : ∀ a, (W a).owned = true → OwnedBytes (W a).data)
    (hG : accts.map (·.key) = G.keys) (ok : InitOk P mints toks W G ix.vaultSignerNonce) (h8 : n % 8 = 4) :
    (44 ≤ n → n < 124 → initMarket P mints toks (setData W G.reqQ (zeros n)) accts ix = .error .requestQueueEmpty) ∧
    (44 < n → n < 11308 → initMarket P mints toks (setData W G.eventQ (zeros n)) accts ix = .error .eventQueueTooSmall) ∧
    (52 ≤ n → n < 14524 → initMarket P mints toks (setData W G.bids (zeros n)) accts ix = .error .slabTooSmall) ∧
    (52 ≤ n → n < 14524 → initMarket P mints toks (setData W G.asks (zeros n)) accts ix = .error .slabTooSmall) := by
  have hr : ∀ a ∈ G.own, ReadyAcc (W a) := fun a ha =>
    ⟨ok.owned a ha, ok.blank a ha, ok.aligned a ha, by
      have h1 := ok.market
      have h2 := ok.reqQ
      have h3 := ok.eventQ
      have h4 := ok.bids
      have h5 := ok.asks
      simp only [Given.own, List.mem_cons, List.not_mem_nil, or_false] at ha
      rcases ha with rfl | rfl | rfl | rfl | rfl
      · split at h1 <;> omega
      all_goals omega⟩
  -- one account made smaller
  have hs : ∀ y x, (setData W y (zeros n) x).data.length = if x = y then n else (W x).data.length := by
    intro y x
    by_cases hx : x = y
    · rw [if_pos hx, hx, setData_same, zeros_length]
    · rw [if_neg hx, setData_other _ _ hx]
  have hsd : ∀ y x, (setData W y (zeros n) x).exempt = (W x).exempt ∧ (setData W y (zeros n) x).owned = (W x).owned := by
    intro y x
    unfold setData
    split <;> exact ⟨rfl, rfl⟩
  have hrs : 20 ≤ n → ∀ y, ∀ a ∈ G.own, ReadyAcc (setData W y (zeros n) a) := by
    intro h20 y a ha
    by_cases hx : a = y
    · subst hx
      refine ⟨by rw [(hsd _ _).2]; exact ok.owned a ha, ⟨n, setData_same _ _ _⟩, ?_, ?_⟩ <;> rw [hs, if_pos rfl]
      · exact h8
      · exact h20
    · rw [setData_other _ _ hx]; exact hr a ha
  have hos : ∀ y a, (setData W y (zeros n) a).owned = true → OwnedBytes (setData W y (zeros n) a).data := by
    intro y a h
    by_cases hx : a = y
    · subst hx
      rw [setData_same]
      exact .inl ⟨n, rfl⟩
    · rw [setData_other _ _ hx] at h ⊢
      exact ho a h
  obtain ⟨d1, d2, d3, d4, d5, d6, d7⟩ := ok.distinct
  obtain ⟨vs, hvs, hcv, hpv⟩ := ok.vaults
  have start : 20 ≤ n → ∀ y e l, initFaults P mints toks (setData W y (zeros n)) G ix.vaultSignerNonce =
      (initFaults P mints toks (setData W y (zeros n)) G ix.vaultSignerNonce).take 5 ++ l →
      FirstFault l e → initMarket P mints toks (setData W y (zeros n)) accts ix = .error e := by
    intro h20 y e l hl hf
    refine (init_refusal (hos y)).2 (.inr ⟨G, hG, ?_⟩)
    rw [hl]
    refine .inr ⟨Nat.not_lt.2 ok.auth, .inr ⟨?_, .inr ⟨?_, .inr ⟨?_, .inr ⟨?_, hf⟩⟩⟩⟩⟩
    · rintro ⟨a, ha, hx⟩
      rw [(hsd _ _).1, ok.exempt a ha] at hx
      cases hx
    · rintro ⟨a, ha, hx⟩
      exact hx (hrs h20 y a ha)
    · intro hx
      simp only at hx
      rw [hvs] at hx
      cases hx
    · rintro ⟨vs', hx, hb⟩
      rw [hvs] at hx
      cases hx
      exact hb ⟨hcv, hpv⟩
  have l1 := ok.reqQ
  have l2 := ok.eventQ
  have l3 := ok.bids
  refine ⟨fun h1 h2 => start (by omega) _ _ _ rfl ?_, fun h1 h2 => start (by omega) _ _ _ rfl ?_,
    fun h1 h2 => start (by omega) _ _ _ rfl ?_, fun h1 h2 => start (by omega) _ _ _ rfl ?_⟩ <;>
    simp only [FirstFault, hs, if_true]
  · exact .inr ⟨by omega, .inl ⟨h2, trivial⟩⟩
  · rw [if_neg d1]
    exact .inr ⟨by omega, .inr ⟨by omega, .inr ⟨Ne.symm d1, .inr ⟨by omega, .inl ⟨h2, trivial⟩⟩⟩⟩⟩
  · rw [if_neg (Ne.symm d2), if_neg (Ne.symm d3)]
    exact .inr ⟨by omega, .inr ⟨by omega, .inr ⟨Ne.symm d1, .inr ⟨by omega, .inr ⟨by omega,
      .inr ⟨by simp [d2, d3], .inr ⟨by omega, .inr ⟨by omega, .inl ⟨h2, trivial⟩⟩⟩⟩⟩⟩⟩⟩⟩
  · rw [if_neg (Ne.symm d4), if_neg (Ne.symm d5)]
    refine .inr ⟨by omega, .inr ⟨by omega, .inr ⟨Ne.symm d1, .inr ⟨by omega, .inr ⟨by omega,
      .inr ⟨by simp [d2, d3], ?_⟩⟩⟩⟩⟩⟩
    by_cases hba : G.bids = G.asks
    · rw [if_pos hba]
      exact .inr ⟨by omega, .inr ⟨by omega, .inl ⟨h2, trivial⟩⟩⟩
    · rw [if_neg hba]
      exact .inr ⟨by omega, .inr ⟨by omega, .inr ⟨by omega, .inr ⟨by simp [d4, d5], .inr ⟨by omega, .inr ⟨by omega,
        .inl ⟨h2, trivial⟩⟩⟩⟩⟩⟩⟩

/-! ### Example -/

theorem demo_init : InitOk Demo.P (fun _ => true) Demo.toks demoAccs demoGiven 0 := by
  refine ⟨by decide, ?_, ?_, ?_, ?_, ?_, ?_, ?_, ?_, ?_, by decide, 60, rfl, ⟨rfl, ?_⟩, ⟨rfl, ?_⟩⟩
  · simp only [demoGiven, demoAccs, List.mem_cons, List.not_mem_nil, or_false, forall_eq_or_imp, forall_eq, and_self]
  · simp only [demoGiven, Given.own, demoAccs, List.mem_cons, List.not_mem_nil, or_false, forall_eq_or_imp, forall_eq, and_self]
  · simp only [demoGiven, Given.own, demoAccs, List.mem_cons, List.not_mem_nil, or_false, forall_eq_or_imp, forall_eq]
    exact ⟨⟨_, rfl⟩, ⟨_, rfl⟩, ⟨_, rfl⟩, ⟨_, rfl⟩, ⟨_, rfl⟩⟩
  · simp only [demoGiven, Given.own, demoAccs, List.mem_cons, List.not_mem_nil, or_false, forall_eq_or_imp, forall_eq,
      List.length_replicate]
    decide
  · simp only [demoGiven, demoAccs, List.length_replicate]; decide
  · simp only [demoGiven, demoAccs, List.length_replicate]; decide
  · simp only [demoGiven, demoAccs, List.length_replicate]; decide
  · simp only [demoGiven, demoAccs, List.length_replicate]; decide
  · simp only [demoGiven, demoAccs, List.length_replicate]; decide
  · exact ⟨_, rfl, rfl, rfl, rfl, rfl, rfl⟩
  · exact ⟨_, rfl, rfl, rfl, rfl, rfl, rfl⟩

theorem demo_owned (a : Nat) (h : (demoAccs a).owned = true) : OwnedBytes (demoAccs a).data := by
  unfold demoAccs at h ⊢
  split <;> first | exact .inl ⟨_, rfl⟩ | exact .inl ⟨0, rfl⟩

/-- The accounts of C46's example, the event queue with room for 100 events only. -/
example : initMarket Demo.P (fun _ => true) Demo.toks (setData demoAccs 54 (zeros 8844)) (demoGiven.keys.map Demo.acc)
    ⟨100, 10, 0, 0, 5⟩ = .error .eventQueueTooSmall :=
  (init_too_small (G := demoGiven) (n := 8844) demo_owned rfl demo_init (by decide)).2.1 (by decide) (by decide)

/-- Asks with room for 200 nodes. -/
example : initMarket Demo.P (fun _ => true) Demo.toks (setData demoAccs 56 (zeros 14452)) (demoGiven.keys.map Demo.acc)
    ⟨100, 10, 0, 0, 5⟩ = .error .slabTooSmall :=
  (init_too_small (G := demoGiven) (n := 14452) demo_owned rfl demo_init (by decide)).2.2.2 (by decide) (by decide)

end Serum.Props
