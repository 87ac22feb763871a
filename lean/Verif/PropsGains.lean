import Verif.PropsLife

/-!
C95: no account gains or loses more than its orders allow. This is what the project's own fuzz target
(`dex/fuzz/fuzz_targets/multiple_orders.rs` 295-350, with the bounds of 738-834) checks at the end of each of its runs:
what an owner's wallets gained or lost against a bound computed from the list of orders alone. Here it is proved for every
history of a market and every account, and not only when everything has been settled.
-/

namespace Serum.Props

/-! ### The journal and the record together -/

/-- The lines and the entries of one act tell of the same order and the same trades. -/
inductive SameDeals : List Line → List Note → Prop where
  /-- An order: the payment and the trades are those of the account that placed it. -/
  | order (p : Placed) (d : Nat) (fee : Trade → Nat) (rest : List Note) (hr : rest.all Note.still = true)
      (hf : p.fee = total fee p.took) (hs : ∀ t ∈ p.took, t.side = otherSide p.side) :
      SameDeals (.deposit p.account p.side d :: p.took.map fun t => .trade t (some p.account) (fee t))
        (.placed p :: (p.took.map .filled ++ rest))
  | take (ts : List Trade) (fee : Trade → Nat) : SameDeals (ts.map fun t => .trade t none (fee t)) (ts.map .filled)
  /-- Nothing was paid in, placed or traded. -/
  | still {L : List Line} {M : List Note} (hL : L.all Line.still = true) (hM : M.all Note.still = true) : SameDeals L M

/-- A journal (C64) and a record (C78) of the same acts. -/
inductive Told (P : Params) (s : State conc) : State conc → List Line → List Note → Prop where
  | nil : Told P s s [] []
  | act {s1 s2 : State conc} {J L : List Line} {N M : List Note} {env : Env} {accts : List AccMeta} (t : Told P s s1 J N)
      (ha : Act P env accts s1 s2) (he : Entered P accts s1 s2 L) (hn : Noted P env accts s1 s2 M) (hd : SameDeals L M) :
      Told P s s2 (J ++ L) (N ++ M)
  | purge {s1 : State conc} {J : List Line} {N : List Note} {a : Nat} {o : OpenOrders} (t : Told P s s1 J N)
      (ho : ooAt s1.oos a = some o) (hc : o.closed = true) :
      Told P s { s1 with oos := purgeOo s1.oos a } (J ++ [.forfeit a o.rebates]) N
  | token {s1 : State conc} {J : List Line} {N : List Note} {signs : Nat → Bool} {ix : TokIx} {l : Ledger}
      (t : Told P s s1 J N) (h : tokExec signs s1.toks ix = some l) : Told P s { s1 with toks := l } J N

theorem Told.journal {P : Params} {s s' : State conc} {J : List Line} {N : List Note} (h : Told P s s' J N) :
    Journal P s s' J := by
  induction h with
  | nil => exact .nil
  | act t ha he hn hd ih => exact ih.act ha he
  | purge t ho hc ih => exact ih.purge ho hc
  | token t h ih => exact ih.token h

theorem Told.record {P : Params} {s s' : State conc} {J : List Line} {N : List Note} (h : Told P s s' J N) :
    Record P s s' N := by
  induction h with
  | nil => exact .nil
  | act t ha he hn hd ih => exact ih.act ha hn
  | purge t ho hc ih => exact ih.purge ho hc
  | token t h ih => exact ih.token h

/-! ### What an account got and gave -/

/-- Base units paid in for account `b`. -/
def Line.basePaidIn (b : Nat) : Line → Nat
  | .deposit a .ask n => if a = b then n else 0
  | _ => 0

/-- Quote units paid in for account `b`. -/
def Line.quotePaidIn (b : Nat) : Line → Nat
  | .deposit a .bid n => if a = b then n else 0
  | _ => 0

/-- Base units paid out to the owner of account `b`. -/
def Line.basePaidOut (b : Nat) : Line → Nat
  | .payout a n _ _ _ => if a = b then n else 0
  | _ => 0

/-- Quote units paid out to the owner of account `b`. -/
def Line.quotePaidOut (b : Nat) : Line → Nat
  | .payout a _ n _ _ => if a = b then n else 0
  | _ => 0

/-- Lots account `b` bought. -/
def Note.bought (b : Nat) : Note → Nat
  | .placed p => if p.side = .bid ∧ p.account = b then total (·.lots) p.took else 0
  | .filled t => if t.side = .bid ∧ t.owner = b then t.lots else 0
  | _ => 0

/-- Quote units account `b` was paid as a seller, before fees. -/
def Note.earned (m : Market) (b : Nat) : Note → Nat
  | .placed p => if p.side = .ask ∧ p.account = b then total (Trade.value m) p.took else 0
  | .filled t => if t.side = .ask ∧ t.owner = b then t.value m else 0
  | _ => 0

/-- Fees account `b` paid as a seller. -/
def Note.saleFee (b : Nat) : Note → Nat
  | .placed p => if p.side = .ask ∧ p.account = b then p.fee else 0
  | _ => 0

theorem total_still {f : Note → Nat} (hf : ∀ x, x.still = true → f x = 0) {M : List Note}
    (h : M.all Note.still = true) : total f M = 0 :=
  sumBy_zero fun x hx => hf x (List.all_eq_true.1 h x hx)

theorem total_mul_left {α : Type} (f : α → Nat) (c : Nat) (l : List α) : total (fun x => c * f x) l = c * total f l := by
  have := total_mul f c l
  rw [Nat.mul_comm, ← this]
  exact sumBy_congr' fun x _ => Nat.mul_comm _ _

/-- The journal's sums for account `b` are payments in and out, and what the record says was traded. -/
structure Tally (m : Market) (b : Nat) (L : List Line) (M : List Note) : Prop where
  baseIn : total (Line.baseIn m b) L = total (Line.basePaidIn b) L + total (Note.bought b) M * m.coinLot
  baseOut : total (Line.baseOut m b) L = total (Line.basePaidOut b) L + total (Note.sold b) M * m.coinLot
  quoteIn : total (Line.quoteIn m b) L = total (Line.quotePaidIn b) L + total (Note.earned m b) M
  quoteOut : total (Line.quoteOut m b) L =
    total (Line.quotePaidOut b) L + total (Note.spent m b) M + total (Note.saleFee b) M

theorem Tally.append {m : Market} {b : Nat} {L L' : List Line} {M M' : List Note} (h : Tally m b L M)
    (k : Tally m b L' M') : Tally m b (L ++ L') (M ++ M') := by
  obtain ⟨a1, a2, a3, a4⟩ := h
  obtain ⟨b1, b2, b3, b4⟩ := k
  refine ⟨?_, ?_, ?_, ?_⟩ <;> simp only [total_append, Nat.add_mul] <;> omega

theorem Tally.still {m : Market} {b : Nat} {L : List Line} {M : List Note} (hL : L.all Line.still = true)
    (hM : M.all Note.still = true) : Tally m b L M := by
  have z : ∀ {f : Note → Nat}, (∀ x, x.still = true → f x = 0) → total f M = 0 := fun hf => total_still hf hM
  have e : ∀ {f g : Line → Nat}, (∀ x, x.still = true → f x = g x) → total f L = total g L :=
    fun h => sumBy_congr' fun x hx => h x (List.all_eq_true.1 hL x hx)
  have z1 : total (Note.bought b) M = 0 := z fun x hx => by cases x <;> first | rfl | cases hx
  have z2 : total (Note.sold b) M = 0 := z fun x hx => by cases x <;> first | rfl | cases hx
  have z3 : total (Note.earned m b) M = 0 := z fun x hx => by cases x <;> first | rfl | cases hx
  have z4 : total (Note.spent m b) M = 0 := z fun x hx => by cases x <;> first | rfl | cases hx
  have z5 : total (Note.saleFee b) M = 0 := z fun x hx => by cases x <;> first | rfl | cases hx
  refine ⟨?_, ?_, ?_, ?_⟩
  · rw [z1, Nat.zero_mul]; exact e fun x hx => by cases x <;> first | rfl | cases hx
  · rw [z2, Nat.zero_mul]; exact e fun x hx => by cases x <;> first | rfl | cases hx
  · rw [z3]; exact e fun x hx => by cases x <;> first | rfl | cases hx
  · rw [z4, z5]; exact e fun x hx => by cases x <;> first | rfl | cases hx

theorem Tally.trades {m : Market} {b : Nat} (ts : List Trade) (fee : Trade → Nat) :
    Tally m b (ts.map fun t => .trade t none (fee t)) (ts.map .filled) := by
  induction ts with
  | nil => exact .still rfl rfl
  | cons t ts ih =>
    have e : Tally m b [.trade t none (fee t)] [.filled t] := by
      refine ⟨?_, ?_, ?_, ?_⟩ <;> simp only [total] <;> cases hs : t.side <;> by_cases ho : t.owner = b <;>
        simp [Line.baseIn, Line.baseOut, Line.quoteIn, Line.quoteOut, Line.basePaidIn, Line.basePaidOut, Line.quotePaidIn,
          Line.quotePaidOut, Note.bought, Note.sold, Note.earned, Note.spent, Note.saleFee, Trade.baseGot, Trade.baseGiven,
          Trade.quoteGot, Trade.quoteGiven, hs, ho]
    exact e.append ih

theorem SameDeals.tally {L : List Line} {M : List Note} (h : SameDeals L M) (m : Market) (b : Nat) : Tally m b L M := by
  cases h with
  | still hL hM => exact .still hL hM
  | take ts fee => exact .trades ts fee
  | order p d fee rest hr hf hs =>
    have hrest : Tally m b [] rest := Tally.still rfl hr
    have key : ∀ ts : List Trade, (∀ t ∈ ts, t.side = otherSide p.side) →
        Tally m b (.deposit p.account p.side d :: ts.map fun t => .trade t (some p.account) (fee t))
          (.placed { p with took := ts, fee := total fee ts } :: ts.map .filled) := by
      intro ts
      induction ts with
      | nil =>
        intro _
        refine ⟨?_, ?_, ?_, ?_⟩ <;> simp only [total, List.map_nil] <;>
          cases hs : p.side <;> by_cases ho : p.account = b <;>
          simp [Line.baseIn, Line.baseOut, Line.quoteIn, Line.quoteOut, Line.basePaidIn, Line.basePaidOut, Line.quotePaidIn,
            Line.quotePaidOut, Note.bought, Note.sold, Note.earned, Note.spent, Note.saleFee, ho, total]
      | cons t ts ih =>
        intro hts
        obtain ⟨a1, a2, a3, a4⟩ := ih fun x hx => hts x (List.mem_cons_of_mem _ hx)
        have ht := hts t (by simp)
        refine ⟨?_, ?_, ?_, ?_⟩ <;>
          simp only [List.map_cons, total_cons, Line.baseIn, Line.baseOut, Line.quoteIn, Line.quoteOut, Line.basePaidIn,
            Line.basePaidOut, Line.quotePaidIn, Line.quotePaidOut, Note.bought, Note.sold, Note.earned, Note.spent,
            Note.saleFee] at a1 a2 a3 a4 ⊢ <;>
          cases hs : p.side <;> by_cases ho : p.account = b <;> by_cases ht' : t.owner = b <;>
          simp [hs, ho, ht', otherSide] at ht a1 a2 a3 a4 ⊢ <;>
          (try simp [ht, Trade.baseGot, Trade.baseGiven, Trade.quoteGot, Trade.quoteGiven, Nat.add_mul] at a1 a2 a3 a4 ⊢) <;>
          omega
    have := (key p.took hs).append hrest
    rw [← hf] at this
    simpa using this

theorem Told.tally {P : Params} {s s' : State conc} {J : List Line} {N : List Note} (h : Told P s s' J N) (m : Market)
    (b : Nat) : Tally m b J N := by
  induction h with
  | nil => exact .still rfl rfl
  | act t ha he hn hd ih => exact ih.append (hd.tally m b)
  | @purge s1 J N a o t ho hc ih =>
    have := ih.append (Tally.still (m := m) (b := b) (L := [.forfeit a o.rebates]) (M := []) rfl rfl)
    rwa [List.append_nil] at this
  | token t h ih => exact ih

/-! ### Every history is told -/

theorem act_told {P : Params} {env : Env} {accts : List AccMeta} {s s' : State conc} (h : Reach P s)
    (hn : NotVault P s.mkt accts) (hq : s'.seq ≤ W64) (ha : Act P env accts s s') :
    ∃ L M, Entered P accts s s' L ∧ Noted P env accts s s' M ∧ SameDeals L M ∧ (∀ b, b ≠ 0 → Statement s s' L b) ∧
      FeeStatement s s' L ∧ Balanced s s' M := by
  have hs : s.seq ≤ W64 := Nat.le_trans ha.seq hq
  have deals : Deals P env accts s s' → ∃ L M, Entered P accts s s' L ∧ Noted P env accts s s' M ∧ SameDeals L M ∧
      (∀ b, b ≠ 0 → Statement s s' L b) ∧ FeeStatement s s' L ∧ Balanced s s' M := by
    rintro (⟨l, ix, hl, hv, hx⟩ | ⟨l, ix, hl, hv, hx⟩)
    · have hlt : s.seq < W64 := by have := (newOrderV3_keeps hx).2.1; omega
      obtain ⟨a, tier, _, _, _, d, ts, f, _, e⟩ := place_effect h hlt hv (hn.subset hl) hx
      obtain ⟨h1, h2, h3⟩ := place_lines hl hv hlt e
      obtain ⟨h4, h5⟩ := place_notes (accts := accts) h hs hl hv hlt hx e
      refine ⟨_, _, h1, h4, ?_, h2, h3, h5⟩
      have := SameDeals.order (placedBy s ix a.oo.key tier ts f) d (fun t => tier.takerFee (t.value s.mkt))
        ((ownMet ts).map (fun x => .gone (otherSide ix.side) a.oo.key x.1 x.2 .ownOrder) ++
          (evictedOf f).toList.map fun y => .gone ix.side y.owner y.key y.quantity .crowdedOut)
        (by simp [Note.still]) (tradesOf_fees s.mkt tier ix.side.other ts).symm
        (fun t ht => (e.matched.trades ht).1.trans (by cases ix.side <;> rfl))
      unfold placeNotes
      rw [List.append_assoc]
      exact this
    · have hlt : s.seq < W64 := by have := (sendTake_keeps hx).2.1; omega
      obtain ⟨_, _, _, _, e⟩ := take_effect h hlt hv (hn.subset hl) hx
      obtain ⟨h1, h2, h3⟩ := take_lines hl e
      obtain ⟨h4, h5⟩ := take_notes (env := env) hl hv hlt hx e
      exact ⟨_, _, h1, h4, .take _ _, h2, h3, h5⟩
  rcases still_lines h hn hq ha with hd | ⟨L, h1, h2, h3, h4⟩
  · exact deals hd
  rcases still_notes h hn hq ha with hd | ⟨M, k1, k2, k3⟩
  · exact deals hd
  exact ⟨L, M, h1, k1, .still h4 k3, h2, h3, k2⟩

/-- The highest limit price of the bids placed, or `hi` if none is higher. -/
def topBid (hi : Nat) : List Note → Nat
  | [] => hi
  | .placed p :: N => topBid (if p.side = .bid then max hi p.price else hi) N
  | _ :: N => topBid hi N

/-- The most account `b` can be paid for the asks placed for it, if the best bid ever placed before was `hi`: each lot at the ask's own
price or at the highest price at which anyone has offered to buy before it, whichever is more. -/
def maxGain (lot b hi : Nat) : List Note → Nat
  | [] => 0
  | .placed p :: N =>
    (if p.side = .ask ∧ p.account = b then p.size * max hi p.price * lot else 0) +
      maxGain lot b (if p.side = .bid then max hi p.price else hi) N
  | _ :: N => maxGain lot b hi N

theorem topBid_append (hi : Nat) (N M : List Note) : topBid hi (N ++ M) = topBid (topBid hi N) M := by
  induction N generalizing hi with
  | nil => rfl
  | cons x N ih => cases x <;> exact ih _

theorem maxGain_append (lot b hi : Nat) (N M : List Note) :
    maxGain lot b hi (N ++ M) = maxGain lot b hi N + maxGain lot b (topBid hi N) M := by
  induction N generalizing hi with
  | nil => exact (Nat.zero_add _).symm
  | cons x N ih =>
    cases x with
    | placed p =>
      show _ + maxGain _ _ _ (N ++ M) = _ + maxGain _ _ _ N + maxGain _ _ (topBid _ N) M
      rw [ih, Nat.add_assoc]
    | filled t => exact ih _
    | gone => exact ih _

theorem topBid_ge (hi : Nat) (N : List Note) : hi ≤ topBid hi N := by
  induction N generalizing hi with
  | nil => exact Nat.le_refl _
  | cons x N ih =>
    cases x with
    | placed p =>
      refine Nat.le_trans ?_ (ih _)
      split
      · exact Nat.le_max_left _ _
      · exact Nat.le_refl _
    | filled t => exact ih _
    | gone => exact ih _

theorem topBid_mem {hi : Nat} {N : List Note} {p : Placed} (hp : .placed p ∈ N) (hs : p.side = .bid) :
    p.price ≤ topBid hi N := by
  induction N generalizing hi with
  | nil => cases hp
  | cons x N ih =>
    rcases List.mem_cons.1 hp with e | hp
    · subst e
      show p.price ≤ topBid (if p.side = .bid then max hi p.price else hi) N
      rw [if_pos hs]
      exact Nat.le_trans (Nat.le_max_right _ _) (topBid_ge _ _)
    · cases x <;> exact ih ‹_ ∈ N›

/-- The part of the bound that one entry accounts for. -/
def Note.cap (lot b hi : Nat) : Note → Nat
  | .placed p => if p.side = .ask ∧ p.account = b then p.size * max hi p.price * lot else 0
  | _ => 0

theorem cap_le (lot b hi : Nat) (N : List Note) : total (Note.cap lot b hi) N ≤ maxGain lot b hi N := by
  have : ∀ k, hi ≤ k → total (Note.cap lot b hi) N ≤ maxGain lot b k N := by
    induction N with
    | nil => intro _ _; exact Nat.le_refl _
    | cons x N ih =>
      intro k hk
      rw [total_cons]
      cases x with
      | placed p =>
        refine Nat.add_le_add ?_ (ih _ ?_)
        · simp only [Note.cap]
          split
          · exact Nat.mul_le_mul_right _ (Nat.mul_le_mul_left _ (by omega))
          · exact Nat.le_refl _
        · split
          · exact Nat.le_trans hk (Nat.le_max_left _ _)
          · exact hk
      | filled t => simp only [Note.cap, Nat.zero_add]; exact ih k hk
      | gone => simp only [Note.cap, Nat.zero_add]; exact ih k hk
  exact this hi (Nat.le_refl _)

/-- Weighs the lots of account `b` by their price. -/
def priced (lot b : Nat) : Nat → Nat → Nat := fun k o => if o = b then extractPrice k * lot else 0

/-- What account `b` earned, and what its asks were opened for, is within the bound. -/
def EarnsWithin (m : Market) (b : Nat) (N : List Note) : Prop :=
  total (Note.earned m b) N + total (Note.added .ask (priced m.pcLot b)) N ≤
    maxGain m.pcLot b 0 N + total (Note.traded .ask (priced m.pcLot b)) N

theorem value_le {m : Market} {ts : List Trade} {hi : Nat} (h : ∀ t ∈ ts, t.price ≤ hi) :
    total (Trade.value m) ts ≤ total (·.lots) ts * hi * m.pcLot := by
  induction ts with
  | nil => exact Nat.zero_le _
  | cons t ts ih =>
    rw [total_cons, total_cons, Nat.add_mul, Nat.add_mul]
    exact Nat.add_le_add (Nat.mul_le_mul_right _ (Nat.mul_le_mul_left _ (h t (by simp))))
      (ih fun x hx => h x (List.mem_cons_of_mem _ hx))

theorem EarnsWithin.step {P : Params} {env : Env} {accts : List AccMeta} {m : Market} {s s' : State conc} {N M : List Note}
    {b : Nat} (h : EarnsWithin m b N) (hlt : s.seq < W64 ∨ ∀ p, .placed p ∉ M)
    (hb : ∀ l ∈ resting s .bid, l.price ≤ topBid 0 N) (hn : Noted P env accts s s' M) : EarnsWithin m b (N ++ M) := by
  have key : total (Note.earned m b) M + total (Note.added .ask (priced m.pcLot b)) M ≤
      maxGain m.pcLot b (topBid 0 N) M + total (Note.traded .ask (priced m.pcLot b)) M := by
    refine Nat.le_trans ?_ (Nat.add_le_add_right (cap_le _ _ _ _) _)
    rw [← total_add, ← total_add]
    refine total_mono fun x hx => ?_
    cases x with
    | placed p =>
      obtain ⟨h1, h2, _, h4, h5, _⟩ := hn.seq_le hx
      have hl : s.seq < W64 := hlt.resolve_right fun h => h p hx
      have hp : extractPrice p.id = p.price := by rw [h1]; exact extractPrice_genOrderId hl h2
      simp only [Note.earned, Note.added, Note.cap, Note.traded, priced]
      by_cases g1 : p.side = .ask
      · by_cases g2 : p.account = b
        · rw [if_pos ⟨g1, g2⟩, if_pos g1, if_pos g2, if_pos ⟨g1, g2⟩, hp]
          have hv : total (Trade.value m) p.took ≤ total (·.lots) p.took * max (topBid 0 N) p.price * m.pcLot := by
            refine value_le fun t ht => ?_
            obtain ⟨k1, ⟨l, k2, _, _, k3, _⟩, _⟩ := h4 t ht
            rw [k1, g1] at k2
            have := hb l k2
            rw [← k3]
            exact Nat.le_trans this (Nat.le_max_left _ _)
          have hr : p.price * m.pcLot * p.rested ≤ p.rested * max (topBid 0 N) p.price * m.pcLot := by
            have : p.price * m.pcLot * p.rested = p.rested * p.price * m.pcLot := by rw [Nat.mul_comm, ← Nat.mul_assoc]
            rw [this]
            exact Nat.mul_le_mul_right _ (Nat.mul_le_mul_left _ (Nat.le_max_right _ _))
          refine Nat.le_trans (Nat.add_le_add hv hr) ?_
          rw [← Nat.add_mul, ← Nat.add_mul]
          exact Nat.mul_le_mul_right _ (Nat.mul_le_mul_right _ h5)
        · rw [if_neg (fun h => g2 h.2), if_pos g1, if_neg g2]
          omega
      · rw [if_neg (fun h => g1 h.1), if_neg g1]
        omega
    | filled t =>
      obtain ⟨l, _, k1, _, k3, _⟩ := hn.filled hx
      have hp : extractPrice t.id = t.price := by rw [← k1, ← k3]; rfl
      simp only [Note.earned, Note.added, Note.cap, Note.traded, priced]
      by_cases g1 : t.side = .ask
      · by_cases g2 : t.owner = b
        · rw [if_pos ⟨g1, g2⟩, if_pos g1, if_pos g2, hp]
          unfold Trade.value
          have e : t.price * m.pcLot * t.lots = t.lots * t.price * m.pcLot := by rw [Nat.mul_comm, ← Nat.mul_assoc]
          omega
        · rw [if_neg (fun h => g2 h.2)]
          omega
      · rw [if_neg (fun h => g1 h.1)]
        omega
    | gone => exact Nat.le_refl _
  unfold EarnsWithin at *
  rw [maxGain_append]
  simp only [total_append]
  omega

/-- Everything said here about two states of a market. -/
structure TellsAll (P : Params) (s s' : State conc) (J : List Line) (N : List Note) : Prop where
  told : Told P s s' J N
  accounts : ∀ b, b ≠ 0 → Statement s s' J b
  fees : FeeStatement s s' J
  book : Balanced s s' N
  gains : Genesis P s → ∀ b, EarnsWithin s.mkt b N
  lots : s'.mkt.coinLot = s.mkt.coinLot ∧ s'.mkt.pcLot = s.mkt.pcLot

theorem TellsAll.act {P : Params} {env : Env} {accts : List AccMeta} {s s1 s2 : State conc} {J : List Line} {N : List Note}
    (h : TellsAll P s s1 J N) (hr : Reach P s1) (hn : NotVault P s1.mkt accts)
    (hq : s2.seq ≤ W64) (ha : Act P env accts s1 s2) : ∃ J' N', TellsAll P s s2 J' N' := by
  obtain ⟨L, M, h1, h2, h3, h4, h5, h6⟩ := act_told hr hn hq ha
  have hq1 : s1.seq ≤ W64 := Nat.le_trans ha.seq hq
  refine ⟨J ++ L, N ++ M, h.told.act ha h1 h2 h3, fun b hb => (h.accounts b hb).trans (h4 b hb) h.lots, h.fees.trans h5,
    h.book.trans h6, fun g b => (h.gains g b).step ?_ ?_ h2, ?_⟩
  · refine Classical.byContradiction fun hc => hc (.inr fun p hp => hc (.inl ?_))
    have := (h2.seq_le hp).2.2.1
    omega
  · intro l hl'
    obtain ⟨p, p1, p2, _, _, p3, _⟩ := (placed_before g hr hq1 h.told.record h.book).2 .bid l hl'
    rw [← p3]
    exact topBid_mem p1 p2
  · rw [ha.keeps.eq]; exact h.lots

theorem Acts.told {P : Params} {env : Env} {accts : List AccMeta} {s s1 s2 : State conc} {J : List Line} {N : List Note}
    (h : TellsAll P s s1 J N) (ha : Acts P env accts s1 s2) (hq : s2.seq ≤ W64) : ∃ J' N', TellsAll P s s2 J' N' := by
  induction ha generalizing J N with
  | nil _ => exact ⟨J, N, h⟩
  | cons hr hn ha t ih =>
    obtain ⟨J', N', h'⟩ := h.act hr hn (Nat.le_trans t.seq hq) ha
    exact ih h' hq

theorem tells_all {P : Params} {s s' : State conc} (h : Reach P s) (hl : Later P s s') (hq : s'.seq ≤ W64) :
    ∃ J N, TellsAll P s s' J N := by
  induction hl with
  | refl =>
    exact ⟨[], [], .nil, fun b _ => record_statement (fun _ => rfl) rfl ⟨rfl, rfl⟩ rfl rfl, .same rfl, .quiet fun _ => rfl,
      fun _ _ => Nat.le_refl _, rfl, rfl⟩
  | step hl hs ih =>
    have hr := hl.reach h
    cases hs with
    | instr hn hx =>
      obtain ⟨ix, _, hv, hp⟩ := step_instr hx
      have ha := process_acts hr hn hv hp
      obtain ⟨J, N, hJ⟩ := ih (Nat.le_trans ha.seq hq)
      exact ha.told hJ hq
    | @purge a o ho hc =>
      obtain ⟨J, N, t⟩ := ih hq
      refine ⟨_, N, t.told.purge ho hc, fun b hb => ?_, ?_, t.book.same fun sd => by cases sd <;> rfl, t.gains, t.lots⟩
      · exact (t.accounts b hb).trans (purge_statement hr hq ho hc b) t.lots
      · exact FeeStatement.trans t.fees ⟨rfl, rfl⟩
    | token hn hx =>
      obtain ⟨J, N, t⟩ := ih hq
      refine ⟨J, N, t.told.token hx, fun b hb => ?_, ⟨t.fees.held, t.fees.pot⟩, t.book.same fun sd => by cases sd <;> rfl, t.gains, t.lots⟩
      obtain ⟨b1, b2, b3⟩ := t.accounts b hb
      exact ⟨b1, b2, b3⟩

/-! ### Bounds on what one order can bring -/

/-- Lots account `b` offered to buy. -/
def Note.wanted (b : Nat) : Note → Nat
  | .placed p => if p.side = .bid ∧ p.account = b then p.size else 0
  | _ => 0

/-- The most account `b` can pay for its bids: the size at the limit price, or the budget if that is less, and one per cent
(`multiple_orders.rs` 764-771). -/
def Note.maxCost (lot b : Nat) : Note → Nat
  | .placed p =>
    if p.side = .bid ∧ p.account = b then
      min (p.size * p.price * lot) p.budget + min (p.size * p.price * lot) p.budget / 100
    else 0
  | _ => 0

theorem takerFee_ceil (t : FeeTier) (q : Nat) : t.takerFee q ≤ (7378697629483820 * q + (W64 - 1)) / W64 := by
  have hb : t.takerRate * q ≤ 7378697629483820 * q := Nat.mul_le_mul_right _ (takerRate_le t)
  unfold FeeTier.takerFee fixMul fixFloor fixFrac wadd
  simp only [Nat.shiftRight_eq_div_pow]
  generalize t.takerRate * q = x at *
  generalize 7378697629483820 * q = y at *
  unfold W64 W128
  by_cases hx : x % 18446744073709551616 = 0 <;> simp [hx] <;> omega

theorem takerFee_within (t : FeeTier) (q : Nat) : t.takerFee q ≤ q := by
  refine Nat.le_trans (takerFee_ceil t q) ?_
  unfold W64
  omega

theorem takerFee_percent (t : FeeTier) {q : Nat} (hq : q = 0 ∨ 100 ≤ q) : t.takerFee q ≤ q / 100 := by
  refine Nat.le_trans (takerFee_ceil t q) ?_
  unfold W64
  omega

theorem Record.fee {P : Params} {s s' : State conc} {N : List Note} (h : Record P s s' N) {p : Placed}
    (hp : .placed p ∈ N) : ∃ tier : FeeTier, p.fee = total (fun t => tier.takerFee (t.value s.mkt)) p.took := by
  induction h with
  | nil => cases hp
  | act r ha hn ih =>
    rcases List.mem_append.1 hp with hp | hp
    · exact ih hp
    · cases hn with
      | quiet => cases hp
      | order q signer o' tier own out sub ran asked id priced seq mem signed account owner tier_ met fee size budget =>
        rcases List.mem_cons.1 hp with e | hp
        · cases e
          refine ⟨tier, fee.trans ?_⟩
          rw [value_congr r.lots]
        · rcases List.mem_append.1 hp with hp | hp
          · rcases List.mem_append.1 hp with hp | hp
            · obtain ⟨_, _, e⟩ := List.mem_map.1 hp; cases e
            · obtain ⟨_, _, e⟩ := List.mem_map.1 hp; cases e
          · obtain ⟨_, _, e⟩ := List.mem_map.1 hp; cases e
      | take signer took sub ran mem signed met size => obtain ⟨_, _, e⟩ := List.mem_map.1 hp; cases e
      | withdrawn a signer o ls => obtain ⟨_, _, e⟩ := List.mem_map.1 hp; cases e
      | pruned a auth ls => obtain ⟨_, _, e⟩ := List.mem_map.1 hp; cases e
  | purge r ho hc ih => exact ih hp
  | token r h ih => exact ih hp

/-- A seller's fees are paid out of what they earn. -/
theorem saleFee_le {P : Params} {s s' : State conc} {N : List Note} (r : Record P s s' N) (b : Nat) :
    total (Note.saleFee b) N ≤ total (Note.earned s.mkt b) N := by
  refine total_mono fun x hx => ?_
  cases x with
  | placed p =>
    obtain ⟨tier, e⟩ := r.fee hx
    simp only [Note.saleFee, Note.earned]
    split
    · rw [e]
      generalize p.took = ts
      induction ts with
      | nil => exact Nat.le_refl _
      | cons t ts ih => rw [total_cons, total_cons]; exact Nat.add_le_add (takerFee_within _ _) ih
    · exact Nat.le_refl _
  | filled t => exact Nat.zero_le _
  | gone => exact Nat.zero_le _

theorem fee_percent {m : Market} (hm : 100 ≤ m.pcLot) (tier : FeeTier) (ts : List Trade) :
    total (fun t => tier.takerFee (t.value m)) ts ≤ total (Trade.value m) ts / 100 := by
  induction ts with
  | nil => exact Nat.zero_le _
  | cons t ts ih =>
    rw [total_cons, total_cons]
    have hq : t.value m = 0 ∨ 100 ≤ t.value m := by
      unfold Trade.value
      rcases Nat.eq_zero_or_pos (t.lots * t.price) with e | e
      · left; rw [e, Nat.zero_mul]
      · right; exact Nat.le_trans hm (Nat.le_mul_of_pos_left _ e)
    have := takerFee_percent tier hq
    omega

theorem bought_bound {P : Params} {s s' : State conc} {N : List Note} (r : Record P s s' N) (bal : Balanced s s' N)
    (b : Nat) (h0 : ∀ w, openLots s .bid w = 0) : total (Note.bought b) N ≤ total (Note.wanted b) N := by
  let w : Nat → Nat → Nat := fun _ o => if o = b then 1 else 0
  have hb := bal .bid w
  rw [h0] at hb
  have key : total (Note.bought b) N + total (Note.added .bid w) N ≤
      total (Note.wanted b) N + total (Note.traded .bid w) N := by
    rw [← total_add, ← total_add]
    refine total_mono fun x hx => ?_
    cases x with
    | placed p =>
      obtain ⟨hf, _⟩ := r.fair hx
      simp only [Note.bought, Note.added, Note.wanted, Note.traded, w]
      have := hf.size
      by_cases h1 : p.side = .bid
      · by_cases h2 : p.account = b
        · rw [if_pos ⟨h1, h2⟩, if_pos h1, if_pos h2, if_pos ⟨h1, h2⟩]
          omega
        · rw [if_neg (fun h => h2 h.2), if_pos h1, if_neg h2]
          omega
      · rw [if_neg (fun h => h1 h.1), if_neg h1]
        omega
    | filled t =>
      simp only [Note.bought, Note.added, Note.wanted, Note.traded, w]
      by_cases h1 : t.side = .bid
      · by_cases h2 : t.owner = b
        · rw [if_pos ⟨h1, h2⟩, if_pos h1, if_pos h2]
          omega
        · rw [if_neg (fun h => h2 h.2)]
          omega
      · rw [if_neg (fun h => h1 h.1)]
        omega
    | gone => exact Nat.le_refl _
  omega

theorem spent_bound {P : Params} {s s' : State conc} (hq : s'.seq ≤ W64) {N : List Note} (r : Record P s s' N)
    (bal : Balanced s s' N) (b : Nat) (h0 : ∀ w, openLots s .bid w = 0) (hm : 100 ≤ s.mkt.pcLot) :
    total (Note.spent s.mkt b) N ≤ total (Note.maxCost s.mkt.pcLot b) N := by
  have hb := bal .bid (priced s.mkt.pcLot b)
  rw [h0] at hb
  have key : total (Note.spent s.mkt b) N + total (Note.added .bid (priced s.mkt.pcLot b)) N ≤
      total (Note.maxCost s.mkt.pcLot b) N + total (Note.traded .bid (priced s.mkt.pcLot b)) N := by
    rw [← total_add, ← total_add]
    refine total_mono fun x hx => ?_
    cases x with
    | placed p =>
      obtain ⟨hf, n, _, n2, n3⟩ := r.fair hx
      simp only [Note.spent, Note.added, Note.maxCost, Note.traded, priced]
      by_cases h1 : p.side = .bid
      · by_cases h2 : p.account = b
        · rw [if_pos ⟨h1, h2⟩, if_pos h1, if_pos h2, if_pos ⟨h1, h2⟩]
          have hp : extractPrice p.id = p.price := by rw [n3]; exact extractPrice_genOrderId (by omega) hf.priced
          have hbud := hf.budget h1
          have hsz := hf.size
          have hv : total (Trade.value s.mkt) p.took ≤ total (·.lots) p.took * p.price * s.mkt.pcLot := by
            refine value_le fun t ht => ?_
            have := (hf.takes t ht).2.1
            rw [h1] at this
            exact this
          obtain ⟨tier, hfee⟩ := r.fee hx
          have hfe := fee_percent hm tier p.took
          rw [← hfee] at hfe
          have hc : total (Trade.value s.mkt) p.took + p.rested * p.price * s.mkt.pcLot ≤ p.size * p.price * s.mkt.pcLot := by
            refine Nat.le_trans (Nat.add_le_add_right hv _) ?_
            rw [← Nat.add_mul, ← Nat.add_mul]
            exact Nat.mul_le_mul_right _ (Nat.mul_le_mul_right _ hsz)
          rw [hp]
          have e : p.price * s.mkt.pcLot * p.rested = p.rested * p.price * s.mkt.pcLot := by
            rw [Nat.mul_comm, ← Nat.mul_assoc]
          rw [e]
          generalize p.size * p.price * s.mkt.pcLot = X at *
          generalize p.rested * p.price * s.mkt.pcLot = R at *
          generalize total (Trade.value s.mkt) p.took = V at *
          omega
        · rw [if_neg (fun h => h2 h.2), if_pos h1, if_neg h2]
          omega
      · rw [if_neg (fun h => h1 h.1), if_neg h1]
        omega
    | filled t =>
      obtain ⟨t1, _⟩ := r.filled hx
      simp only [Note.spent, Note.added, Note.maxCost, Note.traded, priced]
      by_cases h1 : t.side = .bid
      · by_cases h2 : t.owner = b
        · rw [if_pos ⟨h1, h2⟩, if_pos h1, if_pos h2, ← t1]
          unfold Trade.value
          have e : t.price * s.mkt.pcLot * t.lots = t.lots * t.price * s.mkt.pcLot := by
            rw [Nat.mul_comm, ← Nat.mul_assoc]
          omega
        · rw [if_neg (fun h => h2 h.2)]
          omega
      · rw [if_neg (fun h => h1 h.1)]
        omega
    | gone => exact Nat.le_refl _
  omega

theorem resting_none {P : Params} {s : State conc} (h : Genesis P s) (sd : Side) : resting s sd = [] := by
  refine List.eq_nil_iff_forall_not_mem.2 fun l hl => ?_
  obtain ⟨n, _, hn, _⟩ := resting_issued (.start h) (by rw [h.seq]; exact Nat.zero_le _) hl
  rw [h.seq] at hn; cases hn

/-! ### C95 -/

/-- Account `b` against the orders placed for it: `J` says what was paid in for it and paid out to its owner, `N` which
orders were placed. -/
structure InBounds (s' : State conc) (m : Market) (J : List Line) (N : List Note) (b : Nat) : Prop where
  /-- Base units: what it was paid out and still has, over what was paid in, is within the sizes of its bids. -/
  baseGained : total (Line.basePaidOut b) J + baseClaim s' b ≤
    total (Line.basePaidIn b) J + total (Note.wanted b) N * m.coinLot
  /-- Base units: what was paid in and has not come back is within the sizes of its asks. -/
  baseLost : total (Line.basePaidIn b) J ≤
    total (Line.basePaidOut b) J + baseClaim s' b + total (Note.offered b) N * m.coinLot
  /-- Quote units: what it was paid out and still has, over what was paid in, is within what its asks can earn, each lot
  at the ask's price or the highest price bid before. -/
  quoteGained : total (Line.quotePaidOut b) J + quoteClaim s' b ≤
    total (Line.quotePaidIn b) J + maxGain m.pcLot b 0 N
  /-- Quote units: what was paid in and has not come back is within the budgets of its bids. -/
  quoteLost : total (Line.quotePaidIn b) J ≤ total (Line.quotePaidOut b) J + quoteClaim s' b + total (Note.allowed b) N
  /-- And, unless a quote lot is less than a hundred units, within size times limit price, or the budget if that is less,
  and one per cent. -/
  quoteLost' : 100 ≤ m.pcLot → total (Line.quotePaidIn b) J ≤
    total (Line.quotePaidOut b) J + quoteClaim s' b + total (Note.maxCost m.pcLot b) N

/-- C95. In a market's whole life, for every account, what it gained and what it lost is within bounds that depend on the
orders placed and nothing else. -/
theorem gains_and_losses_bounded {P : Params} {s s' : State conc} (h : Genesis P s) (hl : Later P s s')
    (hq : s'.seq ≤ W64) :
    ∃ J N, Told P s s' J N ∧ ∀ b, b ≠ 0 → InBounds s' s.mkt J N b := by
  obtain ⟨J, N, t⟩ := tells_all (.start h) hl hq
  refine ⟨J, N, t.told, fun b hb => ?_⟩
  have r := t.told.record
  obtain ⟨a1, a2, a3, a4⟩ := t.told.tally s.mkt b
  obtain ⟨c1, c2, _⟩ := t.accounts b hb
  obtain ⟨z1, z2, _⟩ := absent_zero (.start h) (by rw [h.seq]; exact Nat.zero_le _) (b := b) (by rw [h.oos]; rfl)
  rw [z1, a1, a2] at c1
  rw [z2, a3, a4] at c2
  have e0 : ∀ sd w, openLots s sd w = 0 := by
    intro sd w
    unfold openLots; rw [resting_none h]; rfl
  have b1 := Nat.mul_le_mul_right s.mkt.coinLot (bought_bound r t.book b (e0 .bid))
  obtain ⟨b2, b3⟩ := never_overspends hq r t.book b
  have o1 : bidsOpen s b = 0 := by unfold bidsOpen; rw [resting_none h]; rfl
  have o2 : asksOpen s b = 0 := by unfold asksOpen; rw [resting_none h]; rfl
  have b4 := Nat.mul_le_mul_right s.mkt.coinLot (show total (Note.sold b) N ≤ total (Note.offered b) N by omega)
  have b5 := saleFee_le r b
  have b6 := t.gains h b
  unfold EarnsWithin at b6
  have b7 := t.book .ask (priced s.mkt.pcLot b)
  rw [e0] at b7
  refine ⟨by omega, by omega, by omega, by omega, fun hm => ?_⟩
  have b8 := spent_bound hq r t.book b (e0 .bid) hm
  omega

-- the nine instructions of the demo market: the orders placed, the trade and the order withdrawn. Both parties are within
-- their bounds; the seller's claim of 20000 quote units is within the 50000 its five lots could have earned
def Demo.notes : List Note :=
  [.placed ⟨41, .ask, 18446744073709551616000, 1000, 5, 1, [], 0, 5⟩,
    .placed ⟨42, .bid, genOrderId 1 1100 .bid, 1100, 2, 30000, [⟨.ask, 41, 18446744073709551616000, 1000, 2⟩], 8, 0⟩,
    .filled ⟨.ask, 41, 18446744073709551616000, 1000, 2⟩,
    .placed ⟨42, .bid, Demo.bidId, 900, 3, 40000, [], 0, 3⟩, .gone .bid 42 Demo.bidId 3 .withdrawn]

example : Genesis Demo.P Demo.s0 ∧ Later Demo.P Demo.s0 Demo.s9 ∧ Demo.s9.seq ≤ W64 ∧
    InBounds Demo.s9 Demo.s0.mkt Demo.journal Demo.notes 41 ∧ InBounds Demo.s9 Demo.s0.mkt Demo.journal Demo.notes 42 ∧
    (baseClaim Demo.s9 41, quoteClaim Demo.s9 41, maxGain 10 41 0 Demo.notes) = (300, 20000, 50000) ∧
    (total (Line.quotePaidIn 42) Demo.journal, total (Line.quotePaidOut 42) Demo.journal) = (60008, 40000) ∧
    ∃ J N, Told Demo.P Demo.s0 Demo.s9 J N ∧ InBounds Demo.s9 Demo.s0.mkt J N 41 := by
  refine ⟨Demo.genesis, Demo.later9, by decide +kernel,
    ⟨by decide +kernel, by decide +kernel, by decide +kernel, by decide +kernel, by decide +kernel⟩,
    ⟨by decide +kernel, by decide +kernel, by decide +kernel, by decide +kernel, by decide +kernel⟩,
    by decide +kernel, by decide +kernel, ?_⟩
  obtain ⟨J, N, t, h⟩ := gains_and_losses_bounded Demo.genesis Demo.later9 (by decide +kernel)
  exact ⟨J, N, t, h 41 (by decide)⟩

end Serum.Props
