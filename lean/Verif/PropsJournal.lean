import Verif.PropsRate
import Verif.PropsClaims
import Verif.PropsDisabled
import Verif.Demo

/-!
C64: the statement of account. Whatever happens to a market, there is a journal of deposits, trades, payouts and
sweeps, each line backed by a signed instruction and the tokens it moved, from which the claim of every account and
the fees held follow exactly.
-/

namespace Serum.Props

/-! ### Journals -/

/-- A line of a market's journal. -/
inductive Line where
  /-- `n` base units (`ask`) or quote units (`bid`) were paid in for account `a`. -/
  | deposit (a : Nat) (sd : Side) (n : Nat)
  /-- A trade with the resting order described by `t`. The other party is the account `taker`, or nobody's account if
  the trade was paid from and to wallets; it was charged `fee`. -/
  | trade (t : Trade) (taker : Option Nat) (fee : Nat)
  /-- Account `a` was paid its free base and quote; of its `rebate`, `ref` went to a referrer. -/
  | payout (a base quote rebate ref : Nat)
  /-- The sweep authority was paid `n`. -/
  | sweep (n : Nat)
  /-- A closed account was removed, with its rebates. -/
  | forfeit (a rebate : Nat)

/-- Base units a line adds to what belongs to account `b`: paid in, bought as maker, bought as taker. -/
def Line.baseIn (m : Market) (b : Nat) : Line → Nat
  | .deposit a .ask n => if a = b then n else 0
  | .trade t k _ => (if t.owner = b then t.baseGot m else 0) + (if k = some b then t.baseGiven m else 0)
  | _ => 0

/-- Base units a line takes away: sold as maker, sold as taker, paid out. -/
def Line.baseOut (m : Market) (b : Nat) : Line → Nat
  | .trade t k _ => (if t.owner = b then t.baseGiven m else 0) + (if k = some b then t.baseGot m else 0)
  | .payout a n _ _ _ => if a = b then n else 0
  | _ => 0

def Line.quoteIn (m : Market) (b : Nat) : Line → Nat
  | .deposit a .bid n => if a = b then n else 0
  | .trade t k _ => (if t.owner = b then t.quoteGot m else 0) + (if k = some b then t.quoteGiven m else 0)
  | _ => 0

/-- The taker pays the fee. -/
def Line.quoteOut (m : Market) (b : Nat) : Line → Nat
  | .trade t k fee => (if t.owner = b then t.quoteGiven m else 0) + (if k = some b then t.quoteGot m + fee else 0)
  | .payout a _ n _ _ => if a = b then n else 0
  | _ => 0

/-- A fifth of each fee is recorded for the referrer of the taker. -/
def Line.rebateIn (b : Nat) : Line → Nat
  | .trade _ k fee => if k = some b then fee / 5 else 0
  | _ => 0

def Line.rebateOut (b : Nat) : Line → Nat
  | .payout a _ _ r _ => if a = b then r else 0
  | .forfeit a r => if a = b then r else 0
  | _ => 0

/-- Fees a line brings in. -/
def Line.feeIn : Line → Nat
  | .trade _ _ fee => fee
  | _ => 0

/-- Fees and rebates a line pays out of the vault. -/
def Line.feeOut : Line → Nat
  | .payout _ _ _ _ ref => ref
  | .sweep n => n
  | _ => 0

/-- What a line adds to the market's record of referrers' rebates: a fifth of each fee, whether or not an account has a
claim to it. -/
def Line.potIn : Line → Nat
  | .trade _ _ fee => fee / 5
  | _ => 0

/-- What a line takes off it: the rebates of a settled account, whether a referrer gets them or the fees. -/
def Line.potOut : Line → Nat
  | .payout _ _ _ r _ => r
  | _ => 0

/-- The claims of account `b` in `s'` are those in `s` and what the journal says. -/
structure Statement (s s' : State conc) (J : List Line) (b : Nat) : Prop where
  base : baseClaim s' b + total (Line.baseOut s.mkt b) J = baseClaim s b + total (Line.baseIn s.mkt b) J
  quote : quoteClaim s' b + total (Line.quoteOut s.mkt b) J = quoteClaim s b + total (Line.quoteIn s.mkt b) J
  rebate : rebateClaim s' b + total (Line.rebateOut b) J = rebateClaim s b + total (Line.rebateIn b) J

/-- The fees held in `s'`, and the referrers' part of them, are those in `s` and what the journal says. -/
structure FeeStatement (s s' : State conc) (J : List Line) : Prop where
  held : feesHeld s' + total Line.feeOut J = feesHeld s + total Line.feeIn J
  pot : s'.mkt.referrerRebates + total Line.potOut J = s.mkt.referrerRebates + total Line.potIn J

/-- The lines of one act and what backs them. -/
inductive Entered (P : Params) (accts : List AccMeta) (s s' : State conc) : List Line → Prop where
  /-- No tokens moved, and nothing is written down. -/
  | quiet (toks : s'.toks = s.toks) : Entered P accts s s' []
  /-- An order of account `a`, signed by its owner: what came in was paid into the vault by a wallet that is the owner's
  or delegated to them; every trade was with an
  order resting at that moment, at its price and not beyond its size, and charged the tier's fee. -/
  | order (a payer : Nat) (signer : AccMeta) (o' : OpenOrders) (side : Side) (tier : FeeTier) (d : Nat) (trades : List Trade)
      (mem : signer ∈ accts) (signed : signer.signer = true) (account : ooAt s'.oos a = some o')
      (owner : o'.owner = signer.key)
      (tier_ : Due P s.toCore signer.key accts (advertised tier))
      (paid : PaidIn s.toks s'.toks payer (match side with | .bid => s.mkt.pcVault | .ask => s.mkt.coinVault) d)
      (payers : s'.toks = s.toks ∨ ∃ t, s.toks payer = some t ∧ (t.owner = signer.key ∨ t.delegate = some signer.key))
      (met : ∀ t ∈ trades, t.side = otherSide side ∧ t.With s ∧ t.owner ≠ a) :
      Entered P accts s s'
        (.deposit a side d :: trades.map fun t => .trade t (some a) (tier.takerFee (t.value s.mkt)))
  /-- A take: the traded amounts and the fees moved between wallets and vaults. -/
  | take (signer : AccMeta) (side : Side) (tier : FeeTier) (coinWallet pcWallet : Nat) (trades : List Trade)
      (mem : signer ∈ accts) (signed : signer.signer = true)
      (tier_ : Due P s.toCore signer.key accts (advertised tier))
      (met : ∀ t ∈ trades, t.side = otherSide side ∧ t.With s)
      (paid : ∃ l, match side with
        | .bid => PaidIn s.toks l pcWallet s.mkt.pcVault
              (total (Trade.value s.mkt) trades + total (fun t => tier.takerFee (t.value s.mkt)) trades) ∧
            PaidOut l s'.toks s.mkt.coinVault coinWallet (total (·.lots) trades * s.mkt.coinLot)
        | .ask => PaidIn s.toks l coinWallet s.mkt.coinVault (total (·.lots) trades * s.mkt.coinLot) ∧
            PaidOut l s'.toks s.mkt.pcVault pcWallet
              (total (Trade.value s.mkt) trades - total (fun t => tier.takerFee (t.value s.mkt)) trades)) :
      Entered P accts s s' (trades.map fun t => .trade t none (tier.takerFee (t.value s.mkt)))
  /-- A settlement of account `a`, signed by its owner: exactly these amounts left the vaults. -/
  | settle (a coinDst pcDst base quote rebate ref : Nat) (signer : AccMeta) (o : OpenOrders)
      (mem : signer ∈ accts) (signed : signer.signer = true) (account : ooAt s.oos a = some o)
      (owner : o.owner = signer.key)
      (paid : ∃ l1 l2, Paid s.toks l1 s.mkt.coinVault coinDst base ∧ Paid l1 l2 s.mkt.pcVault pcDst quote ∧
        ((ref = 0 ∧ s'.toks = l2) ∨ (ref = rebate ∧ ∃ r, Paid l2 s'.toks s.mkt.pcVault r ref))) :
      Entered P accts s s' [.payout a base quote rebate ref]
  /-- A sweep, signed by the sweep authority. -/
  | sweep (auth : AccMeta) (dst n : Nat) (mem : auth ∈ accts) (signed : auth.signer = true)
      (key : auth.key = P.feeSweeper) (paid : Paid s.toks s'.toks s.mkt.pcVault dst n) :
      Entered P accts s s' [.sweep n]

/-- A journal from `s` to `s'`. -/
inductive Journal (P : Params) (s : State conc) : State conc → List Line → Prop where
  | nil : Journal P s s []
  | act {s1 s2 : State conc} {J L : List Line} {env : Env} {accts : List AccMeta} (j : Journal P s s1 J)
      (ha : Act P env accts s1 s2) (he : Entered P accts s1 s2 L) : Journal P s s2 (J ++ L)
  | purge {s1 : State conc} {J : List Line} {a : Nat} {o : OpenOrders} (j : Journal P s s1 J)
      (ho : ooAt s1.oos a = some o) (hc : o.closed = true) :
      Journal P s { s1 with oos := purgeOo s1.oos a } (J ++ [.forfeit a o.rebates])
  /-- Token instructions of others leave no line. -/
  | token {s1 : State conc} {J : List Line} {signs : Nat → Bool} {ix : TokIx} {l : Ledger} (j : Journal P s s1 J)
      (h : tokExec signs s1.toks ix = some l) : Journal P s { s1 with toks := l } J

/-! ### Sums over lines -/

theorem Line.lotsCongr {m m' : Market} (h : m'.coinLot = m.coinLot ∧ m'.pcLot = m.pcLot) (b : Nat) :
    Line.baseIn m' b = Line.baseIn m b ∧ Line.baseOut m' b = Line.baseOut m b ∧
    Line.quoteIn m' b = Line.quoteIn m b ∧ Line.quoteOut m' b = Line.quoteOut m b := by
  obtain ⟨h1, h2, h3, h4⟩ := Trade.lotsCongr h
  refine ⟨?_, ?_, ?_, ?_⟩ <;> funext x <;> cases x <;>
    simp only [Line.baseIn, Line.baseOut, Line.quoteIn, Line.quoteOut, h1, h2, h3, h4]

theorem Statement.trans {s s1 s2 : State conc} {J L : List Line} {b : Nat} (h : Statement s s1 J b)
    (k : Statement s1 s2 L b) (hl : s1.mkt.coinLot = s.mkt.coinLot ∧ s1.mkt.pcLot = s.mkt.pcLot) :
    Statement s s2 (J ++ L) b := by
  obtain ⟨a1, a2, a3⟩ := h
  obtain ⟨b1, b2, b3⟩ := k
  obtain ⟨e1, e2, e3, e4⟩ := Line.lotsCongr hl b
  rw [e1, e2] at b1
  rw [e3, e4] at b2
  refine ⟨?_, ?_, ?_⟩ <;> simp only [total_append] <;> omega

theorem FeeStatement.trans {s s1 s2 : State conc} {J L : List Line} (h : FeeStatement s s1 J) (k : FeeStatement s1 s2 L) :
    FeeStatement s s2 (J ++ L) := by
  obtain ⟨a1, a2⟩ := h
  obtain ⟨b1, b2⟩ := k
  refine ⟨?_, ?_⟩ <;> simp only [total_append] <;> omega

theorem FeeStatement.same {s s' : State conc} (h : s'.mkt = s.mkt) : FeeStatement s s' [] := by
  refine ⟨?_, ?_⟩
  · unfold feesHeld; rw [h]; rfl
  · rw [h]; rfl

theorem OnlyFilled.statement {s s' : State conc} {b : Nat} (h : OnlyFilled s s' b []) : Statement s s' [] b := by
  obtain ⟨_, _, h1, h2, h3, _⟩ := h
  exact ⟨h1, h2, by rw [h3]; rfl⟩

theorem total_add {α : Type} (f g : α → Nat) (l : List α) : total (fun x => f x + g x) l = total f l + total g l :=
  sumBy_add' f g l

theorem total_zero {α : Type} {f : α → Nat} {l : List α} (h : ∀ x ∈ l, f x = 0) : total f l = 0 := sumBy_zero h

theorem total_mul {α : Type} (f : α → Nat) (c : Nat) (l : List α) : total (fun x => f x * c) l = total f l * c := by
  induction l with
  | nil => simp [total]
  | cons x xs ih =>
    have e : ∀ g : α → Nat, total g (x :: xs) = g x + total g xs := fun g => by simp [total]
    rw [e, e, ih, Nat.add_mul]

/-- The trades of a run as seen by an account that is not the taker. -/
theorem trades_maker {trades : List Trade} {b : Nat} {k : Option Nat} (hk : k ≠ some b) (g h : Trade → Nat) :
    total (fun t => (if t.owner = b then g t else 0) + (if k = some b then h t else 0)) trades =
      total g (trades.filter fun t => t.owner == b) := by
  rw [total_filter]
  refine total_congr fun t _ => ?_
  rw [if_neg hk]
  simp

/-- The lines of a run as seen by the taker. -/
theorem lines_taker {m : Market} {trades : List Trade} {b : Nat} (hb : ∀ t ∈ trades, t.owner ≠ b) (fee : Trade → Nat) :
    let L := trades.map fun t => Line.trade t (some b) (fee t)
    total (Line.baseIn m b) L = total (Trade.baseGiven m) trades ∧
    total (Line.baseOut m b) L = total (Trade.baseGot m) trades ∧
    total (Line.quoteIn m b) L = total (Trade.quoteGiven m) trades ∧
    total (Line.quoteOut m b) L = total (Trade.quoteGot m) trades + total fee trades ∧
    total (Line.rebateIn b) L = total (fun t => fee t / 5) trades ∧ total (Line.rebateOut b) L = 0 := by
  intro L
  refine ⟨?_, ?_, ?_, ?_, ?_, ?_⟩
  · rw [total_map]; exact total_congr fun t ht => by simp [Line.baseIn, hb t ht]
  · rw [total_map]; exact total_congr fun t ht => by simp [Line.baseOut, hb t ht]
  · rw [total_map]; exact total_congr fun t ht => by simp [Line.quoteIn, hb t ht]
  · rw [total_map, ← total_add]; exact total_congr fun t ht => by simp [Line.quoteOut, hb t ht]
  · rw [total_map]; exact total_congr fun t ht => by simp [Line.rebateIn]
  · rw [total_map]; exact total_zero fun t ht => by simp [Line.rebateOut]

/-- An account that did not trade against itself, through the lines of a run. -/
theorem statement_maker {s s' : State conc} {trades : List Trade} {b : Nat} {k : Option Nat} (hk : k ≠ some b)
    (fee : Trade → Nat) (h : OnlyFilled s s' b (trades.filter fun t => t.owner == b)) :
    Statement s s' (trades.map fun t => .trade t k (fee t)) b := by
  obtain ⟨_, _, h1, h2, h3, _⟩ := h
  refine ⟨?_, ?_, ?_⟩
  · rw [total_map, total_map]
    simp only [Line.baseIn, Line.baseOut]
    rw [trades_maker hk, trades_maker hk]
    exact h1
  · rw [total_map, total_map]
    simp only [Line.quoteIn, Line.quoteOut]
    rw [trades_maker hk, trades_maker hk]
    exact h2
  · rw [total_map, total_map, h3]
    simp only [Line.rebateIn, Line.rebateOut, if_neg hk]

theorem statement_deposit {s s' : State conc} {L : List Line} {a b d : Nat} {sd : Side} (hb : b ≠ a)
    (h : Statement s s' L b) : Statement s s' (.deposit a sd d :: L) b := by
  have hb' : ¬ a = b := fun e => hb e.symm
  obtain ⟨h1, h2, h3⟩ := h
  refine ⟨?_, ?_, ?_⟩
  · rw [total_cons, total_cons]
    cases sd <;> simp only [Line.baseIn, Line.baseOut, if_neg hb', Nat.zero_add] <;> exact h1
  · rw [total_cons, total_cons]
    cases sd <;> simp only [Line.quoteIn, Line.quoteOut, if_neg hb', Nat.zero_add] <;> exact h2
  · rw [total_cons, total_cons]
    simp only [Line.rebateIn, Line.rebateOut, Nat.zero_add]
    exact h3

/-! ### The order's own account -/

theorem trades_base {m : Market} {sd : Side} {ts : List Touch} :
    total (Trade.baseGiven m) (tradesOf sd ts) = (match sd with | .ask => tradedLots ts * m.coinLot | .bid => 0) ∧
    total (Trade.baseGot m) (tradesOf sd ts) = (match sd with | .bid => tradedLots ts * m.coinLot | .ask => 0) ∧
    total (Trade.quoteGiven m) (tradesOf sd ts) = (match sd with | .bid => tradedQuote m ts | .ask => 0) ∧
    total (Trade.quoteGot m) (tradesOf sd ts) = (match sd with | .ask => tradedQuote m ts | .bid => 0) := by
  have hs : ∀ t ∈ tradesOf sd ts, t.side = sd := by
    intro t ht
    unfold tradesOf at ht
    obtain ⟨_, _, rfl⟩ := List.mem_map.1 ht
    rfl
  rw [← tradesOf_lots sd ts, ← tradesOf_value m sd ts, ← total_mul]
  cases sd
  · refine ⟨total_zero fun t ht => ?_, total_congr fun t ht => ?_, total_congr fun t ht => ?_, total_zero fun t ht => ?_⟩ <;>
      simp [Trade.baseGiven, Trade.baseGot, Trade.quoteGiven, Trade.quoteGot, hs t ht]
  · refine ⟨total_congr fun t ht => ?_, total_zero fun t ht => ?_, total_zero fun t ht => ?_, total_congr fun t ht => ?_⟩ <;>
      simp [Trade.baseGiven, Trade.baseGot, Trade.quoteGiven, Trade.quoteGot, hs t ht]

theorem tradesOf_refs (m : Market) (tier : FeeTier) (sd : Side) (ts : List Touch) :
    total (fun t => tier.takerFee (t.value m) / 5) (tradesOf sd ts) = total (Touch.ref m tier) ts := by
  unfold tradesOf
  rw [total_map, total_filter]
  refine total_congr fun t _ => ?_
  unfold Touch.ref Touch.fee referrerRebate Trade.value Touch.pc
  cases t.filled <;> simp

theorem place_own {P : Params} {env : Env} {s s' : State conc} {accts : List AccMeta} {ix : NewOrderIx}
    {a : NewOrderAccts} {tier : FeeTier} {o o' : OpenOrders} {slot d : Nat} {ts : List Touch} {f : Option Posting}
    {evs : List EventView} (hq : s.seq < W64) (hp : U64 ix.limitPrice)
    (e : PlaceEffect P env s s' accts ix a tier o o' slot d ts f evs) :
    Statement s s' (.deposit a.oo.key ix.side d ::
      (tradesOf ix.side.other ts).map fun t => .trade t (some a.oo.key) (tier.takerFee (t.value s.mkt))) a.oo.key := by
  have hf0 : freeOf s a.oo.key = (o.coinFree, o.pcFree) ∧ rebatesOf s a.oo.key = o.rebates := by
    unfold freeOf rebatesOf
    rcases loadOrders_inv e.args.load with ⟨g, _⟩ | ⟨g, _, _, _, _, w, _, g2⟩
    · have g' : ooAt s.oos _ = some o := g
      rw [g']; exact ⟨rfl, rfl⟩
    · have g' : ooAt s.oos _ = none := g
      rw [g', g2]; exact ⟨rfl, rfl⟩
  have hf1 : freeOf s' a.oo.key = (o'.coinFree, o'.pcFree) ∧ rebatesOf s' a.oo.key = o'.rebates := by
    unfold freeOf rebatesOf
    rw [e.account]; exact ⟨rfl, rfl⟩
  have hne : ∀ t ∈ tradesOf ix.side.other ts, t.owner ≠ a.oo.key := fun t ht => (e.matched.trades ht).2.2.2
  have hs := e.matched.sums (only a.oo.key)
  have hoo : only a.oo.key a.oo.key = true := by simp [only]
  have hpm : ∀ (x : State conc) sd, bookLock sd s.mkt (only a.oo.key) (bestFirst x sd) =
      bookLock sd s.mkt (only a.oo.key) (resting x sd) := by
    intro x sd
    cases sd
    · exact bookLock_perm (List.reverse_perm _)
    · rfl
  have hlk : ∀ sd L, bookLock sd s'.mkt (only a.oo.key) L = bookLock sd s.mkt (only a.oo.key) L :=
    fun sd L => bookLock_congr e.matched.lots.1 e.matched.lots.2 sd _ L
  have hfill : ∀ t ∈ ts, t.filled = true → only a.oo.key t.maker.owner = false := by
    intro t ht hfl
    have := (e.matched.touches t ht).who.1 hfl
    simp only [newOrderReq] at this
    simp [only]
    exact fun e => this e.symm
  have hopp := hs.oppFree
  have z1 : sumBy (fun t => if t.filled then touchLock ix.side.other s.mkt (only a.oo.key) t else 0) ts = 0 := by
    refine sumBy_zero fun t ht => ?_
    split
    · rename_i hfl
      unfold touchLock
      rw [hfill t ht hfl]; rfl
    · rfl
  have hown := hs.ownFree
  have z2 : sumBy (fun t => if t.filled then (if only a.oo.key t.maker.owner then t.received ix.side s.mkt else 0) else 0) ts = 0 := by
    refine sumBy_zero fun t ht => ?_
    split
    · rename_i hfl
      rw [hfill t ht hfl]; rfl
    · rfl
  have hpr : extractPrice (genOrderId s.seq ix.limitPrice ix.side) = ix.limitPrice := extractPrice_genOrderId hq hp
  have hreb := hs.rebate
  simp only [newOrderReq] at hopp hown hreb
  rw [z1, hpm, hpm] at hopp
  rw [z2] at hown
  simp only [hoo, if_true] at hown
  rw [hpr] at hown
  simp only [hoo, and_true] at hreb
  rw [if_pos e.nonzero] at hreb
  obtain ⟨t1, t2, t3, t4⟩ := trades_base (m := s.mkt) (sd := ix.side.other) (ts := ts)
  have tf := tradesOf_fees s.mkt tier ix.side.other ts
  have tr := tradesOf_refs s.mkt tier ix.side.other ts
  obtain ⟨l1, l2, l3, l4, l5, l6⟩ := lines_taker (m := s.mkt) hne fun t => tier.takerFee (t.value s.mkt)
  refine ⟨?_, ?_, ?_⟩
  · rw [total_cons, total_cons, l1, l2, t1, t2, baseClaim_eq, baseClaim_eq, e.matched.queue, evSum_append, hf0.1, hf1.1, hlk]
    cases hsd : ix.side with
    | bid =>
      rw [hsd] at hopp
      have m := (e.bid hsd).base
      simp only [Side.other, Line.baseIn, Line.baseOut] at hopp ⊢
      omega
    | ask =>
      rw [hsd] at hown
      have hb := (e.ask hsd).base
      rw [Nat.add_mul] at hb
      simp only [Side.other, lockedValue, Line.baseIn, Line.baseOut, if_true] at hown ⊢
      omega
  · rw [total_cons, total_cons, l3, l4, t3, t4, tf, quoteClaim_eq, quoteClaim_eq, e.matched.queue, evSum_append, hf0.1, hf1.1,
      hlk]
    cases hsd : ix.side with
    | bid =>
      rw [hsd] at hown
      have hb := (e.bid hsd).quote
      simp only [Side.other, lockedValue, Line.quoteIn, Line.quoteOut, if_true] at hown ⊢
      omega
    | ask =>
      rw [hsd] at hopp
      have h1 := (e.ask hsd).quote
      have h2 := (e.ask hsd).fees
      simp only [Side.other, Line.quoteIn, Line.quoteOut] at hopp ⊢
      omega
  · rw [total_cons, total_cons, l5, l6, tr, rebateClaim_eq, rebateClaim_eq, e.matched.queue, evSum_append, hf0.2, hf1.2,
      hreb, e.rebates]
    simp only [Line.rebateIn, Line.rebateOut]
    unfold total sumBy
    omega

/-! ### One act -/

theorem nothing_zero {s : State conc} {b : Nat} (hb : ooAt s.oos b = none) (q1 : ∀ sd, ∀ x ∈ resting s sd, x.owner ≠ b)
    (q3 : ∀ v ∈ pending s, v.owner ≠ b) : baseClaim s b = 0 ∧ quoteClaim s b = 0 ∧ rebateClaim s b = 0 := by
  have z1 : ∀ sd, bookLock sd s.mkt (only b) (resting s sd) = 0 :=
    fun sd => sumBy_zero fun x hx => by simp [leafLock, only, q1 sd x hx]
  have z3 : ∀ w, evSum w (only b) (pending s) = 0 := fun w => sumBy_zero fun v hv => by simp [only, q3 v hv]
  have f : freeOf s b = (0, 0) := by unfold freeOf; rw [hb]
  have r : rebatesOf s b = 0 := by unfold rebatesOf; rw [hb]
  rw [baseClaim_eq, quoteClaim_eq, rebateClaim_eq, z1, z1, z3, z3, z3, f, r]
  exact ⟨rfl, rfl, rfl⟩

theorem absent_quiet {P : Params} {s : State conc} (h : Reach P s) (hq : s.seq ≤ W64) {b : Nat} (hb : ooAt s.oos b = none) :
    (∀ sd, ∀ x ∈ resting s sd, x.owner ≠ b) ∧ ∀ v ∈ pending s, v.owner ≠ b := by
  obtain ⟨vs, _, _, hi⟩ := h.view hq
  obtain ⟨q1, q2, q3⟩ := hi.quiet (a := b) fun i => by unfold slotsOf; rw [hb]
  exact ⟨fun sd => by cases sd <;> assumption, q3⟩

/-- What belongs to an account that is not there: nothing. -/
theorem absent_zero {P : Params} {s : State conc} (h : Reach P s) (hq : s.seq ≤ W64) {b : Nat} (hb : ooAt s.oos b = none) :
    baseClaim s b = 0 ∧ quoteClaim s b = 0 ∧ rebateClaim s b = 0 :=
  nothing_zero hb (absent_quiet h hq hb).1 (absent_quiet h hq hb).2

/-- Only the record of an account changed. -/
theorem claim_moves {s s' : State conc} {b : Nat} (hb : ∀ sd, resting s' sd = resting s sd)
    (hp : pending s' = pending s) (hl : s'.mkt.coinLot = s.mkt.coinLot ∧ s'.mkt.pcLot = s.mkt.pcLot) :
    baseClaim s' b + (freeOf s b).1 = baseClaim s b + (freeOf s' b).1 ∧
    quoteClaim s' b + (freeOf s b).2 = quoteClaim s b + (freeOf s' b).2 ∧
    rebateClaim s' b + rebatesOf s b = rebateClaim s b + rebatesOf s' b := by
  refine ⟨?_, ?_, ?_⟩
  · rw [baseClaim_eq, baseClaim_eq, hb, hp, bookLock_congr hl.1 hl.2]; omega
  · rw [quoteClaim_eq, quoteClaim_eq, hb, hp, bookLock_congr hl.1 hl.2]; omega
  · rw [rebateClaim_eq, rebateClaim_eq, hp]; omega

theorem record_statement {s s' : State conc} {b : Nat} (hb : ∀ sd, resting s' sd = resting s sd)
    (hp : pending s' = pending s) (hl : s'.mkt.coinLot = s.mkt.coinLot ∧ s'.mkt.pcLot = s.mkt.pcLot)
    (hf : freeOf s' b = freeOf s b) (hr : rebatesOf s' b = rebatesOf s b) : Statement s s' [] b := by
  obtain ⟨h1, h2, h3⟩ := claim_moves (b := b) hb hp hl
  rw [hf] at h1 h2
  rw [hr] at h3
  exact ⟨Nat.add_right_cancel h1, Nat.add_right_cancel h2, Nat.add_right_cancel h3⟩

/-- A line that says nothing about `b`. -/
theorem Statement.silent {s s' : State conc} {b : Nat} {x : Line} (h : Statement s s' [] b)
    (h1 : x.baseIn s.mkt b = 0 ∧ x.baseOut s.mkt b = 0) (h2 : x.quoteIn s.mkt b = 0 ∧ x.quoteOut s.mkt b = 0)
    (h3 : x.rebateIn b = 0 ∧ x.rebateOut b = 0) : Statement s s' [x] b := by
  obtain ⟨k1, k2, k3⟩ := h
  refine ⟨?_, ?_, ?_⟩ <;> rw [total_cons, total_cons] <;> omega

theorem trade_fees {trades : List Trade} {k : Option Nat} (fee : Trade → Nat) :
    total Line.feeIn (trades.map fun t => .trade t k (fee t)) = total fee trades ∧
    total Line.feeOut (trades.map fun t => .trade t k (fee t)) = 0 := by
  rw [total_map, total_map]
  exact ⟨rfl, total_zero fun _ _ => rfl⟩

theorem trade_pots {trades : List Trade} {k : Option Nat} (fee : Trade → Nat) :
    total Line.potIn (trades.map fun t => .trade t k (fee t)) = total (fun t => fee t / 5) trades ∧
    total Line.potOut (trades.map fun t => .trade t k (fee t)) = 0 := by
  rw [total_map, total_map]
  exact ⟨rfl, total_zero fun _ _ => rfl⟩

theorem referrerPart_eq (m : Market) (tier : FeeTier) (ts : List Touch) : referrerPart m tier ts = total (Touch.ref m tier) ts :=
  rfl

theorem Moved.pot {m m' : Market} {a b c d fee ref : Nat} (h : Moved m m' a b c d fee ref) :
    m'.referrerRebates = m.referrerRebates + ref := by rw [h.mkt]

theorem parse_order_owner {accts : List AccMeta} {a : NewOrderAccts} (h : parseNewOrder accts = .ok a) : a.owner ∈ accts := by
  unfold parseNewOrder at h
  split at h
  · split at h
    · cases h; simp
    · cases h
  · cases h

theorem parse_take_signer {accts : List AccMeta} {a : SendTakeAccts} (h : parseSendTake accts = .ok a) : a.signer ∈ accts := by
  unfold parseSendTake at h
  split at h
  · split at h
    · cases h; simp
    · cases h
  · cases h

/-- The lines of an order. -/
theorem place_lines {P : Params} {env : Env} {accts l : List AccMeta} {s s' : State conc} {ix : NewOrderIx}
    {a : NewOrderAccts} {tier : FeeTier} {p p' : OpenOrders} {slot d : Nat} {ts : List Touch} {f : Option Posting}
    {evs : List EventView} (hl : l ⊆ accts) (hv : OrderValid ix) (hlt : s.seq < W64)
    (e : PlaceEffect P env s s' l ix a tier p p' slot d ts f evs) :
    Entered P accts s s' (.deposit a.oo.key ix.side d ::
      (tradesOf ix.side.other ts).map fun t => .trade t (some a.oo.key) (tier.takerFee (t.value s.mkt))) ∧
    (∀ b, b ≠ 0 → Statement s s' (.deposit a.oo.key ix.side d ::
      (tradesOf ix.side.other ts).map fun t => .trade t (some a.oo.key) (tier.takerFee (t.value s.mkt))) b) ∧
    FeeStatement s s' (.deposit a.oo.key ix.side d ::
      (tradesOf ix.side.other ts).map fun t => .trade t (some a.oo.key) (tier.takerFee (t.value s.mkt))) := by
  have hside : ix.side.other = otherSide ix.side := by cases ix.side <;> rfl
  refine ⟨.order a.oo.key a.payer.key a.owner p' ix.side tier d (tradesOf ix.side.other ts)
    (hl (parse_order_owner e.args.parse)) e.args.signed e.account (e.owner.1.trans e.owner.2)
    ((order_due e.args).subset hl) ?_ (depositIn_auth e.signedPay) (fun t ht => ?_), fun b _ => ?_, ?_⟩
  · have := e.paid
    unfold Market.depositVault at this
    exact this
  · obtain ⟨h1, h2, _, h4⟩ := e.matched.trades ht
    exact ⟨h1.trans hside, h2, h4⟩
  · by_cases hb : b = a.oo.key
    · rw [hb]; exact place_own hlt hv.1.2 e
    · refine statement_deposit hb (statement_maker (fun e => hb (Option.some.inj e).symm) _ ?_)
      refine e.matched.filled hb (e.others b hb) fun hs => ?_
      have m := e.ask hs
      exact Nat.lt_of_le_of_lt (Nat.mul_le_mul_right _ (by have := m.size; omega)) m.fits
  · refine ⟨?_, ?_⟩
    rotate_left
    · rw [total_cons, total_cons, (trade_pots _).1, (trade_pots _).2, tradesOf_refs, ← referrerPart_eq]
      have : s'.mkt.referrerRebates = s.mkt.referrerRebates + referrerPart s.mkt tier ts := by
        cases hs : ix.side with
        | bid => exact (e.bid hs).mkt.pot
        | ask => exact (e.ask hs).mkt.pot
      rw [this]
      simp only [Line.potIn, Line.potOut]
      omega
    rw [total_cons, total_cons, (trade_fees _).1, (trade_fees _).2, tradesOf_fees]
    have : feesHeld s' = feesHeld s + takerFees s.mkt tier ts := by
      cases hs : ix.side with
      | bid => exact (e.bid hs).mkt.fees
      | ask => exact (e.ask hs).mkt.fees
    rw [this]
    simp only [Line.feeIn, Line.feeOut]
    omega

/-- The lines of a take. -/
theorem take_lines {P : Params} {accts l : List AccMeta} {s s' : State conc} {ix : SendTakeIx} {a : SendTakeAccts}
    {tier : FeeTier} {ts : List Touch} {evs : List EventView} (hl : l ⊆ accts)
    (e : TakeEffect P s s' l ix a tier ts evs) :
    Entered P accts s s' ((tradesOf ix.side.other ts).map fun t => .trade t none (tier.takerFee (t.value s.mkt))) ∧
    (∀ b, b ≠ 0 →
      Statement s s' ((tradesOf ix.side.other ts).map fun t => .trade t none (tier.takerFee (t.value s.mkt))) b) ∧
    FeeStatement s s' ((tradesOf ix.side.other ts).map fun t => .trade t none (tier.takerFee (t.value s.mkt))) := by
  have hside : ix.side.other = otherSide ix.side := by cases ix.side <;> rfl
  refine ⟨.take a.signer ix.side tier a.coinWallet.key a.pcWallet.key (tradesOf ix.side.other ts)
    (hl (parse_take_signer e.args.parse)) e.args.signed ((take_due e.args).subset hl) (fun t ht => ?_) ?_,
    fun b hb => ?_, ?_⟩
  · obtain ⟨h1, h2, _⟩ := e.matched.trades ht
    exact ⟨h1.trans hside, h2⟩
  · rw [tradesOf_fees, tradesOf_value, tradesOf_lots]
    cases hs : ix.side with
    | bid => exact (e.bid hs).paid
    | ask => exact (e.ask hs).paid
  · exact statement_maker (by simp) _ (e.matched.filled hb (by rw [e.accounts]) fun _ => e.lots)
  · refine ⟨?_, ?_⟩
    rotate_left
    · rw [(trade_pots _).1, (trade_pots _).2, tradesOf_refs, ← referrerPart_eq]
      cases hs : ix.side with
      | bid => exact (e.bid hs).mkt.pot
      | ask => exact (e.ask hs).mkt.pot
    rw [(trade_fees _).1, (trade_fees _).2, tradesOf_fees]
    cases hs : ix.side with
    | bid => exact (e.bid hs).mkt.fees
    | ask => exact (e.ask hs).mkt.fees

/-- An order, a take, or something that is neither. -/
def Deals (P : Params) (env : Env) (accts : List AccMeta) (s s' : State conc) : Prop :=
  (∃ l ix, l ⊆ accts ∧ OrderValid ix ∧ newOrderV3 conc P env s l ix = .ok s') ∨
  (∃ l ix, l ⊆ accts ∧ TakeValid ix ∧ sendTake conc P s l ix = .ok s')

/-- Neither paid in nor traded. -/
def Line.still : Line → Bool
  | .deposit .. => false
  | .trade .. => false
  | _ => true

/-- The lines of everything else. -/
theorem still_lines {P : Params} {env : Env} {accts : List AccMeta} {s s' : State conc} (h : Reach P s)
    (hn : NotVault P s.mkt accts) (hq : s'.seq ≤ W64) (ha : Act P env accts s s') :
    Deals P env accts s s' ∨ ∃ L, Entered P accts s s' L ∧ (∀ b, b ≠ 0 → Statement s s' L b) ∧ FeeStatement s s' L ∧
      L.all Line.still = true := by
  have hs : s.seq ≤ W64 := Nat.le_trans ha.seq hq
  have wd : ∀ {a ls}, Withdrawn s s' a ls → Deals P env accts s s' ∨ ∃ L, Entered P accts s s' L ∧
      (∀ b, b ≠ 0 → Statement s s' L b) ∧ FeeStatement s s' L ∧ L.all Line.still = true := by
    intro a ls w
    exact .inr ⟨[], .quiet w.toks, fun b _ => (w.filled h hs b).statement, .same w.mkt, rfl⟩
  cases ha with
  | idle e =>
    subst e
    exact .inr ⟨[], .quiet rfl, fun b _ => record_statement (fun _ => rfl) rfl ⟨rfl, rfl⟩ rfl rfl, .same rfl, rfl⟩
  | place hl hv hx => exact .inl (.inl ⟨_, _, hl, hv, hx⟩)
  | take hl hv hx => exact .inl (.inr ⟨_, _, hl, hv, hx⟩)
  | cancel hl hx => obtain ⟨_, _, _, _, _, _, _, _, _, w⟩ := cancel_withdrawn h hs (.inl ⟨_, _, hx⟩); exact wd w
  | cancelBy hl hx => obtain ⟨_, _, _, _, _, _, _, _, _, w⟩ := cancel_withdrawn h hs (.inr (.inl ⟨_, hx⟩)); exact wd w
  | batch hl hx => obtain ⟨_, _, _, _, _, _, _, _, _, w⟩ := cancel_withdrawn h hs (.inr (.inr ⟨_, hx⟩)); exact wd w
  | prune hl hx => obtain ⟨_, _, _, _, _, _, _, _, _, _, _, _, _, _, _, w, _⟩ := prune_effect h hs hx; exact wd w
  | crank hl hx =>
    obtain ⟨_, _, _, hp, _, hnone, _, hm, ht, hbi, hak, _⟩ := crank_delivers h hs hx
    refine .inr ⟨[], .quiet ht, fun b _ => ?_, FeeStatement.same hm, rfl⟩
    cases ho : ooAt s.oos b with
    | some o => obtain ⟨_, _, _, _, _, _, f⟩ := crank_filled h hs hx ho; exact f.statement
    | none =>
      obtain ⟨z1, z2, z3⟩ := absent_zero h hs ho
      obtain ⟨y1, y2, y3⟩ := nothing_zero (hnone b ho) (fun sd => by
          have := (absent_quiet h hs ho).1 sd
          cases sd
          · unfold resting at this ⊢; rw [hbi]; exact this
          · unfold resting at this ⊢; rw [hak]; exact this)
        (fun v hv => (absent_quiet h hs ho).2 v (by rw [hp] at hv; exact List.mem_of_mem_drop hv))
      exact ⟨by rw [z1, y1]; rfl, by rw [z2, y2]; rfl, by rw [z3, y3]; rfl⟩
  | settle hl hx =>
    obtain ⟨m, oo, owner, cv, pv, cw, pw, vsA, tp, refer, o, rfl, _, hsg, how, st⟩ := settle_effect h hs hx
    generalize (if 0 < o.rebates then (refer.map (·.key)).head? else none) = r at st
    have he := st.enough.2.2.2.2
    have hrest : ∀ sd, resting s' sd = resting s sd := by
      intro sd; cases sd
      · unfold resting; rw [st.rest.1]
      · unfold resting; rw [st.rest.2.1]
    have hpend : pending s' = pending s := by unfold pending; rw [st.rest.2.2.1]
    have hlots : s'.mkt.coinLot = s.mkt.coinLot ∧ s'.mkt.pcLot = s.mkt.pcLot := by rw [st.mkt]; exact ⟨rfl, rfl⟩
    have own : ∀ ref b, Statement s s' [.payout oo.key o.coinFree o.pcFree o.rebates ref] b := by
      intro ref b
      by_cases hb : b = oo.key
      · subst hb
        obtain ⟨h1, h2, h3⟩ := claim_moves (b := oo.key) hrest hpend hlots
        have f : freeOf s oo.key = (o.coinFree, o.pcFree) := by unfold freeOf; rw [st.account]
        have f' : freeOf s' oo.key = (0, 0) := by unfold freeOf; rw [st.after]
        have r0 : rebatesOf s oo.key = o.rebates := by unfold rebatesOf; rw [st.account]
        have r1 : rebatesOf s' oo.key = 0 := by unfold rebatesOf; rw [st.after]
        rw [f, f'] at h1 h2
        rw [r0, r1] at h3
        refine ⟨?_, ?_, ?_⟩ <;> rw [total_cons, total_cons] <;>
          simp [Line.baseIn, Line.baseOut, Line.quoteIn, Line.quoteOut, Line.rebateIn, Line.rebateOut, total]
        · exact h1
        · exact h2
        · exact h3
      · have hb' : ¬ oo.key = b := fun e => hb e.symm
        refine Statement.silent (record_statement hrest hpend hlots ?_ ?_) ?_ ?_ ?_
        · unfold freeOf; rw [st.others b hb]
        · unfold rebatesOf; rw [st.others b hb]
        · simp [Line.baseIn, Line.baseOut, hb']
        · simp [Line.quoteIn, Line.quoteOut, hb']
        · simp [Line.rebateIn, Line.rebateOut, hb']
    obtain ⟨l1, l2, p1, p2, p3⟩ := st.paid
    cases r with
    | none =>
      refine .inr ⟨_, .settle oo.key cw.key pw.key o.coinFree o.pcFree o.rebates 0 owner o (hl (by simp)) hsg st.account how
        ⟨l1, l2, p1, p2, .inl ⟨rfl, p3⟩⟩, fun b _ => own _ b, ?_, rfl⟩
      refine ⟨?_, ?_⟩
      rotate_left
      · rw [st.mkt]
        show s.mkt.referrerRebates - o.rebates + (o.rebates + 0) = s.mkt.referrerRebates + 0
        omega
      unfold feesHeld
      rw [st.mkt]
      show s.mkt.pcFees + o.rebates + (s.mkt.referrerRebates - o.rebates) + 0 = s.mkt.pcFees + s.mkt.referrerRebates + 0
      omega
    | some r =>
      refine .inr ⟨_, .settle oo.key cw.key pw.key o.coinFree o.pcFree o.rebates o.rebates owner o (hl (by simp)) hsg st.account how
        ⟨l1, l2, p1, p2, .inr ⟨rfl, r, p3⟩⟩, fun b _ => own _ b, ?_, rfl⟩
      refine ⟨?_, ?_⟩
      rotate_left
      · rw [st.mkt]
        show s.mkt.referrerRebates - o.rebates + (o.rebates + 0) = s.mkt.referrerRebates + 0
        omega
      unfold feesHeld
      rw [st.mkt]
      show s.mkt.pcFees + 0 + (s.mkt.referrerRebates - o.rebates) + (o.rebates + 0) = s.mkt.pcFees + s.mkt.referrerRebates + 0
      omega
  | disable hl hx =>
    obtain ⟨_, _, _, _, _, _, e⟩ := disable_inv hx
    subst e
    exact .inr ⟨[], .quiet rfl, fun b _ => record_statement (fun sd => by cases sd <;> rfl) rfl ⟨rfl, rfl⟩ rfl rfl, ⟨rfl, rfl⟩, rfl⟩
  | sweep hl hx =>
    obtain ⟨m, pv, auth, w, vsA, tp, l, rfl, h1, h2, h3, e⟩ := sweep_effect h hs hx
    subst e
    refine .inr ⟨_, .sweep auth w.key s.mkt.pcFees (hl (by simp)) h1 h2 h3, fun b _ => ?_, ?_, rfl⟩
    · exact Statement.silent (record_statement (fun sd => by cases sd <;> rfl) rfl ⟨rfl, rfl⟩ rfl rfl) ⟨rfl, rfl⟩
        ⟨rfl, rfl⟩ ⟨rfl, rfl⟩
    · refine ⟨?_, rfl⟩
      show 0 + s.mkt.referrerRebates + (s.mkt.pcFees + 0) = s.mkt.pcFees + s.mkt.referrerRebates + 0
      omega
  | close hl hx =>
    obtain ⟨oo, owner, dest, m, p, rfl, hsg, hp, _, how, _, _, _, e⟩ := (close_is_safe h hs).1 _ _ _ hx
    subst e
    refine .inr ⟨[], .quiet rfl, fun b _ => record_statement (fun sd => by cases sd <;> rfl) rfl ⟨rfl, rfl⟩ ?_ ?_, .same rfl, rfl⟩
    · unfold freeOf
      show (match ooAt (setOo s.oos _ _) b with | some o => _ | none => _) = _
      rw [ooAt_setOo]
      by_cases hb : b = oo.key
      · rw [if_pos hb, hb, hp]
      · rw [if_neg hb]; rfl
    · unfold rebatesOf
      show (match ooAt (setOo s.oos _ _) b with | some o => _ | none => _) = _
      rw [ooAt_setOo]
      by_cases hb : b = oo.key
      · rw [if_pos hb, hb, hp]
      · rw [if_neg hb]; rfl
  | init hl hx =>
    obtain ⟨oo, owner, m, rent, rest, rfl, hsg, _, hcase⟩ := init_inv hx
    rcases hcase with ⟨e, _⟩ | ⟨e, hnone, _⟩
    · subst e
      exact .inr ⟨[], .quiet rfl, fun b _ => record_statement (fun _ => rfl) rfl ⟨rfl, rfl⟩ rfl rfl, .same rfl, rfl⟩
    · subst e
      refine .inr ⟨[], .quiet rfl, fun b _ => record_statement (fun sd => by cases sd <;> rfl) rfl ⟨rfl, rfl⟩ ?_ ?_, .same rfl, rfl⟩
      · unfold freeOf
        show (match ooAt (setOo s.oos _ _) b with | some o => _ | none => _) = _
        rw [ooAt_setOo]
        by_cases hb : b = oo.key
        · rw [if_pos hb, hb, hnone]; rfl
        · rw [if_neg hb]; rfl
      · unfold rebatesOf
        show (match ooAt (setOo s.oos _ _) b with | some o => _ | none => _) = _
        rw [ooAt_setOo]
        by_cases hb : b = oo.key
        · rw [if_pos hb, hb, hnone]; rfl
        · rw [if_neg hb]; rfl

theorem act_lines {P : Params} {env : Env} {accts : List AccMeta} {s s' : State conc} (h : Reach P s)
    (hn : NotVault P s.mkt accts) (hq : s'.seq ≤ W64) (ha : Act P env accts s s') :
    ∃ L, Entered P accts s s' L ∧ (∀ b, b ≠ 0 → Statement s s' L b) ∧ FeeStatement s s' L := by
  have hs : s.seq ≤ W64 := Nat.le_trans ha.seq hq
  rcases still_lines h hn hq ha with (⟨l, ix, hl, hv, hx⟩ | ⟨l, ix, hl, hv, hx⟩) | ⟨L, h1, h2, h3, _⟩
  · have hlt : s.seq < W64 := by have := (newOrderV3_keeps hx).2.1; omega
    obtain ⟨_, _, _, _, _, _, _, _, _, e⟩ := place_effect h hlt hv (hn.subset hl) hx
    exact ⟨_, place_lines hl hv hlt e⟩
  · have hlt : s.seq < W64 := by have := (sendTake_keeps hx).2.1; omega
    obtain ⟨_, _, _, _, e⟩ := take_effect h hlt hv (hn.subset hl) hx
    exact ⟨_, take_lines hl e⟩
  · exact ⟨L, h1, h2, h3⟩

/-! ### Whole histories -/

/-- Everything C64 says about two states of a market. -/
def Accounted (P : Params) (s s' : State conc) (J : List Line) : Prop :=
  Journal P s s' J ∧ (∀ b, b ≠ 0 → Statement s s' J b) ∧ FeeStatement s s' J ∧
    s'.mkt.coinLot = s.mkt.coinLot ∧ s'.mkt.pcLot = s.mkt.pcLot

theorem Acts.accounted {P : Params} {env : Env} {accts : List AccMeta} {s s1 s2 : State conc} {J : List Line}
    (h : Accounted P s s1 J) (ha : Acts P env accts s1 s2) (hq : s2.seq ≤ W64) : ∃ J', Accounted P s s2 J' := by
  induction ha generalizing J with
  | nil _ => exact ⟨J, h⟩
  | cons hr hn ha t ih =>
    obtain ⟨L, e, st, fe⟩ := act_lines hr hn (Nat.le_trans t.seq hq) ha
    obtain ⟨j, a1, a2, a3⟩ := h
    have k := ha.keeps.eq
    refine ih (J := J ++ L) ⟨j.act ha e, fun b hb => (a1 b hb).trans (st b hb) a3, a2.trans fe, ?_⟩ hq
    rw [k]; exact a3

/-- Removing a closed account takes away its rebates and nothing else. -/
theorem purge_statement {P : Params} {s1 : State conc} (hr : Reach P s1) (hq : s1.seq ≤ W64) {a : Nat} {o : OpenOrders}
    (ho : ooAt s1.oos a = some o) (hc : o.closed = true) (b : Nat) :
    Statement s1 { s1 with oos := purgeOo s1.oos a } [.forfeit a o.rebates] b := by
  have hz := (close_is_safe hr hq).2 a o ho (.inl hc)
  obtain ⟨h1, h2, h3⟩ := claim_moves (s := s1) (s' := { s1 with oos := purgeOo s1.oos a }) (b := b)
    (fun sd => by cases sd <;> rfl) rfl ⟨rfl, rfl⟩
  by_cases hb' : b = a
  · subst hb'
    have f : freeOf s1 b = (0, 0) := by unfold freeOf; rw [ho]; simp [hz.1, hz.2.1]
    have f' : freeOf { s1 with oos := purgeOo s1.oos b } b = (0, 0) := by
      unfold freeOf
      show (match ooAt (purgeOo _ _) _ with | some o => _ | none => _) = _
      rw [ooAt_purge, if_pos rfl]
    have r0 : rebatesOf s1 b = o.rebates := by unfold rebatesOf; rw [ho]
    have r1 : rebatesOf { s1 with oos := purgeOo s1.oos b } b = 0 := by
      unfold rebatesOf
      show (match ooAt (purgeOo _ _) _ with | some o => _ | none => _) = _
      rw [ooAt_purge, if_pos rfl]
    rw [f, f'] at h1 h2
    rw [r0, r1] at h3
    refine ⟨h1, h2, ?_⟩
    rw [total_cons, total_cons]
    simp [Line.rebateIn, Line.rebateOut, total]
    exact h3
  · have hb'' : ¬ a = b := fun e => hb' e.symm
    refine Statement.silent (record_statement (fun sd => by cases sd <;> rfl) rfl ⟨rfl, rfl⟩ ?_ ?_) ⟨rfl, rfl⟩
      ⟨rfl, rfl⟩ ⟨rfl, by simp [Line.rebateOut, hb'']⟩
    · unfold freeOf
      show (match ooAt (purgeOo _ _) _ with | some o => _ | none => _) = _
      rw [ooAt_purge, if_neg hb']; rfl
    · unfold rebatesOf
      show (match ooAt (purgeOo _ _) _ with | some o => _ | none => _) = _
      rw [ooAt_purge, if_neg hb']; rfl

/-- C64. From any reachable state to any later one there is a journal of the market. Each of its lines is backed by
what happened: deposits by tokens paid into the vault and the owner's signature, trades by the resting order at that
moment, its price and size, payouts and sweeps by a signature and the tokens that left the vault. And the journal
explains everything: the base, quote and rebates that belong to every account, and the fees held, changed by exactly
what it says. -/
theorem journal_accounts {P : Params} {s s' : State conc} (h : Reach P s) (hl : Later P s s') (hq : s'.seq ≤ W64) :
    ∃ J, Journal P s s' J ∧ (∀ b, b ≠ 0 → Statement s s' J b) ∧ FeeStatement s s' J := by
  suffices ∃ J, Accounted P s s' J by
    obtain ⟨J, a, b, c, _⟩ := this
    exact ⟨J, a, b, c⟩
  induction hl with
  | refl =>
    exact ⟨[], .nil, fun b _ => record_statement (fun _ => rfl) rfl ⟨rfl, rfl⟩ rfl rfl, .same rfl, rfl, rfl⟩
  | step hl hs ih =>
    have hr := hl.reach h
    cases hs with
    | instr hn hx =>
      obtain ⟨ix, _, hv, hp⟩ := step_instr hx
      have ha := process_acts hr hn hv hp
      obtain ⟨J, hJ⟩ := ih (Nat.le_trans ha.seq hq)
      exact ha.accounted hJ hq
    | @purge a o ho hc =>
      obtain ⟨J, j, a1, a2, a3⟩ := ih hq
      exact ⟨_, j.purge ho hc, fun b hb => (a1 b hb).trans (purge_statement hr hq ho hc b) a3, a2.trans ⟨rfl, rfl⟩, a3⟩
    | token hn hx =>
      obtain ⟨J, j, a1, a2, a3⟩ := ih hq
      refine ⟨J, j.token hx, fun b hb => ?_, ⟨a2.held, a2.pot⟩, a3⟩
      obtain ⟨b1, b2, b3⟩ := a1 b hb
      exact ⟨b1, b2, b3⟩

/-- C64, from the start: in a market's whole life, what an account ever got out and what still belongs to it is exactly
what was ever paid in for it and what it got in trades, less what it gave in trades and fees; and the fees held and
paid out are the fees charged. -/
theorem journal_from_start {P : Params} {s s' : State conc} (h : Genesis P s) (hl : Later P s s') (hq : s'.seq ≤ W64) :
    ∃ J, Journal P s s' J ∧
      (∀ b, b ≠ 0 → baseClaim s' b + total (Line.baseOut s.mkt b) J = total (Line.baseIn s.mkt b) J ∧
        quoteClaim s' b + total (Line.quoteOut s.mkt b) J = total (Line.quoteIn s.mkt b) J ∧
        rebateClaim s' b + total (Line.rebateOut b) J = total (Line.rebateIn b) J) ∧
      feesHeld s' + total Line.feeOut J = total Line.feeIn J ∧
      s'.mkt.referrerRebates + total Line.potOut J = total Line.potIn J := by
  obtain ⟨J, j, st, fe⟩ := journal_accounts (.start h) hl hq
  refine ⟨J, j, fun b hb => ?_, ?_, ?_⟩
  · obtain ⟨z1, z2, z3⟩ := absent_zero (.start h) (by rw [h.seq]; exact Nat.zero_le _) (b := b) (by rw [h.oos]; rfl)
    obtain ⟨h1, h2, h3⟩ := st b hb
    rw [z1] at h1
    rw [z2] at h2
    rw [z3] at h3
    omega
  · have : feesHeld s = 0 := by unfold feesHeld; rw [h.pcFees, h.rebates]
    have := fe.held
    omega
  · have := fe.pot
    rw [h.rebates] at this
    omega

-- nine instructions, from the first orders to the sweep of the fees, and a journal of them
theorem Demo.later {s s' : State conc} {a : List AccMeta} {ix : Instruction} (h : Later Demo.P s s') (hv : IxValid ix)
    (hf : Demo.fine s' a ix = true) (hn : (a.all fun a => a.key != 60 || !a.signer) = true) :
    Later Demo.P s (Demo.run s' a ix) := by
  refine h.step (.instr (env := Demo.env) (accts := a) (data := ix.pack) (Demo.notVault _ hn) ?_)
  unfold processRaw
  rw [instruction_round_trip ix hv]
  exact Demo.run_eq hf

def Demo.journal : List Line :=
  [.deposit 41 .ask 500, .deposit 42 .bid 30000, .trade ⟨.ask, 41, 18446744073709551616000, 1000, 2⟩ (some 42) 8,
    .deposit 42 .bid 30008, .payout 42 200 40000 1 1, .sweep 7]

example : Genesis Demo.P Demo.s0 ∧ Later Demo.P Demo.s0 Demo.s9 ∧ Demo.s9.seq ≤ W64 ∧
    Statement Demo.s0 Demo.s9 Demo.journal 41 ∧ Statement Demo.s0 Demo.s9 Demo.journal 42 ∧
    FeeStatement Demo.s0 Demo.s9 Demo.journal ∧
    (baseClaim Demo.s9 41, quoteClaim Demo.s9 41, feesHeld Demo.s9) = (300, 20000, 0) := by
  refine ⟨Demo.genesis, ?_, by decide +kernel, ⟨by decide +kernel, by decide +kernel, by decide +kernel⟩,
    ⟨by decide +kernel, by decide +kernel, by decide +kernel⟩, ⟨by decide +kernel, by decide +kernel⟩, by decide +kernel⟩
  have l1 : Later Demo.P Demo.s0 Demo.s1 := Demo.later .refl (Demo.valid (by decide)) (by decide +kernel) (by decide)
  have l2 : Later Demo.P Demo.s0 Demo.s2 := Demo.later l1 (Demo.valid (by decide)) (by decide +kernel) (by decide)
  have l3 : Later Demo.P Demo.s0 Demo.s3 := Demo.later l2 (Demo.valid (by decide)) (by decide +kernel) (by decide)
  have l4 : Later Demo.P Demo.s0 Demo.s4 := Demo.later l3 (by decide : U16 4) (by decide +kernel) (by decide)
  have l5 : Later Demo.P Demo.s0 Demo.s5 := Demo.later l4 (by decide : U128 Demo.bidId) (by decide +kernel) (by decide)
  have l6 : Later Demo.P Demo.s0 Demo.s6 := Demo.later l5 (by decide : U16 4) (by decide +kernel) (by decide)
  have l7 : Later Demo.P Demo.s0 Demo.s7 := Demo.later l6 trivial (by decide +kernel) (by decide)
  have l8 : Later Demo.P Demo.s0 Demo.s8 := Demo.later l7 trivial (by decide +kernel) (by decide)
  exact Demo.later l8 trivial (by decide +kernel) (by decide)

end Serum.Props
