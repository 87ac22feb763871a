import Verif.PropsReferral
import Verif.PropsWind
import Verif.PropsSame

/-!
C110: nobody makes money out of themselves. Take any accounts of a market as one group, with or without the send-takes. Over
any stretch of the market's life the group's holdings change by what it paid in and out, by what it traded with others, and by
the fees charged to it; trades inside the group drop out, but for their fees. So a group that trades with itself only gets out
what it paid in less the fees, of which at most a fifth comes back by way of referrers: trading with oneself always costs.
-/

namespace Serum.Props

/-- Some accounts of a market; `takes` says whether those who send-take (from wallets, without account) are in the group. -/
structure Group where
  accounts : List Nat
  takes : Bool

/-- A party to a trade as the journal names it: an account, or a wallet. -/
def Group.has (g : Group) : Option Nat → Bool
  | none => g.takes
  | some a => decide (a ∈ g.accounts)

/-- Base units paid into the vaults by the group in a line: deposits, and what is sold from a wallet. -/
def Line.groupBaseIn (m : Market) (g : Group) : Line → Nat
  | .deposit a .ask n => if g.has (some a) then n else 0
  | .trade t none _ => if g.takes then t.baseGot m else 0
  | _ => 0

/-- Base units paid out of the vaults to the group: payouts, and what is bought into a wallet. -/
def Line.groupBaseOut (m : Market) (g : Group) : Line → Nat
  | .payout a n _ _ _ => if g.has (some a) then n else 0
  | .trade t none _ => if g.takes then t.baseGiven m else 0
  | _ => 0

def Line.groupQuoteIn (m : Market) (g : Group) : Line → Nat
  | .deposit a .bid n => if g.has (some a) then n else 0
  | .trade t none fee => if g.takes then (match t.side with | .ask => t.value m + fee | .bid => 0) else 0
  | _ => 0

def Line.groupQuoteOut (m : Market) (g : Group) : Line → Nat
  | .payout a _ n _ _ => if g.has (some a) then n else 0
  | .trade t none fee => if g.takes then (match t.side with | .bid => t.value m - fee | .ask => 0) else 0
  | _ => 0

/-- What the group got from others in a trade, of whatever `got` and `given` measure for the owner of the resting order. -/
def Line.gained (g : Group) (got given : Trade → Nat) : Line → Nat
  | .trade t k _ => match g.has (some t.owner), g.has k with
    | true, false => got t
    | false, true => given t
    | _, _ => 0
  | _ => 0

/-- Fees charged to the group. -/
def Line.groupFee (g : Group) : Line → Nat
  | .trade _ k fee => if g.has k then fee else 0
  | _ => 0

/-- Paid to referrers for the group. -/
def Line.referred (g : Group) : Line → Nat
  | .payout a _ _ _ ref => if g.has (some a) then ref else 0
  | _ => 0

/-- A trade between a member and somebody else. -/
def Line.across (g : Group) : Line → Bool
  | .trade t k _ => g.has (some t.owner) != g.has k
  | _ => false

/-- A group's account of what happened. -/
structure GroupStatement (s s' : State conc) (J : List Line) (g : Group) : Prop where
  base : total (baseClaim s') g.accounts + total (Line.groupBaseOut s.mkt g) J +
      total (Line.gained g (Trade.baseGiven s.mkt) (Trade.baseGot s.mkt)) J =
    total (baseClaim s) g.accounts + total (Line.groupBaseIn s.mkt g) J +
      total (Line.gained g (Trade.baseGot s.mkt) (Trade.baseGiven s.mkt)) J
  quote : total (quoteClaim s') g.accounts + total (Line.groupQuoteOut s.mkt g) J +
      total (Line.gained g (Trade.quoteGiven s.mkt) (Trade.quoteGot s.mkt)) J + total (Line.groupFee g) J =
    total (quoteClaim s) g.accounts + total (Line.groupQuoteIn s.mkt g) J +
      total (Line.gained g (Trade.quoteGot s.mkt) (Trade.quoteGiven s.mkt)) J
  /-- Referrers get what was recorded for the group before, and at most a fifth of the fees charged to it since. -/
  referred : 5 * total (Line.referred g) J ≤ 5 * total (rebateClaim s) g.accounts + total (Line.groupFee g) J

/-- Every trade in the journal is charged the fee of some tier, which is positive and less than what is traded. -/
def FeesCharged (m : Market) (J : List Line) : Prop :=
  ∀ t k fee, Line.trade t k fee ∈ J → 0 < t.value m ∧ 0 < fee ∧ fee ≤ t.value m ∧ ∃ tier : FeeTier, fee = tier.takerFee (t.value m)

/-! ### Sums -/

theorem total_one {a n : Nat} : ∀ {l : List Nat}, l.Nodup → total (fun b => if a = b then n else 0) l = if a ∈ l then n else 0
  | [], _ => by simp [total]
  | x :: l, h => by
    obtain ⟨h1, h2⟩ := List.nodup_cons.1 h
    rw [total_cons, total_one h2]
    by_cases e : a = x
    · subst e; simp [h1]
    · simp [e]

theorem total_le {α : Type} {f g : α → Nat} {l : List α} (h : ∀ x ∈ l, f x ≤ g x) : total f l ≤ total g l := by
  induction l with
  | nil => exact Nat.le_refl _
  | cons x l ih =>
    rw [total_cons, total_cons]
    have := h x (by simp)
    have := ih fun y hy => h y (by simp [hy])
    omega

theorem total_times {α : Type} (f : α → Nat) (c : Nat) (l : List α) : total (fun x => c * f x) l = c * total f l := by
  induction l with
  | nil => rfl
  | cons x l ih => rw [total_cons, total_cons, ih, Nat.mul_add]

/-! ### One line -/

/-- What a line does to the accounts of a group, summed over them. -/
theorem line_sums (m : Market) {g : Group} (hg : g.accounts.Nodup) (x : Line)
    (hx : ∀ t k fee, x = .trade t k fee → fee ≤ t.value m) :
    total (fun b => Line.baseOut m b x) g.accounts + Line.groupBaseIn m g x + Line.gained g (Trade.baseGot m) (Trade.baseGiven m) x =
      total (fun b => Line.baseIn m b x) g.accounts + Line.groupBaseOut m g x + Line.gained g (Trade.baseGiven m) (Trade.baseGot m) x ∧
    total (fun b => Line.quoteOut m b x) g.accounts + Line.groupQuoteIn m g x + Line.gained g (Trade.quoteGot m) (Trade.quoteGiven m) x =
      total (fun b => Line.quoteIn m b x) g.accounts + Line.groupQuoteOut m g x + Line.gained g (Trade.quoteGiven m) (Trade.quoteGot m) x +
        Line.groupFee g x ∧
    5 * total (fun b => Line.rebateIn b x) g.accounts ≤ Line.groupFee g x := by
  have z : total (fun _ : Nat => 0) g.accounts = 0 := total_zero fun _ _ => rfl
  cases x with
  | deposit a sd n =>
    cases sd <;> simp [Line.baseOut, Line.baseIn, Line.quoteOut, Line.quoteIn, Line.rebateIn, Line.groupBaseIn, Line.groupBaseOut,
      Line.groupQuoteIn, Line.groupQuoteOut, Line.gained, Line.groupFee, z, total_one hg, Group.has]
  | payout a n q r f =>
    simp [Line.baseOut, Line.baseIn, Line.quoteOut, Line.quoteIn, Line.rebateIn, Line.groupBaseIn, Line.groupBaseOut,
      Line.groupQuoteIn, Line.groupQuoteOut, Line.gained, Line.groupFee, z, total_one hg, Group.has]
  | sweep n =>
    simp [Line.baseOut, Line.baseIn, Line.quoteOut, Line.quoteIn, Line.rebateIn, Line.groupBaseIn, Line.groupBaseOut,
      Line.groupQuoteIn, Line.groupQuoteOut, Line.gained, Line.groupFee, z]
  | forfeit a r =>
    simp [Line.baseOut, Line.baseIn, Line.quoteOut, Line.quoteIn, Line.rebateIn, Line.groupBaseIn, Line.groupBaseOut,
      Line.groupQuoteIn, Line.groupQuoteOut, Line.gained, Line.groupFee, z]
  | trade t k fee =>
    have hf := hx t k fee rfl
    have e1 : ∀ n, total (fun b => if t.owner = b then n else 0) g.accounts = if t.owner ∈ g.accounts then n else 0 :=
      fun n => total_one hg
    cases k with
    | none =>
      have e2 : ∀ (n : Nat), total (fun b => if (none : Option Nat) = some b then n else 0) g.accounts = 0 :=
        fun n => total_zero fun _ _ => by simp
      simp only [Line.baseOut, Line.baseIn, Line.quoteOut, Line.quoteIn, Line.rebateIn, total_add, e1, e2, Line.groupBaseIn,
        Line.groupBaseOut, Line.groupQuoteIn, Line.groupQuoteOut, Line.gained, Line.groupFee, Group.has, Trade.baseGot,
        Trade.baseGiven, Trade.quoteGot, Trade.quoteGiven]
      by_cases ht : g.takes = true <;> by_cases ho : t.owner ∈ g.accounts <;> rcases hs : t.side <;> simp [ht, ho] <;> omega
    | some a =>
      have e2 : ∀ (n : Nat), total (fun b => if some a = some b then n else 0) g.accounts = if a ∈ g.accounts then n else 0 :=
        fun n => by simp only [Option.some.injEq]; exact total_one hg
      simp only [Line.baseOut, Line.baseIn, Line.quoteOut, Line.quoteIn, Line.rebateIn, total_add, e1, e2, Line.groupBaseIn,
        Line.groupBaseOut, Line.groupQuoteIn, Line.groupQuoteOut, Line.gained, Line.groupFee, Group.has, Trade.baseGot,
        Trade.baseGiven, Trade.quoteGot, Trade.quoteGiven]
      by_cases ha : a ∈ g.accounts <;> by_cases ho : t.owner ∈ g.accounts <;> rcases hs : t.side <;> simp [ho, ha] <;> omega

/-! ### Fees are positive -/

theorem total_ge {α : Type} (f : α → Nat) {x : α} : ∀ {l : List α}, x ∈ l → f x ≤ total f l
  | y :: l, h => by
    rw [total_cons]
    rcases List.mem_cons.1 h with rfl | h
    · omega
    · have := total_ge f h; omega

/-- What is traded with a resting order is part of what belongs to its owner, before the trade or after it; so it fits. -/
theorem trade_fits {P : Params} {s s' : State conc} (h : Reach P s) (h' : Reach P s') (hq : s'.seq ≤ W64) (hqs : s.seq ≤ W64)
    {L : List Line} (hst : ∀ b, b ≠ 0 → Statement s s' L b) {sd : Side} {k0 : Option Nat}
    (hL : ∀ x ∈ L, (∃ t fee, x = .trade t k0 fee ∧ t.side = sd ∧ t.With s ∧ some t.owner ≠ k0) ∨ (∃ a sd' n, x = .deposit a sd' n ∧ k0 = some a))
    {t : Trade} {k : Option Nat} {fee : Nat} (ht : .trade t k fee ∈ L) : 0 < t.value s.mkt ∧ t.value s.mkt < W64 := by
  have key : t.side = sd ∧ t.With s ∧ some t.owner ≠ k0 := by
    rcases hL _ ht with ⟨_, _, e, h1, h2, h3⟩ | ⟨_, _, _, e, _⟩
    · cases e; exact ⟨h1, h2, h3⟩
    · cases e
  obtain ⟨hsd, ⟨l, hl, _, how, hpr, hlots, _⟩, hne⟩ := key
  have h0 : t.owner ≠ 0 := how ▸ resting_owner h hqs hl
  obtain ⟨_, _, _, hi⟩ := h.view hqs
  obtain ⟨_, _, _, hi'⟩ := h'.view hq
  have hpos : 0 < t.price := by
    rw [← hpr]
    revert hl
    cases t.side
    · exact fun hl => hi.shape.book.bidPrice l hl
    · exact fun hl => hi.shape.book.askPrice l hl
  refine ⟨Nat.mul_pos (Nat.mul_pos hlots hpos) hi.shape.mkt.pcLot, ?_⟩
  have c1 := (claims_le h hqs t.owner).2.1
  have c2 := (claims_le h' hq t.owner).2.1
  have d1 := hi.deposits_lt.2
  have d2 := hi'.deposits_lt.2
  have st := (hst t.owner h0).quote
  cases hs : sd with
  | bid =>
    have z : total (Line.quoteIn s.mkt t.owner) L = 0 := by
      refine total_zero fun x hx => ?_
      rcases hL x hx with ⟨t', fee', rfl, e1, _, e3⟩ | ⟨a, sd', n, rfl, e⟩
      · simp only [Line.quoteIn, Trade.quoteGot, e1, hs]
        rw [if_neg (c := k0 = some t.owner) (fun e => hne e.symm)]
        simp
      · rw [e] at hne
        have : ¬ a = t.owner := fun e => hne (by rw [e])
        cases sd' <;> simp [Line.quoteIn, this]
    have g := total_ge (Line.quoteOut s.mkt t.owner) ht
    have e : t.value s.mkt ≤ Line.quoteOut s.mkt t.owner (.trade t k fee) := by
      simp [Line.quoteOut, Trade.quoteGiven, hsd, hs]
    omega
  | ask =>
    have z : total (Line.quoteOut s.mkt t.owner) L = 0 := by
      refine total_zero fun x hx => ?_
      rcases hL x hx with ⟨t', fee', rfl, e1, _, e3⟩ | ⟨a, sd', n, rfl, e⟩
      · simp only [Line.quoteOut, Trade.quoteGiven, e1, hs]
        rw [if_neg (c := k0 = some t.owner) (fun e => hne e.symm)]
        simp
      · rfl
    have g := total_ge (Line.quoteIn s.mkt t.owner) ht
    have e : t.value s.mkt ≤ Line.quoteIn s.mkt t.owner (.trade t k fee) := by
      simp [Line.quoteIn, Trade.quoteGot, hsd, hs]
    omega

/-- No line of a journal pays a referrer more than was recorded for the account. -/
def RefsBacked (J : List Line) : Prop := ∀ a b q r f, Line.payout a b q r f ∈ J → f ≤ r

theorem entered_fees {P : Params} {accts : List AccMeta} {s s' : State conc} (h : Reach P s) (h' : Reach P s')
    (hq : s'.seq ≤ W64) (hqs : s.seq ≤ W64) {L : List Line} (hst : ∀ b, b ≠ 0 → Statement s s' L b)
    (he : Entered P accts s s' L) : FeesCharged s.mkt L ∧ RefsBacked L := by
  have done : ∀ {sd : Side} {k0 : Option Nat} {tier : FeeTier}, (∀ x ∈ L, (∃ t, x = .trade t k0 (tier.takerFee (t.value s.mkt)) ∧
      t.side = sd ∧ t.With s ∧ some t.owner ≠ k0) ∨ (∃ a sd' n, x = .deposit a sd' n ∧ k0 = some a)) →
      FeesCharged s.mkt L ∧ RefsBacked L := by
    intro sd k0 tier hL
    refine ⟨fun t k fee ht => ?_, fun a b q r f hx => ?_⟩
    · obtain ⟨h0, h1⟩ := trade_fits (sd := sd) (k0 := k0) h h' hq hqs hst (fun x hx => (hL x hx).imp
        (fun ⟨t, e⟩ => ⟨t, _, e⟩) id) ht
      rcases hL _ ht with ⟨t', e, _⟩ | ⟨_, _, _, e, _⟩
      · cases e
        exact ⟨h0, takerFee_pos tier h1 h0, takerFee_le tier h1, tier, rfl⟩
      · cases e
    · rcases hL _ hx with ⟨t', e, _⟩ | ⟨_, _, _, e, _⟩ <;> cases e
  cases he with
  | quiet => exact ⟨fun _ _ _ hx => (by cases hx), fun _ _ _ _ _ hx => (by cases hx)⟩
  | order a payer signer o' side tier d trades mem signed account owner tier_ paid payers met =>
    refine done (sd := otherSide side) (k0 := some a) (tier := tier) fun x hx => ?_
    rcases List.mem_cons.1 hx with rfl | hx
    · exact .inr ⟨_, _, _, rfl, rfl⟩
    · obtain ⟨t, ht, rfl⟩ := List.mem_map.1 hx
      obtain ⟨m1, m2, m3⟩ := met t ht
      exact .inl ⟨t, rfl, m1, m2, fun e => m3 (Option.some.inj e)⟩
  | take signer side tier coinWallet pcWallet trades mem signed tier_ met paid =>
    refine done (sd := otherSide side) (k0 := none) (tier := tier) fun x hx => ?_
    obtain ⟨t, ht, rfl⟩ := List.mem_map.1 hx
    obtain ⟨m1, m2⟩ := met t ht
    exact .inl ⟨t, rfl, m1, m2, by simp⟩
  | settle a coinDst pcDst base quote rebate ref signer o mem signed account owner paid =>
    refine ⟨fun _ _ _ hx => by simp at hx, fun a b q r f hx => ?_⟩
    simp only [List.mem_singleton] at hx
    cases hx
    obtain ⟨_, _, _, _, ⟨e, _⟩ | ⟨e, _⟩⟩ := paid <;> omega
  | sweep => exact ⟨fun _ _ _ hx => by simp at hx, fun _ _ _ _ _ hx => by simp at hx⟩

theorem FeesCharged.append {m m' : Market} {J L : List Line} (h : FeesCharged m J) (k : FeesCharged m' L)
    (e : m'.pcLot = m.pcLot) : FeesCharged m (J ++ L) := by
  have ev : ∀ t : Trade, t.value m' = t.value m := fun t => by unfold Trade.value; rw [e]
  intro t kk fee hx
  rcases List.mem_append.1 hx with hx | hx
  · exact h t kk fee hx
  · have := k t kk fee hx
    rw [ev] at this
    exact this

theorem RefsBacked.append {J L : List Line} (h : RefsBacked J) (k : RefsBacked L) : RefsBacked (J ++ L) := by
  intro a b q r f hx
  rcases List.mem_append.1 hx with hx | hx
  · exact h a b q r f hx
  · exact k a b q r f hx

/-- The journal of C64, and what the fees in it are. -/
def Charged (P : Params) (s s' : State conc) (J : List Line) : Prop :=
  Accounted P s s' J ∧ FeesCharged s.mkt J ∧ RefsBacked J

theorem Acts.charged {P : Params} {env : Env} {accts : List AccMeta} {s s1 s2 : State conc} {J : List Line}
    (h : Charged P s s1 J) (ha : Acts P env accts s1 s2) (hq : s2.seq ≤ W64) : ∃ J', Charged P s s2 J' := by
  induction ha generalizing J with
  | nil _ => exact ⟨J, h⟩
  | @cons s1 s3 s2 hr hn ha t ih =>
    have hq3 : s3.seq ≤ W64 := Nat.le_trans t.seq hq
    obtain ⟨L, e, st, fe⟩ := act_lines hr hn hq3 ha
    obtain ⟨⟨j, a1, a2, a3⟩, f1, f2⟩ := h
    have k := ha.keeps.eq
    have hr3 : Reach P s3 := by cases t <;> assumption
    obtain ⟨f3, f4⟩ := entered_fees hr hr3 hq3 (Nat.le_trans ha.seq hq3) st e
    refine ih (J := J ++ L) ⟨⟨j.act ha e, fun b hb => (a1 b hb).trans (st b hb) a3, a2.trans fe, ?_⟩, f1.append f3 a3.2,
      f2.append f4⟩ hq
    rw [k]; exact a3

theorem journal_charged {P : Params} {s s' : State conc} (h : Reach P s) (hl : Later P s s') (hq : s'.seq ≤ W64) :
    ∃ J, Charged P s s' J := by
  induction hl with
  | refl =>
    exact ⟨[], ⟨.nil, fun b _ => record_statement (fun _ => rfl) rfl ⟨rfl, rfl⟩ rfl rfl, .same rfl, rfl, rfl⟩,
      fun _ _ _ hx => (by cases hx), fun _ _ _ _ _ hx => (by cases hx)⟩
  | step hl hs ih =>
    have hr := hl.reach h
    cases hs with
    | instr hn hx =>
      obtain ⟨ix, _, hv, hp⟩ := step_instr hx
      have ha := process_acts hr hn hv hp
      obtain ⟨J, hJ⟩ := ih (Nat.le_trans ha.seq hq)
      exact ha.charged hJ hq
    | @purge a o ho hc =>
      obtain ⟨J, ⟨j, a1, a2, a3⟩, f1, f2⟩ := ih hq
      refine ⟨_, ⟨j.purge ho hc, fun b hb => (a1 b hb).trans (purge_statement hr hq ho hc b) a3, a2.trans ⟨rfl, rfl⟩, a3⟩,
        f1.append (fun _ _ _ hx => ?_) a3.2, f2.append fun _ _ _ _ _ hx => ?_⟩ <;> simp at hx
    | token hn hx =>
      obtain ⟨J, ⟨j, a1, a2, a3⟩, f⟩ := ih hq
      refine ⟨J, ⟨j.token hx, fun b hb => ?_, ⟨a2.held, a2.pot⟩, a3⟩, f⟩
      obtain ⟨b1, b2, b3⟩ := a1 b hb
      exact ⟨b1, b2, b3⟩

/-! ### The group -/

theorem Charged.group {P : Params} {s s' : State conc} {J : List Line} (h : Charged P s s' J) {g : Group}
    (hg : g.accounts.Nodup) (h0 : 0 ∉ g.accounts) : GroupStatement s s' J g := by
  obtain ⟨⟨_, hst, _⟩, hfee, href⟩ := h
  have st : ∀ b ∈ g.accounts, Statement s s' J b := fun b hb => hst b fun e => h0 (e ▸ hb)
  have sums := fun x (hx : x ∈ J) => line_sums s.mkt hg x fun t k fee e => (hfee t k fee (e ▸ hx)).2.2.1
  have b1 := total_congr (l := g.accounts) fun b hb => (st b hb).base
  have b2 := total_congr (l := g.accounts) fun b hb => (st b hb).quote
  have b3 := total_congr (l := g.accounts) fun b hb => (st b hb).rebate
  simp only [total_add] at b1 b2 b3
  rw [total_swap (fun b x => Line.baseOut s.mkt b x), total_swap (fun b x => Line.baseIn s.mkt b x)] at b1
  rw [total_swap (fun b x => Line.quoteOut s.mkt b x), total_swap (fun b x => Line.quoteIn s.mkt b x)] at b2
  rw [total_swap (fun b x => Line.rebateOut b x), total_swap (fun b x => Line.rebateIn b x)] at b3
  have c1 := total_congr (l := J) fun x hx => (sums x hx).1
  have c2 := total_congr (l := J) fun x hx => (sums x hx).2.1
  have c3 := total_le (l := J) fun x hx => (sums x hx).2.2
  have c4 : total (Line.referred g) J ≤ total (fun x => total (fun b => Line.rebateOut b x) g.accounts) J := by
    refine total_le fun x hx => ?_
    cases x with
    | payout a b q r f =>
      have := href a b q r f hx
      simp only [Line.referred, Line.rebateOut, total_one hg, Group.has, decide_eq_true_eq]
      split <;> omega
    | _ => exact Nat.zero_le _
  simp only [total_add] at c1 c2
  rw [total_times] at c3
  exact ⟨by omega, by omega, by omega⟩

/-- C110. Over any stretch of a market's life there is a journal, as in C64, in which every trade was charged the positive
fee of a tier; and for every group of accounts, with or without the send-takes, the journal tells what became of its holdings:
they changed by what it paid in and was paid out, what it got from others and gave to others in trades, and the fees charged to
it. What its members traded among themselves does not show. -/
theorem group_statement {P : Params} {s s' : State conc} (h : Reach P s) (hl : Later P s s') (hq : s'.seq ≤ W64) :
    ∃ J, Journal P s s' J ∧ FeesCharged s.mkt J ∧
      ∀ g : Group, g.accounts.Nodup → 0 ∉ g.accounts → GroupStatement s s' J g := by
  obtain ⟨J, hJ⟩ := journal_charged h hl hq
  exact ⟨J, hJ.1.1, hJ.2.1, fun g hg h0 => hJ.group hg h0⟩

theorem gained_nothing {g : Group} {J : List Line} (h : ∀ x ∈ J, Line.across g x = false) (got given : Trade → Nat) :
    total (Line.gained g got given) J = 0 := by
  refine total_zero fun x hx => ?_
  have := h x hx
  cases x with
  | trade t k fee =>
    simp only [Line.across] at this
    simp only [Line.gained]
    split <;> simp_all
  | _ => rfl

/-- C110. A group that in a market's whole life traded with itself only: all the base it paid in it was paid out or still has;
the quote likewise less exactly the fees charged to it; and if it traded at all, then with everything its referrers ever got for
it the group has less than it paid in, by at least four fifths of the fees. -/
theorem trading_with_oneself {P : Params} {s s' : State conc} (h : Genesis P s) (hl : Later P s s') (hq : s'.seq ≤ W64) :
    ∃ J, Journal P s s' J ∧ ∀ g : Group, g.accounts.Nodup → 0 ∉ g.accounts → (∀ x ∈ J, Line.across g x = false) →
      total (baseClaim s') g.accounts + total (Line.groupBaseOut s.mkt g) J = total (Line.groupBaseIn s.mkt g) J ∧
      total (quoteClaim s') g.accounts + total (Line.groupQuoteOut s.mkt g) J + total (Line.groupFee g) J =
        total (Line.groupQuoteIn s.mkt g) J ∧
      5 * total (Line.referred g) J ≤ total (Line.groupFee g) J ∧
      ((∃ t k fee, Line.trade t k fee ∈ J ∧ g.has k = true) →
        total (quoteClaim s') g.accounts + total (Line.groupQuoteOut s.mkt g) J + total (Line.referred g) J <
          total (Line.groupQuoteIn s.mkt g) J) := by
  obtain ⟨J, j, hf, st⟩ := group_statement (.start h) hl hq
  refine ⟨J, j, fun g hg h0 hx => ?_⟩
  obtain ⟨b, q, r⟩ := st g hg h0
  have z := fun b => absent_zero (.start h) (by rw [h.seq]; exact Nat.zero_le _) (b := b) (by rw [h.oos]; rfl)
  have z1 : total (baseClaim s) g.accounts = 0 := total_zero fun b _ => (z b).1
  have z2 : total (quoteClaim s) g.accounts = 0 := total_zero fun b _ => (z b).2.1
  have z3 : total (rebateClaim s) g.accounts = 0 := total_zero fun b _ => (z b).2.2
  rw [gained_nothing hx, gained_nothing hx] at b q
  refine ⟨by omega, by omega, by omega, fun ⟨t, k, fee, ht, hk⟩ => ?_⟩
  have p := (hf t k fee ht).2.1
  have g1 := total_ge (Line.groupFee g) ht
  simp only [Line.groupFee, hk, if_true] at g1
  change fee ≤ total (Line.groupFee g) J at g1
  omega

-- The two traders of the demonstration are such a group: in nine instructions they trade with each other only. Of what 42 paid
-- in, 40000 was paid out again and 20000 belongs to 41; the fee of 8 is gone, but for the one unit a referrer got.
def Demo.pair : Group := ⟨[41, 42], false⟩

example : Demo.pair.accounts.Nodup ∧ 0 ∉ Demo.pair.accounts ∧ (∀ x ∈ Demo.journal, Line.across Demo.pair x = false) ∧
    GroupStatement Demo.s0 Demo.s9 Demo.journal Demo.pair ∧
    (total (quoteClaim Demo.s9) Demo.pair.accounts, total (Line.groupQuoteOut Demo.s0.mkt Demo.pair) Demo.journal,
      total (Line.groupFee Demo.pair) Demo.journal, total (Line.referred Demo.pair) Demo.journal,
      total (Line.groupQuoteIn Demo.s0.mkt Demo.pair) Demo.journal) = (20000, 40000, 8, 1, 60008) := by
  refine ⟨by decide, by decide, by decide, ⟨by decide +kernel, by decide +kernel, by decide +kernel⟩, by decide +kernel⟩

end Serum.Props
