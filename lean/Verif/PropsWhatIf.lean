import Verif.PropsTextbook

/-!
C79: a more generous order never trades less. C80: splitting an order changes nothing but the rounding of fees.
Both compare different orders sent in the same state.
-/

namespace Serum.Props

/-! ### Fees -/

theorem ceil_add (r x y : Nat) : (r * (x + y) + (W64 - 1)) / W64 ≤ (r * x + (W64 - 1)) / W64 + (r * y + (W64 - 1)) / W64 ∧
    (r * x + (W64 - 1)) / W64 + (r * y + (W64 - 1)) / W64 ≤ (r * (x + y) + (W64 - 1)) / W64 + 1 := by
  rw [Nat.mul_add]
  generalize r * x = a
  generalize r * y = b
  unfold W64
  omega

theorem fee_add (t : FeeTier) {x y : Nat} (h : x + y < W64) :
    t.takerFee (x + y) ≤ t.takerFee x + t.takerFee y ∧ t.takerFee x + t.takerFee y ≤ t.takerFee (x + y) + 1 := by
  rw [takerFee_eq t h, takerFee_eq t (show x < W64 by omega), takerFee_eq t (show y < W64 by omega)]
  exact ceil_add _ _ _

theorem fee_zero (t : FeeTier) : t.takerFee 0 = 0 := by
  rw [takerFee_eq t (by decide), Nat.mul_zero]
  decide

/-! ### More generous limits -/

/-- `w'` is `w` with a limit price that is at least as generous. -/
structure Looser (w w' : Want) : Prop where
  side : w'.side = w.side
  owner : w'.owner = w.owner
  stb : w'.stb = w.stb
  kind : w'.kind = w.kind
  tier : w'.tier = w.tier
  pcLot : w'.pcLot = w.pcLot
  price : match w.side with
    | .bid => w.price ≤ w'.price
    | .ask => w'.price ≤ w.price

theorem Looser.accepts {w w' : Want} (h : Looser w w') {p : Nat} (hp : w.accepts p = true) : w'.accepts p = true := by
  unfold Want.accepts at *
  have h2 := h.price
  rw [h.side]
  cases hs : w.side <;> rw [hs] at hp h2 <;> simp only [decide_eq_true_eq] at * <;> omega

theorem Looser.lots {w w' : Want} (h : Looser w w') (l : Leaf) (coin pc : Nat) : w'.lots l coin pc = w.lots l coin pc := by
  unfold Want.lots
  rw [h.side, h.tier, h.pcLot]

theorem Looser.meet {w w' : Want} (h : Looser w w') (l : Leaf) (coin pc : Nat) : w'.meet l coin pc = w.meet l coin pc := by
  unfold Want.meet
  rw [h.owner, h.stb, h.lots]

theorem Looser.used {w w' : Want} (h : Looser w w') (t : Touch) : w'.coinUsed t = w.coinUsed t ∧ w'.pcUsed t = w.pcUsed t := by
  unfold Want.coinUsed Want.pcUsed
  rw [h.stb, h.tier, h.pcLot]
  exact ⟨rfl, rfl⟩

/-- With a more generous price and more matches, an order meets everything it would have met before, in the same way,
and then perhaps more. -/
theorem takes_prefix {w w' : Want} (h : Looser w w') {k k' : Nat} (hk : k ≤ k') (L : List Leaf) (coin pc : Nat) :
    w.takes k L coin pc <+: w'.takes k' L coin pc := by
  induction k generalizing k' L coin pc with
  | zero => exact List.nil_prefix
  | succ k ih =>
    cases k' with
    | zero => omega
    | succ k' =>
      cases L with
      | nil => exact List.nil_prefix
      | cons l L =>
        unfold Want.takes
        split
        · rename_i hc
          rw [if_pos ⟨by rw [h.kind]; exact hc.1, h.accepts hc.2.1, by rw [h.lots]; exact hc.2.2⟩, h.meet, (h.used _).1,
            (h.used _).2]
          exact (List.cons_prefix_cons).2 ⟨rfl, ih (by omega) _ _ _⟩
        · exact List.nil_prefix

theorem tradedLots_cons (t : Touch) (ts : List Touch) : tradedLots (t :: ts) = t.traded + tradedLots ts := rfl

/-- With more lots, more money, a more generous price and more matches, an order that meets none of its owner's orders
trades at least as many lots. -/
theorem takes_more {w w' : Want} (h : Looser w w') (hlot : 0 < w.pcLot) {k k' : Nat} (hk : k ≤ k') {L : List Leaf}
    (hpos : ∀ l ∈ L, 0 < l.quantity ∧ 0 < l.price)
    (hown : ∀ l ∈ L, w'.accepts l.price = true → l.owner ≠ w.owner) {coin coin' pc pc' : Nat} (hc : coin ≤ coin')
    (hp : pc ≤ pc') (hq : pc' < W64) :
    tradedLots (w.takes k L coin pc) ≤ tradedLots (w'.takes k' L coin' pc') := by
  induction k generalizing k' L coin coin' pc pc' with
  | zero => exact Nat.zero_le _
  | succ k ih =>
    cases k' with
    | zero => omega
    | succ k' =>
      cases L with
      | nil => exact Nat.zero_le _
      | cons l L =>
        unfold Want.takes
        split
        · rename_i hcc
          obtain ⟨hkind, hac, hne⟩ := hcc
          have hpl := (hpos l (by simp)).2
          have g := fun n => lots_greatest w (l := l) (coin := coin) (pc := pc) hpl hlot (by omega) n
          have g' := fun n => lots_greatest w (l := l) (coin := coin') (pc := pc') hpl hlot hq n
          have hle : w.lots l coin pc ≤ w.lots l coin' pc' := by
            obtain ⟨a1, a2, a3⟩ := (g _).1 (Nat.le_refl _)
            exact (g' _).2 ⟨a1, by omega, fun hs => Nat.le_trans (a3 hs) hp⟩
          have hno := hown l (by simp) (h.accepts hac)
          have m1 : w.meet l coin pc = ⟨l, w.lots l coin pc, true⟩ := by unfold Want.meet; rw [if_neg hno]
          have m2 : w'.meet l coin' pc' = ⟨l, w.lots l coin' pc', true⟩ := by
            rw [h.meet]; unfold Want.meet; rw [if_neg hno]
          rw [if_pos ⟨by rw [h.kind]; exact hkind, h.accepts hac, by rw [h.lots]; omega⟩, m1, m2, tradedLots_cons,
            tradedLots_cons]
          simp only [Touch.traded, if_true]
          have cu : ∀ n, w.coinUsed ⟨l, n, true⟩ = n := fun n => by simp [Want.coinUsed]
          have pu : ∀ n, w.pcUsed ⟨l, n, true⟩ = n * l.price * w.pcLot + w.tier.takerFee (n * l.price * w.pcLot) :=
            fun n => by simp [Want.pcUsed]
          have hcut : ∀ n, ∀ x ∈ cutFirst l n L, (n ≤ l.quantity → 0 < x.quantity ∧ 0 < x.price) ∧
              (w'.accepts x.price = true → x.owner ≠ w.owner) := by
            intro n x hx
            unfold cutFirst at hx
            split at hx
            · exact ⟨fun _ => hpos x (by simp [hx]), hown x (by simp [hx])⟩
            · rename_i hnq
              rcases List.mem_cons.1 hx with rfl | hx
              · exact ⟨fun hle => ⟨by show 0 < l.quantity - n; omega, hpl⟩, fun _ => hno⟩
              · exact ⟨fun _ => hpos x (by simp [hx]), hown x (by simp [hx])⟩
          obtain ⟨a1, a2, a3⟩ := (g _).1 (Nat.le_refl _)
          rw [(h.used _).1, (h.used _).2, cu, cu, pu, pu]
          by_cases heq : w.lots l coin pc = w.lots l coin' pc'
          · rw [← heq]
            have := ih (show k ≤ k' by omega) (L := cutFirst l (w.lots l coin pc) L)
              (fun x hx => (hcut _ x hx).1 a1) (fun x hx => (hcut _ x hx).2)
              (show coin - w.lots l coin pc ≤ coin' - w.lots l coin pc by omega)
              (show pc - (w.lots l coin pc * l.price * w.pcLot + w.tier.takerFee (w.lots l coin pc * l.price * w.pcLot)) ≤
                pc' - (w.lots l coin pc * l.price * w.pcLot + w.tier.takerFee (w.lots l coin pc * l.price * w.pcLot)) by omega)
              (by omega)
            omega
          · have hlt : w.lots l coin pc < w.lots l coin' pc' := by omega
            obtain ⟨b1, b2, b3⟩ := (g' _).1 (Nat.le_refl _)
            have hstop : w.takes k (cutFirst l (w.lots l coin pc) L) (coin - w.lots l coin pc)
                (pc - (w.lots l coin pc * l.price * w.pcLot + w.tier.takerFee (w.lots l coin pc * l.price * w.pcLot))) = [] := by
              have e : cutFirst l (w.lots l coin pc) L =
                  { l with quantity := l.quantity - w.lots l coin pc } :: L := by
                unfold cutFirst; rw [if_neg (by omega)]
              rw [e]
              cases k with
              | zero => rfl
              | succ k =>
                unfold Want.takes
                refine if_neg fun hcc => hcc.2.2 ?_
                refine Nat.eq_zero_of_not_pos fun hpos1 => ?_
                obtain ⟨c1, c2, c3⟩ := (lots_greatest w
                  (l := { l with quantity := l.quantity - w.lots l coin pc }) (coin := coin - w.lots l coin pc)
                  (pc := pc - (w.lots l coin pc * l.price * w.pcLot +
                    w.tier.takerFee (w.lots l coin pc * l.price * w.pcLot))) hpl hlot (by omega) 1).1 hpos1
                have hmax := mt (g (w.lots l coin pc + 1)).2 (by omega)
                refine hmax ⟨by omega, by omega, fun hs => ?_⟩
                have d1 := a3 hs
                have d3 := c3 hs
                have d3 : 1 * l.price * w.pcLot + w.tier.takerFee (1 * l.price * w.pcLot) ≤
                  pc - (w.lots l coin pc * l.price * w.pcLot + w.tier.takerFee (w.lots l coin pc * l.price * w.pcLot)) := d3
                have ev : (w.lots l coin pc + 1) * l.price * w.pcLot =
                    w.lots l coin pc * l.price * w.pcLot + 1 * l.price * w.pcLot := by
                  rw [Nat.add_mul, Nat.add_mul]
                rw [ev]
                have := (fee_add w.tier (x := w.lots l coin pc * l.price * w.pcLot) (y := 1 * l.price * w.pcLot)
                  (by omega)).1
                omega
            rw [hstop]
            show _ + 0 ≤ _
            omega
        · exact Nat.zero_le _

/-! ### Splitting -/

/-- What a sweep of `n` lots leaves. -/
def dropLots : Nat → List Leaf → List Leaf
  | _, [] => []
  | n, l :: L =>
    if n = 0 then l :: L
    else if l.quantity ≤ n then dropLots (n - l.quantity) L
    else { l with quantity := l.quantity - n } :: L

theorem dropLots_zero (L : List Leaf) : dropLots 0 L = L := by
  cases L <;> simp [dropLots]

theorem sweep_drops {n : Nat} {L : List Leaf} (hpos : ∀ l ∈ L, 0 < l.quantity) (R : List Leaf) :
    takeFront (L ++ R) (sweep n L) = some (dropLots n L ++ R) := by
  induction L generalizing n with
  | nil => cases R <;> rfl
  | cons l L ih =>
    have hl := hpos l (by simp)
    unfold sweep dropLots
    split
    · rfl
    · rename_i h0
      split
      · simp only [List.cons_append, takeFront]
        rw [if_pos ⟨trivial, hl, Nat.le_refl _⟩, if_pos trivial]
        exact ih (fun x hx => hpos x (by simp [hx]))
      · rename_i hq
        simp only [List.cons_append, takeFront]
        rw [if_pos ⟨trivial, by omega, by omega⟩, if_neg (by omega)]

theorem dropLots_pos {n : Nat} {L : List Leaf} (hpos : ∀ l ∈ L, 0 < l.quantity) : ∀ l ∈ dropLots n L, 0 < l.quantity := by
  induction L generalizing n with
  | nil => intro l hl; cases hl
  | cons x L ih =>
    unfold dropLots
    split
    · exact hpos
    · split
      · exact ih (fun y hy => hpos y (by simp [hy]))
      · intro l hl
        rcases List.mem_cons.1 hl with rfl | hl
        · show 0 < x.quantity - n; omega
        · exact hpos l (by simp [hl])

theorem dropLots_price {n : Nat} {L : List Leaf} : ∀ l ∈ dropLots n L, ∃ x ∈ L, l.price = x.price ∧ l.owner = x.owner := by
  induction L generalizing n with
  | nil => intro l hl; cases hl
  | cons x L ih =>
    unfold dropLots
    split
    · exact fun l hl => ⟨l, hl, rfl, rfl⟩
    · split
      · intro l hl
        obtain ⟨y, hy, e⟩ := ih l hl
        exact ⟨y, by simp [hy], e⟩
      · intro l hl
        rcases List.mem_cons.1 hl with rfl | hl
        · exact ⟨x, by simp, rfl, rfl⟩
        · exact ⟨l, by simp [hl], rfl, rfl⟩

theorem dropLots_add (a b : Nat) {L : List Leaf} (hpos : ∀ l ∈ L, 0 < l.quantity) :
    dropLots (a + b) L = dropLots b (dropLots a L) := by
  induction L generalizing a b with
  | nil => rfl
  | cons l L ih =>
    have hl := hpos l (by simp)
    have hp := fun y hy => hpos y (List.mem_cons_of_mem l hy)
    by_cases ha : a = 0
    · subst ha; rw [dropLots_zero, Nat.zero_add]
    · by_cases hq : l.quantity ≤ a
      · have e1 : dropLots (a + b) (l :: L) = dropLots (a + b - l.quantity) L := by
          rw [dropLots, if_neg (by omega), if_pos (by omega)]
        have e2 : dropLots a (l :: L) = dropLots (a - l.quantity) L := by
          rw [dropLots, if_neg ha, if_pos hq]
        rw [e1, e2, show a + b - l.quantity = (a - l.quantity) + b by omega, ih _ _ hp]
      · have e2 : dropLots a (l :: L) = { l with quantity := l.quantity - a } :: L := by
          rw [dropLots, if_neg ha, if_neg hq]
        rw [e2]
        by_cases hb : b = 0
        · subst hb; rw [dropLots_zero]; exact e2
        · by_cases hab : l.quantity ≤ a + b
          · rw [dropLots, if_neg (by omega), if_pos hab, dropLots, if_neg hb, if_pos (by show l.quantity - a ≤ b; omega)]
            congr 1
            show a + b - l.quantity = b - (l.quantity - a)
            omega
          · rw [dropLots, if_neg (by omega), if_neg hab, dropLots, if_neg hb, if_neg (by show ¬ l.quantity - a ≤ b; omega)]
            congr 2
            show l.quantity - (a + b) = l.quantity - a - b
            omega

/-- Two sweeps in turn against one sweep of both sizes: the same lots and the same value; the fees are the same or one unit
more. -/
theorem sweep_split (m : Market) (tier : FeeTier) (a b : Nat) {L : List Leaf} (hpos : ∀ l ∈ L, 0 < l.quantity)
    (hv : ∀ t ∈ sweep (a + b) L, t.lots * t.maker.price * m.pcLot < W64) :
    tradedLots (sweep a L) + tradedLots (sweep b (dropLots a L)) = tradedLots (sweep (a + b) L) ∧
    tradedQuote m (sweep a L) + tradedQuote m (sweep b (dropLots a L)) = tradedQuote m (sweep (a + b) L) ∧
    takerFees m tier (sweep (a + b) L) ≤ takerFees m tier (sweep a L) + takerFees m tier (sweep b (dropLots a L)) ∧
    takerFees m tier (sweep a L) + takerFees m tier (sweep b (dropLots a L)) ≤ takerFees m tier (sweep (a + b) L) + 1 := by
  have c1 : ∀ t ts, tradedLots (t :: ts) = t.traded + tradedLots ts := fun _ _ => rfl
  have c2 : ∀ t ts, tradedQuote m (t :: ts) = t.tradedPc m + tradedQuote m ts := fun _ _ => rfl
  have c3 : ∀ t ts, takerFees m tier (t :: ts) = t.fee m tier + takerFees m tier ts := fun _ _ => rfl
  have z1 : tradedLots [] = 0 := rfl
  have z2 : tradedQuote m [] = 0 := rfl
  have z3 : takerFees m tier [] = 0 := rfl
  have v1 : ∀ l n, (⟨l, n, true⟩ : Touch).traded = n := fun _ _ => rfl
  have v2 : ∀ (l : Leaf) n, (⟨l, n, true⟩ : Touch).tradedPc m = n * l.price * m.pcLot := fun _ _ => rfl
  have v3 : ∀ (l : Leaf) n, (⟨l, n, true⟩ : Touch).fee m tier = tier.takerFee (n * l.price * m.pcLot) := fun _ _ => rfl
  induction L generalizing a b with
  | nil => simp [sweep, dropLots, z1, z2, z3]
  | cons l L ih =>
    have hl := hpos l (by simp)
    have hp := fun y hy => hpos y (List.mem_cons_of_mem l hy)
    by_cases ha : a = 0
    · subst ha
      rw [dropLots_zero, Nat.zero_add, sweep_zero, z1, z2, z3]
      omega
    · by_cases hq : l.quantity ≤ a
      · have e1 : dropLots a (l :: L) = dropLots (a - l.quantity) L := by
          rw [dropLots, if_neg ha, if_pos hq]
        have e2 : sweep a (l :: L) = ⟨l, l.quantity, true⟩ :: sweep (a - l.quantity) L := by
          rw [sweep, if_neg ha, if_pos hq]
        have e3 : sweep (a + b) (l :: L) = ⟨l, l.quantity, true⟩ :: sweep (a - l.quantity + b) L := by
          rw [sweep, if_neg (by omega), if_pos (by omega), show a + b - l.quantity = a - l.quantity + b by omega]
        rw [e3] at hv
        obtain ⟨i1, i2, i3, i4⟩ := ih (a - l.quantity) b hp (fun t ht => hv t (List.mem_cons_of_mem _ ht))
        rw [e1, e2, e3]
        simp only [c1, c2, c3]
        omega
      · have e1 : dropLots a (l :: L) = { l with quantity := l.quantity - a } :: L := by
          rw [dropLots, if_neg ha, if_neg hq]
        have e2 : sweep a (l :: L) = [⟨l, a, true⟩] := by
          rw [sweep, if_neg ha, if_neg hq]
        rw [e1, e2]
        by_cases hb : b = 0
        · subst hb
          rw [Nat.add_zero, sweep_zero, e2, z1, z2, z3]
          omega
        · have lp : ∀ q, ({ l with quantity := q } : Leaf).price = l.price := fun _ => rfl
          by_cases hab : l.quantity ≤ a + b
          · have e3 : sweep (a + b) (l :: L) = ⟨l, l.quantity, true⟩ :: sweep (a + b - l.quantity) L := by
              rw [sweep, if_neg (by omega), if_pos hab]
            have e4 : sweep b ({ l with quantity := l.quantity - a } :: L) =
                ⟨{ l with quantity := l.quantity - a }, l.quantity - a, true⟩ :: sweep (a + b - l.quantity) L := by
              rw [sweep, if_neg hb, if_pos (by show l.quantity - a ≤ b; omega)]
              congr 2
              show b - (l.quantity - a) = a + b - l.quantity
              omega
            rw [e3] at hv
            have hv0 : l.quantity * l.price * m.pcLot < W64 := hv ⟨l, l.quantity, true⟩ (by simp)
            have split : l.quantity * l.price * m.pcLot = a * l.price * m.pcLot + (l.quantity - a) * l.price * m.pcLot := by
              rw [← Nat.add_mul, ← Nat.add_mul, show a + (l.quantity - a) = l.quantity by omega]
            obtain ⟨f1, f2⟩ := fee_add tier (x := a * l.price * m.pcLot) (y := (l.quantity - a) * l.price * m.pcLot) (by omega)
            rw [← split] at f1 f2
            rw [e3, e4]
            simp only [c1, c2, c3, z1, z2, z3, v1, v2, v3, lp]
            omega
          · have e3 : sweep (a + b) (l :: L) = [⟨l, a + b, true⟩] := by
              rw [sweep, if_neg (by omega), if_neg hab]
            have e4 : sweep b ({ l with quantity := l.quantity - a } :: L) =
                [⟨{ l with quantity := l.quantity - a }, b, true⟩] := by
              rw [sweep, if_neg hb, if_neg (by show ¬ l.quantity - a ≤ b; omega)]
            rw [e3] at hv
            have hv0 : (a + b) * l.price * m.pcLot < W64 := hv ⟨l, a + b, true⟩ (by simp)
            have split : (a + b) * l.price * m.pcLot = a * l.price * m.pcLot + b * l.price * m.pcLot := by
              rw [Nat.add_mul, Nat.add_mul]
            obtain ⟨f1, f2⟩ := fee_add tier (x := a * l.price * m.pcLot) (y := b * l.price * m.pcLot) (by omega)
            rw [← split] at f1 f2
            rw [e3, e4]
            simp only [c1, c2, c3, z1, z2, z3, v1, v2, v3, lp]
            omega

/-! ### The same accounts mean the same order -/

theorem orderArgs_det {P : Params} {env : Env} {c : Core} {accts : List AccMeta} {a a' : NewOrderAccts} {sd : Side}
    {tier tier' : FeeTier} {o o' : OpenOrders} (h : OrderArgs P env c accts a sd tier o)
    (h' : OrderArgs P env c accts a' sd tier' o') : a' = a ∧ tier' = tier ∧ o' = o := by
  have e := h'.parse
  rw [h.parse] at e
  cases e
  obtain ⟨d, d1, d2⟩ := h.tier
  obtain ⟨d', d3, d4⟩ := h'.tier
  rw [d1] at d3
  cases d3
  rw [d2] at d4
  cases d4
  have e := h'.load
  rw [h.load] at e
  cases e
  exact ⟨rfl, rfl, rfl⟩

theorem takeArgs_det {P : Params} {c : Core} {accts : List AccMeta} {a a' : SendTakeAccts} {tier tier' : FeeTier}
    (h : TakeArgs P c accts a tier) (h' : TakeArgs P c accts a' tier') : a' = a ∧ tier' = tier := by
  have e := h'.parse
  rw [h.parse] at e
  cases e
  obtain ⟨d, d1, d2⟩ := h.tier
  obtain ⟨d', d3, d4⟩ := h'.tier
  rw [d1] at d3
  cases d3
  rw [d2] at d4
  cases d4
  exact ⟨rfl, rfl⟩

/-- The limit price `p'` is at least as generous as `p`. -/
def kinder (sd : Side) (p p' : Nat) : Prop :=
  match sd with
  | .bid => p ≤ p'
  | .ask => p' ≤ p

/-- `ix'` is `ix` with a limit price and a number of matches that are at least as generous. -/
structure Kinder (ix ix' : NewOrderIx) : Prop where
  side : ix'.side = ix.side
  stb : ix'.stb = ix.stb
  kind : ix'.orderType = ix.orderType
  price : kinder ix.side ix.limitPrice ix'.limitPrice
  limit : ix.limit ≤ ix'.limit

theorem Kinder.looser {ix ix' : NewOrderIx} (h : Kinder ix ix') (m : Market) (oo : Nat) (tier : FeeTier) :
    Looser (wantOrder m ix oo tier) (wantOrder m ix' oo tier) :=
  ⟨h.side, rfl, h.stb, h.kind, rfl, rfl, h.price⟩

/-! ### C79 -/

/-- C79. The same sender sends, in the same state, one of two orders that differ in their limit price and number of
matches only, `ix'` the more generous. Then `ix'` meets every resting order `ix` meets, in the same order, and takes the
same lots from each; what it does beyond that comes after. -/
theorem kinder_order_extends {P : Params} {s s1 s2 : State conc} (h : Reach P s) (hq : s.seq < W64) {env : Env}
    {accts : List AccMeta} {ix ix' : NewOrderIx} (hv : OrderValid ix) (hv' : OrderValid ix')
    (hn : NotVault P s.mkt accts) (hk : Kinder ix ix') (hcoin : ix'.maxCoinQty = ix.maxCoinQty)
    (hpc : ix'.maxPcQty = ix.maxPcQty)
    (hx : newOrderV3 conc P env s accts ix = .ok s1) (hx' : newOrderV3 conc P env s accts ix' = .ok s2) :
    ∃ a tier o o1 o2 slot slot' d d' ts ts' f f' evs evs',
      PlaceEffect P env s s1 accts ix a tier o o1 slot d ts f evs ∧
      PlaceEffect P env s s2 accts ix' a tier o o2 slot' d' ts' f' evs' ∧ ts <+: ts' := by
  obtain ⟨a, tier, o, o1, slot, d, ts, f, evs, he, hb⟩ := order_by_the_book h hq hv hn hx
  obtain ⟨a', tier', o', o2, slot', d', ts', f', evs', he', hb'⟩ := order_by_the_book h hq hv' hn hx'
  have hA := he'.args
  rw [hk.side] at hA
  obtain ⟨rfl, rfl, rfl⟩ := orderArgs_det he.args hA
  refine ⟨a', tier', o', o1, o2, slot, slot', d, d', ts, ts', f, f', evs, evs', he, he', ?_⟩
  have e1 := hb.trades
  have e2 := hb'.trades
  have es : (wantOrder s.mkt ix' a'.oo.key tier').side = (wantOrder s.mkt ix a'.oo.key tier').side := hk.side
  rw [es, hcoin, hpc, hk.side] at e2
  rw [e1, e2]
  exact takes_prefix (hk.looser _ _ _) hk.limit _ _ _

/-- C79. If `ix'` is also for at least as many lots and as much money, and none of the orders it may trade with belongs to
its sender, then `ix'` trades at least as many lots. -/
theorem bigger_order_trades_more {P : Params} {s s1 s2 : State conc} (h : Reach P s) (hq : s.seq < W64) {env : Env}
    {accts : List AccMeta} {ix ix' : NewOrderIx} (hv : OrderValid ix) (hv' : OrderValid ix')
    (hn : NotVault P s.mkt accts) (hk : Kinder ix ix') (hcoin : ix.maxCoinQty ≤ ix'.maxCoinQty)
    (hpc : ix.maxPcQty ≤ ix'.maxPcQty)
    (hown : ∀ a, parseNewOrder accts = .ok a → ∀ tier, ∀ l ∈ Within s (wantOrder s.mkt ix' a.oo.key tier), l.owner ≠ a.oo.key)
    (hx : newOrderV3 conc P env s accts ix = .ok s1) (hx' : newOrderV3 conc P env s accts ix' = .ok s2) :
    ∃ a tier o o1 o2 slot slot' d d' ts ts' f f' evs evs',
      PlaceEffect P env s s1 accts ix a tier o o1 slot d ts f evs ∧
      PlaceEffect P env s s2 accts ix' a tier o o2 slot' d' ts' f' evs' ∧ tradedLots ts ≤ tradedLots ts' := by
  obtain ⟨a, tier, o, o1, slot, d, ts, f, evs, he, hb⟩ := order_by_the_book h hq hv hn hx
  obtain ⟨a', tier', o', o2, slot', d', ts', f', evs', he', hb'⟩ := order_by_the_book h hq hv' hn hx'
  have hA := he'.args
  rw [hk.side] at hA
  obtain ⟨rfl, rfl, rfl⟩ := orderArgs_det he.args hA
  refine ⟨a', tier', o', o1, o2, slot, slot', d, d', ts, ts', f, f', evs, evs', he, he', ?_⟩
  have e1 := hb.trades
  have e2 := hb'.trades
  have es : (wantOrder s.mkt ix' a'.oo.key tier').side = (wantOrder s.mkt ix a'.oo.key tier').side := hk.side
  have ho := hown a' he.args.parse tier'
  unfold Within at ho
  rw [es] at e2 ho
  rw [hk.side] at e2
  obtain ⟨vs, hvs, hqi, hi⟩ := h.view (Nat.le_of_lt hq)
  rw [e1, e2]
  refine takes_more (hk.looser _ _ _) hi.shape.mkt.pcLot hk.limit (bestFirst_ok h (Nat.le_of_lt hq) _).2
    (fun l hl ha => ho l (List.mem_filter.2 ⟨hl, ha⟩)) hcoin ?_ (payable_lt hv'.2.2.1.2)
  unfold payable
  cases ix.side
  · exact hpc
  · exact Nat.le_refl _

/-- C79, send-takes: a more generous one never trades fewer lots. -/
theorem bigger_take_trades_more {P : Params} {s s1 s2 : State conc} (h : Reach P s) (hq : s.seq < W64)
    {accts : List AccMeta} {ix ix' : SendTakeIx} (hv : TakeValid ix) (hv' : TakeValid ix')
    (hn : NotVault P s.mkt accts) (hside : ix'.side = ix.side) (hprice : kinder ix.side ix.limitPrice ix'.limitPrice)
    (hlimit : ix.limit ≤ ix'.limit) (hcoin : ix.maxCoinQty ≤ ix'.maxCoinQty) (hpc : ix.maxPcQty ≤ ix'.maxPcQty)
    (hx : sendTake conc P s accts ix = .ok s1) (hx' : sendTake conc P s accts ix' = .ok s2) :
    ∃ a tier ts ts' evs evs', TakeEffect P s s1 accts ix a tier ts evs ∧ TakeEffect P s s2 accts ix' a tier ts' evs' ∧
      tradedLots ts ≤ tradedLots ts' := by
  obtain ⟨a, tier, ts, evs, he, hb⟩ := send_take_by_the_book h hq hv hn hx
  obtain ⟨a', tier', ts', evs', he', hb'⟩ := send_take_by_the_book h hq hv' hn hx'
  obtain ⟨rfl, rfl⟩ := takeArgs_det he.args he'.args
  refine ⟨a', tier', ts, ts', evs, evs', he, he', ?_⟩
  have e1 := hb.trades
  have e2 := hb'.trades
  have es : (wantTake s.mkt ix' tier').side = (wantTake s.mkt ix tier').side := hside
  rw [es, hside] at e2
  obtain ⟨vs, hvs, hqi, hi⟩ := h.view (Nat.le_of_lt hq)
  rw [e1, e2]
  refine takes_more (w := wantTake s.mkt ix tier') (w' := wantTake s.mkt ix' tier')
    ⟨hside, rfl, rfl, rfl, rfl, rfl, hprice⟩ hi.shape.mkt.pcLot hlimit
    (bestFirst_ok h (Nat.le_of_lt hq) _).2 (fun l hl _ => hi.shape.owner_ne (mem_bestFirst.1 hl)) hcoin ?_
    (payable_lt hv'.2.2.1.2)
  unfold payable
  cases ix.side
  · exact hpc
  · exact Nat.le_refl _

/-! ### C80 -/

/-- The same sender, side, limit price and fees. -/
structure Alike (w w' : Want) : Prop where
  side : w'.side = w.side
  price : w'.price = w.price
  tier : w'.tier = w.tier
  pcLot : w'.pcLot = w.pcLot

theorem Alike.accepts {w w' : Want} (h : Alike w w') (p : Nat) : w'.accepts p = w.accepts p := by
  unfold Want.accepts
  rw [h.side, h.price]

theorem dropLots_within {w : Want} {L : List Leaf} (n : Nat) (hL : ∀ l ∈ L, w.accepts l.price = true) (R : List Leaf)
    (hR : ∀ l ∈ R, w.accepts l.price = false) : (dropLots n L ++ R).filter (fun l => w.accepts l.price) = dropLots n L := by
  rw [List.filter_append, List.filter_eq_self.2, List.filter_eq_nil_iff.2, List.append_nil]
  · intro l hl; simp [hR l hl]
  · intro l hl
    obtain ⟨x, hx, e, _⟩ := dropLots_price l hl
    show w.accepts l.price = true
    rw [e]; exact hL x hx

/-- What a sweep leaves of the other side. -/
theorem swept_after {P : Params} {s s' : State conc} (h : Reach P s) (hq : s.seq ≤ W64) {w : Want} {n : Nat}
    {ts : List Touch} (ht : ts = sweep n (Within s w))
    (ha : takeFront (bestFirst s w.side.other) ts = some (bestFirst s' w.side.other)) :
    bestFirst s' w.side.other = dropLots n (Within s w) ++
      (bestFirst s w.side.other).filter (fun l => !w.accepts l.price) := by
  have hpos : ∀ l ∈ Within s w, 0 < l.quantity := fun l hl =>
    ((bestFirst_ok h hq _).2 l (List.mem_filter.1 hl).1).1
  rw [best_split (bestFirst_best h hq w), ht] at ha
  have := sweep_drops (n := n) hpos ((bestFirst s w.side.other).filter (fun l => !w.accepts l.price))
  exact (Option.some.inj (this.symm.trans ha)).symm

/-- What sending an order in two parts does, compared with sending it whole: `ts` are the trades of the whole, `ts1` and
`ts2` those of the parts, `other` and `other'` the other side of the book at the end. -/
structure SameButRounding (m : Market) (tier : FeeTier) (ts ts1 ts2 : List Touch) (other other' : List Leaf) : Prop where
  /-- The same resting orders remain, each with the same lots. -/
  book : other' = other
  lots : tradedLots ts1 + tradedLots ts2 = tradedLots ts
  quote : tradedQuote m ts1 + tradedQuote m ts2 = tradedQuote m ts
  /-- The parts never pay less in fees, and at most one unit more. -/
  fees : takerFees m tier ts ≤ takerFees m tier ts1 + takerFees m tier ts2
  rounding : takerFees m tier ts1 + takerFees m tier ts2 ≤ takerFees m tier ts + 1

theorem mem_sweep {n : Nat} {L : List Leaf} {t : Touch} (ht : t ∈ sweep n L) : t.maker ∈ L ∧ t.lots ≤ t.maker.quantity := by
  induction L generalizing n with
  | nil => cases ht
  | cons l L ih =>
    unfold sweep at ht
    split at ht
    · cases ht
    · split at ht
      · rcases List.mem_cons.1 ht with rfl | ht
        · exact ⟨by simp, Nat.le_refl _⟩
        · exact ⟨List.mem_cons_of_mem _ (ih ht).1, (ih ht).2⟩
      · rw [List.mem_singleton] at ht
        subst ht
        exact ⟨by simp, by show n ≤ l.quantity; omega⟩

theorem split_sweeps {P : Params} {s s1 s2 s' : State conc} (h : Reach P s) (hq : s.seq ≤ W64) (h1 : Reach P s1)
    (hq1 : s1.seq ≤ W64) {w w1 w2 : Want} {a b pc : Nat} {ts ts1 ts2 : List Touch} (e1 : Alike w w1) (e2 : Alike w w2)
    (hpc : pc < W64)
    (hmoney : w.side = .bid → tradedQuote s.mkt ts + takerFees s.mkt w.tier ts ≤ pc)
    (t : ts = sweep (a + b) (Within s w)) (t1 : ts1 = sweep a (Within s w1)) (t2 : ts2 = sweep b (Within s1 w2))
    (f : takeFront (bestFirst s w.side.other) ts = some (bestFirst s' w.side.other))
    (f1 : takeFront (bestFirst s w1.side.other) ts1 = some (bestFirst s1 w1.side.other))
    (f2 : takeFront (bestFirst s1 w2.side.other) ts2 = some (bestFirst s2 w2.side.other)) :
    SameButRounding s.mkt w.tier ts ts1 ts2 (bestFirst s' w.side.other) (bestFirst s2 w.side.other) := by
  have a1 : ∀ x, Within x w1 = Within x w := fun x => by
    unfold Within; rw [e1.side]; simp only [e1.accepts]
  have a2 : ∀ x, Within x w2 = Within x w := fun x => by
    unfold Within; rw [e2.side]; simp only [e2.accepts]
  rw [a1] at t1
  rw [a2] at t2
  rw [e1.side] at f1
  rw [e2.side] at f2
  have hpos : ∀ l ∈ Within s w, 0 < l.quantity := fun l hl => ((bestFirst_ok h hq _).2 l (List.mem_filter.1 hl).1).1
  have b0 := swept_after h hq t f
  have b1 := swept_after h hq t1 f1
  have b2 := swept_after h1 hq1 t2 f2
  have hw : Within s1 w = dropLots a (Within s w) := by
    show (bestFirst s1 w.side.other).filter _ = _
    rw [b1]
    exact dropLots_within a (fun l hl => (List.mem_filter.1 hl).2) _ (fun l hl => by
      have := (List.mem_filter.1 hl).2
      simpa using this)
  have hr : (bestFirst s1 w.side.other).filter (fun l => !w.accepts l.price) =
      (bestFirst s w.side.other).filter (fun l => !w.accepts l.price) := by
    rw [b1, List.filter_append, List.filter_eq_nil_iff.2, List.nil_append, List.filter_filter]
    · simp only [Bool.and_self]
    · intro l hl
      obtain ⟨x, hx, e, _⟩ := dropLots_price l hl
      have := (List.mem_filter.1 hx).2
      rw [e, this]; simp
  have hv : ∀ x ∈ sweep (a + b) (Within s w), x.lots * x.maker.price * s.mkt.pcLot < W64 := by
    intro x hx
    cases hs : w.side with
    | bid =>
      have g := hmoney hs
      rw [t] at g
      have : x.lots * x.maker.price * s.mkt.pcLot ≤ tradedQuote s.mkt (sweep (a + b) (Within s w)) := by
        have e := sumBy_le_mem (Touch.tradedPc s.mkt) hx
        have e3 : Touch.tradedPc s.mkt x = x.lots * x.maker.price * s.mkt.pcLot := by
          unfold Touch.tradedPc Touch.pc; rw [if_pos (sweep_filled hx)]
        rw [← e3]; exact e
      omega
    | ask =>
      obtain ⟨hm, hle⟩ := mem_sweep hx
      obtain ⟨vs, hvs, hqi, hi⟩ := h.view hq
      have hm' := mem_bestFirst.1 (List.mem_filter.1 hm).1
      rw [hs] at hm'
      have := hi.shape.book.bidVal x.maker hm'
      exact Nat.lt_of_le_of_lt (Nat.mul_le_mul_right _ (Nat.mul_le_mul_right _ hle)) this
  obtain ⟨r1, r2, r3, r4⟩ := sweep_split s.mkt w.tier a b hpos hv
  rw [hw] at t2 b2
  rw [← t, ← t1, ← t2] at r1 r2 r3 r4
  refine ⟨?_, r1, r2, r3, r4⟩
  rw [b2, b0, hr, dropLots_add a b hpos]

/-- `ix1` and `ix2` are `ix` in two parts. -/
structure SplitOrder (ix ix1 ix2 : NewOrderIx) : Prop where
  side : ix1.side = ix.side ∧ ix2.side = ix.side
  price : ix1.limitPrice = ix.limitPrice ∧ ix2.limitPrice = ix.limitPrice
  size : ix.maxCoinQty = ix1.maxCoinQty + ix2.maxCoinQty

/-- C80, new orders. From `s`, an order is sent whole, leading to `s'`, or in two parts, leading by `s1` to `s2`. Provided
each can sweep (C76) and pays the same fee rate, both ways leave the other side of the book the same, trade the same lots
for the same value, and the fees of the parts are those of the whole, or one unit more. -/
theorem split_order {P : Params} {s s1 s2 s' : State conc} (h : Reach P s) (hq : s.seq < W64) (h1 : Reach P s1)
    (hq1 : s1.seq < W64) {env env1 env2 : Env} {accts accts1 accts2 : List AccMeta} {ix ix1 ix2 : NewOrderIx}
    (hv : OrderValid ix) (hv1 : OrderValid ix1) (hv2 : OrderValid ix2) (hs : SplitOrder ix ix1 ix2)
    {a a1 a2 : NewOrderAccts} {tier : FeeTier} {o o' o1 o1' o2 o2' : OpenOrders} {k k1 k2 d d1 d2 : Nat}
    {ts ts1 ts2 : List Touch} {f f1 f2 : Option Posting} {evs evs1 evs2 : List EventView}
    (he : PlaceEffect P env s s' accts ix a tier o o' k d ts f evs)
    (he1 : PlaceEffect P env1 s s1 accts1 ix1 a1 tier o1 o1' k1 d1 ts1 f1 evs1)
    (he2 : PlaceEffect P env2 s1 s2 accts2 ix2 a2 tier o2 o2' k2 d2 ts2 f2 evs2)
    (hc : CanSweep s (wantOrder s.mkt ix a.oo.key tier) ix.limit ix.maxCoinQty (payable ix.side ix.maxPcQty))
    (hc1 : CanSweep s (wantOrder s.mkt ix1 a1.oo.key tier) ix1.limit ix1.maxCoinQty (payable ix1.side ix1.maxPcQty))
    (hc2 : CanSweep s1 (wantOrder s1.mkt ix2 a2.oo.key tier) ix2.limit ix2.maxCoinQty (payable ix2.side ix2.maxPcQty)) :
    SameButRounding s.mkt tier ts ts1 ts2 (bestFirst s' ix.side.other) (bestFirst s2 ix.side.other) := by
  have g := order_sweeps h hq hv he hc
  have g1 := order_sweeps h hq hv1 he1 hc1
  have g2 := order_sweeps h1 hq1 hv2 he2 hc2
  have b := place_by_the_book h hq hv he
  have b1 := place_by_the_book h hq hv1 he1
  have b2 := place_by_the_book h1 hq1 hv2 he2
  have hl : s1.mkt.pcLot = s.mkt.pcLot := by
    cases e : ix1.side with
    | bid => rw [(he1.bid e).mkt.mkt]
    | ask => rw [(he1.ask e).mkt.mkt]
  have t := g.trades
  rw [hs.size] at t
  exact split_sweeps h (Nat.le_of_lt hq) h1 (Nat.le_of_lt hq1) (w := wantOrder s.mkt ix a.oo.key tier)
    (w1 := wantOrder s.mkt ix1 a1.oo.key tier) (w2 := wantOrder s1.mkt ix2 a2.oo.key tier)
    ⟨hs.side.1, hs.price.1, rfl, rfl⟩ ⟨hs.side.2, hs.price.2, rfl, hl⟩ (payable_lt hv.2.2.1.2)
    (fun e => by rw [g.trades]; exact hc.money e) t g1.trades g2.trades b.after b1.after b2.after

/-! ### Cases -/

namespace Demo

/-- In `p5` the bids are 3 lots at 900 and 2 at 800. 41 sells 4 lots at 900 or better, or at 800 or better. -/
def sell (price coin : Nat) : NewOrderIx := { Serum.Demo.order .ask price coin 1 7 with limit := 3 }
def sold (s : State conc) (ix : NewOrderIx) : State conc :=
  Serum.Demo.run s (Serum.Demo.orderAccts 41 21 11) (.newOrderV3 ix)

end Demo

/-- Both orders go through; the second is the more generous; the first trades 3 lots, the second the same 3 and one more. -/
example : (newOrderV3 conc Demo.P Demo.env Demo.p5 (Demo.orderAccts 41 21 11) (Demo.sell 900 4)).isOk = true ∧
    (newOrderV3 conc Demo.P Demo.env Demo.p5 (Demo.orderAccts 41 21 11) (Demo.sell 800 4)).isOk = true ∧
    Kinder (Demo.sell 900 4) (Demo.sell 800 4) ∧
    ((wantOrder Demo.p5.mkt (Demo.sell 900 4) 41 .base).takes 3 (bestFirst Demo.p5 .bid) 4 0).map (·.lots) = [3] ∧
    ((wantOrder Demo.p5.mkt (Demo.sell 800 4) 41 .base).takes 3 (bestFirst Demo.p5 .bid) 4 0).map (·.lots) = [3, 1] ∧
    (∀ l ∈ Within Demo.p5 (wantOrder Demo.p5.mkt (Demo.sell 800 4) 41 .base), l.owner ≠ 41) :=
  ⟨by decide +kernel, by decide +kernel, ⟨rfl, rfl, rfl, show 800 ≤ 900 by decide, by decide⟩, by decide +kernel,
    by decide +kernel, by decide +kernel⟩

/-- 41 sells 4 lots at 800 or better at once, or 2 and then 2. All three orders can sweep. Whole: 3 lots at 900 and 1 at
800. Split: 2 at 900; then 1 at 900 and 1 at 800. Afterwards 1 lot at 800 remains both ways. -/
example : SplitOrder (Demo.sell 800 4) (Demo.sell 800 2) (Demo.sell 800 2) ∧
    (newOrderV3 conc Demo.P Demo.env Demo.p5 (Demo.orderAccts 41 21 11) (Demo.sell 800 4)).isOk = true ∧
    (newOrderV3 conc Demo.P Demo.env Demo.p5 (Demo.orderAccts 41 21 11) (Demo.sell 800 2)).isOk = true ∧
    (newOrderV3 conc Demo.P Demo.env (Demo.sold Demo.p5 (Demo.sell 800 2)) (Demo.orderAccts 41 21 11)
      (Demo.sell 800 2)).isOk = true ∧
    CanSweep Demo.p5 (wantOrder Demo.p5.mkt (Demo.sell 800 4) 41 .base) 3 4 0 ∧
    CanSweep (Demo.sold Demo.p5 (Demo.sell 800 2)) (wantOrder Demo.p5.mkt (Demo.sell 800 2) 41 .base) 3 2 0 ∧
    (sweep 2 (Within (Demo.sold Demo.p5 (Demo.sell 800 2)) (wantOrder Demo.p5.mkt (Demo.sell 800 2) 41 .base))).map
      (fun t => (t.maker.price, t.lots)) = [(900, 1), (800, 1)] ∧
    (bestFirst (Demo.sold Demo.p5 (Demo.sell 800 4)) .bid).map (fun l => (l.price, l.quantity)) = [(800, 1)] ∧
    bestFirst (Demo.sold (Demo.sold Demo.p5 (Demo.sell 800 2)) (Demo.sell 800 2)) .bid =
      bestFirst (Demo.sold Demo.p5 (Demo.sell 800 4)) .bid :=
  ⟨⟨⟨rfl, rfl⟩, ⟨rfl, rfl⟩, rfl⟩, by decide +kernel, by decide +kernel, by decide +kernel,
    ⟨by decide +kernel, by decide +kernel, by decide +kernel, by decide +kernel⟩,
    ⟨by decide +kernel, by decide +kernel, by decide +kernel, by decide +kernel⟩, by decide +kernel, by decide +kernel,
    by decide +kernel⟩

/-- The extra unit does occur: 2 lots at 800 in one trade, or one at a time, with 10 quote units to the lot. -/
example : FeeTier.base.takerFee (2 * 800 * 10) = 7 ∧ FeeTier.base.takerFee (1 * 800 * 10) = 4 := by decide +kernel

end Serum.Props
