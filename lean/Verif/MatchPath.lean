import Verif.MatchSteps

/-
The rounds of `newOrder` on list-level books as an inductively defined path, and what a path
preserves.
-/

namespace Serum

theorem insKey_split {l : Leaf} {xs : List Leaf} (hs : xs.Pairwise (fun a b => a.key < b.key))
    (hf : l.key ∉ xs.map (·.key)) :
    ∃ L R, xs = L ++ R ∧ insKey l xs = L ++ l :: R ∧ (∀ x ∈ L, x.key < l.key) ∧
      ∀ x ∈ R, l.key < x.key := by
  induction xs with
  | nil => exact ⟨[], [], rfl, rfl, by simp, by simp⟩
  | cons x xs ih =>
    simp only [List.map_cons, List.mem_cons, not_or] at hf
    rw [List.pairwise_cons] at hs
    by_cases h : l.key < x.key
    · refine ⟨[], x :: xs, rfl, by simp [insKey, h], by simp, ?_⟩
      intro y hy
      rw [List.mem_cons] at hy
      rcases hy with rfl | hy
      · exact h
      · have := hs.1 y hy; omega
    · obtain ⟨L, R, h1, h2, h3, h4⟩ := ih hs.2 hf.2
      refine ⟨x :: L, R, by rw [h1]; rfl, by simp [insKey, h, hf.1, h2], ?_, h4⟩
      intro y hy
      rw [List.mem_cons] at hy
      rcases hy with rfl | hy
      · omega
      · exact h3 y hy

theorem insKey_perm {l : Leaf} {xs : List Leaf} (hs : xs.Pairwise (fun a b => a.key < b.key))
    (hf : l.key ∉ xs.map (·.key)) : (insKey l xs).Perm (l :: xs) := by
  obtain ⟨L, R, h1, h2, _, _⟩ := insKey_split hs hf
  rw [h2, h1]
  exact List.perm_middle

theorem mem_insKey {l x : Leaf} {xs : List Leaf} (hs : xs.Pairwise (fun a b => a.key < b.key))
    (hf : l.key ∉ xs.map (·.key)) : x ∈ insKey l xs ↔ x = l ∨ x ∈ xs := by
  rw [(insKey_perm hs hf).mem_iff, List.mem_cons]

theorem insKey_sorted {l : Leaf} {xs : List Leaf} (hs : xs.Pairwise (fun a b => a.key < b.key))
    (hf : l.key ∉ xs.map (·.key)) : (insKey l xs).Pairwise (fun a b => a.key < b.key) := by
  obtain ⟨L, R, h1, h2, h3, h4⟩ := insKey_split hs hf
  rw [h2]
  rw [h1] at hs
  rw [List.pairwise_append] at hs ⊢
  refine ⟨hs.1, ?_, ?_⟩
  · rw [List.pairwise_cons]; exact ⟨h4, hs.2.1⟩
  · intro a ha b hb
    rw [List.mem_cons] at hb
    rcases hb with rfl | hb
    · exact h3 a ha
    · exact hs.2.2 a ha b hb

/-- One round of `newOrder`. -/
def Round (o : OrderParams) (po : Bool) (ob : Ob lst) (coin pc : Nat) (ob' : Ob lst)
    (r : Option Remaining) (ts : List Touch) (f : Option Posting) : Prop :=
  match o.side with
  | .bid => BidStep (o.iter coin pc po) ob ob' r ts f
  | .ask => AskStep (o.iter coin pc po) ob ob' r ts f

/-- The own side of an order. -/
def Ob.own (ob : Ob lst) : Side → LBook
  | .bid => ob.bids
  | .ask => ob.asks

/-- All rounds of `newOrder`, at most `limit + 1`, with the resting orders met and the remainder put on
the book. The extra round is post-only. -/
inductive Path (o : OrderParams) :
    Nat → Ob lst → Nat → Nat → Ob lst → List Touch → Option Posting → Prop where
  | last {ob : Ob lst} {coin pc : Nat} {ob' : Ob lst} {ts : List Touch} {f : Option Posting}
      (h : Round o true ob coin pc ob' none ts f) : Path o 0 ob coin pc ob' ts f
  | stop {limit : Nat} {ob : Ob lst} {coin pc : Nat} {ob' : Ob lst} {ts : List Touch}
      {f : Option Posting} (h : Round o (o.orderType == .postOnly) ob coin pc ob' none ts f) :
      Path o (limit + 1) ob coin pc ob' ts f
  | more {limit : Nat} {ob : Ob lst} {coin pc : Nat} {ob1 ob' : Ob lst} {r : Remaining}
      {ts ts' : List Touch} {f' f : Option Posting}
      (h : Round o (o.orderType == .postOnly) ob coin pc ob1 (some r) ts f')
      (ht : Path o limit ob1 r.coin r.pc ob' ts' f) : Path o (limit + 1) ob coin pc ob' (ts ++ ts') f

/-- What the processor guarantees about the order it hands to the engine. -/
structure OrderOk (o : OrderParams) : Prop where
  price : 0 < extractPrice o.orderId
  take : o.owner = 0 → o.orderType = .ioc

/-- What holds before a round. -/
structure RoundIn (o : OrderParams) (ob : Ob lst) (coin pc : Nat) : Prop where
  mkt : MktOk ob.mkt
  book : BookOk ob.mkt ob.bids.items ob.asks.items
  coinPos : 0 < coin
  coinLt : coin < W64
  pcLt : pc < W64
  val : o.side = .ask → o.owner ≠ 0 → coin * ob.mkt.coinLot < W64
  fresh : o.orderId ∉ (ob.own o.side).items.map (·.key)

theorem accrueFees_ok {m : Market} (h : MktOk m) (a b : Nat) : MktOk (m.accrueFees a b) := by
  obtain ⟨h1, h2, h3, h4, h5, h6⟩ := h
  exact ⟨h1, h2, wadd_lt _ _, wadd_lt _ _, wsub_lt _ _, h6⟩

theorem sorted_sub {L L' : List Leaf} (h : L.Pairwise (fun a b => a.key < b.key)) (hs : L'.Sublist L) :
    L'.Pairwise (fun a b => a.key < b.key) := h.sublist hs

theorem shrink_last_sorted {B : List Leaf} {best : Leaf} {n : Nat}
    (h : (B ++ [best]).Pairwise (fun a b => a.key < b.key)) :
    (B ++ shrink best n).Pairwise (fun a b => a.key < b.key) := by
  rw [List.pairwise_append] at h ⊢
  refine ⟨h.1, ?_, ?_⟩
  · unfold shrink; split <;> simp
  · intro a ha b hb
    rw [(shrink_owner hb).1]
    exact h.2.2 a ha best (by simp)

theorem shrink_first_sorted {A : List Leaf} {best : Leaf} {n : Nat}
    (h : (best :: A).Pairwise (fun a b => a.key < b.key)) :
    (shrink best n ++ A).Pairwise (fun a b => a.key < b.key) := by
  rw [List.pairwise_cons] at h
  rw [List.pairwise_append]
  refine ⟨?_, h.2, ?_⟩
  · unfold shrink; split <;> simp
  · intro a ha b hb
    rw [(shrink_owner ha).1]
    exact h.1 b hb

/-- Members of a book after its best order shrank. -/
theorem mem_shrink_last {B : List Leaf} {best l : Leaf} {n : Nat} (h : l ∈ B ++ shrink best n) :
    l ∈ B ∨ l = { best with quantity := best.quantity - n } ∧ best.quantity ≠ n := by
  rw [List.mem_append] at h
  exact h.imp id shrink_owner

theorem mem_shrink_first {A : List Leaf} {best l : Leaf} {n : Nat} (h : l ∈ shrink best n ++ A) :
    l ∈ A ∨ l = { best with quantity := best.quantity - n } ∧ best.quantity ≠ n := by
  rw [List.mem_append] at h
  exact h.symm.imp id shrink_owner

theorem bids_shrink_ok {m : Market} {B asks : List Leaf} {best : Leaf} {n : Nat} (hn : n ≤ best.quantity)
    (h : BookOk m (B ++ [best]) asks) : BookOk m (B ++ shrink best n) asks := by
  obtain ⟨s1, s2, q1, q2, p1, p2, v1, v2⟩ := h
  have hin : ∀ l ∈ B, l ∈ B ++ [best] := fun l hl => by simp [hl]
  have hbest : best ∈ B ++ [best] := by simp
  refine ⟨shrink_last_sorted s1, s2, ?_, q2, ?_, p2, ?_, v2⟩
  · intro l hl
    rcases mem_shrink_last hl with h | ⟨rfl, hne⟩
    · exact q1 l (hin l h)
    · simp only; omega
  · intro l hl
    rcases mem_shrink_last hl with h | ⟨rfl, hne⟩
    · exact p1 l (hin l h)
    · exact p1 best hbest
  · intro l hl
    rcases mem_shrink_last hl with h | ⟨rfl, hne⟩
    · exact v1 l (hin l h)
    · exact Nat.lt_of_le_of_lt (Nat.mul_le_mul_right _ (Nat.mul_le_mul_right _ (Nat.sub_le _ _)))
        (v1 best hbest)

theorem asks_shrink_ok {m : Market} {A bids : List Leaf} {best : Leaf} {n : Nat} (hn : n ≤ best.quantity)
    (h : BookOk m bids (best :: A)) : BookOk m bids (shrink best n ++ A) := by
  obtain ⟨s1, s2, q1, q2, p1, p2, v1, v2⟩ := h
  have hin : ∀ l ∈ A, l ∈ best :: A := fun l hl => by simp [hl]
  have hbest : best ∈ best :: A := by simp
  refine ⟨s1, shrink_first_sorted s2, q1, ?_, p1, ?_, v1, ?_⟩
  · intro l hl
    rcases mem_shrink_first hl with h | ⟨rfl, hne⟩
    · exact q2 l (hin l h)
    · simp only; omega
  · intro l hl
    rcases mem_shrink_first hl with h | ⟨rfl, hne⟩
    · exact p2 l (hin l h)
    · exact p2 best hbest
  · intro l hl
    rcases mem_shrink_first hl with h | ⟨rfl, hne⟩
    · exact v2 l (hin l h)
    · exact Nat.lt_of_le_of_lt (Nat.mul_le_mul_right _ (Nat.sub_le _ _)) (v2 best hbest)

theorem BookOk.mono {m : Market} {bids asks bids' asks' : List Leaf} (h : BookOk m bids asks)
    (h1 : bids'.Sublist bids) (h2 : asks'.Sublist asks) : BookOk m bids' asks' := by
  obtain ⟨s1, s2, q1, q2, p1, p2, v1, v2⟩ := h
  exact ⟨s1.sublist h1, s2.sublist h2, fun l hl => q1 l (h1.subset hl), fun l hl => q2 l (h2.subset hl),
    fun l hl => p1 l (h1.subset hl), fun l hl => p2 l (h2.subset hl), fun l hl => v1 l (h1.subset hl),
    fun l hl => v2 l (h2.subset hl)⟩

theorem bids_insert_ok {m : Market} {bids asks : List Leaf} {l : Leaf} (h : BookOk m bids asks)
    (hf : l.key ∉ bids.map (·.key)) (hq : 0 < l.quantity) (hp : 0 < l.price)
    (hv : l.quantity * l.price * m.pcLot < W64) : BookOk m (insKey l bids) asks := by
  obtain ⟨s1, s2, q1, q2, p1, p2, v1, v2⟩ := h
  refine ⟨insKey_sorted s1 hf, s2, ?_, q2, ?_, p2, ?_, v2⟩ <;>
  · intro x hx
    rcases (mem_insKey s1 hf).1 hx with rfl | hx
    · assumption
    · first | exact q1 x hx | exact p1 x hx | exact v1 x hx

theorem asks_insert_ok {m : Market} {bids asks : List Leaf} {l : Leaf} (h : BookOk m bids asks)
    (hf : l.key ∉ asks.map (·.key)) (hq : 0 < l.quantity) (hp : 0 < l.price)
    (hv : l.quantity * m.coinLot < W64) : BookOk m bids (insKey l asks) := by
  obtain ⟨s1, s2, q1, q2, p1, p2, v1, v2⟩ := h
  refine ⟨s1, insKey_sorted s2 hf, q1, ?_, p1, ?_, v1, ?_⟩ <;>
  · intro x hx
    rcases (mem_insKey s2 hf).1 hx with rfl | hx
    · assumption
    · first | exact q2 x hx | exact p2 x hx | exact v2 x hx

/-- Lot sizes and everything else but the three fee counters stay as they are. -/
structure SameMarket (m m' : Market) : Prop where
  eq : m' = { m with
    referrerRebates := m'.referrerRebates
    pcFees := m'.pcFees
    pcDeposits := m'.pcDeposits }

theorem SameMarket.refl (m : Market) : SameMarket m m := ⟨rfl⟩
theorem SameMarket.trans {a b c : Market} (h : SameMarket a b) (h' : SameMarket b c) :
    SameMarket a c := by
  constructor
  have h1 := h.eq
  have h2 := h'.eq
  rw [h1] at h2
  exact h2
theorem SameMarket.accrue (m : Market) (a b : Nat) : SameMarket m (m.accrueFees a b) := ⟨rfl⟩
theorem SameMarket.coinLot {m m' : Market} (h : SameMarket m m') : m'.coinLot = m.coinLot := by
  rw [h.eq]
theorem SameMarket.pcLot {m m' : Market} (h : SameMarket m m') : m'.pcLot = m.pcLot := by
  rw [h.eq]
theorem SameMarket.coinDeposits {m m' : Market} (h : SameMarket m m') :
    m'.coinDeposits = m.coinDeposits := by
  rw [h.eq]

theorem BookOk.same {m m' : Market} {b a : List Leaf} (h : BookOk m b a) (hs : SameMarket m m') :
    BookOk m' b a := by
  obtain ⟨s1, s2, q1, q2, p1, p2, v1, v2⟩ := h
  refine ⟨s1, s2, q1, q2, p1, p2, ?_, ?_⟩
  · rw [hs.pcLot]; exact v1
  · rw [hs.coinLot]; exact v2

/-- The iteration of `newOrder` never starts from nothing. -/
theorem round_pres {o : OrderParams} {po : Bool} {ob ob' : Ob lst} {coin pc : Nat}
    {r : Option Remaining} {ts : List Touch} {f : Option Posting} (ho : OrderOk o)
    (hi : RoundIn o ob coin pc) (h : Round o po ob coin pc ob' r ts f) :
    SameMarket ob.mkt ob'.mkt ∧ MktOk ob'.mkt ∧ BookOk ob'.mkt ob'.bids.items ob'.asks.items ∧
      ∀ x, r = some x → RoundIn o ob' x.coin x.pc := by
  obtain ⟨hm, hb, hc0, hcl, hpl, hval, hfr⟩ := hi
  unfold Round at h
  cases hside : o.side with
  | ask =>
    rw [hside] at h hfr
    simp only at h
    have hfr' : (o.iter coin pc po).orderId ∉ ob.asks.items.map (·.key) := hfr
    have hpr : ∀ n, 0 < ((o.iter coin pc po).leaf n).price := fun n => ho.price
    cases h with
    | post hlim hpa hns hcap =>
      refine ⟨.refl _, hm, ?_, by simp⟩
      exact asks_insert_ok hb hfr' hc0 (hpr _) (hval hside hns)
    | evict A l hlim hpa hns hcap hA =>
      refine ⟨.refl _, hm, ?_, by simp⟩
      have hsub : A.Sublist ob.asks.items := by rw [hA]; simp
      have hb' := hb.mono (List.Sublist.refl _) hsub
      refine asks_insert_ok hb' ?_ hc0 (hpr _) (hval hside hns)
      intro hin
      exact hfr' ((hsub.map _).subset hin)
    | release hlim hwhy hns hb' => exact ⟨.refl _, hm, hb, by simp⟩
    | stop hlim hs => exact ⟨.refl _, hm, hb, by simp⟩
    | selfTrade B best provide take hB hpr' hpo hown hst hb' =>
      rw [hB] at hb
      have hle : provide ≤ best.quantity := by
        rcases hst with ⟨_, h, _⟩ | ⟨_, h, _⟩ <;> omega
      have hbk := bids_shrink_ok hle hb
      refine ⟨.refl _, hm, hbk, ?_⟩
      intro x hx
      split at hx
      · cases hx
      · rename_i hne
        simp only [Option.some.injEq] at hx
        subst hx
        have hle' : take ≤ coin := by
          rcases hst with ⟨_, _, h⟩ | ⟨_, _, h⟩
          · rw [h]; exact Nat.min_le_right _ _
          · omega
        have hne' : coin ≠ take := hne
        refine ⟨hm, hbk, ?_, ?_, by simp; decide, ?_, ?_⟩
        · show 0 < coin - take; omega
        · show coin - take < W64; omega
        · intro _ hn
          exact Nat.lt_of_le_of_lt (Nat.mul_le_mul_right _ (Nat.sub_le _ _)) (hval hside hn)
        · rw [hside]; exact hfr
    | fill B best tq fee hB hpr' hpo hown htq hfee hb1 hb2 =>
      rw [hB] at hb
      have hle : tq ≤ best.quantity := by subst htq; exact Nat.min_le_left _ _
      have hle' : tq ≤ coin := by subst htq; exact Nat.min_le_right _ _
      have hbk := (bids_shrink_ok hle hb).same (.accrue _ fee 0)
      have hm' := accrueFees_ok hm fee 0
      refine ⟨.accrue _ _ _, hm', hbk, ?_⟩
      intro x hx
      split at hx
      · cases hx
      · rename_i hne
        simp only [Option.some.injEq] at hx
        subst hx
        have hne' : coin ≠ tq := hne
        refine ⟨hm', hbk, ?_, ?_, by simp; decide, ?_, ?_⟩
        · show 0 < coin - tq; omega
        · show coin - tq < W64; omega
        · intro _ hn
          refine Nat.lt_of_le_of_lt (Nat.mul_le_mul ?_ ?_) (hval hside hn)
          · exact Nat.sub_le _ _
          · exact Nat.le_of_eq (SameMarket.accrue ob.mkt fee 0).coinLot
        · rw [hside]; exact hfr
  | bid =>
    rw [hside] at h hfr
    simp only at h
    have hfr' : (o.iter coin pc po).orderId ∉ ob.bids.items.map (·.key) := hfr
    have hpr : ∀ n, 0 < ((o.iter coin pc po).leaf n).price := fun n => ho.price
    have hlv : ∀ n, ((o.iter coin pc po).leaf n).quantity * ((o.iter coin pc po).leaf n).price *
        ob.mkt.pcLot = n * (o.iter coin pc po).limitPrice * ob.mkt.pcLot := by
      intro n
      have e1 : ((o.iter coin pc po).leaf n).quantity = n := rfl
      have e2 : ((o.iter coin pc po).leaf n).price = (o.iter coin pc po).limitPrice := rfl
      rw [e1, e2]
    have hpl' : (o.iter coin pc po).pcLocked < W64 := hpl
    cases h with
    | post qty hlim hpa hns hqty hq0 hle hb' hcap =>
      refine ⟨.refl _, hm, ?_, by simp⟩
      show BookOk ob.mkt (insKey _ _) ob.asks.items
      exact bids_insert_ok hb hfr' hq0 (hpr _) (by rw [hlv]; exact Nat.lt_of_le_of_lt hle hpl')
    | evict qty B l hlim hpa hns hqty hq0 hle hb' hcap hB =>
      refine ⟨.refl _, hm, ?_, by simp⟩
      have hsub : B.Sublist ob.bids.items := by rw [hB]; simp
      have hb' := hb.mono hsub (List.Sublist.refl _)
      show BookOk ob.mkt (insKey _ _) ob.asks.items
      refine bids_insert_ok hb' ?_ hq0 (hpr _) (by rw [hlv]; exact Nat.lt_of_le_of_lt hle hpl')
      intro hin
      exact hfr' ((hsub.map _).subset hin)
    | release hlim hwhy hns hb' => exact ⟨.refl _, hm, hb, by simp⟩
    | stop hlim hs => exact ⟨.refl _, hm, hb, by simp⟩
    | selfTrade A best provide take unlocked still hA hpr' hpo hown htq hst hle hgo hb' =>
      rw [hA] at hb
      have hle1 : bidTradeQty ob.mkt (o.iter coin pc po) best ≤ best.quantity := by
        unfold bidTradeQty; omega
      have hle2 : bidTradeQty ob.mkt (o.iter coin pc po) best ≤ coin := by
        unfold bidTradeQty; show _ ≤ (o.iter coin pc po).coinQty; omega
      have hple : provide ≤ best.quantity := by
        rcases hst with ⟨_, h, _⟩ | ⟨_, h, _⟩ <;> omega
      have hbk := asks_shrink_ok hple hb
      refine ⟨.refl _, hm, hbk, ?_⟩
      intro x hx
      split at hx
      · cases hx
      · rename_i hne
        simp only [Option.some.injEq] at hx
        subst hx
        have hle' : take ≤ coin := by
          rcases hst with ⟨_, _, h⟩ | ⟨_, _, h⟩ <;> omega
        rcases hgo with ⟨hn, _, _, hst2⟩ | ⟨_, _, h0⟩
        · have hn' : coin ≠ take := hn
          refine ⟨hm, hbk, ?_, ?_, ?_, ?_, ?_⟩
          · show 0 < coin - take; omega
          · show coin - take < W64; omega
          · show still < W64
            rw [hst2]
            exact Nat.lt_of_le_of_lt (Nat.sub_le _ _) hpl
          · intro hs; rw [hside] at hs; cases hs
          · rw [hside]; exact hfr
        · exact absurd h0 hne
    | fill A best tq pc' fee left hA hpr' hpo hown htq htpos hpc hfee hleft hb1 hb2 =>
      rw [hA] at hb
      have hle : tq ≤ best.quantity := by subst htq; unfold bidTradeQty; omega
      have hle' : tq ≤ coin := by
        subst htq; unfold bidTradeQty; show _ ≤ (o.iter coin pc po).coinQty; omega
      have hbk := (asks_shrink_ok hle hb).same (.accrue _ fee 0)
      have hm' := accrueFees_ok hm fee 0
      refine ⟨.accrue _ _ _, hm', hbk, ?_⟩
      intro x hx
      split at hx
      · rename_i hne
        simp only [Option.some.injEq] at hx
        subst hx
        have hne' : coin ≠ tq := hne.1
        refine ⟨hm', hbk, ?_, ?_, ?_, ?_, ?_⟩
        · show 0 < coin - tq; omega
        · show coin - tq < W64; omega
        · show left < W64
          have : pc' + fee + left = pc := hleft
          omega
        · intro hs; rw [hside] at hs; cases hs
        · rw [hside]; exact hfr
      · cases hx

/-- A post-only round never leaves a remainder. -/
theorem round_postOnly_none {o : OrderParams} {ob ob' : Ob lst} {coin pc : Nat}
    {r : Option Remaining} {ts : List Touch} {f : Option Posting}
    (h : Round o true ob coin pc ob' r ts f) : r = none ∧ ts = [] := by
  unfold Round at h
  cases hs : o.side with
  | ask =>
    rw [hs] at h; simp only at h
    cases h with
    | post | evict | release | stop => exact ⟨rfl, rfl⟩
    | selfTrade _ _ _ _ _ _ hpo => cases hpo
    | fill _ _ _ _ _ _ hpo => cases hpo
  | bid =>
    rw [hs] at h; simp only at h
    cases h with
    | post | evict | release | stop => exact ⟨rfl, rfl⟩
    | selfTrade _ _ _ _ _ _ _ _ hpo => cases hpo
    | fill _ _ _ _ _ _ _ _ hpo => cases hpo

theorem round_of_step {o : OrderParams} {po : Bool} {ob ob' : Ob lst} {coin pc : Nat}
    {r : Option Remaining} (ho : OrderOk o) (hi : RoundIn o ob coin pc)
    (h : newOrderStep lst ob o coin pc po = .ok (ob', r)) :
    ∃ ts f, Round o po ob coin pc ob' r ts f := by
  unfold newOrderStep at h
  unfold Round
  obtain ⟨hm, hb, hc0, hcl, hpl, hval, hfr⟩ := hi
  cases hs : o.side with
  | bid =>
    rw [hs] at h hfr
    simp only at h
    obtain ⟨_, _, h⟩ := bind_ok h
    refine newBid_inv hm hb hc0 hcl hpl ho.price ?_ hfr h
    intro h0
    have := ho.take h0
    simp [OrderParams.iter, this]
  | ask =>
    rw [hs] at h hfr
    simp only at h
    obtain ⟨_, _, h⟩ := bind_ok h
    obtain ⟨_, _, h⟩ := bind_ok h
    exact newAsk_inv hm hb hc0 hcl hfr h

theorem path_of_loop {o : OrderParams} (ho : OrderOk o) {limit : Nat} {ob ob' : Ob lst} {coin pc : Nat}
    {r : Option Remaining} {lim' : Nat} (hi : RoundIn o ob coin pc)
    (h : newOrderLoop lst o limit ob coin pc = .ok (ob', r, lim')) :
    (∃ ts f, Path o limit ob coin pc ob' ts f) ∧ r = none ∧ lim' ≤ limit := by
  induction limit generalizing ob coin pc with
  | zero =>
    unfold newOrderLoop at h
    obtain ⟨⟨o1, r1⟩, h1, h⟩ := bind_ok h
    simp only [pure, Except.pure, Except.ok.injEq, Prod.mk.injEq] at h
    obtain ⟨rfl, rfl, rfl⟩ := h
    obtain ⟨ts, f, hr⟩ := round_of_step ho hi h1
    have := (round_postOnly_none hr).1
    subst this
    exact ⟨⟨_, _, .last hr⟩, rfl, Nat.le_refl _⟩
  | succ n ih =>
    unfold newOrderLoop at h
    obtain ⟨⟨o1, r1⟩, h1, h⟩ := bind_ok h
    obtain ⟨ts, f, hr⟩ := round_of_step ho hi h1
    cases r1 with
    | none =>
      simp only [pure, Except.pure, Except.ok.injEq, Prod.mk.injEq] at h
      obtain ⟨rfl, rfl, rfl⟩ := h
      exact ⟨⟨_, _, .stop hr⟩, rfl, by omega⟩
    | some x =>
      simp only at h
      obtain ⟨⟨ts', f', h2⟩, h3, h4⟩ := ih ((round_pres ho hi hr).2.2.2 x rfl) h
      exact ⟨⟨_, _, .more hr h2⟩, h3, by omega⟩

theorem path_pres {o : OrderParams} (ho : OrderOk o) {limit : Nat} {ob ob' : Ob lst} {coin pc : Nat}
    {ts : List Touch} {f : Option Posting}
    (hi : RoundIn o ob coin pc) (h : Path o limit ob coin pc ob' ts f) :
    SameMarket ob.mkt ob'.mkt ∧ MktOk ob'.mkt ∧ BookOk ob'.mkt ob'.bids.items ob'.asks.items := by
  induction h with
  | last h => obtain ⟨a, b, c, _⟩ := round_pres ho hi h; exact ⟨a, b, c⟩
  | stop h => obtain ⟨a, b, c, _⟩ := round_pres ho hi h; exact ⟨a, b, c⟩
  | more h _ ih =>
    obtain ⟨a, b, c, d⟩ := round_pres ho hi h
    obtain ⟨a', b', c'⟩ := ih (d _ rfl)
    exact ⟨a.trans a', b', c'⟩

end Serum
