import Verif.Rent
import Verif.PropsChainExit
import Verif.PropsCan
import Verif.DemoChain

/-
C92: rent deposits. Lamports leave an open-orders account only when its owner closes it, all of them, to where the owner says.
-/

namespace Serum.Props

variable {P : Params} {n : Nat} {c c' : Chain} {L L' : Lamports} {mints : Nat → Bool} {now : Int}

/-- An instruction that succeeds for a market, in decoded form. -/
theorem exec_market (hP : VaultsDiffer P) (h : CReach P n c) (hn : n + 1 < 2 ^ 61) {accts : List AccMeta}
    (hk : ∀ a ∈ accts, a.key < 256 ^ 32) (hs : ∀ a ∈ accts, a.signer = true → ∀ k n, P.vaultSigner k n ≠ some a.key)
    {data : List UInt8} {ix : Instruction} (hu : Instruction.unpack data = some ix) (hf : ForMarket ix)
    (hx : execBytes P mints now c accts data = .ok c') :
    ∃ k m s s', marketAt ix accts = some k ∧ IsMarket c k m ∧ Rep c k s ∧ s.mkt = m ∧ s.seq ≤ W64 ∧
      (0 < m.coinLot → 0 < m.pcLot → Reach P s) ∧ process conc P (envOf now c) s accts ix = .ok s' ∧ Rep c' k s' := by
  have hex : ∃ k, marketAt ix accts = some k ∧ ∃ m, IsMarket c k m := by
    refine Classical.byContradiction fun hno => ?_
    obtain ⟨e, he⟩ := chain_no_market (P := P) (mints := mints) (now := now) hu hf
      (fun k hk m hm => hno ⟨k, hk, m, hm⟩)
    rw [hx] at he
    cases he
  obtain ⟨k, hmk, m, hm⟩ := hex
  obtain ⟨s, hr, rfl, hq, hR⟩ := chain_markets hP h (by omega) hm
  have hc := chain_exec hP h hn hk hs hu hf hmk hr mints now
  cases hp : process conc P (envOf now c) s accts ix with
  | error e =>
    have := hc.2 e hp
    rw [hx] at this
    cases this
  | ok s' =>
    obtain ⟨c1, e1, r1⟩ := hc.1 s' hp
    rw [hx] at e1
    cases e1
    exact ⟨k, s.mkt, s, s', hmk, hm, hr, rfl, hq, hR, hp, r1⟩

/-! ### What closing does to lamports -/

theorem exec_rent_inv {accts : List AccMeta} {data : List UInt8} (h : execRent P mints now c L accts data = .ok (c', L')) :
    execBytes P mints now c accts data = .ok c' ∧ balanced L L' accts = true ∧
    ((∃ oo o dest m, Instruction.unpack data = some .closeOpenOrders ∧ accts = [oo, o, dest, m] ∧
      closeLamports L oo.key dest.key = .ok L') ∨ L' = L) := by
  unfold execRent at h
  obtain ⟨c1, h1, h⟩ := bind_ok h
  obtain ⟨L1, h2, h⟩ := bind_ok h
  split at h
  · rename_i hb
    simp only [pure, Except.pure, Except.ok.injEq, Prod.mk.injEq] at h
    obtain ⟨rfl, rfl⟩ := h
    refine ⟨h1, hb, ?_⟩
    unfold lamportsAfter at h2
    split at h2
    · rename_i oo ow dest mm hu _
      exact .inl ⟨oo, ow, dest, mm, hu, rfl, h2⟩
    · cases h2; exact .inr rfl
  · cases h

/-- C92. No instruction but `CloseOpenOrders` moves lamports. -/
theorem only_closing_moves_lamports {accts : List AccMeta} {data : List UInt8}
    (h : execRent P mints now c L accts data = .ok (c', L')) :
    execBytes P mints now c accts data = .ok c' ∧ (Instruction.unpack data ≠ some .closeOpenOrders → L' = L) := by
  obtain ⟨h1, _, h2⟩ := exec_rent_inv h
  refine ⟨h1, fun hne => ?_⟩
  rcases h2 with ⟨_, _, _, _, hu, _⟩ | e
  · exact absurd hu hne
  · exact e

theorem close_lamports {oo dest : Nat} : closeLamports L oo dest = .ok L' ↔
    L dest + L oo < W64 ∧ L' = fun a => if a = oo then 0 else if a = dest then L dest + L oo else L a := by
  unfold closeLamports
  constructor
  · intro h
    obtain ⟨x, hx, h⟩ := bind_ok h
    obtain ⟨h1, rfl⟩ := checkedAdd_some.1 (unwrap_ok.1 hx)
    cases h
    exact ⟨h1, rfl⟩
  · rintro ⟨h1, rfl⟩
    rw [checkedAdd_some.2 ⟨h1, rfl⟩]
    rfl

theorem mem_distinct {a : Nat} : ∀ {l : List Nat}, a ∈ distinct l ↔ a ∈ l
  | [] => Iff.rfl
  | b :: l => by
    unfold distinct
    by_cases e : a = b
    · simp [e]
    · simp [e, mem_distinct (l := l)]

theorem distinct_nodup : ∀ l : List Nat, (distinct l).Nodup
  | [] => List.nodup_nil
  | b :: l => by
    unfold distinct
    refine List.nodup_cons.2 ⟨by simp, (distinct_nodup l).filter _⟩

/-- Sums over lists of distinct accounts. -/
theorem sum_set {l : List Nat} (hn : l.Nodup) (f : Nat → Nat) {a v : Nat} (ha : a ∈ l) :
    (l.map fun x => if x = a then v else f x).sum + f a = (l.map f).sum + v := by
  induction l with
  | nil => cases ha
  | cons b l ih =>
    have hb := List.nodup_cons.1 hn
    simp only [List.map_cons, List.sum_cons]
    by_cases e : b = a
    · subst e
      have : (l.map fun x => if x = b then v else f x) = l.map f := by
        refine List.map_congr_left fun x hx => if_neg ?_
        rintro rfl
        exact hb.1 hx
      rw [if_pos rfl, this]
      omega
    · have := ih hb.2 (by rcases List.mem_cons.1 ha with h | h; exact absurd h.symm e; exact h)
      rw [if_neg e]
      omega

/-- The lamports after closing, summed over distinct accounts. -/
theorem sum_close {l : List Nat} (hn : l.Nodup) {oo dest : Nat} (ho : oo ∈ l) (hd : dest ∈ l) :
    (l.map fun a => if a = oo then 0 else if a = dest then L dest + L oo else L a).sum =
      (l.map L).sum - (if dest = oo then L oo else 0) ∧ (if dest = oo then L oo else 0) ≤ (l.map L).sum := by
  have h1 := sum_set hn (fun a => if a = dest then L dest + L oo else L a) (v := 0) ho
  have h2 := sum_set hn L (v := L dest + L oo) hd
  split
  · rename_i e
    subst e
    rw [if_pos rfl] at h1
    omega
  · rename_i e
    rw [if_neg (fun x => e x.symm)] at h1
    omega

theorem balanced_close {oo o dest m : AccMeta} :
    balanced L (fun a => if a = oo.key then 0 else if a = dest.key then L dest.key + L oo.key else L a) [oo, o, dest, m] = true ↔
      (dest.key = oo.key → L oo.key = 0) := by
  unfold balanced
  have := sum_close (L := L) (distinct_nodup ([oo, o, dest, m].map (·.key))) (oo := oo.key) (dest := dest.key)
    (mem_distinct.2 (by simp)) (mem_distinct.2 (by simp))
  simp only [beq_iff_eq]
  obtain ⟨h1, h2⟩ := this
  rw [h1]
  split at h2
  · rename_i e
    rw [if_pos e]
    constructor
    · intro h _; omega
    · intro h; have := h e; omega
  · rename_i e
    rw [if_neg e]
    exact ⟨fun _ x => absurd x e, fun _ => by omega⟩

/-! ### Closing on the chain -/

/-- The account `oo` may be closed by the signer `owner`: it is an open account of theirs on the market at `m`, without orders and
funds. -/
structure Closable (c : Chain) (oo owner m : AccMeta) (o : OpenOrders) : Prop where
  signer : owner.signer = true
  account : ooOf m.key (c.accs oo.key) = some o
  open_ : o.closed = false
  theirs : o.owner = owner.key
  noOrders : ∀ i, slots o i = none
  noBase : o.coinTotal = 0
  noQuote : o.pcTotal = 0

/-- C92. `CloseOpenOrders` succeeds exactly if it names, in this order, an account its signing owner may close, the owner, any
account to pay to (but itself, unless there is nothing to pay) whose balance does not overflow, and the market. Then the whole
balance of the account goes there, no other lamports move, and the account is marked as closed. -/
theorem closing_pays (hP : VaultsDiffer P) (h : CReach P n c) (hn : n + 1 < 2 ^ 61) {accts : List AccMeta}
    (hk : ∀ a ∈ accts, a.key < 256 ^ 32) (hs : ∀ a ∈ accts, a.signer = true → ∀ k n, P.vaultSigner k n ≠ some a.key)
    {data : List UInt8} (hu : Instruction.unpack data = some .closeOpenOrders)
    (hl : ∀ k m, marketAt .closeOpenOrders accts = some k → IsMarket c k m → 0 < m.coinLot ∧ 0 < m.pcLot) :
    ((∃ r, execRent P mints now c L accts data = .ok r) ↔
      ∃ oo owner dest m mk o, accts = [oo, owner, dest, m] ∧ IsMarket c m.key mk ∧ Closable c oo owner m o ∧
        (dest.key = oo.key → L oo.key = 0) ∧ L dest.key + L oo.key < W64) ∧
    ∀ c' L', execRent P mints now c L accts data = .ok (c', L') →
      ∃ oo owner dest m o, accts = [oo, owner, dest, m] ∧ Closable c oo owner m o ∧ L' oo.key = 0 ∧
        (dest.key ≠ oo.key → L' dest.key = L dest.key + L oo.key) ∧ (∀ b, b ≠ oo.key → b ≠ dest.key → L' b = L b) ∧
        (∀ l : List Nat, l.Nodup → oo.key ∈ l → dest.key ∈ l → (l.map L').sum = (l.map L).sum) ∧
        ooOf m.key (c'.accs oo.key) = some { o with closed := true } := by
  have hf : ForMarket .closeOpenOrders := by constructor <;> intro _ h <;> cases h
  have dec : ∀ c', execBytes P mints now c accts data = .ok c' → ∃ oo owner dest m mk o, accts = [oo, owner, dest, m] ∧
      IsMarket c m.key mk ∧ Closable c oo owner m o ∧ ooOf m.key (c'.accs oo.key) = some { o with closed := true } := by
    intro c' hx
    obtain ⟨k, mk, s, s', hmk, hm, hr, rfl, hq, hR, hp, hr'⟩ := exec_market hP h hn hk hs hu hf hx
    obtain ⟨l1, l2⟩ := hl k _ hmk hm
    obtain ⟨oo, owner, dest, m, o, rfl, g0, g1, g2, g3, g4, g5, g6, g7, rfl⟩ := (close_iff (hR l1 l2) hq _ accts).1 hp
    have hkm : k = m.key := by rw [g0, hr.own]
    subst hkm
    have e1 : ooOf m.key (c.accs oo.key) = some o := by rw [← hr.oos]; exact g2
    refine ⟨oo, owner, dest, m, s.mkt, o, rfl, hm, ⟨g1, e1, g3, g4, g5, g6, g7⟩, ?_⟩
    rw [← hr'.oos]
    show ooAt (setOo s.oos oo.key _) oo.key = _
    rw [ooAt_setOo, if_pos rfl]
  refine ⟨⟨?_, ?_⟩, ?_⟩
  · rintro ⟨⟨c1, L1⟩, hx⟩
    obtain ⟨h1, h2, h3⟩ := exec_rent_inv hx
    obtain ⟨oo, owner, dest, m, mk, o, rfl, hm, hcl, _⟩ := dec _ h1
    refine ⟨oo, owner, dest, m, mk, o, rfl, hm, hcl, ?_⟩
    unfold execRent at hx
    obtain ⟨c2, _, hx⟩ := bind_ok hx
    obtain ⟨L2, h4, hx⟩ := bind_ok hx
    rw [hu] at h4
    have h4 : closeLamports L oo.key dest.key = .ok L2 := h4
    obtain ⟨h5, rfl⟩ := close_lamports.1 h4
    split at hx
    · rename_i hb
      exact ⟨balanced_close.1 hb, h5⟩
    · cases hx
  · rintro ⟨oo, owner, dest, m, mk, o, rfl, hm, hcl, h1, h2⟩
    obtain ⟨s, hr, rfl, hq, hR⟩ := chain_markets hP h (by omega) hm
    obtain ⟨l1, l2⟩ := hl m.key _ rfl hm
    have hp : process conc P (envOf now c) s [oo, owner, dest, m] .closeOpenOrders = .ok
        { s with oos := setOo s.oos oo.key { o with closed := true } } :=
      (close_iff (hR l1 l2) hq (envOf now c) _).2 ⟨oo, owner, dest, m, o, rfl, hr.own.symm, hcl.signer,
        by rw [hr.oos]; exact hcl.account, hcl.open_, hcl.theirs, hcl.noOrders, hcl.noBase, hcl.noQuote, rfl⟩
    obtain ⟨c1, e1, _⟩ := (chain_exec hP h hn hk hs hu hf rfl hr mints now).1 _ hp
    refine ⟨(c1, fun a => if a = oo.key then 0 else if a = dest.key then L dest.key + L oo.key else L a), ?_⟩
    unfold execRent
    rw [e1, hu]
    show (closeLamports L oo.key dest.key >>= _) = _
    rw [close_lamports.2 ⟨h2, rfl⟩]
    exact if_pos (balanced_close.2 h1)
  · intro c1 L1 hx
    obtain ⟨h1, h2, h3⟩ := exec_rent_inv hx
    obtain ⟨oo, owner, dest, m, mk, o, rfl, hm, hcl, hcl'⟩ := dec _ h1
    unfold execRent at hx
    obtain ⟨c2, _, hx⟩ := bind_ok hx
    obtain ⟨L2, h4, hx⟩ := bind_ok hx
    rw [hu] at h4
    have h4 : closeLamports L oo.key dest.key = .ok L2 := h4
    obtain ⟨h5, rfl⟩ := close_lamports.1 h4
    split at hx
    · rename_i hb
      simp only [pure, Except.pure, Except.ok.injEq, Prod.mk.injEq] at hx
      obtain ⟨rfl, rfl⟩ := hx
      have hz := balanced_close.1 hb
      refine ⟨oo, owner, dest, m, o, rfl, hcl, if_pos rfl, ?_, ?_, ?_, hcl'⟩
      · intro e
        simp only [if_neg e, if_pos]
      · intro b h6 h7
        simp only [if_neg h6, if_neg h7]
      · intro l hnd m1 m2
        obtain ⟨s1, s2⟩ := sum_close (L := L) hnd m1 m2
        rw [s1]
        split
        · rename_i e
          rw [hz e]; omega
        · omega
    · cases hx

/-! ### Nothing else touches the deposit -/

/-- The account at `b` keeps its owner, and stays open or stays closed. -/
def SameMark (b : Nat) (s s' : State conc) : Prop :=
  ∀ o, ooAt s.oos b = some o → ∃ o', ooAt s'.oos b = some o' ∧ o'.owner = o.owner ∧ o'.closed = o.closed

theorem SameMark.refl (b : Nat) (s : State conc) : SameMark b s s := fun o ho => ⟨o, ho, rfl, rfl⟩

theorem SameMark.trans {b : Nat} {s t u : State conc} (h : SameMark b s t) (g : SameMark b t u) : SameMark b s u := by
  intro o ho
  obtain ⟨o1, h1, h2, h3⟩ := h o ho
  obtain ⟨o2, g1, g2, g3⟩ := g o1 h1
  exact ⟨o2, g1, g2.trans h2, g3.trans h3⟩

theorem SameMark.of_eq {b : Nat} {s s' : State conc} (h : ooAt s'.oos b = ooAt s.oos b) : SameMark b s s' :=
  fun o ho => ⟨o, h.trans ho, rfl, rfl⟩

theorem withdrawn_mark {b a : Nat} {s s' : State conc} {ls : List (Side × Leaf)} (w : Withdrawn s s' a ls) : SameMark b s s' := by
  by_cases e : b = a
  · subst e
    intro o ho
    obtain ⟨p, hp, hp'⟩ := w.account
    rw [ho] at hp
    cases hp
    exact ⟨_, hp', rfl, rfl⟩
  · exact .of_eq (w.others b e)

theorem place_mark {env : Env} {accts : List AccMeta} {ix : NewOrderIx} {s s' : State conc} (h : Reach P s)
    (hn : NotVault P s.mkt accts) (hq : s'.seq ≤ W64) (hv : OrderValid ix) (hx : newOrderV3 conc P env s accts ix = .ok s')
    (b : Nat) : SameMark b s s' := by
  have hlt : s.seq < W64 := by have := (newOrderV3_keeps hx).2.1; omega
  obtain ⟨a, tier, p, p', slot, d, ts, f, evs, e⟩ := place_effect h hlt hv hn hx
  by_cases hb : b = a.oo.key
  · subst hb
    intro o ho
    rcases loadOrders_inv e.args.load with ⟨g, hc, _⟩ | ⟨g, _⟩
    · have g' : ooAt s.oos a.oo.key = some p := g
      rw [ho] at g'
      cases g'
      refine ⟨p', e.account, e.owner.1, ?_⟩
      rw [hc]
      have hr' := place_reach h hn hv hx
      obtain ⟨vs, _, _, hi⟩ := hr'.view hq
      have hok := hi.shape.accts _ _ e.account
      cases hcl : p'.closed with
      | false => rfl
      | true =>
        have h1 := slot_none_of_allOnes (hok.closed hcl).1 slot
        rw [e.slots, if_pos rfl] at h1
        cases h1
    · have g' : ooAt s.oos a.oo.key = none := g
      rw [ho] at g'; cases g'
  · exact .of_eq (e.others b hb)

theorem places_mark {env : Env} {accts : List AccMeta} {ixs : List NewOrderIx} (b : Nat) :
    ∀ {s s' : State conc}, Reach P s → NotVault P s.mkt accts → (∀ ix ∈ ixs, OrderValid ix) → s'.seq ≤ W64 →
    newOrders conc P env s accts ixs = .ok s' → SameMark b s s' := by
  induction ixs with
  | nil => intro s s' _ _ _ _ h; cases h; exact .refl _ _
  | cons ix ixs ih =>
    intro s s' hr hn hv hq h
    have hall := newOrders_acts hr hn hv h
    unfold newOrders at h
    obtain ⟨s1, h1, h⟩ := bind_ok h
    have hx := hv ix (by simp)
    have hr1 := place_reach hr hn hx h1
    have hn1 := hn.keeps (newOrderV3_keeps h1).1
    have hv1 : ∀ j ∈ ixs, OrderValid j := fun j hj => hv j (by simp [hj])
    have hq1 : s1.seq ≤ W64 := Nat.le_trans (newOrders_acts hr1 hn1 hv1 h).seq hq
    exact (place_mark hr hn hq1 hx h1 b).trans (ih hr1 hn1 hv1 hq h)

/-- No instruction but `CloseOpenOrders`, naming it, closes an account. -/
theorem process_mark {env : Env} {accts : List AccMeta} {ix : Instruction} {s s' : State conc} (h : Reach P s)
    (hn : NotVault P s.mkt accts) (hv : IxValid ix) (hx : process conc P env s accts ix = .ok s') (hq : s'.seq ≤ W64)
    {b : Nat} (hne : ix = .closeOpenOrders → ∀ a l, accts = a :: l → a.key = b → ∃ o, ooAt s.oos b = some o ∧ o.closed = true) :
    SameMark b s s' := by
  have hs : s.seq ≤ W64 := Nat.le_trans (process_acts h hn hv hx).seq hq
  have repl : ∀ ixs : List NewOrderIx, ixs.length ≤ 8 → (∀ ix ∈ ixs, OrderValid ix) →
      replaceOrders conc P env s accts ixs = .ok s' → SameMark b s s' := by
    intro ixs hl hv h'
    obtain ⟨ca, s1, _, _, h1, hr1, hn1, h2⟩ := replace_parts h hn hl hv h'
    obtain ⟨_, _, _, _, _, _, _, _, _, w⟩ := cancel_withdrawn h hs (.inr (.inr ⟨_, h1⟩))
    exact (withdrawn_mark w).trans (places_mark b hr1 hn1 hv hq h2)
  have crank : ∀ n, (consumeEvents conc P env s accts n = .ok s' ∨ consumeEventsPermissioned conc P env s accts n = .ok s') →
      SameMark b s s' := by
    intro n hx o ho
    obtain ⟨k, _, _, hp, _, _, hd, hm, _, hb, hk, _⟩ := crank_delivers h hs hx
    obtain ⟨o', ho', d⟩ := hd b o ho
    exact ⟨o', ho', d.owner, d.closed⟩
  cases ix with
  | initializeMarket => cases hx
  | newOrder => cases hx
  | matchOrders => cases hx; exact .refl _ _
  | consumeEvents n => exact crank _ (.inl hx)
  | cancelOrder => cases hx
  | settleFunds =>
    obtain ⟨m, oo, owner, cv, pv, cw, pw, vsA, tp, refer, p, rfl, _, hsg, how, st⟩ := settle_effect h hs hx
    by_cases hb : b = oo.key
    · subst hb
      intro o ho
      have g := st.account
      rw [ho] at g
      cases g
      exact ⟨_, st.after, rfl, rfl⟩
    · exact .of_eq (st.others b hb)
  | cancelOrderByClientId => cases hx
  | disableMarket =>
    obtain ⟨_, _, _, _, _, _, e⟩ := disable_inv hx
    subst e
    exact .of_eq rfl
  | sweepFees =>
    obtain ⟨m, pv, auth, w, vsA, tp, l, rfl, h1, h2, h3, e⟩ := sweep_effect h hs hx
    subst e
    exact .of_eq rfl
  | newOrderV2 => cases hx
  | newOrderV3 => exact place_mark h hn hq hv hx b
  | cancelOrderV2 => obtain ⟨_, _, _, _, _, _, _, _, _, w⟩ := cancel_withdrawn h hs (.inl ⟨_, _, hx⟩); exact withdrawn_mark w
  | cancelOrderByClientIdV2 =>
    obtain ⟨_, _, _, _, _, _, _, _, _, w⟩ := cancel_withdrawn h hs (.inr (.inl ⟨_, hx⟩)); exact withdrawn_mark w
  | sendTake =>
    have hlt : s.seq < W64 := by have := (sendTake_keeps hx).2.1; omega
    obtain ⟨a, tier, ts, evs, e⟩ := take_effect h hlt hv hn hx
    exact .of_eq (by rw [e.accounts])
  | closeOpenOrders =>
    obtain ⟨oo, owner, dest, m, p, rfl, hsg, hp, hop, how, _, _, _, e⟩ := (close_is_safe h hs).1 _ _ _ hx
    subst e
    refine .of_eq ?_
    rw [ooAt_setOo, if_neg]
    rintro rfl
    obtain ⟨o, ho, hc⟩ := hne rfl _ _ rfl rfl
    rw [hp] at ho
    cases ho
    rw [hop] at hc
    cases hc
  | initOpenOrders =>
    obtain ⟨oo, owner, m, rent, rest, rfl, hsg, _, hcase⟩ := init_inv hx
    rcases hcase with ⟨e, _⟩ | ⟨e, hnone, _⟩
    · subst e; exact .refl _ _
    · by_cases hb : b = oo.key
      · subst hb
        intro o ho
        rw [ho] at hnone; cases hnone
      · subst e
        exact .of_eq (by rw [ooAt_setOo, if_neg hb])
  | prune => obtain ⟨_, _, _, _, _, _, _, _, _, _, _, _, _, _, _, w, _⟩ := prune_effect h hs hx; exact withdrawn_mark w
  | consumeEventsPermissioned n => exact crank _ (.inr hx)
  | cancelOrdersByClientIds => obtain ⟨_, _, _, _, _, _, _, _, _, w⟩ := cancel_withdrawn h hs (.inr (.inr ⟨_, hx⟩)); exact withdrawn_mark w
  | replaceOrderByClientId ix => exact repl [ix] (by simp) (by intro j hj; rw [List.mem_singleton.1 hj]; exact hv) hx
  | replaceOrdersByClientIds ixs => exact repl ixs hv.1 hv.2 hx

theorem _root_.Serum.RStep.chain (h : RStep P c L c' L') : CStep P c c' := by
  cases h with
  | instr hk hs h => exact .instr hk hs (exec_rent_inv h).1
  | token hs h _ => exact .token hs h
  | alter h h0 _ _ => exact .alter h h0

theorem _root_.Serum.RLater.chain {i : Nat} (h : RLater P n c L i c' L') : CLater P n c i c' := by
  induction h with
  | refl => exact .refl _ _
  | step _ hs ih => exact .step ih hs.chain

/-- The account at `a` is closed with the signature of `who`, and paid out in full. -/
def ClosedBy (P : Params) (who a : Nat) (c : Chain) (L : Lamports) (c' : Chain) (L' : Lamports) : Prop :=
  ∃ mints now oo owner dest m data, execRent P mints now c L [oo, owner, dest, m] data = .ok (c', L') ∧
    Instruction.unpack data = some .closeOpenOrders ∧ oo.key = a ∧ owner.signer = true ∧ owner.key = who ∧
    L' a = 0 ∧ (dest.key ≠ a → L' dest.key = L dest.key + L a) ∧ (dest.key = a → L a = 0)

/-- One step: the account stays open or closed, with no fewer lamports; or its owner closes it; or it had been closed, had no
lamports, and was deleted. -/
theorem deposit_step (hP : VaultsDiffer P) (h : CReach P n c) (hn : n + 1 < 2 ^ 61) (hst : RStep P c L c' L') {k a : Nat}
    {m : Market} (hm : IsMarket c k m) (h1 : 0 < m.coinLot) (h2 : 0 < m.pcLot) {o : OpenOrders}
    (ho : ooOf k (c.accs a) = some o) :
    (∃ o', ooOf k (c'.accs a) = some o' ∧ o'.owner = o.owner ∧ o'.closed = o.closed ∧ L a ≤ L' a) ∨
    (o.closed = false ∧ ClosedBy P o.owner a c L c' L') ∨ (o.closed = true ∧ L a = 0) := by
  have howned := (ooOf_some ho).1
  cases hst with
  | token hs hx hL => exact .inl ⟨o, ho, rfl, rfl, hL a howned⟩
  | @alter _ _ x r ha h0 hd hL =>
    by_cases e : a = x
    · subst e
      rcases hd howned with e | e
      · refine .inl ⟨o, ?_, rfl, rfl, hL a howned⟩
        show ooOf k ((if a = a then r else c.accs a) : RawAcc) = _
        rw [if_pos rfl, e]
        exact ho
      · cases hc : o.closed with
        | true => exact .inr (.inr ⟨rfl, e⟩)
        | false =>
          refine .inl ⟨o, ?_, rfl, hc, hL a howned⟩
          show ooOf k ((if a = a then r else c.accs a) : RawAcc) = _
          rw [if_pos rfl, ← ho]
          cases ha with
          | lamports e => rfl
          | other h =>
            exfalso
            obtain ⟨g1, _, g2, _⟩ := ooOf_some ho
            rcases h with h | h
            · rw [g1] at h; cases h
            · have h : flagsWord (c.accs a).data = 256 := h
              rw [g2, hc] at h
              simp at h
    · refine .inl ⟨o, ?_, rfl, rfl, hL a howned⟩
      show ooOf k ((if a = x then r else c.accs a) : RawAcc) = _
      rw [if_neg e]; exact ho
  | @instr _ _ _ mints now accts data hk hs hx =>
    obtain ⟨hb, _, hcase⟩ := exec_rent_inv hx
    by_cases hclose : Instruction.unpack data = some .closeOpenOrders ∧ ∃ x l, accts = x :: l ∧ x.key = a
    · obtain ⟨hu, x, l, hacc, hxa⟩ := hclose
      have hf : ForMarket .closeOpenOrders := by constructor <;> intro _ h <;> cases h
      obtain ⟨k', mk, s, s', hmk, hm', hr, rfl, hq, hR, hp, _⟩ := exec_market hP h hn hk hs hu hf hb
      have hp : closeOpenOrders conc (envOf now c) s accts = .ok s' := hp
      have hkk : k' = k := by
        have hp := hp
        unfold closeOpenOrders at hp
        split at hp
        · rename_i oo owner dest mm
          obtain ⟨_, _, hp⟩ := bind_ok hp
          obtain ⟨_, _, hp⟩ := bind_ok hp
          obtain ⟨p, hl, hp⟩ := bind_ok hp
          rcases loadOrders_inv hl with ⟨g, _⟩ | ⟨_, _, g, _⟩
          · cases hacc
            rw [hxa] at g
            have g : ooAt s.oos a = some p := g
            rw [hr.oos] at g
            exact ooOf_unique g ho
          · cases g
        · cases hp
      subst hkk
      have e : m = s.mkt := by
        have : Except.ok m = (Except.ok s.mkt : Except Err Market) := hm.symm.trans hm'
        cases this; rfl
      subst e
      obtain ⟨oo, owner, dest, mm, p, rfl, g0, g1, g2, g3, g4, _⟩ := (close_iff (hR h1 h2) hq _ accts).1 hp
      cases hacc
      rw [hxa, hr.oos, ho] at g2
      cases g2
      have hx0 := hx
      unfold execRent at hx
      obtain ⟨c2, _, hx⟩ := bind_ok hx
      obtain ⟨L2, h4, hx⟩ := bind_ok hx
      rw [hu] at h4
      have h4 : closeLamports L x.key dest.key = .ok L2 := h4
      obtain ⟨h5, rfl⟩ := close_lamports.1 h4
      split at hx
      · rename_i hbal
        simp only [pure, Except.pure, Except.ok.injEq, Prod.mk.injEq] at hx
        obtain ⟨rfl, rfl⟩ := hx
        have hbz := balanced_close.1 hbal
        rw [hxa] at hbz hx0
        rw [hxa]
        refine .inr (.inl ⟨g3, mints, now, x, owner, dest, mm, data, hx0, hu, hxa, g1, g4.symm, if_pos rfl, ?_, ?_⟩)
        · intro e
          simp only [if_neg e, if_pos]
        · exact hbz
      · cases hx
    · have hLa : L a ≤ L' a := by
        rcases hcase with ⟨oo, ow, dest, mm, hu, hacc, hL⟩ | e
        · obtain ⟨_, rfl⟩ := close_lamports.1 hL
          have hoo : a ≠ oo.key := fun e => hclose ⟨hu, _, _, hacc, e.symm⟩
          simp only [if_neg hoo]
          split
          · rename_i e; subst e; omega
          · exact Nat.le_refl _
        · rw [e]; exact Nat.le_refl _
      cases hu : Instruction.unpack data with
      | none => unfold execBytes at hb; rw [hu] at hb; cases hb
      | some ix =>
      by_cases hne : marketAt ix accts = some k
      · by_cases hf : ForMarket ix
        · obtain ⟨k', mk, s, s', hmk, hm', hr, rfl, hq, hR, hp, hr'⟩ := exec_market hP h hn hk hs hu hf hb
          rw [hne] at hmk
          cases hmk
          have e : m = s.mkt := by
            have : Except.ok m = (Except.ok s.mkt : Except Err Market) := hm.symm.trans hm'
            cases this; rfl
          subst e
          obtain ⟨_, _, _, hv, _⟩ := decoding_is_strict _ _ hu
          obtain ⟨s1, hr1, _, hq1, _⟩ := chain_markets hP (.step h (.instr hk hs hb)) hn hr'.market
          have hq' : s'.seq ≤ W64 := by rw [(rep_unique hr1 hr').1]; exact hq1
          have hmark := process_mark (hR h1 h2) (fun a ha hsg => hs a ha hsg _ _) hv hp hq' (b := a)
            (fun e x l hacc hxa => absurd ⟨by rw [hu, e], x, l, hacc, hxa⟩ hclose)
          obtain ⟨o', e1, e2, e3⟩ := hmark o (by rw [hr.oos]; exact ho)
          exact .inl ⟨o', by rw [← hr'.oos]; exact e1, e2, e3, hLa⟩
        · have : c' = c := by
            rcases exec_cases hb with ⟨i, W, hu', hW, e⟩ | ⟨_, hu', e⟩ | ⟨ix', k', t, t', hu', hk', hl, hp, e⟩
            · rw [hu] at hu'; cases hu'; cases hne
            · exact e
            · rw [hu] at hu'
              cases hu'
              exfalso
              apply hf
              constructor
              · rintro i rfl; cases hne
              · rintro i rfl; cases hne
          subst this
          exact .inl ⟨o, ho, rfl, rfl, hLa⟩
      · obtain ⟨g1, _⟩ := chain_isolated hP h hn hk hs hu hb hm hne
        exact .inl ⟨o, by rw [g1 a (.inr ⟨o, ho⟩)]; exact ho, rfl, rfl, hLa⟩

/-- C92. Whatever happens on the chain, an open-orders account that is not closed stays so, its owner's, with no fewer
lamports, up to the moment when its owner signs its closing: then all it has got by then goes to one account that the
instruction names. -/
theorem deposit_is_safe (hP : VaultsDiffer P) (h : CReach P n c) {i : Nat} {d : Chain} {M : Lamports} (hl : RLater P n c L i d M)
    (hi : i < 2 ^ 61) {k a : Nat} {m : Market} (hm : IsMarket c k m) (h1 : 0 < m.coinLot) (h2 : 0 < m.pcLot) {o : OpenOrders}
    (ho : ooOf k (c.accs a) = some o) (hc : o.closed = false) :
    (∃ o', ooOf k (d.accs a) = some o' ∧ o'.owner = o.owner ∧ o'.closed = false ∧ L a ≤ M a) ∨
    ∃ j c1 L1 c2 L2, RLater P n c L j c1 L1 ∧ L a ≤ L1 a ∧ ClosedBy P o.owner a c1 L1 c2 L2 ∧ RLater P (j + 1) c2 L2 i d M := by
  induction hl with
  | refl => exact .inl ⟨o, ho, rfl, hc, Nat.le_refl _⟩
  | @step j d e M N hl hs ih =>
    rcases ih (by omega) with ⟨o', g1, g2, g3, g4⟩ | ⟨j', c1, L1, c2, L2, p1, p2, p3, p4⟩
    · obtain ⟨m', hm', las⟩ := chain_lasts hP hl.chain h (by omega) hm
      have l1 : 0 < m'.coinLot := by rw [las.config]; exact h1
      have l2 : 0 < m'.pcLot := by rw [las.config]; exact h2
      rcases deposit_step hP (hl.chain.reach h) hi hs hm' l1 l2 g1 with ⟨o2, q1, q2, q3, q4⟩ | ⟨_, q⟩ | ⟨q, _⟩
      · exact .inl ⟨o2, q1, q2.trans g2, q3.trans g3, Nat.le_trans g4 q4⟩
      · exact .inr ⟨j, d, M, e, N, hl, g4, g2 ▸ q, .refl⟩
      · rw [g3] at q; cases q
    · exact .inr ⟨j', c1, L1, c2, L2, p1, p2, p3, .step p4 hs⟩

/-- C92. Lamports that reach a closed account before the runtime deletes it stay there for ever. -/
theorem closed_keeps_lamports (hP : VaultsDiffer P) (h : CReach P n c) {i : Nat} {d : Chain} {M : Lamports} (hl : RLater P n c L i d M)
    (hi : i < 2 ^ 61) {k a : Nat} {m : Market} (hm : IsMarket c k m) (h1 : 0 < m.coinLot) (h2 : 0 < m.pcLot) {o : OpenOrders}
    (ho : ooOf k (c.accs a) = some o) (hc : o.closed = true) (hpos : 0 < L a) :
    (∃ o', ooOf k (d.accs a) = some o' ∧ o'.closed = true) ∧ L a ≤ M a := by
  induction hl with
  | refl => exact ⟨⟨o, ho, hc⟩, Nat.le_refl _⟩
  | @step j d e M N hl hs ih =>
    obtain ⟨⟨o', g1, g2⟩, g3⟩ := ih (by omega)
    obtain ⟨m', hm', las⟩ := chain_lasts hP hl.chain h (by omega) hm
    have l1 : 0 < m'.coinLot := by rw [las.config]; exact h1
    have l2 : 0 < m'.pcLot := by rw [las.config]; exact h2
    rcases deposit_step hP (hl.chain.reach h) hi hs hm' l1 l2 g1 with ⟨o2, q1, q2, q3, q4⟩ | ⟨q, _⟩ | ⟨_, q⟩
    · exact ⟨⟨o2, q1, q3.trans g2⟩, Nat.le_trans g3 q4⟩
    · rw [g2] at q; cases q
    · omega

end Serum.Props

/-! ### Example -/

namespace Serum.Props.RentDemo

open _root_.Serum.DemoChain

def initAccts : List AccMeta := [Demo.acc 41, Demo.sig 11, Demo.acc 50, Demo.acc 0]
def closeTo (dest : Nat) : List AccMeta := [Demo.acc 41, Demo.sig 11, Demo.acc dest, Demo.acc 50]

def opened : State conc :=
  match process conc P (envOf 0 c3) s50 initAccts .initOpenOrders with
  | .ok s => s
  | .error _ => s50

theorem opens : process conc P (envOf 0 c3) s50 initAccts .initOpenOrders = .ok opened := by
  have h : (match process conc P (envOf 0 c3) s50 initAccts .initOpenOrders with | .ok _ => true | .error _ => false) = true := by
    decide +kernel
  unfold opened
  revert h
  cases process conc P (envOf 0 c3) s50 initAccts .initOpenOrders with
  | ok s => exact fun _ => rfl
  | error e => exact fun h => by cases h

/-- Seven lamports in the account, five in account 99. -/
def L : Lamports := fun a => if a = 41 then 7 else if a = 99 then 5 else 0

theorem opened_account : (ooAt opened.oos 41) = some (OpenOrders.init 11) := by decide +kernel
theorem opened_lots : (opened.mkt.coinLot, opened.mkt.pcLot) = (100, 10) := by decide +kernel

theorem noSlots (i : Nat) : slots (OpenOrders.init 11) i = none := by
  unfold slots
  by_cases h : i < 128
  · rw [if_pos h, (freeBits_allOnes_iff (OpenOrders.init 11)).1 rfl i h]; rfl
  · rw [if_neg h]

/-- 11 opens an account on market 50 and closes it again: the seven lamports go to account 99. Paying them to the account itself
is refused. -/
theorem closes_again : ∃ c, CReach P 15 c ∧ ooOf 50 (c.accs 41) = some (OpenOrders.init 11) ∧
    (∃ c' L', execRent P (fun _ => true) 0 c L (closeTo 99) Instruction.closeOpenOrders.pack = .ok (c', L') ∧
      (L' 41, L' 99) = (0, 12) ∧ RLater P 15 c L 16 c' L') ∧
    ∀ r, execRent P (fun _ => true) 0 c L (closeTo 41) Instruction.closeOpenOrders.pack ≠ .ok r := by
  have hk := keys_small (l := initAccts) (by decide)
  have hu : Instruction.unpack Instruction.initOpenOrders.pack = some .initOpenOrders := instruction_round_trip _ trivial
  have hu' : Instruction.unpack Instruction.closeOpenOrders.pack = some .closeOpenOrders := instruction_round_trip _ trivial
  have h := chain_exec differ r3 (by decide) hk.1 hk.2 hu (by constructor <;> intro _ h <;> cases h) rfl reps.1 (fun _ => true) 0
  obtain ⟨c, hc, r⟩ := h.1 _ opens
  have r4 : CReach P 15 c := .step r3 (.instr hk.1 hk.2 hc)
  have ho : ooOf 50 (c.accs 41) = some (OpenOrders.init 11) := (r.oos 41).symm.trans opened_account
  obtain ⟨l1, l2⟩ := Prod.mk.inj opened_lots
  have hl : ∀ dest k m, marketAt .closeOpenOrders (closeTo dest) = some k → IsMarket c k m → 0 < m.coinLot ∧ 0 < m.pcLot := by
    intro dest k m e hm
    cases e
    have this : Except.ok m = (Except.ok opened.mkt : Except Err Market) := hm.symm.trans r.market
    rw [Except.ok.inj this, l1, l2]
    decide
  refine ⟨c, r4, ho, ?_, ?_⟩
  · have hk9 := keys_small (l := closeTo 99) (by decide)
    have cp := closing_pays (mints := fun _ => true) (now := 0) (L := L) differ r4 (by decide) hk9.1 hk9.2 hu' (hl 99)
    obtain ⟨⟨c', L'⟩, hx⟩ := cp.1.2 ⟨_, _, _, _, opened.mkt, OpenOrders.init 11, rfl, r.market, ⟨rfl, ho, rfl, rfl,
      noSlots, rfl, rfl⟩, by decide, by decide⟩
    refine ⟨c', L', hx, ?_, .step .refl (.instr hk9.1 hk9.2 hx)⟩
    obtain ⟨oo, owner, dest, m, o, e, _, h1, h2, _⟩ := cp.2 c' L' hx
    unfold closeTo at e
    cases e
    have h2 := h2 (by decide)
    have h1 : L' 41 = 0 := h1
    have h2 : L' 99 = 12 := h2
    rw [h1, h2]
  · intro r' hx
    have hk9 := keys_small (l := closeTo 41) (by decide)
    obtain ⟨oo, owner, dest, m, mk, o, e, _, _, hz, _⟩ :=
      (closing_pays (mints := fun _ => true) (now := 0) (L := L) differ r4 (by decide) hk9.1 hk9.2 hu' (hl 41)).1.1 ⟨r', hx⟩
    unfold closeTo at e
    cases e
    have := hz rfl
    revert this
    decide

end Serum.Props.RentDemo
