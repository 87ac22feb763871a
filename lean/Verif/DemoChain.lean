import Verif.PropsChain
import Verif.PropsChainExit
import Verif.Demo

/-
A concrete history of the whole chain: two markets are created side by side and a trader asks on one of them. It shows
that the hypotheses of C67-C71 can be met.
-/

namespace Serum.DemoChain
open Serum.Props

/-- As `Demo.P`, with a vault signer for each market. -/
def P : Params := { Demo.P with vaultSigner := fun k n => if n = 0 then some (1000 + k) else none }

theorem differ : VaultsDiffer P := by
  intro k n k' n' v h h'
  simp only [P] at h h'
  split at h
  · split at h'
    · have := Option.some.inj h; have := Option.some.inj h'; omega
    · cases h'
  · cases h

/-- Vaults 51, 52 of market 50 and 151, 152 of market 150; trader 11 with wallets 21, 31. -/
def toks : Ledger := fun a =>
  match a with
  | 51 => some (Demo.tok 80 1050 0)
  | 52 => some (Demo.tok 81 1050 0)
  | 151 => some (Demo.tok 80 1150 0)
  | 152 => some (Demo.tok 81 1150 0)
  | 21 => some (Demo.tok 80 11 100000)
  | 31 => some (Demo.tok 81 11 10000000)
  | _ => none

/-- Before the program is deployed. -/
def c0 : Chain := ⟨fun _ => ⟨false, true, []⟩, toks⟩

/-- An account is handed over to the program. -/
def give (c : Chain) (p : Nat × Nat) : Chain :=
  { c with accs := fun x => if x = p.1 then ⟨true, true, zeros p.2⟩ else c.accs x }

/-- Addresses and sizes: two markets, and accounts 41 and 42 for orders. -/
def handed : List (Nat × Nat) :=
  [(50, 388), (53, 124), (54, 11308), (55, 14524), (56, 14524), (150, 388), (153, 124), (154, 11308), (155, 14524),
   (156, 14524), (41, 3228), (42, 3228)]

def c1 : Chain := handed.foldl give c0

theorem start : CStart c0 := by
  refine ⟨fun _ => rfl, fun _ => Nat.zero_le _, ?_⟩
  intro a t h
  have h : toks a = some t := h
  unfold toks at h
  split at h <;> cases h
  · exact (by decide : 0 < W64)
  · exact (by decide : 0 < W64)
  · exact (by decide : 0 < W64)
  · exact (by decide : 0 < W64)
  · exact (by decide : 100000 < W64)
  · exact (by decide : 10000000 < W64)

theorem give_reach {l : List (Nat × Nat)} (hz : ∀ p ∈ l, p.1 ≠ 0 ∧ p.2 ≤ maxLen) (hd : (l.map (·.1)).Nodup) :
    ∀ {n : Nat} {c : Chain}, CReach P n c → (∀ p ∈ l, (c.accs p.1).owned = false) → CReach P (n + l.length) (l.foldl give c) := by
  induction l with
  | nil => exact fun h _ => h
  | cons p l ih =>
    intro n c h hu
    have hd' := List.nodup_cons.1 hd
    have hp := hz p (by simp)
    rw [List.length_cons, ← Nat.add_assoc, Nat.add_right_comm]
    refine ih (fun q hq => hz q (by simp [hq])) hd'.2
      (.step h (.alter (.other (.inl (hu p (by simp))) (fun _ => ⟨_, rfl⟩) (by rw [zeros_length]; exact hp.2)) (fun e => absurd e hp.1)))
      fun q hq => ?_
    have hne : q.1 ≠ p.1 := fun e => hd'.1 (List.mem_map.2 ⟨q, hq, e⟩)
    show ((if q.1 = p.1 then _ else c.accs q.1) : RawAcc).owned = false
    rw [if_neg hne]
    exact hu q (by simp [hq])

theorem r1 : CReach P 12 c1 :=
  give_reach (l := handed) (by decide) (by decide) (.start start) (by decide)

def g1 : Given := ⟨50, 53, 54, 55, 56, 51, 52, 80, 81, 1, []⟩
def g2 : Given := ⟨150, 153, 154, 155, 156, 151, 152, 80, 81, 1, []⟩
def i1 : InitMarketIx := ⟨100, 10, 0, 0, 5⟩
def i2 : InitMarketIx := ⟨1, 1, 0, 0, 5⟩
def c2 : Chain := { c1 with accs := created c1.accs i1 g1 }
def c3 : Chain := { c2 with accs := created c2.accs i2 g2 }

theorem no_signer (k n : Nat) {a : Nat} (h : a < 1000) : P.vaultSigner k n ≠ some a := by
  simp only [P]
  split
  · intro e; have := Option.some.inj e; omega
  · intro e; cases e

theorem keys_small {l : List AccMeta} (h : (l.all fun a => decide (a.key < 1000)) = true) :
    (∀ a ∈ l, a.key < 256 ^ 32) ∧ ∀ a ∈ l, a.signer = true → ∀ k n, P.vaultSigner k n ≠ some a.key := by
  have key : ∀ a ∈ l, a.key < 1000 := fun a ha => by simpa using List.all_eq_true.1 h a ha
  exact ⟨fun a ha => Nat.lt_trans (key a ha) (by decide), fun a ha _ k n => no_signer k n (key a ha)⟩

theorem create_exec {c : Chain} {n : Nat} {M : Markets} (I : Holds P n c M) {i : InitMarketIx}
    {G : Given} (ok : InitOk P (fun _ => true) c.toks c.accs G i.vaultSignerNonce) :
    initMarket P (fun _ => true) c.toks c.accs (G.keys.map Demo.acc) i = .ok (created c.accs i G) :=
  (init_market_iff I.bytes).2 ⟨G, by rw [List.map_map]; exact List.map_id _, ok, rfl⟩

theorem create {n : Nat} {c : Chain} (h : CReach P n c) (hn : n < 2 ^ 61) {i : InitMarketIx} (hv : IxValid (.initializeMarket i))
    {G : Given} (hs : ((G.keys.map Demo.acc).all fun a => decide (a.key < 1000)) = true)
    (ok : InitOk P (fun _ => true) c.toks c.accs G i.vaultSignerNonce) :
    CReach P (n + 1) { c with accs := created c.accs i G } := by
  obtain ⟨M, I⟩ := h.holds differ hn
  refine .step h (.instr (mints := fun _ => true) (now := 0) (accts := G.keys.map Demo.acc)
    (data := (Instruction.initializeMarket i).pack) (keys_small hs).1 (keys_small hs).2 ?_)
  unfold execBytes
  rw [instruction_round_trip _ hv]
  simp only [create_exec I ok]
  rfl

theorem create_holds {n : Nat} {c : Chain} {M : Markets} (I : Holds P n c M) {i : InitMarketIx} (hv : IxValid (.initializeMarket i))
    {G : Given} (hs : ((G.keys.map Demo.acc).all fun a => decide (a.key < 1000)) = true)
    (ok : InitOk P (fun _ => true) c.toks c.accs G i.vaultSignerNonce) {nb na nq : Nat}
    (hb : ((c.accs G.bids).data.length - 52) / 72 = nb) (ha : ((c.accs G.asks).data.length - 52) / 72 = na)
    (hq : ((c.accs G.eventQ).data.length - 44) / 88 = nq) :
    Holds P (n + 1) { c with accs := created c.accs i G }
      (fun x => if x = G.market then some (emptyState c.toks (newMarket i G) nb na nq) else M x) := by
  obtain ⟨G', nb', na', nq', hG, _, _, h1, h2, h3, _, J⟩ := I.init (keys_small hs).1 hv (create_exec I ok)
  have e : G = G' := keys_inj (by rw [← hG, List.map_map]; exact (List.map_id _).symm)
  subst e
  rw [hb] at h1; rw [ha] at h2; rw [hq] at h3
  rw [← h1, ← h2, ← h3]
  exact J

theorem ok1 : InitOk P (fun _ => true) c1.toks c1.accs g1 0 := by
  refine ⟨by decide, by decide, by decide, ?_, ?_, by decide +kernel, ?_, ?_, ?_, ?_, by decide, 1050, rfl, ⟨rfl, ?_⟩, ⟨rfl, ?_⟩⟩
  · intro a ha
    simp only [g1, Given.own, List.mem_cons, List.not_mem_nil, or_false] at ha
    rcases ha with rfl | rfl | rfl | rfl | rfl <;> exact ⟨_, rfl⟩
  · decide +kernel
  · decide +kernel
  · decide +kernel
  · decide +kernel
  · decide +kernel
  · exact ⟨_, rfl, rfl, rfl, rfl, rfl, rfl⟩
  · exact ⟨_, rfl, rfl, rfl, rfl, rfl, rfl⟩

theorem ok2 : InitOk P (fun _ => true) c2.toks c2.accs g2 0 := by
  refine ⟨by decide, by decide, by decide, ?_, ?_, by decide +kernel, ?_, ?_, ?_, ?_, by decide, 1150, rfl, ⟨rfl, ?_⟩, ⟨rfl, ?_⟩⟩
  · intro a ha
    simp only [g2, Given.own, List.mem_cons, List.not_mem_nil, or_false] at ha
    rcases ha with rfl | rfl | rfl | rfl | rfl <;> exact ⟨_, rfl⟩
  · decide +kernel
  · decide +kernel
  · decide +kernel
  · decide +kernel
  · decide +kernel
  · exact ⟨_, rfl, rfl, rfl, rfl, rfl, rfl⟩
  · exact ⟨_, rfl, rfl, rfl, rfl, rfl, rfl⟩

theorem v1 : IxValid (.initializeMarket i1) := ⟨by decide, by decide, by decide, by decide, by decide⟩
theorem v2 : IxValid (.initializeMarket i2) := ⟨by decide, by decide, by decide, by decide, by decide⟩

theorem r2 : CReach P 13 c2 := create r1 (by decide) v1 (by decide) ok1
theorem r3 : CReach P 14 c3 := create r2 (by decide) v2 (by decide) ok2

/-- The states of the two markets. -/
def s50 : State conc := emptyState toks (newMarket i1 g1) 201 201 128
def s150 : State conc := emptyState toks (newMarket i2 g2) 201 201 128

theorem minvs : MInv P 14 c3 50 s50 ∧ MInv P 14 c3 150 s150 := by
  obtain ⟨M, I⟩ := r1.holds differ (by decide)
  have J := create_holds I v1 (by decide) ok1 (nb := 201) (na := 201) (nq := 128) (by decide +kernel) (by decide +kernel)
    (by decide +kernel)
  have K := create_holds J v2 (by decide) ok2 (nb := 201) (na := 201) (nq := 128) (by decide +kernel) (by decide +kernel)
    (by decide +kernel)
  exact ⟨K.mkts 50 s50 rfl, K.mkts 150 s150 rfl⟩

theorem reps : Rep c3 50 s50 ∧ Rep c3 150 s150 := ⟨minvs.1.rep, minvs.2.rep⟩

/-- 11 asks 5 lots at 1000 on market 50. -/
def order : Instruction := Demo.i1
def orderAccts : List AccMeta :=
  [Demo.acc 50, Demo.acc 41, Demo.acc 53, Demo.acc 54, Demo.acc 55, Demo.acc 56, Demo.acc 21, Demo.sig 11, Demo.acc 51, Demo.acc 52,
   Demo.acc 73, Demo.acc 0]

def after : State conc :=
  match process conc P (envOf 0 c3) s50 orderAccts order with
  | .ok s => s
  | .error _ => s50

theorem goes : process conc P (envOf 0 c3) s50 orderAccts order = .ok after := by
  have h : (match process conc P (envOf 0 c3) s50 orderAccts order with | .ok _ => true | .error _ => false) = true := by
    decide +kernel
  unfold after
  revert h
  cases process conc P (envOf 0 c3) s50 orderAccts order with
  | ok s => exact fun _ => rfl
  | error e => exact fun h => by cases h

theorem after_asks : after.asks.contents.map (fun l => (l.price, l.quantity)) = [(1000, 5)] := by decide +kernel
theorem after_lots : (after.mkt.coinLot, s150.mkt.coinLot) = (100, 1) := by decide +kernel
theorem after_account : (ooAt after.oos 41).isSome = true := by decide +kernel
theorem after_vault : bal after.toks 51 = 500 := by decide +kernel
theorem after_addresses : after.mkt.asks = 56 := by decide +kernel

/-- Two markets on one chain. The order is stored in the bytes of market 50: five lots at 1000 rest in account 56, and
500 units are in its vault. Market 150 is as before. -/
theorem two_markets : ∃ c m m', CReach P 15 c ∧ IsMarket c 50 m ∧ IsMarket c 150 m' ∧ (m.coinLot, m'.coinLot) = (100, 1) ∧
    IsOrders c 50 41 ∧ (∃ b, loadBookBytes .ask (c.accs 56).data = .ok b ∧ b.contents.map (fun l => (l.price, l.quantity)) = [(1000, 5)]) ∧
    bal c.toks 51 = 500 ∧ ∀ a ∈ [150, 153, 154, 155, 156, 42], c.accs a = c3.accs a := by
  have hk := keys_small (l := orderAccts) (by decide)
  have hu : Instruction.unpack order.pack = some order := instruction_round_trip _ (by
    refine ⟨?_, ?_, ?_, ?_, ?_, ?_⟩ <;> decide)
  have h := chain_exec differ r3 (by decide) hk.1 hk.2 hu (by constructor <;> intro _ h <;> cases h) rfl reps.1 (fun _ => true) 0
  obtain ⟨c, hc, r⟩ := h.1 _ goes
  have iso := chain_isolated differ r3 (by decide) hk.1 hk.2 hu hc reps.2.market (by decide)
  refine ⟨c, after.mkt, s150.mkt, .step r3 (.instr hk.1 hk.2 hc), r.market, ?_, after_lots, ?_,
    ⟨after.asks, after_addresses ▸ r.asks, after_asks⟩, ?_, ?_⟩
  · have := iso.1 150 (.inl (by decide))
    show loadMarketBytes (c.accs 150).owned (c.accs 150).data true = _
    rw [this]
    exact reps.2.market
  · obtain ⟨o, ho⟩ := Option.isSome_iff_exists.1 after_account
    exact ⟨o, (r.oos 41).symm.trans ho⟩
  · rw [← r.toks]; exact after_vault
  · intro a ha
    by_cases e : a = 42
    · subst e
      refine Classical.byContradiction fun hne => ?_
      obtain ⟨i, hi, e⟩ := (chain_writes differ r3 (by decide) hk.1 hk.2 hu hc 42).1 (.inl hne)
      have : ∀ i ∈ docWritable orderAccts.length order, keyAt orderAccts i ≠ some 42 := by decide
      exact this i hi e
    · refine iso.1 a (.inl ?_)
      have : ∀ a ∈ [150, 153, 154, 155, 156, 42], a ≠ 42 → a ∈ s150.mkt.own := by decide
      exact this a ha e

set_option linter.constructorNameAsVariable false in
/-- The trader leaves again, with instructions in the form of bytes: at most four of them, after which account 41 is
closed and the 500 units are back in wallet 21. -/
theorem leaves_again : ∃ c, CReach P 15 c ∧ IsOrders c 50 41 ∧ ∃ i c' s', i ≤ 4 ∧ CSends P (fun _ => true) 7 (· = 11) i c c' ∧
    Rep c' 50 s' ∧ Left after s' 41 21 31 none ∧ baseClaim after 41 = 500 ∧ bal c'.toks 21 = 100000 := by
  have hk := keys_small (l := orderAccts) (by decide)
  have hu : Instruction.unpack order.pack = some order := instruction_round_trip _ (by
    refine ⟨?_, ?_, ?_, ?_, ?_, ?_⟩ <;> decide)
  have h := chain_exec differ r3 (by decide) hk.1 hk.2 hu (by constructor <;> intro _ h <;> cases h) rfl reps.1 (fun _ => true) 0
  obtain ⟨c, hc, r⟩ := h.1 _ goes
  have r4 : CReach P 15 c := .step r3 (.instr hk.1 hk.2 hc)
  have hreach : Reach P after := by
    refine (minvs.1.reach (by decide) (by decide)).step (.instr (accts := orderAccts) (data := order.pack) (env := envOf 0 c3) ?_ ?_)
    · exact fun m hm hsg => hk.2 m hm hsg _ _
    · unfold processRaw
      rw [hu]
      exact goes
  obtain ⟨o, ho, ho1, ho2⟩ : ∃ o, ooAt after.oos 41 = some o ∧ o.closed = false ∧ o.owner = 11 := by
    have h : (ooAt after.oos 41).any (fun o => !o.closed && o.owner == 11) = true := by decide +kernel
    cases ho : ooAt after.oos 41 with
    | none => rw [ho] at h; cases h
    | some o => rw [ho] at h; simp at h; exact ⟨o, rfl, h.1, h.2⟩
  have hoc : ooOf 50 (c.accs 41) = some o := (r.oos 41).symm.trans ho
  have hclaim : baseClaim after 41 = 500 := by decide +kernel
  obtain ⟨i, c', s', hi, hs, _, hr', hl⟩ := chain_can_leave differ r4 r hreach (by decide +kernel) hoc ho1
    (allFit_of (by decide +kernel) 41) (by decide +kernel) (coinDst := 21) (pcDst := 31) (vs := 1050) (refer := none)
    (who := (· = 11)) ho2 (by intro x hx; rw [show after.mkt.crankAuth = none by decide +kernel] at hx; cases hx)
    (fun x hx => by rw [hx]; exact ⟨by decide, fun k m => no_signer k m (by decide)⟩) (by decide +kernel)
    (by rw [← r.toks]; exact (ready_of (n := 0) (by decide +kernel)).usable)
    (by rw [← r.toks]; exact (ready_of (n := 0) (by decide +kernel)).usable)
    (by rw [← r.toks]; exact ready_of (by decide +kernel)) (by rw [← r.toks]; exact ready_of (by decide +kernel))
    (fun r e => by cases e)
    (by
      rintro x (rfl | rfl | rfl | rfl | rfl | e)
      · decide
      · decide
      · decide
      · decide
      · decide
      · cases e) (fun _ => true) 7
  refine ⟨c, r4, ⟨o, hoc⟩, i, c', s', Nat.le_trans hi (by decide +kernel), hs, hr', hl, hclaim, ?_⟩
  obtain ⟨l1, l2, p1, p2, p3⟩ := hl.paid
  have hm : (after.mkt.coinVault, after.mkt.pcVault) = (51, 52) := by decide +kernel
  obtain ⟨m1, m2⟩ := Prod.mk.inj hm
  rw [hclaim, m1] at p1
  rw [m2] at p2
  have e0 : (if 0 < rebateClaim after 41 then (none : Option Nat) else none) = none := by split <;> rfl
  rw [e0] at p3
  rw [← hr'.toks, p3]
  unfold bal
  rw [p2.others 21 (by decide) (by decide)]
  have := p1.to_ (by decide)
  unfold bal at this
  rw [this]
  decide +kernel

end Serum.DemoChain
