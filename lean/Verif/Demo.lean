import Verif.History

/-
A concrete history of a market, used to show that the hypotheses of the history theorems can be met by
non-trivial states: two traders, a resting ask, a bid that crosses it and rests, a second ask, and so on.
-/

namespace Serum.Demo
open Serum.Props

def P : Params where
  feeSweeper := 71
  disableAuth := 72
  splToken := 73
  srmMint := 74
  msrmMint := 75
  isStable := fun _ => false
  vaultSigner := fun _ _ => some 60
  search := Search.linear

def env : Env := { now := 0, acct := fun _ => .zeroed true }

/-- Market 50 with vaults 51 (base) and 52 (quote), queues 53, 54 and books 55, 56. -/
def mkt : Market :=
  { flags := 3, ownAddress := 50, vaultSignerNonce := 0, coinMint := 80, pcMint := 81, coinVault := 51
    coinDeposits := 0, coinFees := 0, pcVault := 52, pcDeposits := 0, pcFees := 0, pcDust := 0
    reqQ := 53, eventQ := 54, bids := 55, asks := 56, coinLot := 100, pcLot := 10, feeRateBps := 0
    referrerRebates := 0, ooAuthority := 0, pruneAuthority := 0, crankAuthority := 0 }

def tok (mint owner amount : Nat) : Tok := ⟨mint, owner, amount, false, none, 0, none⟩

/-- Traders 11 and 12; their base wallets 21, 22 and quote wallets 31, 32; a referrer wallet 33. -/
def toks : Ledger := fun a =>
  match a with
  | 51 => some (tok 80 60 0)
  | 52 => some (tok 81 60 0)
  | 21 => some (tok 80 11 100000)
  | 22 => some (tok 80 12 100000)
  | 31 => some (tok 81 11 10000000)
  | 32 => some (tok 81 12 10000000)
  | 33 => some (tok 81 13 0)
  | _ => none

def zeroEvent : Event := Event.new (.out .ask false 0 0 0 0 0 0)

def s0 : State conc :=
  { mkt := mkt, reqCount := 0, seq := 0, oos := [], toks := toks
    bids := Slab.fresh 9, asks := Slab.fresh 9, q := Queue.fresh (List.replicate 6 zeroEvent) }

/-- Run an instruction; failures leave the state. -/
def run (s : State conc) (accts : List AccMeta) (ix : Instruction) : State conc :=
  match process conc P env s accts ix with
  | .ok s' => s'
  | .error _ => s

/-- Did the instruction succeed? -/
def fine (s : State conc) (accts : List AccMeta) (ix : Instruction) : Bool :=
  match process conc P env s accts ix with
  | .ok _ => true
  | .error _ => false

def acc (k : Nat) : AccMeta := ⟨k, false⟩
def sig (k : Nat) : AccMeta := ⟨k, true⟩

def orderAccts (oo payer owner : Nat) : List AccMeta :=
  [acc 50, acc oo, acc 53, acc 54, acc 55, acc 56, acc payer, sig owner, acc 51, acc 52, acc 73, acc 0]

def order (side : Side) (price coin pc cid : Nat) : NewOrderIx :=
  { side := side, limitPrice := price, maxCoinQty := coin, maxPcQty := pc, stb := .decrementTake
    orderType := .limit, clientId := cid, limit := 10, maxTs := i64Max }

/-- 11 asks 5 lots at 1000. -/
def i1 : Instruction := .newOrderV3 (order .ask 1000 5 1 7)
def a1 : List AccMeta := orderAccts 41 21 11
def s1 : State conc := run s0 a1 i1
/-- 12 bids for 2 lots at 1100: trades at 1000. -/
def i2 : Instruction := .newOrderV3 (order .bid 1100 2 30000 8)
def a2 : List AccMeta := orderAccts 42 32 12
def s2 : State conc := run s1 a2 i2
/-- 12 bids for 3 lots at 900: rests. -/
def i3 : Instruction := .newOrderV3 (order .bid 900 3 40000 9)
def s3 : State conc := run s2 a2 i3


theorem run_eq {s : State conc} {a : List AccMeta} {ix : Instruction} (h : fine s a ix = true) :
    process conc P env s a ix = .ok (run s a ix) := by
  unfold fine at h
  unfold run
  split at h
  · rename_i e; rw [e]
  · cases h

theorem notVault (m : Market) {l : List AccMeta} (h : (l.all fun a => a.key != 60 || !a.signer) = true) :
    NotVault P m l := by
  intro a ha hs he
  have := List.all_eq_true.1 h a ha
  simp only [P, Option.some.injEq] at he
  rw [← he, hs] at this
  simp at this

/-- One more instruction. -/
theorem next {s : State conc} {a : List AccMeta} {ix : Instruction} (h : Reach P s) (hv : IxValid ix)
    (hf : fine s a ix = true) (hn : (a.all fun a => a.key != 60 || !a.signer) = true) : Reach P (run s a ix) := by
  refine h.step (.instr (env := env) (accts := a) (data := ix.pack) (notVault _ hn) ?_)
  unfold processRaw
  rw [instruction_round_trip ix hv]
  exact run_eq hf

theorem genesis : Genesis P s0 where
  vaults := ⟨60, rfl, ⟨tok 80 60 0, rfl, rfl, rfl, rfl⟩, ⟨tok 81 60 0, rfl, rfl, rfl, rfl⟩⟩
  flags := .inl rfl
  coinLot := by decide
  pcLot := by decide
  coinDeposits := rfl
  pcDeposits := rfl
  pcFees := rfl
  rebates := rfl
  oos := rfl
  seq := rfl
  reqCount := rfl
  bids := ⟨9, rfl⟩
  asks := ⟨9, rfl⟩
  q := ⟨_, rfl, by decide⟩
  amounts := by
    intro a t h
    change toks a = some t at h
    unfold toks at h
    split at h <;> cases h <;> decide

theorem valid {sd : Side} {p c q k : Nat} (h : (0 < p ∧ p < 2 ^ 64) ∧ (0 < c ∧ c < 2 ^ 64) ∧
    (0 < q ∧ q < 2 ^ 64) ∧ k < 2 ^ 64) : OrderValid (order sd p c q k) :=
  ⟨⟨Nat.pos_iff_ne_zero.1 h.1.1, h.1.2⟩, ⟨Nat.pos_iff_ne_zero.1 h.2.1.1, h.2.1.2⟩,
    ⟨Nat.pos_iff_ne_zero.1 h.2.2.1.1, h.2.2.1.2⟩, h.2.2.2, (by decide : U16 10), (by decide : I64 i64Max)⟩

theorem r0 : Reach P s0 := .start genesis
theorem r1 : Reach P s1 := next r0 (valid (by decide)) (by decide +kernel) (by decide)
theorem r2 : Reach P s2 := next r1 (valid (by decide)) (by decide +kernel) (by decide)
theorem r3 : Reach P s3 := next r2 (valid (by decide)) (by decide +kernel) (by decide)

/-- The state after three orders: both books non-empty, four events queued, two accounts. -/
theorem s3_shape : s3.bids.contents.length = 1 ∧ s3.asks.contents.length = 1 ∧
    s3.q.iter.length = 4 ∧ s3.oos.length = 2 ∧ s3.mkt.coinDeposits = 500 ∧ s3.mkt.pcDeposits = 60000 ∧
    s3.seq ≤ W64 := by decide +kernel

/-! ### Processing events, cancelling, settling and closing -/

/-- The crank with both accounts. -/
def crank (n : Nat) : Instruction := .consumeEvents n
def crankList (keys : List Nat) : List AccMeta := keys.map acc ++ [acc 50, acc 54, acc 0, acc 0]
/-- All four events are processed. -/
def s4 : State conc := run s3 (crankList [41, 42]) (crank 4)
/-- 12 cancels the resting bid. -/
def cancelAccts (oo owner : Nat) : List AccMeta := [acc 50, acc 55, acc 56, acc oo, sig owner, acc 54]
def bidId : Nat := 16620516410412306006013
def i5 : Instruction := .cancelOrderV2 .bid bidId
def s5 : State conc := run s4 (cancelAccts 42 12) i5
/-- The out event of the cancel is processed. -/
def s6 : State conc := run s5 (crankList [42]) (crank 4)
/-- 12 settles to its own wallets, with a referrer. -/
def settleAccts (oo owner cw pw : Nat) (r : List AccMeta) : List AccMeta :=
  [acc 50, acc oo, sig owner, acc 51, acc 52, acc cw, acc pw, acc 60, acc 73] ++ r
def s7 : State conc := run s6 (settleAccts 42 12 22 32 [acc 33]) .settleFunds
/-- 12 closes its account. -/
def closeAccts (oo owner dest : Nat) : List AccMeta := [acc oo, sig owner, acc dest, acc 50]
def s8 : State conc := run s7 (closeAccts 42 12 12) .closeOpenOrders

theorem r4 : Reach P s4 := next r3 (by decide : U16 4) (by decide +kernel) (by decide)
theorem r5 : Reach P s5 := next r4 (by decide : U128 bidId) (by decide +kernel) (by decide)
theorem r6 : Reach P s6 := next r5 (by decide : U16 4) (by decide +kernel) (by decide)
theorem r7 : Reach P s7 := next r6 trivial (by decide +kernel) (by decide)
theorem r8 : Reach P s8 := next r7 trivial (by decide +kernel) (by decide)

theorem e4 : process conc P env s3 (crankList [41, 42]) (crank 4) = .ok s4 := run_eq (by decide +kernel)
theorem e5 : process conc P env s4 (cancelAccts 42 12) i5 = .ok s5 := run_eq (by decide +kernel)
theorem e7 : process conc P env s6 (settleAccts 42 12 22 32 [acc 33]) .settleFunds = .ok s7 :=
  run_eq (by decide +kernel)
theorem e8 : process conc P env s7 (closeAccts 42 12 12) .closeOpenOrders = .ok s8 := run_eq (by decide +kernel)

/-! ### Sweeping fees, disabling the market, and what still works afterwards -/

/-- The fee sweeper takes the accrued fees. -/
def sweepAccts : List AccMeta := [acc 50, acc 52, sig 71, acc 33, acc 60, acc 73]
def s9 : State conc := run s8 sweepAccts .sweepFees
/-- The disable authority disables the market, while 11's ask still rests. -/
def disableAccts : List AccMeta := [acc 50, sig 72]
def s10 : State conc := run s9 disableAccts .disableMarket
/-- 11 cancels the ask on the disabled market by client id. -/
def i11 : Instruction := .cancelOrderByClientIdV2 7
def s11 : State conc := run s10 (cancelAccts 41 11) i11

theorem r9 : Reach P s9 := next r8 trivial (by decide +kernel) (by decide)
theorem r10 : Reach P s10 := next r9 trivial (by decide +kernel) (by decide)
theorem r11 : Reach P s11 := next r10 (by decide : U64 7) (by decide +kernel) (by decide)
theorem e9 : process conc P env s8 sweepAccts .sweepFees = .ok s9 := run_eq (by decide +kernel)
theorem e10 : process conc P env s9 disableAccts .disableMarket = .ok s10 := run_eq (by decide +kernel)
theorem e11 : process conc P env s10 (cancelAccts 41 11) i11 = .ok s11 := run_eq (by decide +kernel)

/-! ### An immediate trade without an account -/

/-- 12 buys 2 lots at up to 1100 straight from the wallet, wanting at least one lot. -/
def takeIx : SendTakeIx :=
  { side := .bid, limitPrice := 1100, maxCoinQty := 2, maxPcQty := 30000, minCoinQty := 1, minPcQty := 0, limit := 10 }
def takeAccts : List AccMeta :=
  [acc 50, acc 53, acc 54, acc 55, acc 56, acc 22, acc 32, sig 12, acc 51, acc 52, acc 73, acc 60]
def sT : State conc := run s1 takeAccts (.sendTake takeIx)
theorem takeValid : IxValid (.sendTake takeIx) := by
  simp only [IxValid, takeIx]; decide
theorem rT : Reach P sT := next r1 takeValid (by decide +kernel) (by decide)
theorem eT : process conc P env s1 takeAccts (.sendTake takeIx) = .ok sT := run_eq (by decide +kernel)

/-! ### A permissioned market -/

/-- The same market with authorities 61 (accounts), 62 (prune) and 63 (crank). -/
def pm : Market :=
  { mkt with
    flags := 1539
    ooAuthority := 61
    pruneAuthority := 62
    crankAuthority := 63 }
def p0 : State conc := { s0 with
  mkt := pm
  q := Queue.fresh (List.replicate 12 zeroEvent) }
def openAccts (oo owner : Nat) : List AccMeta := [acc oo, sig owner, acc 50, acc 0, sig 61]
def p1 : State conc := run p0 (openAccts 41 11) .initOpenOrders
def p2 : State conc := run p1 (openAccts 42 12) .initOpenOrders
/-- 11 asks 5 lots at 1000 (client id 7); 12 bids twice (client ids 8 and 9) and asks at 1500 (10). -/
def p3 : State conc := run p2 (orderAccts 41 21 11) (.newOrderV3 (order .ask 1000 5 1 7))
def p4 : State conc := run p3 (orderAccts 42 32 12) (.newOrderV3 (order .bid 900 3 40000 8))
def p5 : State conc := run p4 (orderAccts 42 32 12) (.newOrderV3 (order .bid 800 2 40000 9))
def p6 : State conc := run p5 (orderAccts 42 22 12) (.newOrderV3 (order .ask 1500 4 1 10))
/-- The prune authority removes the orders of account 42. -/
def pruneAccts (oo owner : Nat) : List AccMeta :=
  [acc 50, acc 55, acc 56, sig 62, acc oo, acc owner, acc 54]
def p7 : State conc := run p6 (pruneAccts 42 12) (.prune 100)
/-- Instead: 12 cancels by client ids 9, 10 and an unknown 77. -/
def batchIds : List Nat := [9, 10, 77, 0, 0, 0, 0, 0]
def p7b : State conc := run p6 (cancelAccts 42 12) (.cancelOrdersByClientIds batchIds)
/-- The crank authority delivers the events. -/
def p8 : State conc := run p7 [acc 41, acc 42, acc 50, acc 54, sig 63] (.consumeEventsPermissioned 20)

theorem pgenesis : Genesis P p0 where
  vaults := ⟨60, rfl, ⟨tok 80 60 0, rfl, rfl, rfl, rfl⟩, ⟨tok 81 60 0, rfl, rfl, rfl, rfl⟩⟩
  flags := .inr (.inr rfl)
  coinLot := by decide
  pcLot := by decide
  coinDeposits := rfl
  pcDeposits := rfl
  pcFees := rfl
  rebates := rfl
  oos := rfl
  seq := rfl
  reqCount := rfl
  bids := ⟨9, rfl⟩
  asks := ⟨9, rfl⟩
  q := ⟨_, rfl, by decide⟩
  amounts := genesis.amounts

theorem k0 : Reach P p0 := .start pgenesis
theorem k1 : Reach P p1 := next k0 trivial (by decide +kernel) (by decide)
theorem k2 : Reach P p2 := next k1 trivial (by decide +kernel) (by decide)
theorem k3 : Reach P p3 := next k2 (valid (by decide)) (by decide +kernel) (by decide)
theorem k4 : Reach P p4 := next k3 (valid (by decide)) (by decide +kernel) (by decide)
theorem k5 : Reach P p5 := next k4 (valid (by decide)) (by decide +kernel) (by decide)
theorem k6 : Reach P p6 := next k5 (valid (by decide)) (by decide +kernel) (by decide)
theorem k7 : Reach P p7 := next k6 (by decide : U16 100) (by decide +kernel) (by decide)
theorem k7b : Reach P p7b := next k6 (⟨rfl, by decide⟩ : batchIds.length = 8 ∧ _) (by decide +kernel) (by decide)
theorem k8 : Reach P p8 := next k7 (by decide : U16 20) (by decide +kernel) (by decide)

theorem f7 : process conc P env p6 (pruneAccts 42 12) (.prune 100) = .ok p7 := run_eq (by decide +kernel)
theorem f7b : process conc P env p6 (cancelAccts 42 12) (.cancelOrdersByClientIds batchIds) = .ok p7b :=
  run_eq (by decide +kernel)
theorem f8 : process conc P env p7 [acc 41, acc 42, acc 50, acc 54, sig 63] (.consumeEventsPermissioned 20) =
    .ok p8 := run_eq (by decide +kernel)

/-- 12 replaces both bids (client ids 8 and 9) by bids at 850 and 860. -/
def replIxs : List NewOrderIx := [order .bid 850 1 20000 8, order .bid 860 1 20000 9]
def p7c : State conc := run p6 (orderAccts 42 32 12) (.replaceOrdersByClientIds replIxs)
theorem replValid : IxValid (.replaceOrdersByClientIds replIxs) := by
  refine ⟨by decide, fun i hi => ?_⟩
  simp only [replIxs, List.mem_cons, List.not_mem_nil, or_false] at hi
  rcases hi with rfl | rfl
  · exact valid (by decide)
  · exact valid (by decide)
theorem k7c : Reach P p7c := next k6 replValid (by decide +kernel) (by decide)
theorem f7c : process conc P env p6 (orderAccts 42 32 12) (.replaceOrdersByClientIds replIxs) = .ok p7c :=
  run_eq (by decide +kernel)

end Serum.Demo
