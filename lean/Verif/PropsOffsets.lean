import Verif.PropsLayout
import Verif.PropsWire

/-!
C94: where each field of the program's accounts is, in bytes from the start of the account, as an off-chain reader
needs it.
-/

namespace Serum.Props

/-- A market account: 388 bytes, or 1476 with the authorities of a permissioned market (flag 512). -/
structure MarketAt (d : List UInt8) (m : Market) : Prop where
  flags : m.flags = leAt d 5 8
  ownAddress : m.ownAddress = leAt d 13 32
  vaultSignerNonce : m.vaultSignerNonce = leAt d 45 8
  coinMint : m.coinMint = leAt d 53 32
  pcMint : m.pcMint = leAt d 85 32
  coinVault : m.coinVault = leAt d 117 32
  coinDeposits : m.coinDeposits = leAt d 149 8
  coinFees : m.coinFees = leAt d 157 8
  pcVault : m.pcVault = leAt d 165 32
  pcDeposits : m.pcDeposits = leAt d 197 8
  pcFees : m.pcFees = leAt d 205 8
  pcDust : m.pcDust = leAt d 213 8
  reqQ : m.reqQ = leAt d 221 32
  eventQ : m.eventQ = leAt d 253 32
  bids : m.bids = leAt d 285 32
  asks : m.asks = leAt d 317 32
  coinLot : m.coinLot = leAt d 349 8
  pcLot : m.pcLot = leAt d 357 8
  feeRateBps : m.feeRateBps = leAt d 365 8
  referrerRebates : m.referrerRebates = leAt d 373 8
  open_ : leAt d 5 8 / 512 % 2 = 0 → d.length = 388
  permissioned : leAt d 5 8 / 512 % 2 = 1 → d.length = 1476 ∧ m.ooAuthority = leAt d 381 32 ∧
    m.pruneAuthority = leAt d 413 32 ∧ m.crankAuthority = leAt d 445 32

/-- An open orders account: 3228 bytes, 128 slots. Bit `j` of a mask is slot `j`. -/
structure OrdersAt (d : List UInt8) (o : OpenOrders) (market : Nat) : Prop where
  size : d.length = 3228
  flags : leAt d 5 8 = 5
  market : market = leAt d 13 32
  owner : o.owner = leAt d 45 32
  coinFree : o.coinFree = leAt d 77 8
  coinTotal : o.coinTotal = leAt d 85 8
  pcFree : o.pcFree = leAt d 93 8
  pcTotal : o.pcTotal = leAt d 101 8
  freeBits : o.freeBits.toNat = leAt d 109 16
  bidBits : o.bidBits.toNat = leAt d 125 16
  orders : o.orders.length = 128 ∧ ∀ j, j < 128 → o.orders[j]? = some (leAt d (141 + 16 * j) 16)
  clientIds : o.clientIds.length = 128 ∧ ∀ j, j < 128 → o.clientIds[j]? = some (leAt d (2189 + 8 * j) 8)
  rebates : o.rebates = leAt d 3213 8

/-- An event, 88 bytes at `off`. -/
structure EventAt (d : List UInt8) (off : Nat) (e : Event) : Prop where
  flags : e.flags = leAt d off 1
  ownerSlot : e.ownerSlot = leAt d (off + 1) 1
  feeTier : e.feeTier = leAt d (off + 2) 1
  released : e.released = leAt d (off + 8) 8
  paid : e.paid = leAt d (off + 16) 8
  feeOrRebate : e.feeOrRebate = leAt d (off + 24) 8
  orderId : e.orderId = leAt d (off + 32) 16
  owner : e.owner = leAt d (off + 48) 32
  clientId : e.clientId = leAt d (off + 80) 8

/-- An event queue account: a header of 37 bytes, then as many events of 88 bytes as fit before the last 7 bytes. -/
structure EventQAt (d : List UInt8) (q : Queue Event) : Prop where
  flags : leAt d 5 8 = 17
  head : q.head = leAt d 13 8
  count : q.count = leAt d 21 8
  seq : q.seq = leAt d 29 8
  size : 44 ≤ d.length ∧ q.buf.length = (d.length - 44) / 88
  events : ∀ j e, q.buf[j]? = some e → EventAt d (37 + 88 * j) e

/-- A node of a book side, 72 bytes at `off`. Addresses of nodes are their numbers. -/
def NodeAt (d : List UInt8) (off : Nat) : Node → Prop
  | .uninit => leAt d off 4 = 0 ∨ 4 < leAt d off 4
  | .inner p k c0 c1 => leAt d off 4 = 1 ∧ p = leAt d (off + 4) 4 ∧ k = leAt d (off + 8) 16 ∧
      c0 = leAt d (off + 24) 4 ∧ c1 = leAt d (off + 28) 4
  | .leaf l => leAt d off 4 = 2 ∧ l.ownerSlot = leAt d (off + 4) 1 ∧
      ([FeeTier.base, .srm2, .srm3, .srm4, .srm5, .srm6, .msrm, .stable][leAt d (off + 5) 1]?).getD .base = l.feeTier ∧
      l.key = leAt d (off + 8) 16 ∧ l.owner = leAt d (off + 24) 32 ∧ l.quantity = leAt d (off + 56) 8 ∧
      l.clientId = leAt d (off + 64) 8
  | .free n => leAt d off 4 = 3 ∧ n = leAt d (off + 4) 4
  | .lastFree n => leAt d off 4 = 4 ∧ n = leAt d (off + 4) 4

/-- A book account: flags 33 (bids) or 65 (asks), a header up to byte 45, then as many nodes of 72 bytes as fit
before the last 7 bytes. -/
structure BookAt (d : List UInt8) (sd : Side) (s : Slab) : Prop where
  flags : leAt d 5 8 = match sd with | .bid => 33 | .ask => 65
  bumpIndex : s.bumpIndex = leAt d 13 8
  freeLen : s.freeLen = leAt d 21 8
  freeHead : s.freeHead = leAt d 29 4
  root : s.root = leAt d 33 4
  leafCount : s.leafCount = leAt d 37 8
  size : 52 ≤ d.length ∧ s.nodes.length = (d.length - 52) / 72
  nodes : ∀ j n, s.nodes[j]? = some n → NodeAt d (45 + 72 * j) n

/-- The bytes of a string of ASCII characters. -/
def ascii (s : String) : List UInt8 := s.toList.map fun c => UInt8.ofNat c.toNat

/-- The account starts with `serum` and ends with `padding`. -/
def Framed (d : List UInt8) : Prop :=
  d.take 5 = ascii "serum" ∧ d.drop (d.length - 7) = ascii "padding"

/-! ### Reading -/

section

attribute [local irreducible] leAt

theorem readFields_drop (w : Nat) (ws : List Nat) (d : List UInt8) (off : Nat) :
    readFields (w :: ws) (d.drop off) = leAt d off w :: readFields ws (d.drop (off + w)) := by
  rw [readFields, leAt_ofLe, List.drop_drop]

theorem readFields_start (ws : List Nat) (d : List UInt8) : readFields ws d = readFields ws (d.drop 0) := rfl

theorem readFields_nil (d : List UInt8) : readFields [] d = [] := rfl

/-- Fields of one width in a row. -/
theorem readFields_replicate (n w : Nat) (ws : List Nat) (d : List UInt8) (off : Nat) :
    readFields (List.replicate n w ++ ws) (d.drop off) =
      (List.range n).map (fun j => leAt d (off + w * j) w) ++ readFields ws (d.drop (off + w * n)) := by
  induction n generalizing off with
  | zero => simp
  | succ n ih =>
    rw [List.replicate_succ, List.cons_append, readFields_drop, ih, List.range_succ_eq_map, List.map_cons, List.map_map,
      List.cons_append]
    congr 1
    congr 1
    · apply List.map_congr_left
      intro j _
      simp only [Function.comp]
      congr 1
      rw [Nat.mul_succ]; omega
    · congr 2
      rw [Nat.mul_succ]; omega

theorem leAt_middle {d : List UInt8} {off n : Nat} (h : off + n + 12 ≤ d.length) :
    leAt (middle d) off n = leAt d (5 + off) n := by
  unfold middle
  rw [leAt_take (by omega), leAt_drop]

theorem middle_length {d : List UInt8} (h : 12 ≤ d.length) : (middle d).length = d.length - 12 := by
  unfold middle
  simp
  omega

theorem framed_of_checkPadding {d b : List UInt8} (h : checkPadding d = .ok b) : Framed d := by
  unfold checkPadding at h
  obtain ⟨_, _, h⟩ := bind_ok h
  obtain ⟨_, h1, h⟩ := bind_ok h
  obtain ⟨_, h2, h⟩ := bind_ok h
  have h1 := checkAssert_ok.1 h1
  have h2 := checkAssert_ok.1 h2
  simp only [beq_iff_eq] at h1 h2
  exact ⟨h1.trans (by decide), h2.trans (by decide)⟩

theorem stripHeader_parts {k : Nat} {d h b : List UInt8} (hs : stripHeader k d = .ok (h, b)) :
    Framed d ∧ k + 12 ≤ d.length ∧ h = (middle d).take k ∧ b = (middle d).drop k := by
  unfold stripHeader at hs
  obtain ⟨m, hm, hs⟩ := bind_ok hs
  obtain ⟨_, hl, hs⟩ := bind_ok hs
  have hl := rustAssert_ok.1 hl
  simp only [decide_eq_true_eq] at hl
  cases hs
  obtain ⟨rfl, h12⟩ := checkPadding_ok hm
  rw [middle_length h12] at hl
  exact ⟨framed_of_checkPadding hm, by omega, rfl, rfl⟩

end

/-! ### C94 -/

section

attribute [local irreducible] leAt

theorem hasFlag_512 (f : Nat) : hasFlag f 512 = decide (f / 512 % 2 = 1) := by
  unfold hasFlag
  have h : f &&& 512 = if f / 512 % 2 = 1 then 512 else 0 := by
    apply Nat.eq_of_testBit_eq
    intro i
    rw [Nat.testBit_and, show 512 = 2 ^ 9 from rfl, Nat.testBit_two_pow]
    by_cases hi : 9 = i
    · subst hi
      rw [Nat.testBit_eq_decide_div_mod_eq]
      by_cases hp : f / 2 ^ 9 % 2 = 1
      · rw [if_pos hp, Nat.testBit_two_pow]
        simp [hp]
      · rw [if_neg hp]
        simp [hp]
    · by_cases hp : f / 2 ^ 9 % 2 = 1
      · rw [if_pos hp, Nat.testBit_two_pow]
        simp [hi]
      · rw [if_neg hp]
        simp [hi]
  rw [h]
  by_cases hp : f / 512 % 2 = 1 <;> simp [hp]

/-- C94 (markets). -/
theorem market_offsets {owned allow : Bool} {d : List UInt8} {m : Market}
    (h : loadMarketBytes owned d allow = .ok m) : Framed d ∧ MarketAt d m := by
  unfold loadMarketBytes at h
  obtain ⟨f, hf, h⟩ := bind_ok h
  obtain ⟨_, _, h⟩ := bind_ok h
  obtain ⟨m', hm, h⟩ := bind_ok h
  obtain ⟨_, _, h⟩ := bind_ok h
  cases h
  have hfw : f = leAt d 5 8 := by
    unfold accountFlags at hf
    obtain ⟨_, _, hf⟩ := bind_ok hf
    dsimp only at hf
    split at hf
    · cases hf
    · cases hf
      rw [leAt_ofLe]
  rw [hasFlag_512] at hm
  unfold marketFrom at hm
  obtain ⟨b, hb, hm⟩ := bind_ok hm
  obtain ⟨_, hl, hm⟩ := bind_ok hm
  cases hm
  obtain ⟨rfl, h12⟩ := checkPadding_ok hb
  have hl := rustAssert_ok.1 hl
  simp only [beq_iff_eq] at hl
  rw [middle_length h12] at hl
  refine ⟨framed_of_checkPadding hb, ?_⟩
  subst hfw
  by_cases hp : leAt d 5 8 / 512 % 2 = 1
  · simp only [hp, decide_true, if_true] at hl ⊢
    rw [widthsV2_sum] at hl
    have hl : d.length = 1476 := by omega
    rw [readFields_start]
    unfold marketWidthsV2 marketWidthsV1
    simp only [List.cons_append, List.nil_append, readFields_drop, readFields_nil, Nat.zero_add, Nat.reduceAdd]
    simp (disch := omega) only [leAt_middle, Nat.reduceAdd]
    simp only [Market.ofFields, List.getD_cons_zero, List.getD_cons_succ]
    exact ⟨rfl, rfl, rfl, rfl, rfl, rfl, rfl, rfl, rfl, rfl, rfl, rfl, rfl, rfl, rfl, rfl, rfl, rfl, rfl, rfl,
      fun h => by omega, fun _ => ⟨hl, rfl, rfl, rfl⟩⟩
  · simp only [hp, decide_false] at hl ⊢
    simp only [Bool.false_eq_true, if_false] at hl ⊢
    rw [widthsV1_sum] at hl
    have hl : d.length = 388 := by omega
    rw [readFields_start]
    unfold marketWidthsV1
    simp only [readFields_drop, readFields_nil, Nat.zero_add, Nat.reduceAdd]
    simp (disch := omega) only [leAt_middle, Nat.reduceAdd]
    simp only [Market.ofFields, List.getD_cons_zero, List.getD_cons_succ, List.getD_nil]
    exact ⟨rfl, rfl, rfl, rfl, rfl, rfl, rfl, rfl, rfl, rfl, rfl, rfl, rfl, rfl, rfl, rfl, rfl, rfl, rfl, rfl,
      fun _ => hl, fun h => absurd h hp⟩

/-- C94 (open orders accounts). -/
theorem orders_offsets {owned : Bool} {d : List UInt8} {mk : Nat} {owner : Option Nat} {o : OpenOrders}
    (h : loadOrdersBytes owned d mk owner = .ok o) : OrdersAt d o mk := by
  unfold loadOrdersBytes at h
  obtain ⟨_, _, h⟩ := bind_ok h
  obtain ⟨_, h12, h⟩ := bind_ok h
  obtain ⟨_, _, h⟩ := bind_ok h
  obtain ⟨_, hl, h⟩ := bind_ok h
  have h12 := checkAssert_ok.1 h12
  simp only [decide_eq_true_eq] at h12
  have hl := rustAssert_ok.1 hl
  simp only [beq_iff_eq] at hl
  rw [middle_length h12, ooWidths_sum] at hl
  have hl : d.length = 3228 := by omega
  rw [readFields_start] at h
  unfold ooWidths at h
  simp only [List.cons_append, List.nil_append, List.append_assoc, readFields_drop, readFields_replicate, readFields_nil, Nat.zero_add,
    Nat.reduceAdd, Nat.reduceMul] at h
  split at h
  · cases h
  split at h
  · cases h
  split at h
  · cases h
  split at h
  · cases h
  rename_i h1 h2 h3 h4
  cases h
  simp only [List.getD_cons_zero, List.getD_cons_succ, ne_eq, Decidable.not_not] at h2 h3
  simp (disch := omega) only [leAt_middle, Nat.reduceAdd] at h2 h3 ⊢
  have e1 (f g : Nat → Nat) (x : Nat) : ((List.range 128).map f ++ ((List.range 128).map g ++ [x])).take 128 =
      (List.range 128).map f := List.take_left' (by simp)
  have e2 (f g : Nat → Nat) (x : Nat) : (((List.range 128).map f ++ ((List.range 128).map g ++ [x])).drop 128).take 128 =
      (List.range 128).map g := by
    rw [List.drop_left' (by simp), List.take_left' (by simp)]
  have e3 (f g : Nat → Nat) (x : Nat) : ((List.range 128).map f ++ ((List.range 128).map g ++ [x])).getD 256 0 = x := by
    rw [List.getD_eq_getElem?_getD, List.getElem?_append_right (by simp), List.getElem?_append_right (by simp)]
    simp
  have hb := leAt_lt d 109 16
  have hb' := leAt_lt d 125 16
  simp only [OpenOrders.ofFields, List.getD_cons_zero, List.getD_cons_succ, List.drop_succ_cons, List.drop_zero, e1, e2, e3]
  refine ⟨hl, h2, h3.symm, rfl, rfl, rfl, rfl, rfl, ?_, ?_, ⟨by simp, fun j hj => ?_⟩, ⟨by simp, fun j hj => ?_⟩, rfl⟩
  · simp only [BitVec.toNat_ofNat]
    exact Nat.mod_eq_of_lt hb
  · simp only [BitVec.toNat_ofNat]
    exact Nat.mod_eq_of_lt hb'
  · simp only [List.getElem?_map, List.getElem?_range hj, Option.map_some]
    rw [leAt_middle (by omega), show 5 + (136 + 16 * j) = 141 + 16 * j by omega]
  · simp only [List.getElem?_map, List.getElem?_range hj, Option.map_some]
    rw [leAt_middle (by omega), show 5 + (2184 + 8 * j) = 2189 + 8 * j by omega]

theorem items_get {k : Nat} {d : List UInt8} {j : Nat} {x : List UInt8} (h : (items k d)[j]? = some x) :
    j < d.length / k ∧ x = (d.drop (k * j)).take k := by
  unfold items at h
  simp only [List.getElem?_map, Option.map_eq_some_iff] at h
  obtain ⟨i, hi, rfl⟩ := h
  obtain ⟨hj, rfl⟩ := List.getElem?_eq_some_iff.1 hi
  simp only [List.length_range] at hj
  simp [hj]

/-- The `j`-th item of `k` bytes after a header of `h` bytes, as bytes of the account. -/
theorem item_window {d : List UInt8} {h k j : Nat} (hd : h + 12 ≤ d.length) (hk : 0 < k)
    (hj : j < ((middle d).drop h).length / k) :
    (((middle d).drop h).drop (k * j)).take k = (d.drop (5 + h + k * j)).take k := by
  have h1 : k * (j + 1) ≤ d.length - 12 - h := by
    rw [List.length_drop, middle_length (by omega)] at hj
    calc k * (j + 1) ≤ k * ((d.length - 12 - h) / k) := Nat.mul_le_mul_left _ hj
      _ ≤ d.length - 12 - h := Nat.mul_div_le _ _
  rw [Nat.mul_succ] at h1
  unfold middle
  rw [List.drop_drop, List.drop_take, List.take_take, List.drop_drop, Nat.min_eq_left (by omega), Nat.add_assoc]

theorem event_offsets (d : List UInt8) (off : Nat) : EventAt d off (Event.ofBytes ((d.drop off).take 88)) := by
  unfold Event.ofBytes
  rw [readFields_start]
  unfold eventWidths
  simp only [readFields_drop, readFields_nil, Nat.zero_add, Nat.reduceAdd]
  simp (disch := omega) only [leAt_take, leAt_drop]
  simp only [Event.ofFields, List.getD_cons_zero, List.getD_cons_succ]
  exact ⟨rfl, rfl, rfl, rfl, rfl, rfl, rfl, rfl, rfl⟩

/-- C94 (event queues). -/
theorem event_queue_offsets {d : List UInt8} {q : Queue Event} (h : loadEventQBytes d = .ok q) : Framed d ∧ EventQAt d q := by
  unfold loadEventQBytes at h
  obtain ⟨⟨hd, b⟩, hs, h⟩ := bind_ok h
  obtain ⟨_, hc, h⟩ := bind_ok h
  cases h
  obtain ⟨hf, hl, rfl, rfl⟩ := stripHeader_parts hs
  have hc := checkFlags_ok hc
  rw [readFields_start] at hc ⊢
  simp only [readFields_drop, readFields_nil, Nat.zero_add, Nat.reduceAdd, List.getD_cons_zero, List.getD_cons_succ] at hc ⊢
  simp (disch := omega) only [leAt_take, leAt_middle, Nat.reduceAdd] at hc ⊢
  refine ⟨hf, hc, rfl, rfl, rfl, ⟨by omega, ?_⟩, ?_⟩
  · simp only [List.length_map, items, List.length_range, List.length_drop, middle_length (d := d) (by omega)]
    omega
  · intro j e he
    simp only [List.getElem?_map, Option.map_eq_some_iff] at he
    obtain ⟨x, hx, rfl⟩ := he
    obtain ⟨hj, rfl⟩ := items_get hx
    rw [item_window hl (by omega) hj]
    exact event_offsets _ _

/-- C94 (request queues). -/
theorem request_queue_offsets {d : List UInt8} {hd ct sq n : Nat} (h : loadReqQBytes d = .ok (hd, ct, sq, n)) :
    Framed d ∧ leAt d 5 8 = 9 ∧ hd = leAt d 13 8 ∧ ct = leAt d 21 8 ∧ sq = leAt d 29 8 ∧ 44 ≤ d.length ∧
      n = (d.length - 44) / 80 := by
  unfold loadReqQBytes at h
  obtain ⟨⟨hd, b⟩, hs, h⟩ := bind_ok h
  obtain ⟨_, hc, h⟩ := bind_ok h
  obtain ⟨hf, hl, rfl, rfl⟩ := stripHeader_parts hs
  have hc := checkFlags_ok hc
  rw [readFields_start] at hc h
  simp only [readFields_drop, readFields_nil, Nat.zero_add, Nat.reduceAdd, List.getD_cons_zero, List.getD_cons_succ] at hc h
  simp (disch := omega) only [leAt_take, leAt_middle, Nat.reduceAdd] at hc h
  cases h
  refine ⟨hf, hc, rfl, rfl, rfl, by omega, ?_⟩
  rw [List.length_drop, middle_length (by omega)]
  omega

theorem node_offsets (d : List UInt8) (off : Nat) : NodeAt d off (Node.ofBytes ((d.drop off).take 72)) := by
  have h4 : ofLe (((d.drop off).take 72).take 4) = leAt d off 4 := by
    rw [leAt_ofLe, List.take_take]
    rfl
  unfold Node.ofBytes
  rw [h4]
  dsimp only
  split <;> rename_i ht
  · simp only [readFields_drop, readFields_nil, Nat.reduceAdd, List.getD_cons_zero, List.getD_cons_succ]
    simp (disch := omega) only [leAt_take, leAt_drop]
    exact ⟨ht, rfl, rfl, rfl, rfl⟩
  · simp only [readFields_drop, readFields_nil, Nat.reduceAdd, List.getD_cons_zero, List.getD_cons_succ]
    simp (disch := omega) only [leAt_take, leAt_drop]
    refine ⟨ht, rfl, ?_, rfl, rfl, rfl, rfl⟩
    dsimp only
    congr 1
    unfold FeeTier.ofU8
    split <;> rename_i h8 <;> try (rw [h8]; rfl)
    apply List.getElem?_eq_none
    simp only [List.length_cons, List.length_nil]
    have (x : Nat) : 0 + 1 + 1 + 1 + 1 + 1 + 1 + 1 + 1 ≤ x ∨
        x = 0 ∨ x = 1 ∨ x = 2 ∨ x = 3 ∨ x = 4 ∨ x = 5 ∨ x = 6 ∨ x = 7 := by omega
    rcases this (leAt d (off + 5) 1) with h | h | h | h | h | h | h | h | h
    · exact h
    all_goals exact absurd h (by assumption)
  · refine ⟨ht, ?_⟩
    rw [← leAt_ofLe]
    simp (disch := omega) only [leAt_take, leAt_drop]
  · refine ⟨ht, ?_⟩
    rw [← leAt_ofLe]
    simp (disch := omega) only [leAt_take, leAt_drop]
  · simp only [NodeAt]
    have (x : Nat) : (x = 0 ∨ 4 < x) ∨ x = 1 ∨ x = 2 ∨ x = 3 ∨ x = 4 := by omega
    rcases this (leAt d off 4) with h | h | h | h | h
    · exact h
    all_goals exact absurd h (by assumption)

/-- C94 (book sides). -/
theorem book_offsets {d : List UInt8} {sd : Side} {s : Slab} (h : loadBookBytes sd d = .ok s) : Framed d ∧ BookAt d sd s := by
  unfold loadBookBytes at h
  obtain ⟨⟨hd, b⟩, hs, h⟩ := bind_ok h
  obtain ⟨hf, hl, rfl, rfl⟩ := stripHeader_parts hs
  have hc := book_flags (by unfold loadBookBytes; rw [hs]; exact h)
  dsimp only at h
  obtain ⟨_, _, h⟩ := bind_ok h
  unfold Slab.ofBytes at h
  obtain ⟨_, h32, h⟩ := bind_ok h
  have h32 := rustAssert_ok.1 h32
  simp only [decide_eq_true_eq, List.length_drop, middle_length (d := d) (by omega)] at h32
  cases h
  have hfl : leAt d 5 8 = sideFlags sd := by
    rw [← hc, leAt_ofLe]
    rfl
  simp only [readFields_drop, readFields_nil, Nat.reduceAdd, List.getD_cons_zero, List.getD_cons_succ]
  simp (disch := omega) only [leAt_middle, Nat.reduceAdd]
  refine ⟨hf, by rw [hfl]; cases sd <;> rfl, rfl, rfl, rfl, rfl, rfl, ⟨by omega, ?_⟩, ?_⟩
  · simp only [List.length_map, items, List.length_range, List.length_drop, middle_length (d := d) (by omega)]
    omega
  · intro j e he
    simp only [List.getElem?_map, Option.map_eq_some_iff] at he
    obtain ⟨x, hx, rfl⟩ := he
    obtain ⟨hj, rfl⟩ := items_get hx
    have e : ((middle d).drop 8).drop 32 = (middle d).drop 40 := by rw [List.drop_drop]
    rw [e] at hj ⊢
    rw [item_window (by omega) (by omega) hj]
    exact node_offsets _ _

end

/-! ### Examples -/

/-- What the program stores is where a reader looks for it. -/
example (m : Market) (h : MarketFits m) (hf : checkMarketFlags m.flags true = .ok ()) : MarketAt m.bytes m :=
  (market_offsets (by rw [market_bytes m h, hf]; rfl : loadMarketBytes true m.bytes true = .ok m)).2

/-- Free and total quote balance, and the order in slot 0, of the demo's open orders account. -/
example : leAt (demoOrders.bytes 50) 45 32 = 12 ∧ leAt (demoOrders.bytes 50) 101 8 = demoOrders.pcTotal ∧
    demoOrders.pcTotal ≠ 0 ∧ demoOrders.orders[0]? = some (leAt (demoOrders.bytes 50) 141 16) := by
  have h : demoOrders.owner = 12 ∧ demoOrders.closed = false := by decide +kernel
  have hl : loadOrdersBytes true (demoOrders.bytes 50) 50 none = .ok demoOrders := by
    rw [orders_bytes _ _ _ _ demoOrders_fit, h.2]
    exact if_neg (by simp)
  have ho := orders_offsets hl
  exact ⟨by rw [← ho.owner, h.1], ho.pcTotal.symm, by decide +kernel, ho.orders.2 0 (by omega)⟩

end Serum.Props
