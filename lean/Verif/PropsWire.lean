import Verif.PropsInstr

/-!
C93: the bytes of an instruction, field by field at fixed offsets, independently of the encoder and the decoder.
-/

namespace Serum.Props

/-- The unsigned little-endian number in the `n` bytes of `d` starting at `off`. -/
def leAt (d : List UInt8) : Nat → Nat → Nat
  | _, 0 => 0
  | off, n + 1 => (d.getD off 0).toNat + 256 * leAt d (off + 1) n

/-- `t` is the signed (two's complement) number in the 8 bytes of `d` starting at `off`. -/
def i64At (d : List UInt8) (off : Nat) (t : Int) : Prop :=
  (leAt d off 8 < 2 ^ 63 ∧ t = leAt d off 8) ∨ (2 ^ 63 ≤ leAt d off 8 ∧ t = (leAt d off 8 : Int) - 2 ^ 64)

/-- `bid` is 0 and `ask` is 1, in 4 bytes. -/
def sideAt (d : List UInt8) (off : Nat) (s : Side) : Prop :=
  (s = .bid ∧ leAt d off 4 = 0) ∨ (s = .ask ∧ leAt d off 4 = 1)

/-- `Limit` is 0, `ImmediateOrCancel` 1, `PostOnly` 2, in 4 bytes. -/
def typeAt (d : List UInt8) (off : Nat) (t : OrderType) : Prop :=
  (t = .limit ∧ leAt d off 4 = 0) ∨ (t = .ioc ∧ leAt d off 4 = 1) ∨ (t = .postOnly ∧ leAt d off 4 = 2)

/-- `DecrementTake` is 0, `CancelProvide` 1, `AbortTransaction` 2, in 4 bytes. -/
def stbAt (d : List UInt8) (off : Nat) (b : SelfTradeBehavior) : Prop :=
  (b = .decrementTake ∧ leAt d off 4 = 0) ∨ (b = .cancelProvide ∧ leAt d off 4 = 1) ∨
    (b = .abortTransaction ∧ leAt d off 4 = 2)

/-- `x` is the non-zero number in the 8 bytes starting at `off`. -/
def positiveAt (d : List UInt8) (off x : Nat) : Prop := x = leAt d off 8 ∧ x ≠ 0

/-- The first 46 bytes of a limit order placed at `off`: all but the deadline. -/
def orderAt (d : List UInt8) (off : Nat) (o : NewOrderIx) : Prop :=
  sideAt d off o.side ∧ positiveAt d (off + 4) o.limitPrice ∧ positiveAt d (off + 12) o.maxCoinQty ∧
  positiveAt d (off + 20) o.maxPcQty ∧ stbAt d (off + 28) o.stb ∧ typeAt d (off + 32) o.orderType ∧
  o.clientId = leAt d (off + 36) 8 ∧ o.limit = leAt d (off + 44) 2

/-- A retired (version 1) order at `off`, 32 bytes. -/
def oldOrderAt (d : List UInt8) (off : Nat) (o : NewOrderV1Ix) : Prop :=
  sideAt d off o.side ∧ positiveAt d (off + 4) o.limitPrice ∧ positiveAt d (off + 12) o.maxQty ∧
  typeAt d (off + 20) o.orderType ∧ o.clientId = leAt d (off + 24) 8

/-- The bytes after the version and the kind (so from offset 5 on), per kind of instruction: total length and
where every field is. -/
def Payload (d : List UInt8) : Instruction → Prop
  | .initializeMarket i => d.length = 39 ∧ i.coinLotSize = leAt d 5 8 ∧ i.pcLotSize = leAt d 13 8 ∧
      i.feeRateBps = leAt d 21 2 ∧ i.vaultSignerNonce = leAt d 23 8 ∧ i.pcDustThreshold = leAt d 31 8
  | .newOrder o => d.length = 37 ∧ oldOrderAt d 5 o
  | .matchOrders l | .consumeEvents l | .prune l | .consumeEventsPermissioned l => d.length = 7 ∧ l = leAt d 5 2
  | .cancelOrder s id w slot => d.length = 58 ∧ sideAt d 5 s ∧ id = leAt d 9 16 ∧
      w = (leAt d 25 8, leAt d 33 8, leAt d 41 8, leAt d 49 8) ∧ slot = leAt d 57 1
  | .settleFunds | .disableMarket | .sweepFees | .closeOpenOrders | .initOpenOrders => d.length = 5
  | .cancelOrderByClientId c | .cancelOrderByClientIdV2 c => d.length = 13 ∧ c = leAt d 5 8
  | .newOrderV2 o b => d.length = 41 ∧ oldOrderAt d 5 o ∧ stbAt d 37 b
  | .newOrderV3 o => orderAt d 5 o ∧
      ((d.length = 59 ∧ i64At d 51 o.maxTs) ∨ (d.length = 51 ∧ o.maxTs = 2 ^ 63 - 1))
  | .cancelOrderV2 s id => d.length = 25 ∧ sideAt d 5 s ∧ id = leAt d 9 16
  | .sendTake o => d.length = 51 ∧ sideAt d 5 o.side ∧ positiveAt d 9 o.limitPrice ∧
      positiveAt d 17 o.maxCoinQty ∧ positiveAt d 25 o.maxPcQty ∧ o.minCoinQty = leAt d 33 8 ∧
      o.minPcQty = leAt d 41 8 ∧ o.limit = leAt d 49 2
  | .cancelOrdersByClientIds ids => ∃ n, n ≤ 8 ∧ d.length = 5 + 8 * n ∧ ids.length = 8 ∧
      ∀ j, j < 8 → ids[j]? = some (if j < n then leAt d (5 + 8 * j) 8 else 0)
  | .replaceOrderByClientId o => d.length = 59 ∧ orderAt d 5 o ∧ i64At d 51 o.maxTs
  | .replaceOrdersByClientIds os => os.length ≤ 8 ∧ d.length = 13 + 54 * os.length ∧ leAt d 5 8 = os.length ∧
      ∀ j o, os[j]? = some o → orderAt d (13 + 54 * j) o ∧ i64At d (59 + 54 * j) o.maxTs

/-- The number of each kind of instruction. -/
def kindOf : Instruction → Nat
  | .initializeMarket _ => 0
  | .newOrder _ => 1
  | .matchOrders _ => 2
  | .consumeEvents _ => 3
  | .cancelOrder .. => 4
  | .settleFunds => 5
  | .cancelOrderByClientId _ => 6
  | .disableMarket => 7
  | .sweepFees => 8
  | .newOrderV2 .. => 9
  | .newOrderV3 _ => 10
  | .cancelOrderV2 .. => 11
  | .cancelOrderByClientIdV2 _ => 12
  | .sendTake _ => 13
  | .closeOpenOrders => 14
  | .initOpenOrders => 15
  | .prune _ => 16
  | .consumeEventsPermissioned _ => 17
  | .cancelOrdersByClientIds _ => 18
  | .replaceOrderByClientId _ => 19
  | .replaceOrdersByClientIds _ => 20

/-- The bytes `d` are instruction `i` on the wire: version 0 in the first byte, the kind in the next four, then
the payload. -/
def Wire (d : List UInt8) (i : Instruction) : Prop :=
  leAt d 0 1 = 0 ∧ leAt d 1 4 = kindOf i ∧ Payload d i

/-! ### Reading at an offset -/

theorem leAt_ofLe (d : List UInt8) (off n : Nat) : leAt d off n = ofLe ((d.drop off).take n) := by
  induction n generalizing off with
  | zero => simp [leAt, ofLe]
  | succ n ih =>
    rw [leAt, ih]
    by_cases h : off < d.length
    · rw [List.drop_eq_getElem_cons h, List.take_succ_cons, ofLe]
      simp [List.getD, h]
    · have h1 : d.drop off = [] := List.drop_eq_nil_of_le (by omega)
      have h2 : d.drop (off + 1) = [] := List.drop_eq_nil_of_le (by omega)
      simp [h1, h2, ofLe, List.getD, List.getElem?_eq_none (Nat.le_of_not_lt h)]

theorem leAt_drop (d : List UInt8) (k off n : Nat) : leAt (d.drop k) off n = leAt d (k + off) n := by
  rw [leAt_ofLe, leAt_ofLe, List.drop_drop]

theorem readLe_drop (d : List UInt8) (off n : Nat) : readLe n (d.drop off) = (leAt d off n, d.drop (off + n)) := by
  rw [readLe, leAt_ofLe, List.drop_drop]

theorem leAt_lt (d : List UInt8) (off n : Nat) : leAt d off n < 256 ^ n := by
  induction n generalizing off with
  | zero => simp [leAt]
  | succ n ih =>
    have := (d.getD off 0).toNat_lt
    have := ih (off + 1)
    simp only [leAt, Nat.pow_succ]
    omega

/-- Only the bytes up to `m` matter below `m`. -/
theorem leAt_take {d : List UInt8} {m off n : Nat} (h : off + n ≤ m) : leAt (d.take m) off n = leAt d off n := by
  rw [leAt_ofLe, leAt_ofLe, List.drop_take, List.take_take, Nat.min_eq_left (by omega)]

theorem leAt_append {d r : List UInt8} {off n : Nat} (h : off + n ≤ d.length) : leAt (d ++ r) off n = leAt d off n := by
  rw [leAt_ofLe, leAt_ofLe, List.drop_append_of_le_length (by omega), List.take_append_of_le_length (by simp; omega)]

theorem side_iff (d : List UInt8) (off : Nat) (s : Side) : Side.ofCode (leAt d off 4) = some s ↔ sideAt d off s := by
  unfold sideAt Side.ofCode
  split <;> rename_i h <;> cases s <;> simp_all

theorem type_iff (d : List UInt8) (off : Nat) (t : OrderType) :
    OrderType.ofCode (leAt d off 4) = some t ↔ typeAt d off t := by
  unfold typeAt OrderType.ofCode
  split <;> rename_i h <;> cases t <;> simp_all

theorem stb_iff (d : List UInt8) (off : Nat) (b : SelfTradeBehavior) :
    SelfTradeBehavior.ofCode (leAt d off 4) = some b ↔ stbAt d off b := by
  unfold stbAt SelfTradeBehavior.ofCode
  split <;> rename_i h <;> cases b <;> simp_all

theorem signed_iff (d : List UInt8) (off : Nat) (t : Int) : i64OfNat (leAt d off 8) = t ↔ i64At d off t := by
  have := leAt_lt d off 8
  unfold i64At i64OfNat
  split <;> omega

section

attribute [local irreducible] leAt

theorem order_iff (d : List UInt8) (off : Nat) (o : NewOrderIx) :
    NewOrderIx.unpack (d.drop off) = some o ↔ orderAt d off o ∧ i64At d (off + 46) o.maxTs := by
  unfold NewOrderIx.unpack orderAt positiveAt
  simp only [readLe_drop, Nat.add_assoc, ← side_iff, ← type_iff, ← stb_iff, ← signed_iff]
  rcases o with ⟨s, p, c, q, b, t, cid, l, ts⟩
  cases Side.ofCode (leAt d off 4) <;> cases OrderType.ofCode (leAt d (off + 32) 4) <;>
    cases SelfTradeBehavior.ofCode (leAt d (off + 28) 4) <;>
    by_cases h1 : leAt d (off + 4) 8 = 0 <;> by_cases h2 : leAt d (off + 12) 8 = 0 <;>
    by_cases h3 : leAt d (off + 20) 8 = 0 <;>
    simp [h1, h2, h3, bind, Option.bind, pure]
  constructor
  · rintro ⟨rfl, rfl, rfl, rfl, rfl, rfl, rfl, rfl, rfl⟩
    simp [h1, h2, h3]
  · rintro ⟨⟨rfl, ⟨rfl, _⟩, ⟨rfl, _⟩, ⟨rfl, _⟩, rfl, rfl, rfl, rfl⟩, rfl⟩
    simp

theorem old_order_iff (d : List UInt8) (off : Nat) (o : NewOrderV1Ix) :
    NewOrderV1Ix.unpack (d.drop off) = some o ↔ oldOrderAt d off o := by
  unfold NewOrderV1Ix.unpack oldOrderAt positiveAt
  simp only [readLe_drop, Nat.add_assoc, ← side_iff, ← type_iff]
  rcases o with ⟨s, p, q, t, cid⟩
  cases Side.ofCode (leAt d off 4) <;> cases OrderType.ofCode (leAt d (off + 20) 4) <;>
    by_cases h1 : leAt d (off + 4) 8 = 0 <;> by_cases h2 : leAt d (off + 12) 8 = 0 <;>
    simp [h1, h2, bind, Option.bind, pure]
  rintro rfl
  constructor
  · rintro ⟨rfl, rfl, rfl, rfl⟩
    simp [h1, h2]
  · rintro ⟨⟨rfl, _⟩, ⟨rfl, _⟩, rfl, rfl⟩
    simp

theorem take_iff (d : List UInt8) (off : Nat) (o : SendTakeIx) :
    SendTakeIx.unpack (d.drop off) = some o ↔ sideAt d off o.side ∧ positiveAt d (off + 4) o.limitPrice ∧
      positiveAt d (off + 12) o.maxCoinQty ∧ positiveAt d (off + 20) o.maxPcQty ∧ o.minCoinQty = leAt d (off + 28) 8 ∧
      o.minPcQty = leAt d (off + 36) 8 ∧ o.limit = leAt d (off + 44) 2 := by
  unfold SendTakeIx.unpack positiveAt
  simp only [readLe_drop, Nat.add_assoc, ← side_iff]
  rcases o with ⟨s, p, c, q, mc, mp, l⟩
  cases Side.ofCode (leAt d off 4) <;>
    by_cases h1 : leAt d (off + 4) 8 = 0 <;> by_cases h2 : leAt d (off + 12) 8 = 0 <;>
    by_cases h3 : leAt d (off + 20) 8 = 0 <;>
    simp [h1, h2, h3, bind, Option.bind, pure]
  rintro rfl
  constructor
  · rintro ⟨rfl, rfl, rfl, rfl, rfl, rfl⟩
    simp [h1, h2, h3]
  · rintro ⟨⟨rfl, _⟩, ⟨rfl, _⟩, ⟨rfl, _⟩, rfl, rfl, rfl⟩
    simp

/-- Cutting off what follows an order does not matter. -/
theorem order_cut (d : List UInt8) (off : Nat) : NewOrderIx.unpack ((d.drop off).take 54) = NewOrderIx.unpack (d.drop off) := by
  have h : ∀ o, NewOrderIx.unpack ((d.drop off).take 54) = some o ↔ NewOrderIx.unpack (d.drop off) = some o := by
    intro o
    have h1 := order_iff ((d.drop off).take 54) 0 o
    rw [List.drop_zero] at h1
    have h2 := order_iff (d.drop off) 0 o
    rw [List.drop_zero] at h2
    rw [h1, h2]
    unfold orderAt positiveAt sideAt stbAt typeAt i64At
    simp only [Nat.zero_add]
    simp (disch := omega) only [leAt_take]
  exact Option.ext h

theorem old_order_cut (d : List UInt8) (off : Nat) :
    NewOrderV1Ix.unpack ((d.drop off).take 32) = NewOrderV1Ix.unpack (d.drop off) := by
  have h : ∀ o, NewOrderV1Ix.unpack ((d.drop off).take 32) = some o ↔ NewOrderV1Ix.unpack (d.drop off) = some o := by
    intro o
    have h1 := old_order_iff ((d.drop off).take 32) 0 o
    rw [List.drop_zero] at h1
    have h2 := old_order_iff (d.drop off) 0 o
    rw [List.drop_zero] at h2
    rw [h1, h2]
    unfold oldOrderAt positiveAt sideAt typeAt
    simp only [Nat.zero_add]
    simp (disch := omega) only [leAt_take]
  exact Option.ext h

theorem unpackOrders_iff (d : List UInt8) (n off : Nat) (os : List NewOrderIx) :
    unpackOrders n (d.drop off) = some os ↔ os.length = n ∧
      ∀ j o, os[j]? = some o →
        orderAt d (off + 54 * j) o ∧ i64At d (off + 46 + 54 * j) o.maxTs := by
  induction n generalizing off os with
  | zero =>
    cases os <;> simp [unpackOrders]
  | succ n ih =>
    rw [unpackOrders, order_cut, List.drop_drop]
    cases os with
    | nil =>
      cases NewOrderIx.unpack (d.drop off) <;> cases unpackOrders n (d.drop (off + 54)) <;> simp [bind, Option.bind, pure]
    | cons x xs =>
      have hx := order_iff d off x
      have hxs := ih (off + 54) xs
      have e : ((do
          let o ← NewOrderIx.unpack (d.drop off)
          let os ← unpackOrders n (d.drop (off + 54))
          return o :: os) = some (x :: xs)) ↔
          NewOrderIx.unpack (d.drop off) = some x ∧ unpackOrders n (d.drop (off + 54)) = some xs := by
        cases NewOrderIx.unpack (d.drop off) <;> cases unpackOrders n (d.drop (off + 54)) <;> simp [bind, Option.bind, pure]
      rw [e, hx, hxs]
      constructor
      · rintro ⟨h1, h2, h3⟩
        refine ⟨by simp [h2], fun j o hj => ?_⟩
        cases j with
        | zero =>
          simp only [List.getElem?_cons_zero, Option.some.injEq] at hj
          subst hj
          exact h1
        | succ j =>
          have := h3 j o hj
          rw [show off + 54 * (j + 1) = off + 54 + 54 * j by omega,
            show off + 46 + 54 * (j + 1) = off + 54 + 46 + 54 * j by omega]
          exact this
      · rintro ⟨h2, h3⟩
        refine ⟨h3 0 x rfl, by simpa using h2, fun j o hj => ?_⟩
        have := h3 (j + 1) o hj
        rw [show off + 54 * (j + 1) = off + 54 + 54 * j by omega,
            show off + 46 + 54 * (j + 1) = off + 54 + 46 + 54 * j by omega] at this
        exact this

theorem readIds_get (d : List UInt8) (n off : Nat) : (readIds n (d.drop off)).length = n ∧
    ∀ j, j < n → (readIds n (d.drop off))[j]? = some (leAt d (off + 8 * j) 8) := by
  induction n generalizing off with
  | zero => simp [readIds]
  | succ n ih =>
    obtain ⟨h1, h2⟩ := ih (off + 8)
    rw [readIds, List.drop_drop]
    refine ⟨by simp [h1], fun j hj => ?_⟩
    cases j with
    | zero => simp [leAt_ofLe]
    | succ j =>
      rw [List.getElem?_cons_succ, h2 j (by omega)]
      congr 2; omega

/-- Decoding by kind. -/
theorem body_iff (d : List UInt8) (k : Nat) (i : Instruction) (hlo : 5 ≤ d.length) (hhi : d.length ≤ 5 + 8 + 54 * 8) :
    Instruction.unpackBody k (d.drop 5) = some i ↔ k = kindOf i ∧ Payload d i := by
  have hl : (d.drop 5).length = d.length - 5 := by simp
  have hk (n : Nat) : d.length - 5 = n ↔ d.length = n + 5 := by omega
  have ho := order_iff d 5
  have hc := old_order_cut d
  unfold Instruction.unpackBody
  split
  case h_11 =>
    simp only [hl]
    by_cases h1 : d.length - 5 = 46
    · simp only [h1, if_true]
      cases i <;> simp [kindOf, Payload]
      rename_i o
      have h3 := order_iff (d.drop 5 ++ leBytes 8 (i64ToNat i64Max)) 0 o
      rw [List.drop_zero] at h3
      have h4 : i64At (d.drop 5 ++ leBytes 8 (i64ToNat i64Max)) (0 + 46) o.maxTs ↔ o.maxTs = 9223372036854775807 := by
        rw [← signed_iff, leAt_ofLe, Nat.zero_add, List.drop_left' (by omega), List.take_of_length_le (by simp),
          ofLe_leBytes _ _ (by decide)]
        exact eq_comm
      have h5 : orderAt (d.drop 5 ++ leBytes 8 (i64ToNat i64Max)) 0 o ↔ orderAt d 5 o := by
        unfold orderAt positiveAt sideAt stbAt typeAt
        simp (disch := omega) only [leAt_append, leAt_drop, Nat.zero_add, Nat.reduceAdd, Nat.add_zero]
      rw [h3, h4, h5]
      have : d.length = 51 := by omega
      simp [this]
    · by_cases h2 : d.length - 5 = 54
      · simp only [h2, if_true]
        cases i <;> simp [kindOf, Payload]
        rename_i o
        have : d.length = 59 := by omega
        simp [this, ho]
      · cases i <;> simp [kindOf, Payload, h1, h2]
        omega
  case h_19 =>
    simp only [hl]
    by_cases h1 : (d.length - 5) % 8 = 0 ∧ d.length - 5 ≤ 8 * 8
    · rw [if_pos h1]
      cases i <;> simp [kindOf, Payload]
      rename_i ids
      obtain ⟨h3, h4⟩ := readIds_get d ((d.length - 5) / 8) 5
      have h5 (j : Nat) (hj : j < 8) : (readIds ((d.length - 5) / 8) (d.drop 5) ++
          List.replicate (8 - (d.length - 5) / 8) 0)[j]? =
          some (if j < (d.length - 5) / 8 then leAt d (5 + 8 * j) 8 else 0) := by
        by_cases hj2 : j < (d.length - 5) / 8
        · rw [List.getElem?_append_left (by omega), h4 j hj2, if_pos hj2]
        · rw [List.getElem?_append_right (by omega), h3, List.getElem?_replicate, if_pos (by omega), if_neg hj2]
      constructor
      · rintro rfl
        exact ⟨(d.length - 5) / 8, by omega, by omega, by simp [h3]; omega, h5⟩
      · rintro ⟨n, hn, h6, h7, h8⟩
        have hn2 : (d.length - 5) / 8 = n := by omega
        rw [hn2] at h3 h5 ⊢
        apply List.ext_getElem?
        intro j
        by_cases hj : j < 8
        · rw [h8 j hj, h5 j hj]
        · rw [List.getElem?_eq_none (by simp [h3]; omega), List.getElem?_eq_none (by omega)]
    · rw [if_neg h1]
      cases i <;> simp [kindOf, Payload]
      intro n hn h2
      omega
  case h_21 =>
    simp only [hl]
    by_cases h1 : (d.length - 5) % 54 = 8 ∧ d.length - 5 ≤ 8 + 8 * 54
    · rw [if_pos h1]
      by_cases h2 : (readLe 8 (d.drop 5)).1 ≠ (d.length - 5 - 8) / 54
      · rw [if_pos h2]
        cases i <;> simp [kindOf, Payload]
        rw [readLe_drop] at h2
        intro h3 h4 h5
        exact absurd (by rw [h5]; omega) h2
      · rw [if_neg h2]
        cases i <;> simp [kindOf, Payload]
        rw [readLe_drop] at h2
        simp only [ne_eq, Decidable.not_not] at h2
        rw [unpackOrders_iff]
        constructor
        · rintro ⟨h3, h4⟩
          exact ⟨by omega, by omega, by omega, h4⟩
        · rintro ⟨h3, h4, h5, h6⟩
          exact ⟨by omega, h6⟩
    · rw [if_neg h1]
      cases i <;> simp [kindOf, Payload]
      omega
  case h_22 =>
    refine ⟨fun h => (by cases h), ?_⟩
    rintro ⟨rfl, _⟩
    cases i <;> simp_all [kindOf]
  all_goals (try simp only [hl])
  all_goals (try simp only [readLe_drop, leAt_drop])
  all_goals (cases i <;> simp only [kindOf, Payload] <;> (try simp [Option.map_eq_some_iff,
    Option.bind_eq_some_iff, bind, pure, hk, ho, hc, old_order_iff, take_iff, side_iff, stb_iff]))
  all_goals (try (intros; exact eq_comm))
  case h_1 ix =>
    intro _
    rcases ix with ⟨a, b, c, n, t⟩
    simp [eq_comm]
  case h_5 =>
    intro _
    constructor
    · rintro ⟨a, h, rfl, h'⟩
      exact ⟨h, by simpa [eq_comm] using h'⟩
    · rintro ⟨h, h'⟩
      exact ⟨_, h, rfl, by simpa [eq_comm] using h'⟩
  case h_12 =>
    intro _
    constructor
    · rintro ⟨a, h, rfl, h'⟩
      exact ⟨h, h'.symm⟩
    · rintro ⟨h, h'⟩
      exact ⟨_, h, rfl, h'.symm⟩

/-- C93. A byte string is accepted, as a given instruction, exactly when it is that instruction on the wire. -/
theorem wire_format (d : List UInt8) (i : Instruction) : Instruction.unpack d = some i ↔ Wire d i := by
  have h0 : readLe 1 d = (leAt d 0 1, d.drop 1) := by have := readLe_drop d 0 1; simpa using this
  unfold Instruction.unpack Wire
  rw [h0]
  simp only [readLe_drop]
  split
  · rename_i hl
    refine ⟨fun h => (by cases h), ?_⟩
    rintro ⟨_, _, h⟩
    exfalso
    cases i <;> simp only [Payload] at h
    case cancelOrdersByClientIds => obtain ⟨n, h1, h2, _⟩ := h; omega
    case replaceOrdersByClientIds => omega
    all_goals omega
  · rename_i hl
    by_cases hv : leAt d 0 1 = 0
    · simp only [hv, ne_eq, not_true_eq_false, if_false, true_and]
      exact body_iff d _ i (by omega) (by omega)
    · simp [hv]

/-- C93. What the client library sends for an instruction is that instruction on the wire. -/
theorem packed_is_wire (i : Instruction) (h : IxValid i) : Wire i.pack i :=
  (wire_format _ _).1 (instruction_round_trip i h)

end

/-! ### Example: a new order as bytes -/

/-- Sell 3 lots at 258 (`2 + 256`) or better for at most 70000 native quote units, post only, abort on self-trade,
client id 9, at most 5 fills, no deadline in the bytes. -/
def wireDemo : List UInt8 :=
  [0, 10, 0, 0, 0, 1, 0, 0, 0, 2, 1, 0, 0, 0, 0, 0, 0, 3, 0, 0, 0, 0, 0, 0, 0, 112, 17, 1, 0, 0, 0, 0, 0,
   2, 0, 0, 0, 2, 0, 0, 0, 9, 0, 0, 0, 0, 0, 0, 0, 5, 0]

example : Instruction.unpack wireDemo =
    some (.newOrderV3 ⟨.ask, 258, 3, 70000, .abortTransaction, .postOnly, 9, 5, 9223372036854775807⟩) := by
  rw [wire_format]
  refine ⟨rfl, rfl, ⟨.inr ⟨rfl, rfl⟩, ⟨rfl, by decide⟩, ⟨rfl, by decide⟩, ⟨rfl, by decide⟩,
    .inr (.inr ⟨rfl, rfl⟩), .inr (.inr ⟨rfl, rfl⟩), by decide +kernel, by decide +kernel⟩, .inr ⟨rfl, rfl⟩⟩

/-- Swapping the two amounts on the wire is noticed. -/
example : Wire wireDemo (.newOrderV3 ⟨.ask, 258, 3, 70000, .abortTransaction, .postOnly, 9, 5, 9223372036854775807⟩) ∧
    ¬ Wire wireDemo (.newOrderV3 ⟨.ask, 258, 70000, 3, .abortTransaction, .postOnly, 9, 5, 9223372036854775807⟩) := by
  refine ⟨(wire_format _ _).1 (by decide +kernel), fun h => ?_⟩
  have := h.2.2.1.2.2.1.1
  revert this
  decide +kernel

end Serum.Props
