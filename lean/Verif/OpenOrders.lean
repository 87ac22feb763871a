import Verif.OrderId

/-
Model of the open-orders account, `dex/src/state.rs` 584-749.
-/

namespace Serum

/-- `OpenOrders`, `state.rs` 587-604. `closed` abstracts `account_flags`: an initialised account
carries `Initialized | OpenOrders`, a closed one just `Closed` (`state.rs` 2896-2915), which
`check_flags` (611-619) rejects.
The `market` field is left out: the model has one market and its map of open-orders accounts holds
only accounts whose `market` field is that market (see `Verif.Processor`). The two `[_; 128]` arrays
are lists. -/
structure OpenOrders where
  closed : Bool
  owner : Nat
  coinFree : Nat
  coinTotal : Nat
  pcFree : Nat
  pcTotal : Nat
  freeBits : BitVec 128
  bidBits : BitVec 128
  orders : List Nat
  clientIds : List Nat
  rebates : Nat
  deriving DecidableEq, Repr

/-- `u128::trailing_zeros`: 128 for zero. -/
def ctz (b : BitVec 128) : Nat := ((List.range 128).find? (fun i => b.getLsbD i)).getD 128

/-- `1u128 << slot` for a `u8` slot (release builds mask the shift amount). -/
def slotMask (slot : Nat) : BitVec 128 := 1#128 <<< (slot % 128)

namespace OpenOrders

/-- `OpenOrders::init` on a zeroed account, `state.rs` 619-630. Fields the function does not write
(`is_bid_bits`, `orders`, `client_order_ids`, `referrer_rebates_accrued`) keep the zero bytes of the
freshly allocated account. -/
def init (owner : Nat) : OpenOrders :=
  { closed := false, owner, coinFree := 0, coinTotal := 0, pcFree := 0, pcTotal := 0,
    freeBits := BitVec.allOnes 128, bidBits := 0,
    orders := List.replicate 128 0, clientIds := List.replicate 128 0, rebates := 0 }

/-- `credit_locked_coin`, `state.rs` 632-637. -/
def creditLockedCoin (o : OpenOrders) (n : Nat) : Except Err OpenOrders := do
  let t ← unwrap (checkedAdd o.coinTotal n)
  return { o with coinTotal := t }

/-- `credit_locked_pc`, `state.rs` 639-641. -/
def creditLockedPc (o : OpenOrders) (n : Nat) : Except Err OpenOrders := do
  let t ← unwrap (checkedAdd o.pcTotal n)
  return { o with pcTotal := t }

/-- `lock_free_coin`, `state.rs` 643-648. -/
def lockFreeCoin (o : OpenOrders) (n : Nat) : Except Err OpenOrders := do
  let t ← unwrap (checkedSub o.coinFree n)
  return { o with coinFree := t }

/-- `lock_free_pc`, `state.rs` 650-652. -/
def lockFreePc (o : OpenOrders) (n : Nat) : Except Err OpenOrders := do
  let t ← unwrap (checkedSub o.pcFree n)
  return { o with pcFree := t }

/-- `unlock_coin`, `state.rs` 654-660. -/
def unlockCoin (o : OpenOrders) (n : Nat) : Except Err OpenOrders := do
  let f ← unwrap (checkedAdd o.coinFree n)
  rustAssert (f ≤ o.coinTotal)
  return { o with coinFree := f }

/-- `unlock_pc`, `state.rs` 662-665. -/
def unlockPc (o : OpenOrders) (n : Nat) : Except Err OpenOrders := do
  let f ← unwrap (checkedAdd o.pcFree n)
  rustAssert (f ≤ o.pcTotal)
  return { o with pcFree := f }

/-- `slot_is_free`, `state.rs` 667-670. -/
def slotIsFree (o : OpenOrders) (slot : Nat) : Bool := (o.freeBits &&& slotMask slot) != 0

/-- `slot_side`, `state.rs` 706-715. -/
def slotSide (o : OpenOrders) (slot : Nat) : Option Side :=
  if (o.freeBits &&& slotMask slot) != 0 then none
  else if (o.bidBits &&& slotMask slot) != 0 then some .bid
  else some .ask

/-- Iterator of `iter_filled_slots`, `state.rs` 673-694 (`fuel` iterations; 129 suffice). -/
def filledFrom (bits : BitVec 128) : Nat → List Nat
  | 0 => []
  | fuel + 1 =>
    if bits == 0 then []
    else
      let next := ctz bits
      next :: filledFrom (bits &&& ~~~ (slotMask next)) fuel

/-- `iter_filled_slots`, `state.rs` 673-694. -/
def filledSlots (o : OpenOrders) : List Nat := filledFrom (~~~ o.freeBits) 129

/-- `orders[slot]`; out of range is a Rust index panic. -/
def orderAt (o : OpenOrders) (slot : Nat) : Option Nat := o.orders[slot]?

/-- `orders_with_client_ids`, `state.rs` 697-704: (client id, order id, side) of every in-use slot
whose client id is not zero. -/
def ordersWithClientIds (o : OpenOrders) : List (Nat × Nat × Side) :=
  o.filledSlots.filterMap fun slot =>
    match o.clientIds[slot]?, o.orders[slot]?, o.slotSide slot with
    | some cid, some oid, some side => if cid == 0 then none else some (cid, oid, side)
    | _, _, _ => none

/-- `remove_order`, `state.rs` 717-728. -/
def removeOrder (o : OpenOrders) (slot : Nat) : Except Err OpenOrders := do
  checkAssert (slot < 128)
  checkAssert (!o.slotIsFree slot)
  return { o with
    orders := o.orders.set slot 0
    clientIds := o.clientIds.set slot 0
    freeBits := o.freeBits ||| slotMask slot
    bidBits := o.bidBits &&& ~~~ (slotMask slot) }

/-- `add_order`, `state.rs` 730-748. -/
def addOrder (o : OpenOrders) (id : Nat) (side : Side) : Except Err (Nat × OpenOrders) := do
  if o.freeBits == 0 then throw .tooManyOpenOrders
  let slot := ctz o.freeBits
  checkAssert (o.slotIsFree slot)
  let bidBits := match side with
    | .bid => o.bidBits ||| slotMask slot
    | .ask => o.bidBits &&& ~~~ (slotMask slot)
  return (slot, { o with
    freeBits := o.freeBits &&& ~~~ (slotMask slot)
    bidBits := bidBits
    orders := o.orders.set slot id })

end OpenOrders

/-! ### Bit-level facts -/

theorem slotMask_getLsbD {s i : Nat} (hs : s < 128) :
    (slotMask s).getLsbD i = decide (i = s) := by
  unfold slotMask
  rw [Nat.mod_eq_of_lt hs]
  simp only [BitVec.getLsbD_shiftLeft, BitVec.getLsbD_one]
  by_cases h : i = s
  · subst h; simp [hs]
  · simp [h]; omega

theorem and_mask_ne_zero (b : BitVec 128) {s : Nat} (hs : s < 128) :
    ((b &&& slotMask s) != 0) = b.getLsbD s := by
  cases h : b.getLsbD s with
  | false =>
    have : b &&& slotMask s = 0 := by
      apply BitVec.eq_of_getLsbD_eq
      intro i hi
      rw [BitVec.getLsbD_and, slotMask_getLsbD hs]
      by_cases hi : i = s
      · subst hi; simp [h]
      · simp [hi]
    simp [this]
  | true =>
    have : b &&& slotMask s ≠ 0 := by
      intro h0
      have h1 : (b &&& slotMask s).getLsbD s = true := by
        rw [BitVec.getLsbD_and, slotMask_getLsbD hs]; simp [h]
      rw [h0] at h1
      simp at h1
    simpa using this

theorem ctz_eq_of (b : BitVec 128) (hb : b ≠ 0) :
    ctz b < 128 ∧ b.getLsbD (ctz b) = true ∧ ∀ j < ctz b, b.getLsbD j = false := by
  unfold ctz
  cases hf : (List.range 128).find? (fun i => b.getLsbD i) with
  | none =>
    exfalso; apply hb
    apply BitVec.eq_of_getLsbD_eq
    intro i hi
    rw [List.find?_eq_none] at hf
    have := hf i (List.mem_range.2 hi)
    simpa using this
  | some s =>
    simp only [Option.getD_some]
    rw [List.find?_range_eq_some] at hf
    obtain ⟨h1, h2, h3⟩ := hf
    refine ⟨List.mem_range.1 h2, h1, fun j hj => ?_⟩
    simpa using h3 j hj

theorem slotIsFree_eq (o : OpenOrders) {s : Nat} (hs : s < 128) :
    o.slotIsFree s = o.freeBits.getLsbD s := and_mask_ne_zero _ hs

theorem slotSide_eq (o : OpenOrders) {s : Nat} (hs : s < 128) :
    o.slotSide s = if o.freeBits.getLsbD s then none
      else if o.bidBits.getLsbD s then some .bid else some .ask := by
  unfold OpenOrders.slotSide
  rw [and_mask_ne_zero _ hs, and_mask_ne_zero _ hs]

theorem slotSide_none_iff (o : OpenOrders) {s : Nat} (hs : s < 128) :
    o.slotSide s = none ↔ o.freeBits.getLsbD s = true := by
  rw [slotSide_eq o hs]; split <;> simp_all; split <;> simp

/-- The iterator yields exactly the set bits, in ascending order. -/
theorem filledFrom_eq (fuel lo : Nat) (bits : BitVec 128) (hlo : lo ≤ 128)
    (hlow : ∀ j < lo, bits.getLsbD j = false) (hf : 128 - lo < fuel) :
    OpenOrders.filledFrom bits fuel = (List.range' lo (128 - lo)).filter (fun i => bits.getLsbD i) := by
  induction fuel generalizing lo bits with
  | zero => omega
  | succ n ih =>
    unfold OpenOrders.filledFrom
    by_cases hz : bits = 0
    · subst hz; simp
    · rw [if_neg (by simpa using hz)]
      obtain ⟨h1, h2, h3⟩ := ctz_eq_of bits hz
      simp only
      generalize hs : ctz bits = s at *
      have hle : lo ≤ s := by
        apply Nat.le_of_not_lt; intro hlt
        rw [hlow s hlt] at h2; cases h2
      have hget : ∀ j, (bits &&& ~~~ (slotMask s)).getLsbD j = (bits.getLsbD j && decide (j ≠ s)) := by
        intro j
        rw [BitVec.getLsbD_and, BitVec.getLsbD_not, slotMask_getLsbD h1]
        by_cases hj : j < 128
        · simp [hj]
        · have : bits.getLsbD j = false := BitVec.getLsbD_of_ge _ _ (by omega)
          simp [this]
      rw [ih (s+1) _ (by omega) ?_ (by omega)]
      · have hsplit : List.range' lo (128 - lo)
            = List.range' lo (s - lo) ++ s :: List.range' (s+1) (128 - (s+1)) := by
          have e1 : 128 - lo = (s - lo) + (1 + (128 - (s+1))) := by omega
          rw [e1, ← List.range'_append_1, ← List.range'_append_1]
          have e2 : lo + (s - lo) = s := by omega
          rw [e2]; rfl
        rw [hsplit, List.filter_append]
        have hnil : (List.range' lo (s - lo)).filter (fun i => bits.getLsbD i) = [] := by
          rw [List.filter_eq_nil_iff]
          intro a ha
          rw [List.mem_range'_1] at ha
          rw [h3 a (by omega)]; simp
        rw [hnil, List.nil_append, List.filter_cons_of_pos (by simpa using h2)]
        congr 1
        apply List.filter_congr
        intro a ha
        rw [List.mem_range'_1] at ha
        rw [hget]
        have : a ≠ s := by omega
        simp [this]
      · intro j hj
        rw [hget]
        by_cases h : j = s
        · simp [h]
        · rw [h3 j (by omega)]; rfl

theorem filledSlots_eq (o : OpenOrders) :
    o.filledSlots = (List.range 128).filter (fun i => !o.freeBits.getLsbD i) := by
  unfold OpenOrders.filledSlots
  rw [filledFrom_eq 129 0 _ (by omega) (by intro j hj; omega) (by omega), List.range_eq_range']
  apply List.filter_congr
  intro a ha
  rw [List.mem_range'_1] at ha
  rw [BitVec.getLsbD_not]
  simp; omega

theorem mem_filledSlots (o : OpenOrders) (s : Nat) :
    s ∈ o.filledSlots ↔ s < 128 ∧ o.slotSide s ≠ none := by
  rw [filledSlots_eq, List.mem_filter, List.mem_range]
  constructor
  · rintro ⟨h, hb⟩
    refine ⟨h, ?_⟩
    rw [ne_eq, slotSide_none_iff o h]; simpa using hb
  · rintro ⟨h, hb⟩
    refine ⟨h, ?_⟩
    rw [ne_eq, slotSide_none_iff o h] at hb; simpa using hb

/-! ### Specifications of `add_order` and `remove_order` -/

theorem getLsbD_clear (b : BitVec 128) {s : Nat} (hs : s < 128) {j : Nat} (hj : j < 128) :
    (b &&& ~~~ (slotMask s)).getLsbD j = (b.getLsbD j && decide (j ≠ s)) := by
  rw [BitVec.getLsbD_and, BitVec.getLsbD_not, slotMask_getLsbD hs]
  simp [hj]

theorem getLsbD_setBit (b : BitVec 128) {s : Nat} (hs : s < 128) (j : Nat) :
    (b ||| slotMask s).getLsbD j = (b.getLsbD j || decide (j = s)) := by
  rw [BitVec.getLsbD_or, slotMask_getLsbD hs]

theorem addOrder_full {o : OpenOrders} (h : o.freeBits = 0) (id : Nat) (side : Side) :
    o.addOrder id side = .error .tooManyOpenOrders := by
  unfold OpenOrders.addOrder; simp [h, bind, Except.bind, throw, throwThe, MonadExceptOf.throw]

theorem addOrder_spec {o : OpenOrders} (h : o.freeBits ≠ 0) (id : Nat) (side : Side) :
    ∃ slot f b, o.addOrder id side =
        .ok (slot, { o with freeBits := f, bidBits := b, orders := o.orders.set slot id }) ∧
      slot < 128 ∧ o.slotSide slot = none ∧
      ∀ j < 128, ({ o with freeBits := f, bidBits := b, orders := o.orders.set slot id }).slotSide j =
        if j = slot then some side else o.slotSide j := by
  obtain ⟨h1, h2, h3⟩ := ctz_eq_of o.freeBits h
  have hfree : o.slotIsFree (ctz o.freeBits) = true := by rw [slotIsFree_eq o h1]; exact h2
  refine ⟨ctz o.freeBits, o.freeBits &&& ~~~ (slotMask (ctz o.freeBits)), match side with
    | .bid => o.bidBits ||| slotMask (ctz o.freeBits)
    | .ask => o.bidBits &&& ~~~ (slotMask (ctz o.freeBits)), ?_, h1, ?_, ?_⟩
  · unfold OpenOrders.addOrder
    simp only [beq_iff_eq, h, if_false, bind, Except.bind, pure, Except.pure, checkAssert, hfree,
      if_true]
  · rw [slotSide_none_iff o h1]; exact h2
  · intro j hj
    rw [slotSide_eq _ hj, slotSide_eq _ hj]
    simp only [getLsbD_clear _ h1 hj]
    by_cases hjs : j = ctz o.freeBits
    · simp only [hjs, ne_eq, not_true, decide_false, Bool.and_false, Bool.false_eq_true, if_false,
        if_true]
      cases side with
      | bid => simp [getLsbD_setBit _ h1]
      | ask => simp only [getLsbD_clear _ h1 h1]; simp
    · simp only [ne_eq, hjs, not_false_eq_true, decide_true, Bool.and_true, if_false]
      cases side with
      | bid => simp [getLsbD_setBit _ h1, hjs]
      | ask => simp only [getLsbD_clear _ h1 hj]; simp [hjs]

/-- All slots free. -/
theorem freeBits_allOnes_iff (o : OpenOrders) :
    o.freeBits = BitVec.allOnes 128 ↔ ∀ j < 128, o.slotSide j = none := by
  constructor
  · intro h j hj
    rw [slotSide_none_iff o hj, h, BitVec.getLsbD_allOnes, decide_eq_true hj]
  · intro h
    apply BitVec.eq_of_getLsbD_eq
    intro i hi
    have := h i hi
    rw [slotSide_none_iff o hi] at this
    rw [this, BitVec.getLsbD_allOnes, decide_eq_true hi]

/-- No slot free. -/
theorem freeBits_zero_iff (o : OpenOrders) :
    o.freeBits = 0 ↔ ∀ j < 128, o.slotSide j ≠ none := by
  constructor
  · intro h j hj
    rw [ne_eq, slotSide_none_iff o hj, h]; simp
  · intro h
    apply BitVec.eq_of_getLsbD_eq
    intro i hi
    have := h i hi
    rw [ne_eq, slotSide_none_iff o hi] at this
    simp at this
    simp [this]

theorem removeOrder_spec {o : OpenOrders} {slot : Nat} (hs : slot < 128)
    (hside : o.slotSide slot ≠ none) :
    ∃ f b, o.removeOrder slot =
        .ok { o with freeBits := f, bidBits := b, orders := o.orders.set slot 0,
                     clientIds := o.clientIds.set slot 0 } ∧
      ∀ j < 128, ({ o with freeBits := f, bidBits := b, orders := o.orders.set slot 0,
                           clientIds := o.clientIds.set slot 0 }).slotSide j =
        if j = slot then none else o.slotSide j := by
  have hfree : o.slotIsFree slot = false := by
    rw [slotIsFree_eq o hs]
    rw [ne_eq, slotSide_none_iff o hs] at hside; simpa using hside
  refine ⟨o.freeBits ||| slotMask slot, o.bidBits &&& ~~~ (slotMask slot), ?_, ?_⟩
  · unfold OpenOrders.removeOrder
    simp only [bind, Except.bind, pure, Except.pure, checkAssert, hs, decide_true, hfree, Bool.not_false,
      if_true]
  · intro j hj
    rw [slotSide_eq _ hj, slotSide_eq _ hj]
    simp only [getLsbD_setBit _ hs, getLsbD_clear _ hs hj]
    by_cases hjs : j = slot
    · simp [hjs]
    · simp [hjs]

theorem removeOrder_fail {o : OpenOrders} {slot : Nat} (h : 128 ≤ slot ∨ o.slotSide slot = none) :
    o.removeOrder slot = .error .assertion := by
  unfold OpenOrders.removeOrder
  by_cases hs : slot < 128
  · have hn : o.slotSide slot = none := by rcases h with h | h; omega; exact h
    have hfree : o.slotIsFree slot = true := by
      rw [slotIsFree_eq o hs]; rwa [slotSide_none_iff o hs] at hn
    simp [bind, Except.bind, checkAssert, hs, hfree]
  · simp [bind, Except.bind, checkAssert, hs]

end Serum
