import Verif.OpenOrders

/-!
Properties C11 (order ids; the history version is in `PropsSystem`) and C12 (open-orders slots).
-/

namespace Serum.Props

/-- C11, for the ids of any two orders of a side drawn with distinct sequence numbers: they differ;
lower ask price or earlier ask at the same price has the smaller id; higher bid price or earlier bid
at the same price has the larger id; the price is recovered from the id. -/
theorem order_id_priority (seq₁ seq₂ p₁ p₂ : Nat) (h₁ : seq₁ < 2 ^ 64) (h₂ : seq₂ < 2 ^ 64)
    (hp₁ : p₁ < 2 ^ 64) (_hp₂ : p₂ < 2 ^ 64) :
    (∀ side, seq₁ ≠ seq₂ → genOrderId seq₁ p₁ side ≠ genOrderId seq₂ p₂ side) ∧
    (genOrderId seq₁ p₁ .ask < genOrderId seq₂ p₂ .ask ↔ p₁ < p₂ ∨ p₁ = p₂ ∧ seq₁ < seq₂) ∧
    (genOrderId seq₂ p₂ .bid < genOrderId seq₁ p₁ .bid ↔ p₂ < p₁ ∨ p₁ = p₂ ∧ seq₁ < seq₂) ∧
    (∀ side, extractPrice (genOrderId seq₁ p₁ side) = p₁) ∧
    (∀ side, genOrderId seq₁ p₁ side < 2 ^ 128) := by
  have e1 : seq₁ < W64 := h₁
  have e2 : seq₂ < W64 := h₂
  refine ⟨?_, ?_, ?_, fun side => extractPrice_genOrderId e1 hp₁, fun side => genOrderId_lt e1 hp₁⟩
  · intro side
    rw [genOrderId_eq e1, genOrderId_eq e2]
    unfold W64 at *
    cases side <;> simp only <;> omega
  · rw [genOrderId_eq e1, genOrderId_eq e2]
    unfold W64 at *
    simp only; omega
  · rw [genOrderId_eq e1, genOrderId_eq e2]
    unfold W64 at *
    simp only; omega

example : genOrderId 7 100 .bid > genOrderId 8 100 .bid ∧ genOrderId 7 100 .ask < genOrderId 8 100 .ask ∧
    genOrderId 9 101 .bid > genOrderId 7 100 .bid := by decide

/-! ### Slots -/

/-- Specification: what a slot holds, `none` when free. -/
abbrev SlotMap := Nat → Option (Side × Nat × Nat)

/-- The slots of an account as a client reads them: side, order id, client id. -/
def slots (o : OpenOrders) : SlotMap := fun s =>
  if s < 128 then (o.slotSide s).map fun side => (side, o.orders.getD s 0, o.clientIds.getD s 0)
  else none

/-- Shape of an account: the two arrays have 128 entries. -/
def Shaped (o : OpenOrders) : Prop := o.orders.length = 128 ∧ o.clientIds.length = 128

/-- Placing an order: `add_order` followed by recording the client id, `state.rs` 3299-3301. -/
def place (o : OpenOrders) (id : Nat) (side : Side) (clientId : Nat) : Except Err (Nat × OpenOrders) := do
  let (slot, o') ← o.addOrder id side
  return (slot, { o' with clientIds := o'.clientIds.set slot clientId })

/-- C12. Placing an order uses a slot that was free, records side, id and client id there and leaves
the other slots and all balances untouched; it fails exactly when all 128 slots are in use; removing
an order frees exactly its slot; listing the in-use slots yields each once. -/
theorem slots_never_collide (o : OpenOrders) (h : Shaped o) :
    (∀ id side cid,
      (∃ slot o', place o id side cid = .ok (slot, o') ∧ slot < 128 ∧ slots o slot = none ∧
        (∀ s, slots o' s = if s = slot then some (side, id, cid) else slots o s) ∧ Shaped o' ∧
        o'.coinFree = o.coinFree ∧ o'.coinTotal = o.coinTotal ∧ o'.pcFree = o.pcFree ∧
        o'.pcTotal = o.pcTotal ∧ o'.owner = o.owner ∧ o'.rebates = o.rebates) ∨
      ((∃ e, place o id side cid = .error e) ∧ ∀ s < 128, slots o s ≠ none)) ∧
    (∀ slot,
      (∃ o', o.removeOrder slot = .ok o' ∧ slots o slot ≠ none ∧
        (∀ s, slots o' s = if s = slot then none else slots o s) ∧ Shaped o' ∧
        o'.coinFree = o.coinFree ∧ o'.coinTotal = o.coinTotal ∧ o'.pcFree = o.pcFree ∧
        o'.pcTotal = o.pcTotal ∧ o'.owner = o.owner ∧ o'.rebates = o.rebates) ∨
      ((∃ e, o.removeOrder slot = .error e) ∧ slots o slot = none)) ∧
    o.filledSlots.Nodup ∧ ∀ s, s ∈ o.filledSlots ↔ slots o s ≠ none := by
  refine ⟨?_, ?_, ?_, ?_⟩
  · intro id side cid
    by_cases hz : o.freeBits = 0
    · right
      refine ⟨⟨.tooManyOpenOrders, by simp [place, addOrder_full hz, bind, Except.bind]⟩, ?_⟩
      intro s hs
      have := (freeBits_zero_iff o).1 hz s hs
      simp [slots, hs, this]
    · left
      obtain ⟨slot, f, b, e, h1, h2, h3⟩ := addOrder_spec hz id side
      refine ⟨slot, { o with
        freeBits := f
        bidBits := b
        orders := o.orders.set slot id
        clientIds := o.clientIds.set slot cid },
        by simp only [place, e, bind, Except.bind, pure, Except.pure], h1,
        by simp [slots, h2], ?_, ?_, rfl, rfl, rfl, rfl, rfl, rfl⟩
      · intro s
        by_cases hs : s < 128
        · have h3' := h3 s hs
          simp only [slots, hs, if_true]
          have h3'' : ({ o with
              freeBits := f
              bidBits := b
              orders := o.orders.set slot id
              clientIds := o.clientIds.set slot cid } : OpenOrders).slotSide s =
              if s = slot then some side else o.slotSide s := h3'
          simp only [h3'']
          by_cases hss : s = slot
          · subst hss
            simp [List.getD_eq_getElem?_getD, h.1, h.2, h1]
          · simp only [hss, if_false]
            have : slot ≠ s := fun e => hss e.symm
            simp [List.getD_eq_getElem?_getD, List.getElem?_set_ne this]
        · have : s ≠ slot := by omega
          simp [slots, hs, this]
      · simp [Shaped, h.1, h.2]
  · intro slot
    by_cases hs : slot < 128 ∧ o.slotSide slot ≠ none
    · left
      obtain ⟨f, b, e, h3⟩ := removeOrder_spec hs.1 hs.2
      refine ⟨_, e, by simp [slots, hs.1, hs.2], ?_, by simp [Shaped, h.1, h.2], rfl, rfl, rfl, rfl,
        rfl, rfl⟩
      intro s
      by_cases hs' : s < 128
      · simp only [slots, hs', if_true, h3 s hs']
        by_cases hss : s = slot
        · simp [hss]
        · simp only [hss, if_false]
          have : slot ≠ s := fun e => hss e.symm
          simp [List.getD_eq_getElem?_getD, List.getElem?_set_ne this]
      · simp [slots, hs']
    · right
      have hcase : 128 ≤ slot ∨ o.slotSide slot = none := by
        by_cases h1 : slot < 128
        · right; exact Classical.not_not.1 fun h2 => hs ⟨h1, h2⟩
        · left; omega
      refine ⟨⟨_, removeOrder_fail hcase⟩, ?_⟩
      unfold slots
      split
      · rcases hcase with h' | h'
        · omega
        · rw [h']; rfl
      · rfl
  · rw [filledSlots_eq]
    exact List.nodup_range.sublist List.filter_sublist
  · intro s
    rw [mem_filledSlots]
    unfold slots
    by_cases hs : s < 128
    · simp [hs]
    · simp [hs]

-- a fresh account has the right shape, and two placements take slots 0 and 1
example : Shaped (OpenOrders.init 5) := by simp [Shaped, OpenOrders.init]
example : (place (OpenOrders.init 5) 900 .bid 11).toOption.map (·.1) = some 0 := by decide
example : ((place (OpenOrders.init 5) 900 .bid 11).toOption.bind fun r =>
    ((place r.2 901 .ask 12).toOption.map fun q => (q.1, slots q.2 0, slots q.2 1, slots q.2 2))) =
    some (1, some (.bid, 900, 11), some (.ask, 901, 12), none) := by rfl

end Serum.Props
