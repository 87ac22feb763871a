import Verif.PropsCodec

/-!
C13, for a reader of the raw record: which number each field of a written event is.
-/

namespace Serum.Props

/-- The flag byte: 1 for a fill, 2 for an out event, and 4 if the order is a bid, 8 if the account is the maker,
16 if funds are to be released. -/
def flagByte (fill : Bool) (side : Side) (maker release : Bool) : Nat :=
  (if fill then 1 else 2) + (if side = .bid then 4 else 0) + (if maker then 8 else 0) + (if release then 16 else 0)

/-- C13, field by field. A fill carries the traded amounts, the fee and the tier; an out event what was released and what stays
locked, and zeros where a fill has its tier and fee. -/
theorem event_fields :
    (∀ side maker paid received fee id owner slot tier cid,
      Event.new (.fill side maker paid received fee id owner slot tier cid) =
        { flags := flagByte true side maker false, ownerSlot := slot, feeTier := tier.toU8, released := received, paid := paid,
          feeOrRebate := fee, orderId := id, owner := owner, clientId := cid }) ∧
    (∀ side release unlocked still id owner slot cid,
      Event.new (.out side release unlocked still id owner slot cid) =
        { flags := flagByte false side false release, ownerSlot := slot, feeTier := 0, released := unlocked, paid := still,
          feeOrRebate := 0, orderId := id, owner := owner, clientId := cid }) := by
  constructor
  · intro side maker paid received fee id owner slot tier cid
    cases side <;> cases maker <;> rfl
  · intro side release unlocked still id owner slot cid
    cases side <;> cases release <;> rfl

-- a bid's end, with funds to release
example : (Event.new (.out .bid true 700 0 5 41 3 9)).flags = 22 := by decide

end Serum.Props
