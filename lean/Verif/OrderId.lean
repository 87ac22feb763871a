import Verif.Arith

/-
Order identifiers: `RequestQueue::gen_order_id`, `dex/src/state.rs` 905-921, and
`extract_price_from_order_id` / `LeafNode::price`, `matching.rs` 61, `critbit.rs` 92.
-/

namespace Serum

/-- `Side`, `matching.rs` 38-47. -/
inductive Side where
  | bid | ask
  deriving DecidableEq, Repr

/-- `gen_order_id`, `state.rs` 906-914, as a function of the sequence number drawn by
`gen_seq_num` (916-920, returns the counter and increments it, wrapping). -/
def genOrderId (seqNum limitPrice : Nat) (side : Side) : Nat :=
  let upper := limitPrice <<< 64
  let lower := match side with
    | .bid => W64 - 1 - seqNum      -- `!seq_num` on u64
    | .ask => seqNum
  upper ||| lower

/-- `(key >> 64) as u64`, `critbit.rs` 93 and `matching.rs` 61-63. -/
def extractPrice (orderId : Nat) : Nat := (orderId >>> 64) % W64

theorem genOrderId_eq {seqNum price : Nat} {side : Side} (hs : seqNum < W64) :
    genOrderId seqNum price side =
      price * W64 + (match side with | .bid => W64 - 1 - seqNum | .ask => seqNum) := by
  unfold genOrderId
  have h : (match side with | .bid => W64 - 1 - seqNum | .ask => seqNum) < 2 ^ 64 := by
    cases side <;> simp <;> unfold W64 at * <;> omega
  simp only
  rw [← Nat.shiftLeft_add_eq_or_of_lt h, Nat.shiftLeft_eq]
  rfl

theorem genOrderId_lt {seqNum price : Nat} {side : Side} (hs : seqNum < W64) (hp : price < W64) :
    genOrderId seqNum price side < W128 := by
  rw [genOrderId_eq hs]
  unfold W64 W128 at *
  cases side <;> simp <;> omega

theorem extractPrice_genOrderId {seqNum price : Nat} {side : Side} (hs : seqNum < W64)
    (hp : price < W64) : extractPrice (genOrderId seqNum price side) = price := by
  rw [genOrderId_eq hs]
  unfold extractPrice
  rw [Nat.shiftRight_eq_div_pow]
  unfold W64 at *
  cases side <;> simp <;> omega

end Serum
