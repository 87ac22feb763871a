import Verif.Blame
import Verif.Lossy

/-
What an order needs of the event queue: room for three events for every order it meets and two more.
-/

namespace Serum

/-- More room in the queue. -/
def Ob.grow (ob : Ob lst) (n : Nat) : Ob lst := { ob with q := ⟨ob.q.items, max ob.q.cap (ob.q.items.length + n)⟩ }

theorem grown_grow (ob : Ob lst) (n : Nat) : Grown ob (ob.grow n) :=
  ⟨rfl, rfl, rfl, Nat.le_max_left _ _, rfl, rfl⟩

theorem relax_ne (b : SelfTradeBehavior) : b.relax ≠ .abortTransaction := by
  cases b <;> decide

/-- With amounts that fit, the engine fails only because the queue is full or the sender asked not to trade with
themselves. -/
theorem order_tame {o : OrderParams} (ho : OrderOk o) (hk : o.orderId < 2 ^ 128) {limit : Nat} {ob : Ob lst} {coin pc : Nat}
    (h1 : RoundIn o ob coin pc) (h2 : match o.side with | .bid => pc ≠ 0 | .ask => pc = 0) (h3 : Roomy (ob.own o.side))
    (h4 : PrFit o ob coin pc) {e : Err} (he : newOrderLoop lst o limit ob coin pc = .error e) : Tame e := by
  refine Loss.tame (loss_newOrderLoop o hk limit (grown_grow ob (3 * limit + 2)) coin pc) ?_ he
  refine loop_runs (o := o.relax) ⟨ho.price, ho.take⟩ ⟨?_, h2, h3, h4, fun _ _ _ => relax_ne _, ?_⟩
  · exact ⟨h1.1, h1.2, h1.3, h1.4, h1.5, h1.6, h1.7⟩
  · exact Nat.le_max_right _ _

/-- With amounts that fit, room for three events for every order that is met and two more, and no own order among them
if the sender asked not to trade with themselves, the engine returns. -/
theorem loop_runs_met {o : OrderParams} (ho : OrderOk o) (hk : o.orderId < 2 ^ 128) {limit : Nat} {ob : Ob lst}
    {coin pc : Nat} (h1 : RoundIn o ob coin pc) (h2 : match o.side with | .bid => pc ≠ 0 | .ask => pc = 0)
    (h3 : Roomy (ob.own o.side)) (h4 : PrFit o ob coin pc)
    (hab : o.stb = .abortTransaction →
      ∀ t ∈ (Want.of o ob.mkt).takes limit (opposite o.side ob.bids.items ob.asks.items) coin pc, t.maker.owner ≠ o.owner)
    (hroom : ob.q.items.length +
      (3 * ((Want.of o ob.mkt).takes limit (opposite o.side ob.bids.items ob.asks.items) coin pc).length + 2) ≤ ob.q.cap) :
    Runs (newOrderLoop lst o limit ob coin pc) := by
  cases hx : newOrderLoop lst o limit ob coin pc with
  | ok a => exact ⟨a, rfl⟩
  | error e =>
    have ht := order_tame ho hk h1 h2 h3 h4 hx
    rcases loop_blame ho h1 (fun hs => by rw [hs] at h2; exact h2) hx with hd | ⟨_, hs, t, htm, hto⟩ | ⟨_, hr⟩
    · rcases hd with rfl | rfl <;> rcases ht with ht | ht <;> cases ht
    · exact absurd hto (hab hs t htm)
    · omega

end Serum
