import Verif.PropsSame
import Verif.PropsWhatIf
import Verif.PropsReplace

/-
C65, C66: how much room in the event queue is enough. An order needs room for three events for every resting order it
meets and two more; here is how many it can meet.
-/

namespace Serum.Props

/-- An order that takes only part of a resting order, and not because it is the sender's own, meets no other. -/
theorem takes_stop (w : Want) (hlot : 0 < w.pcLot) {l : Leaf} (hpl : 0 < l.price) {k coin pc : Nat} (hq : pc < W64)
    (hne : w.lots l coin pc ≠ l.quantity) (L : List Leaf) :
    w.takes k (cutFirst l (w.lots l coin pc) L) (coin - w.lots l coin pc)
      (pc - (w.lots l coin pc * l.price * w.pcLot + w.tier.takerFee (w.lots l coin pc * l.price * w.pcLot))) = [] := by
  have g := fun n => lots_greatest w (l := l) (coin := coin) (pc := pc) hpl hlot hq n
  obtain ⟨a1, a2, a3⟩ := (g _).1 (Nat.le_refl _)
  have e : cutFirst l (w.lots l coin pc) L = { l with quantity := l.quantity - w.lots l coin pc } :: L := by
    unfold cutFirst; rw [if_neg hne]
  rw [e]
  cases k with
  | zero => rfl
  | succ k =>
    unfold Want.takes
    refine if_neg fun hcc => hcc.2.2 ?_
    refine Nat.eq_zero_of_not_pos fun hpos1 => ?_
    obtain ⟨c1, c2, c3⟩ := (lots_greatest w
      (l := { l with quantity := l.quantity - w.lots l coin pc }) (coin := coin - w.lots l coin pc)
      (pc := pc - (w.lots l coin pc * l.price * w.pcLot +
        w.tier.takerFee (w.lots l coin pc * l.price * w.pcLot))) hpl hlot (by omega) 1).1 hpos1
    have hmax := mt (g (w.lots l coin pc + 1)).2 (by omega)
    refine hmax ⟨by simp only at c1; omega, by omega, fun hs => ?_⟩
    have d1 := a3 hs
    have d3 : 1 * l.price * w.pcLot + w.tier.takerFee (1 * l.price * w.pcLot) ≤
      pc - (w.lots l coin pc * l.price * w.pcLot + w.tier.takerFee (w.lots l coin pc * l.price * w.pcLot)) := c3 hs
    have ev : (w.lots l coin pc + 1) * l.price * w.pcLot =
        w.lots l coin pc * l.price * w.pcLot + 1 * l.price * w.pcLot := by
      rw [Nat.add_mul, Nat.add_mul]
    rw [ev]
    have := (fee_add w.tier (x := w.lots l coin pc * l.price * w.pcLot) (y := 1 * l.price * w.pcLot) (by omega)).1
    omega

/-- An order that does not decrement its owner's orders meets each acceptable order at most once. -/
theorem takes_book (w : Want) (hlot : 0 < w.pcLot) {k : Nat} {L : List Leaf} {coin pc : Nat}
    (hpos : ∀ l ∈ L, 0 < l.price) (hq : pc < W64)
    (hown : w.stb ≠ .cancelProvide → ∀ l ∈ L, w.accepts l.price = true → l.owner ≠ w.owner) :
    (w.takes k L coin pc).length ≤ (L.filter (fun l => w.accepts l.price)).length := by
  induction k generalizing L coin pc with
  | zero => exact Nat.zero_le _
  | succ k ih =>
    cases L with
    | nil => exact Nat.zero_le _
    | cons l L =>
      unfold Want.takes
      split
      · rename_i hc
        obtain ⟨_, hac, _⟩ := hc
        have hrest := fun (c p : Nat) (hp : p < W64) => ih (L := L) (coin := c) (pc := p)
          (fun x hx => hpos x (List.mem_cons_of_mem _ hx)) hp
          (fun h x hx => hown h x (List.mem_cons_of_mem _ hx))
        rw [List.filter_cons_of_pos (by exact hac), List.length_cons, List.length_cons]
        refine Nat.succ_le_succ ?_
        by_cases ho : l.owner = w.owner
        · have hst : w.stb = .cancelProvide := by
            cases hs : w.stb with
            | cancelProvide => rfl
            | decrementTake => exact absurd ho (hown (by rw [hs]; decide) l List.mem_cons_self hac)
            | abortTransaction => exact absurd ho (hown (by rw [hs]; decide) l List.mem_cons_self hac)
          have m : w.meet l coin pc = ⟨l, l.quantity, false⟩ := by unfold Want.meet; rw [if_pos ho, if_pos hst]
          rw [m, show cutFirst l (⟨l, l.quantity, false⟩ : Touch).lots L = L from if_pos rfl]
          exact hrest _ _ (by omega)
        · have m : w.meet l coin pc = ⟨l, w.lots l coin pc, true⟩ := by unfold Want.meet; rw [if_neg ho]
          rw [m]
          by_cases he : w.lots l coin pc = l.quantity
          · rw [show cutFirst l (⟨l, w.lots l coin pc, true⟩ : Touch).lots L = L from if_pos he]
            exact hrest _ _ (by omega)
          · have cu : w.coinUsed ⟨l, w.lots l coin pc, true⟩ = w.lots l coin pc := by simp [Want.coinUsed]
            have pu : w.pcUsed ⟨l, w.lots l coin pc, true⟩ = w.lots l coin pc * l.price * w.pcLot +
              w.tier.takerFee (w.lots l coin pc * l.price * w.pcLot) := by simp [Want.pcUsed]
            rw [cu, pu]
            rw [takes_stop w hlot (hpos l List.mem_cons_self) hq he L]
            exact Nat.zero_le _
      · exact Nat.zero_le _

/-- C65. In every reachable state, an order meets at most as many resting orders as its sender allowed; and unless it
would decrement (or refuse to meet) orders of its own account, at most as many as there are on the other side at its
limit price or better. So, given what `CanPlace` lists otherwise, room for three events for each of these and two more is
enough, whatever the limit. -/
theorem order_meets_at_most {P : Params} {s : State conc} (h : Reach P s) (hq : s.seq < W64) {ix : NewOrderIx}
    (hv : OrderValid ix) (oo : Nat) (tier : FeeTier) :
    (orderMet s ix oo tier).length ≤ ix.limit ∧
    ((ix.stb ≠ .cancelProvide → ∀ l ∈ Within s (wantOrder s.mkt ix oo tier), l.owner ≠ oo) →
      (orderMet s ix oo tier).length ≤ (Within s (wantOrder s.mkt ix oo tier)).length) := by
  refine ⟨orderMet_length s ix oo tier, fun hown => ?_⟩
  obtain ⟨vs, hvs, hqi, hi⟩ := h.view (Nat.le_of_lt hq)
  refine takes_book (wantOrder s.mkt ix oo tier) hi.shape.mkt.pcLot
    (fun l hl => ((bestFirst_ok h (Nat.le_of_lt hq) _).2 l hl).2) (payable_lt hv.2.2.1.2) ?_
  intro hst l hl hac
  exact hown hst l (List.mem_filter.2 ⟨hl, hac⟩)

/-- C66. The same for a send-take, which has no orders of its own. -/
theorem take_meets_at_most {P : Params} {s : State conc} (h : Reach P s) (hq : s.seq < W64) {ix : SendTakeIx}
    (hv : TakeValid ix) (tier : FeeTier) :
    (takeMet s ix tier).length ≤ ix.limit ∧
    (takeMet s ix tier).length ≤ (Within s (wantTake s.mkt ix tier)).length := by
  refine ⟨takeMet_length s ix tier, ?_⟩
  obtain ⟨vs, hvs, hqi, hi⟩ := h.view (Nat.le_of_lt hq)
  refine takes_book (wantTake s.mkt ix tier) hi.shape.mkt.pcLot
    (fun l hl => ((bestFirst_ok h (Nat.le_of_lt hq) _).2 l hl).2) (payable_lt hv.2.2.1.2) ?_
  intro _ l hl _ h0
  refine resting_owner h (Nat.le_of_lt hq) (sd := ix.side.other) (l := l) ?_ h0
  cases hs : ix.side <;> rw [hs] at hl <;> simpa [bestFirst, wantTake, Side.other, hs] using hl

/-- In `p3` one ask rests, of another account, within the limit of a bid that may meet 65535 orders: it meets one. -/
example : (Within Demo.p3 (wantOrder Demo.p3.mkt { Demo.order .bid 1100 2 30000 8 with limit := 65535 } 42 .base)).map
      (fun l => (l.owner, l.price, l.quantity)) = [(41, 1000, 5)] ∧
    (orderMet Demo.p3 { Demo.order .bid 1100 2 30000 8 with limit := 65535 } 42 .base).map (fun t => (t.lots, t.filled)) =
      [(2, true)] := by decide +kernel

/-- The exception is one: a bid that decrements its own account's orders keeps room for a fee on what it decrements, and
meets the same order again with what that leaves. -/
example : (({ side := .bid, price := 1, owner := 41, stb := .decrementTake, kind := .limit, tier := .base, pcLot := 1 } :
      Want).takes 65535 [⟨0, .base, genOrderId 0 1 .ask, 41, 1000000, 0⟩] 1000000 10000).map
      (fun t => (t.maker.owner, t.lots, t.filled)) = [(41, 9996, false), (41, 3, false)] := by decide +kernel

end Serum.Props
