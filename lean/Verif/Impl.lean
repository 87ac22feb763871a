import Verif.Slab
import Verif.Queue
import Verif.Codec

/-
The operations the program performs on its big data structures (book sides and event queue), as a
record, so that the matching engine and the instruction processor can be written once and run both
on the array-level structures (`conc`, which is the model of the program) and on plain lists
(`Verif.Refine`, used only in proofs).
-/

namespace Serum

/-- Operations of `Slab` (`critbit.rs`) and of the event `Queue` (`state.rs` 763-869) used by
`matching.rs` and `state.rs`. -/
structure Impl where
  Book : Type
  Q : Type
  /-- Best order of a side and its leaf: `find_bbo` (`matching.rs` 80-85), `get_mut`, `as_leaf_mut`. -/
  best : Side → Book → Except Err (Option Leaf)
  /-- `set_quantity` through the reference to the best leaf. -/
  setBest : Side → Book → Nat → Except Err Book
  /-- `remove_by_key`. -/
  remove : Book → Nat → Except Err (Book × Option Leaf)
  /-- `insert_leaf`; `false` is `Err(OutOfSpace)`. -/
  insert : Book → Leaf → Except Err (Book × Bool)
  /-- Removal of the least aggressive order: `remove_min` for bids, `remove_max` for asks. -/
  evict : Side → Book → Except Err (Book × Option Leaf)
  /-- `find_by`: keys found and remaining limit. -/
  findBy : Book → Nat → (Leaf → Bool) → List Nat × Nat
  /-- `push_back`; `none` if full. -/
  push : Q → Event → Option Q
  /-- `peek_front`. -/
  peek : Q → Option Event
  /-- `pop_front`, the item dropped. -/
  pop : Q → Option Q

/-- `find_bbo`, `matching.rs` 80-85. -/
def Slab.bbo : Side → Slab → Except Err (Option Nat)
  | .bid, s => s.findMax
  | .ask, s => s.findMin

/-- The deployed data structures. `setBest` recomputes the handle of the best leaf, which the Rust
code still holds; the slab is unchanged in between. -/
@[reducible] def conc : Impl where
  Book := Slab
  Q := Queue Event
  best side s := do
    match ← s.bbo side with
    | none => return none
    | some h => return some (← unwrap (s.leafAt h))
  setBest side s q := do
    let h ← unwrap (← s.bbo side)
    s.setQuantity h q
  remove s k := s.removeByKey k
  insert s l := do
    match ← s.insertLeaf l with
    | (s', .ok _) => return (s', true)
    | (s', .error _) => return (s', false)
  evict
    | .bid, s => s.removeMin
    | .ask, s => s.removeMax
  findBy s limit pred := s.findBy limit pred
  push q e := q.pushBack e
  peek q := q.peekFront
  pop q := q.popFront.map (·.2)

end Serum
