import Verif.Fees
import Verif.OrderId

/-
Model of the order-book storage: `dex/src/critbit.rs`. A slab is a header plus an array of nodes;
the live nodes form a crit-bit tree over 128-bit keys, the dead ones a singly linked free list.
-/

namespace Serum

/-- `LeafNode`, `critbit.rs` 49-60 (tag and padding dropped; `[u64; 4]` owner is one `Nat`). -/
structure Leaf where
  ownerSlot : Nat
  feeTier : FeeTier
  key : Nat
  owner : Nat
  quantity : Nat
  clientId : Nat
  deriving DecidableEq, Repr

/-- `LeafNode::price`, `critbit.rs` 92-94, without its `NonZeroU64::unwrap`, which is modelled at
the use sites in `Verif.Matching`. `fee_tier` (86-89) is stored decoded: every leaf is written by
`LeafNode::new`, whose byte always decodes (`FeeTier.ofU8_toU8`). -/
def Leaf.price (l : Leaf) : Nat := extractPrice l.key

/-- `AnyNode` with its tag, `critbit.rs` 18-26, 28-37, 127-133, 161-167. -/
inductive Node where
  | uninit
  | inner (prefixLen key child0 child1 : Nat)
  | leaf (l : Leaf)
  | free (next : Nat)
  | lastFree (next : Nat)
  deriving DecidableEq, Repr

/-- `SlabHeader` and the node array, `critbit.rs` 253-262, 283-284, 320-333. -/
structure Slab where
  bumpIndex : Nat
  freeLen : Nat
  freeHead : Nat
  root : Nat
  leafCount : Nat
  nodes : List Node
  deriving DecidableEq, Repr

/-- `std::u32::MAX`. -/
def u32Max : Nat := 4294967295

/-- `u128::leading_zeros`. -/
def clz128 (x : Nat) : Nat := 128 - (if x = 0 then 0 else x.log2 + 1)

/-- `(key & ((1u128 << 127) >> prefix_len)) != 0`, `critbit.rs` 43-44, 571-572. -/
def critBit (prefixLen key : Nat) : Bool := (key &&& ((1 <<< 127) >>> prefixLen)) != 0

namespace Slab

/-- `SlabView::get`, `critbit.rs` 404-411: only inner and leaf nodes are visible. -/
def get (s : Slab) (h : Nat) : Option Node :=
  match s.nodes[h]? with
  | some (.inner p k c0 c1) => some (.inner p k c0 c1)
  | some (.leaf l) => some (.leaf l)
  | _ => none

/-- Writing `*self.get_mut(h).unwrap() = n`, `critbit.rs` 413-420. -/
def put (s : Slab) (h : Nat) (n : Node) : Slab := { s with nodes := s.nodes.set h n }

/-- `SlabView::insert`, `critbit.rs` 422-463. `none` is `Err(())`. -/
def alloc (s : Slab) (n : Node) : Except Err (Option (Nat × Slab)) :=
  if s.freeLen == 0 then
    if s.bumpIndex == s.nodes.length then .ok none
    else if s.bumpIndex == u32Max then .ok none
    else .ok (some (s.bumpIndex,
      { s with bumpIndex := wadd s.bumpIndex 1, nodes := s.nodes.set s.bumpIndex n }))
  else
    match s.nodes[s.freeHead]? with
    | some (.free next) =>
      if s.freeLen > 1 then
        .ok (some (s.freeHead,
          { s with freeHead := next, freeLen := wsub s.freeLen 1, nodes := s.nodes.set s.freeHead n }))
      else .error .panic
    | some (.lastFree next) =>
      if s.freeLen == 1 then
        .ok (some (s.freeHead,
          { s with freeHead := next, freeLen := wsub s.freeLen 1, nodes := s.nodes.set s.freeHead n }))
      else .error .panic
    | _ => .error .panic

/-- `SlabView::remove`, `critbit.rs` 465-482. -/
def dealloc (s : Slab) (h : Nat) : Option (Node × Slab) :=
  match s.get h with
  | none => none
  | some n =>
    let f := if s.freeLen == 0 then Node.lastFree s.freeHead else Node.free s.freeHead
    some (n, { s with nodes := s.nodes.set h f, freeLen := wadd s.freeLen 1, freeHead := h })

/-- `Slab::root`, `critbit.rs` 495-501. -/
def rootHandle (s : Slab) : Option Nat := if s.leafCount == 0 then none else some s.root

/-- Loop of `find_min_max`, `critbit.rs` 505-514. Every loop in this file is given fuel
`nodes.len() + 1`; running out counts as a panic and is proved impossible. -/
def minMaxFrom (s : Slab) (findMax : Bool) : Nat → Nat → Except Err Nat
  | 0, _ => .error .panic
  | fuel + 1, h =>
    match s.get h with
    | some (.inner _ _ c0 c1) => minMaxFrom s findMax fuel (if findMax then c1 else c0)
    | some (.leaf _) => .ok h
    | _ => .error .panic

/-- `find_min_max`, `critbit.rs` 503-515. -/
def findMinMax (s : Slab) (findMax : Bool) : Except Err (Option Nat) :=
  match s.rootHandle with
  | none => .ok none
  | some h => (minMaxFrom s findMax (s.nodes.length + 1) h).map some

/-- `find_min`, `critbit.rs` 518. -/
def findMin (s : Slab) : Except Err (Option Nat) := s.findMinMax false
/-- `find_max`, `critbit.rs` 523. -/
def findMax (s : Slab) : Except Err (Option Nat) := s.findMinMax true

/-- The descent of the `insert_leaf` loop, `critbit.rs` 546-568: the handle at which the loop stops
descending, i.e. a leaf, or an inner node that must be split. (The Rust loop acts on that node in
the same iteration; here the action is `insertAt`.) -/
def insertDescend (s : Slab) (key : Nat) : Nat → Nat → Except Err Nat
  | 0, _ => .error .panic
  | fuel + 1, h =>
    match s.get h with
    | some (.leaf _) => .ok h
    | some (.inner p k c0 c1) =>
      if clz128 (k ^^^ key) ≥ p then insertDescend s key fuel (if critBit p key then c1 else c0)
      else .ok h
    | _ => .error .panic

/-- The action of `insert_leaf` at the node where the descent stops, `critbit.rs` 548-556 and
570-598. -/
def insertAt (s : Slab) (leaf : Leaf) (h : Nat) :
    Except Err (Slab × Except Unit (Nat × Option Leaf)) := do
  let contents ← unwrap (s.get h)
  match contents with
  | .leaf old =>
    if old.key == leaf.key then
      return (s.put h (.leaf leaf), .ok (h, some old))
    else splitAt s old.key contents
  | .inner _ k _ _ => splitAt s k contents
  | _ => .error .panic
where
  /-- `critbit.rs` 557 and 570-598. -/
  splitAt (s : Slab) (rootKey : Nat) (contents : Node) :
      Except Err (Slab × Except Unit (Nat × Option Leaf)) := do
    let shared := clz128 (rootKey ^^^ leaf.key)
    let newBit := critBit shared leaf.key
    match ← s.alloc (.leaf leaf) with
    | none => return (s, .error ())
    | some (newH, s1) =>
      match ← s1.alloc contents with
      | none =>
        let (_, s2) ← unwrap (s1.dealloc newH)
        return (s2, .error ())
      | some (movedH, s2) =>
        let inner := if newBit then Node.inner shared leaf.key movedH newH
                     else Node.inner shared leaf.key newH movedH
        let s3 := s2.put h inner
        return ({ s3 with leafCount := wadd s3.leafCount 1 }, .ok (newH, none))

/-- `insert_leaf`, `critbit.rs` 528-600. The inner `Except Unit` is Rust's
`Result<_, SlabTreeError::OutOfSpace>`; the outer one models panics. -/
def insertLeaf (s : Slab) (leaf : Leaf) :
    Except Err (Slab × Except Unit (Nat × Option Leaf)) := do
  match s.rootHandle with
  | none =>
    match ← s.alloc (.leaf leaf) with
    | some (h, s1) => return ({ s1 with root := h, leafCount := 1 }, .ok (h, none))
    | none => return (s, .error ())
  | some r =>
    let h ← insertDescend s leaf.key (s.nodes.length + 1) r
    insertAt s leaf h

/-- The descent of `remove_by_key`, `critbit.rs` 692-709: `(parent, child, crit_bit)` once `child`
is a leaf with the wanted key, `none` if it is a leaf with another key. -/
def removeDescend (s : Slab) (key : Nat) :
    Nat → Nat → Nat → Bool → Except Err (Option (Nat × Nat × Bool))
  | 0, _, _, _ => .error .panic
  | fuel + 1, parent, child, cb =>
    match s.get child with
    | some (.inner p _ c0 c1) =>
      let b := critBit p key
      removeDescend s key fuel child (if b then c1 else c0) b
    | some (.leaf l) => if l.key != key then .ok none else .ok (some (parent, child, cb))
    | _ => .error .panic

/-- `remove_by_key`, `critbit.rs` 672-717. -/
def removeByKey (s : Slab) (key : Nat) : Except Err (Slab × Option Leaf) := do
  match s.rootHandle with
  | none => return (s, none)
  | some r =>
    match s.get r with
    | some (.leaf l) =>
      if l.key == key then
        rustAssert (s.leafCount == 1)
        let s1 := { s with root := 0, leafCount := 0 }
        let (_, s2) ← unwrap (s1.dealloc r)
        return (s2, some l)
      else return (s, none)
    | some (.inner p _ c0 c1) =>
      let b := critBit p key
      match ← removeDescend s key (s.nodes.length + 1) r (if b then c1 else c0) b with
      | none => return (s, none)
      | some (parent, child, cb) =>
        match s.get parent with
        | some (.inner _ _ d0 d1) =>
          let other := if cb then d0 else d1
          let (contents, s1) ← unwrap (s.dealloc other)
          let s2 := s1.put parent contents
          let s3 := { s2 with leafCount := wsub s2.leafCount 1 }
          let (n, s4) ← unwrap (s3.dealloc child)
          match n with
          | .leaf l => return (s4, some l)
          | _ => throw .panic     -- `cast` of a non-leaf: unreachable, child is a leaf
        | _ => throw .panic
    | _ => throw .panic

/-- The key of the node at a handle, `AnyNode::key`, `critbit.rs` 182-187. -/
def keyAt (s : Slab) (h : Nat) : Option Nat :=
  match s.get h with
  | some (.inner _ k _ _) => some k
  | some (.leaf l) => some l.key
  | _ => none

/-- `remove_min`, `critbit.rs` 720-722. -/
def removeMin (s : Slab) : Except Err (Slab × Option Leaf) := do
  match ← s.findMin with
  | none => return (s, none)
  | some h => match s.keyAt h with
    | none => return (s, none)
    | some k => s.removeByKey k

/-- `remove_max`, `critbit.rs` 725-727. -/
def removeMax (s : Slab) : Except Err (Slab × Option Leaf) := do
  match ← s.findMax with
  | none => return (s, none)
  | some h => match s.keyAt h with
    | none => return (s, none)
    | some k => s.removeByKey k

/-- `get(h).unwrap().as_leaf().unwrap()`, as used throughout `matching.rs`. -/
def leafAt (s : Slab) (h : Nat) : Option Leaf :=
  match s.get h with
  | some (.leaf l) => some l
  | _ => none

/-- `get_mut(h).unwrap().as_leaf_mut().unwrap().set_quantity(q)`, `critbit.rs` 107 and
`matching.rs`. -/
def setQuantity (s : Slab) (h q : Nat) : Except Err Slab :=
  match s.leafAt h with
  | some l => .ok (s.put h (.leaf { l with quantity := q }))
  | none => .error .panic

/-- Loop of `find_by`, `critbit.rs` 644-666. Recursion on the limit itself, which the Rust code
decrements once per visited node. The stack's top is the list head. Returns the found keys and the
remaining limit. -/
def findByLoop (s : Slab) (pred : Leaf → Bool) : Nat → List Nat → List Nat × Nat
  | 0, _ => ([], 0)
  | limit + 1, [] => ([], limit + 1)
  | limit + 1, h :: stack =>
    match s.get h with
    | none => ([], limit)
    | some (.leaf l) =>
      let (f, r) := findByLoop s pred limit stack
      if pred l then (l.key :: f, r) else (f, r)
    | some (.inner _ _ c0 c1) => findByLoop s pred limit (c1 :: c0 :: stack)
    | _ => ([], limit)

/-- `find_by`, `critbit.rs` 625-669. -/
def findBy (s : Slab) (limit : Nat) (pred : Leaf → Bool) : List Nat × Nat :=
  match s.rootHandle with
  | none => ([], limit)
  | some r => findByLoop s pred limit [r]

/-- `SlabView::clear` on an account of `n` nodes, `critbit.rs` 383-393; a fresh account's bytes are
zero, i.e. `Uninitialized` nodes. -/
def fresh (n : Nat) : Slab :=
  { bumpIndex := 0, freeLen := 0, freeHead := 0, root := 0, leafCount := 0,
    nodes := List.replicate n .uninit }

/-- `assert_minimum_capacity`, `critbit.rs` 307-312, of a slab with that many nodes. -/
def assertMinimumCapacity (nodes capacity : Nat) : Except Err Unit :=
  if nodes ≤ capacity * 2 then .error .slabTooSmall else .ok ()

/-- The leaves below a handle in left-to-right order; mirrors the test helper `traverse`,
`critbit.rs` 730-752. Used only to state properties. -/
def leavesFrom (s : Slab) : Nat → Nat → List Leaf
  | 0, _ => []
  | fuel + 1, h =>
    match s.get h with
    | some (.leaf l) => [l]
    | some (.inner _ _ c0 c1) => leavesFrom s fuel c0 ++ leavesFrom s fuel c1
    | _ => []

/-- The orders held by a book side, in ascending id order. -/
def contents (s : Slab) : List Leaf :=
  match s.rootHandle with
  | none => []
  | some r => leavesFrom s (s.nodes.length + 1) r

end Slab
end Serum
